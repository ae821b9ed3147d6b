import Verif.SpecClient
/-!
# Independent specification of threads that share numbers

`NumericBuf` is `Send` and `Sync` (src/num.rs:40-41, src/data.rs:38-39): numbers may be used by several threads at once. Every thread is a
program (`Client`) with its own names for numbers: the shared ones come first, then those it made itself.
-/
namespace PgNumeric.Spec

/-- The call with other names for the numbers. -/
def Act.rename (f : ℕ → ℕ) : Act → Act
  | .parse s => .parse s
  | .int ty n => .int ty n
  | .factorial n => .factorial n
  | .zero => .zero
  | .nan => .nan
  | .bool b => .bool b
  | .float wide x => .float wide x
  | .op1 op i => .op1 op (f i)
  | .checked op i j => .checked op (f i) (f j)
  | .operator op i j => .operator op (f i) (f j)
  | .operatorTake op left right i j => .operatorTake op left right (f i) (f j)
  | .assign op i j => .assign op (f i) (f j)
  | .assignTake op i j => .assignTake op (f i) (f j)
  | .reread human i => .reread human (f i)
  | .clone i => .clone (f i)
  | .mutate op i => .mutate op (f i)
  | .drop i => .drop (f i)
  | .cmp i j => .cmp (f i) (f j)
  | .eq i j => .eq (f i) (f j)
  | .lt i j => .lt (f i) (f j)
  | .le i j => .le (f i) (f j)
  | .sameHash i j => .sameHash (f i) (f j)
  | .isNan i => .isNan (f i)
  | .isNegative i => .isNegative (f i)
  | .isPositive i => .isPositive (f i)
  | .scaleOf i => .scaleOf (f i)
  | .text i => .text (f i)
  | .sci c i => .sci c (f i)
  | .normalize i => .normalize (f i)
  | .toInt ty i => .toInt ty (f i)
  | .toFloat wide i => .toFloat wide (f i)
  | .bytes i => .bytes (f i)

/-- The numbers a call borrows mutably or takes by value. -/
def Act.changes : Act → List ℕ
  | .operatorTake _ left right i j => (if left then [i] else []) ++ (if right then [j] else [])
  | .assign _ i _ => [i]
  | .assignTake _ i j => [i, j]
  | .mutate _ i | .drop i => [i]
  | _ => []

/-- The numbers a call uses in any way. -/
def Act.names : Act → List ℕ
  | .parse _ | .int _ _ | .factorial _ | .zero | .nan | .bool _ | .float _ _ => []
  | .op1 _ i | .reread _ i | .clone i | .mutate _ i | .drop i | .isNan i | .isNegative i | .isPositive i | .scaleOf i | .text i | .sci _ i
  | .normalize i | .toInt _ i | .toFloat _ i | .bytes i => [i]
  | .checked _ i j | .operator _ i j | .operatorTake _ _ _ i j | .assign _ i j | .assignTake _ i j | .cmp i j | .eq i j | .lt i j | .le i j
  | .sameHash i j => [i, j]

/-- The program uses the numbers `0, …, k-1` only through shared references. -/
def Client.Shares [Build] (c : Client) (l : List Slot) (k : ℕ) : Prop :=
  ∀ n l' h act, Play c n (l, []) (l', h) → c h = some act → ∀ i ∈ act.changes, k ≤ i

/-- What one thread knows: which number each of its names stands for, and the answers it got. -/
structure Thread where
  view : List ℕ
  hist : List Answer

end PgNumeric.Spec
