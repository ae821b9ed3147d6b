import Verif.SpecReal
import Verif.SpecThreads
/-!
# Independent specification of threads that also take roots, logarithms, exponentials and powers

As in `Verif/SpecThreads.lean`; the functions of `Fun1` and `Fun2` borrow their arguments immutably.
-/
namespace PgNumeric.Spec

/-- The call with other names for the numbers. -/
def RealAct.rename (f : ℕ → ℕ) : RealAct → RealAct
  | .base act => .base (act.rename f)
  | .fun1 g i => .fun1 g (f i)
  | .fun2 g i j => .fun2 g (f i) (f j)

/-- The numbers a call borrows mutably or takes by value. -/
def RealAct.changes : RealAct → List ℕ
  | .base act => act.changes
  | _ => []

/-- The numbers a call uses in any way. -/
def RealAct.names : RealAct → List ℕ
  | .base act => act.names
  | .fun1 _ i => [i]
  | .fun2 _ i j => [i, j]

/-- The program uses the numbers `0, …, k-1` only through shared references. -/
def RealClient.Shares [Build] (c : RealClient) (l : List Slot) (k : ℕ) : Prop :=
  ∀ n l' h act, RealPlay c n (l, []) (l', h) → c h = some act → ∀ i ∈ act.changes, k ≤ i

/-- What one thread knows: which number each of its names stands for, and the answers it got. -/
structure RealThread where
  view : List ℕ
  hist : List RealAnswer

end PgNumeric.Spec
