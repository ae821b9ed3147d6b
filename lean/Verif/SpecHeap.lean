import Verif.SpecBuf
import Verif.SpecRun
/-!
# Independent specification of programs that own numbers

A program creates numbers, clones them, changes them in place and drops them, in any order. The specification follows the exact value of
every number the program owns.
-/
namespace PgNumeric.Spec

/-- One number of the program: dropped, left with a null pointer, or holding a value. -/
inductive Slot
  | gone
  | null
  | val (v : Val)

/-- One step of a program. Numbers are named by their position in the order of creation. -/
inductive MemOp
  /-- a function of the library returns a number, laid out like `b` -/
  | make (b : Buf)
  /-- `clone` -/
  | copy (i : ℕ)
  /-- an in-place operation; a panic is caught and the number kept -/
  | mutate (op : MutOp) (i : ℕ)
  /-- `drop`, or the end of the scope -/
  | drop (i : ℕ)

/-- The exact effect of a step. A number that is dropped or null is not used again, except that a null one is dropped; `apply_typmod` is not
called on NaN. -/
inductive MemStep [Build] : MemOp → List Slot → List Slot → Prop
  | make {b a v l} : Owned b a → Represents a v → MemStep (.make b) l (l ++ [.val v])
  | copy {i v l} : l[i]? = some (.val v) → MemStep (.copy i) l (l ++ [.val v])
  | done {op i x s y t l} : l[i]? = some (.val (.num x s)) → op.Ok → op.exact (x, s) = some (y, t) →
      MemStep (.mutate op i) l (l.set i (.val (.num y t)))
  | overflow {op i x s l} : l[i]? = some (.val (.num x s)) → op.Ok → op.exact (x, s) = none →
      MemStep (.mutate op i) l (l.set i .null)
  | nan {op i l} : l[i]? = some (.val .nan) → (∀ p s, op ≠ .typmod p s) → MemStep (.mutate op i) l l
  | drop {i v l} : l[i]? = some (.val v) → MemStep (.drop i) l (l.set i .gone)
  | dropNull {i l} : l[i]? = some .null → MemStep (.drop i) l (l.set i .gone)

/-- A program, from its first step to its last. -/
inductive MemRun [Build] : List MemOp → List Slot → List Slot → Prop
  | nil {l} : MemRun [] l l
  | cons {op prog l l' l''} : MemStep op l l' → MemRun prog l' l'' → MemRun (op :: prog) l l''

end PgNumeric.Spec
