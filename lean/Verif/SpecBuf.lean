import Verif.Spec
import Verif.Model.Data
/-!
# Independent specification of owned buffers
-/
namespace PgNumeric.Spec

/-- The allocation of `b` holds the numeric `a`: the words of `a` (length word, header, weight/digits) are
consecutive initialised 16-bit cells at the header offset, the digits start at cell 4 or later (so that either
header fits in front of them), and the length word is right. What is in front and behind is arbitrary. -/
structure Owned [Build] (b : Buf) (a : Bin) : Prop where
  layout : ∃ pre post : Cells,
    b.cells = pre ++ ((Data.wordCells a.vlLen ++ a.header.toInt :: a.rest.map BitVec.toInt).map some ++ post) ∧
    b.hoff = 2 * pre.length ∧ 8 ≤ b.hoff + a.headerSize
  len : a.len = a.size

/-- The in-place operations. -/
inductive MutOp
  | negate
  | abs
  | round (n : Int)
  | trunc (n : Int)
  | typmod (precision scale : BitVec 32)

/-- What an in-place operation does to the exact value and scale; `none` when the result does not fit.
Scales are limited to ±1000. -/
def MutOp.exact : MutOp → ℚ × Int → Option (ℚ × Int)
  | .negate, (x, s) => some (-x, s)
  | .abs, (x, s) => some (|x|, s)
  | .round n, (x, _) =>
    let k := max (-1000) (min 1000 n)
    if |roundHalfAway x k| < limit then some (roundHalfAway x k, max k 0) else none
  | .trunc n, (x, _) =>
    let k := max (-1000) (min 1000 n)
    some (truncTo x k, max k 0)
  | .typmod _ k, (x, _) =>
    if |roundHalfAway x k.toInt| < limit then some (roundHalfAway x k.toInt, k.toInt) else none

/-- Exact values along a sequence of operations, up to the first one whose result does not fit. -/
def exactRun : List MutOp → ℚ × Int → Option (ℚ × Int)
  | [], p => some p
  | op :: ops, p => (op.exact p).bind (exactRun ops)

/-- The type modifiers in a sequence are constructible (`Typmod::new` returns `Some`). -/
def MutOp.Ok : MutOp → Prop
  | .typmod p s => 1 ≤ p.toInt ∧ p.toInt ≤ 1000 ∧ 0 ≤ s.toInt ∧ s.toInt ≤ p.toInt
  | _ => True

end PgNumeric.Spec
