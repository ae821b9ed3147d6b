import Verif.Spec
import Mathlib.Data.Int.Log
import Mathlib.Order.WithBot
import Verif.Model.Binary
/-!
# Independent specification, API level

What it means for a byte string to be a numeric holding a value.
-/
namespace PgNumeric.Spec

/-- The bytes `b` are the canonical representation of the rational `x` with display scale `s`:
they encode a canonical digit string (no superfluous zero digits, one zero, scale covering all digits) whose
value is `x`. -/
def Holds [Build] (b : Bin) (x : ℚ) (s : Int) : Prop :=
  ∃ v : Var, Canonical v ∧ Bin.encode v = b ∧ value v = x ∧ v.dscale = s

/-- The bytes `b` are a NaN: both flag bits set, and the length word is right. -/
structure IsNaN [Build] (b : Bin) : Prop where
  flag : b.header &&& 0xC000#16 = 0xC000#16
  len : b.len = b.size

/-- `b` is a numeric: NaN or a canonical number. -/
def Valid [Build] (b : Bin) : Prop := IsNaN b ∨ ∃ x s, Holds b x s

/-- The extended value of a numeric: `⊤` for NaN (larger than every number), the rational otherwise. -/
def Denotes [Build] (b : Bin) (k : WithTop ℚ) : Prop :=
  (IsNaN b ∧ k = ⊤) ∨ ∃ (x : ℚ) (s : Int), Holds b x s ∧ k = (x : WithTop ℚ)

/-- The position of the leading base-10000 digit of `x` (`⌊log₁₀₀₀₀ |x|⌋`; 0 for `x = 0`). -/
def leadWeight (x : ℚ) : Int := Int.log 10000 |x|

/-- The leading base-10000 digit of `x` (0 for `x = 0`). -/
def leadDigit (x : ℚ) : Int := ⌊|x| / 10000 ^ leadWeight x⌋

/-- The scale of a quotient: 16 decimal digits beyond the estimated leading base-10000 digit of the quotient,
at least the scales of the operands, at most 1000. -/
def quotientScale (x y : ℚ) (s t : Int) : Int :=
  let qweight := if leadDigit x ≤ leadDigit y then leadWeight x - leadWeight y - 1 else leadWeight x - leadWeight y
  min 1000 (max (16 - 4 * qweight) (max s t))

end PgNumeric.Spec
