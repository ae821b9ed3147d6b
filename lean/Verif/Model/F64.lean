import Mathlib.Data.Rat.Floor
import Verif.Model.Basic
/-!
# Double-precision arithmetic

An `f64` that is not NaN, infinite or subnormal is modelled by its rational value. Addition, multiplication and
division are the exact operation followed by rounding to 53 significant bits, ties to even, as IEEE 754
prescribes. Simplification: the exponent range is unbounded (no overflow to infinity, no subnormals); the values
of the modelled code stay between `10^-20` and `10^30` in magnitude. Libm functions are not modelled; they
are parameters of the functions that use them.
-/
namespace PgNumeric.F64

/-- The nearest integer, ties to even. -/
def roundEven (x : ℚ) : Int :=
  let f := ⌊x⌋
  if x - f < 1 / 2 then f else if 1 / 2 < x - f then f + 1 else if f % 2 = 0 then f else f + 1

/-- `⌊log₂ x⌋` for `x > 0`. -/
def log2 (x : ℚ) : Int :=
  if 1 ≤ x then ((⌊x⌋.toNat).log2 : Int) else -(((⌈x⁻¹⌉.toNat - 1).log2 : Int) + 1)

/-- Rounding to the nearest 53-bit binary floating-point number, ties to even (IEEE 754 round-to-nearest). -/
def rnd (x : ℚ) : ℚ :=
  if x = 0 then 0
  else
    let e := log2 |x| - 52
    (roundEven (x / 2 ^ e) : ℚ) * 2 ^ e

/-- `a + b` on `f64`. -/
def add (a b : ℚ) : ℚ := rnd (a + b)
/-- `a * b` on `f64`. -/
def mul (a b : ℚ) : ℚ := rnd (a * b)
/-- `a / b` on `f64`. -/
def div (a b : ℚ) : ℚ := rnd (a / b)

/-- `x as i32`: truncation towards zero, saturating. -/
def toI32 (x : ℚ) : Int :=
  max (-2147483648) (min 2147483647 (if x < 0 then ⌈x⌉ else ⌊x⌋))

end PgNumeric.F64
