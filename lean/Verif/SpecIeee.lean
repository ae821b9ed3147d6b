import Verif.SpecText
import Verif.Model.Ieee
/-!
# Independent specification: the numbers of a binary floating-point format, and `strtod`
-/
namespace PgNumeric.Spec


/-- The finite numbers of a binary format with `p` bits: integers below `2^p` in magnitude times a power of two. -/
def Representable (p : ℕ) (emin emax : ℤ) (x : ℚ) : Prop :=
  ∃ m e : ℤ, |m| < 2 ^ p ∧ emin ≤ e ∧ e + p ≤ emax ∧ x = m * 2 ^ e

/-- The finite `f64` numbers. -/
def IsDouble (x : ℚ) : Prop := Representable 53 (-1074) 1024 x
/-- The finite `f32` numbers. -/
def IsSingle (x : ℚ) : Prop := Representable 24 (-149) 128 x

/-- `f` is a finite number, and its value is `x`. -/
def FloatIs : Convert.Float → ℚ → Prop
  | .fin neg m, x => x = if neg then -m else m
  | _, _ => False

/-- `y` is an element of `R` nearest to `x`. -/
def Nearest (R : ℚ → Prop) (x y : ℚ) : Prop := R y ∧ ∀ g, R g → |y - x| ≤ |g - x|

/-- `f ≤ g` as floating-point numbers (false when one is NaN). -/
def FloatLe : Convert.Float → Convert.Float → Prop
  | .nan, _ => False
  | _, .nan => False
  | .inf true, _ => True
  | _, .inf false => True
  | .fin a q, .fin b r => (if a then -q else q) ≤ if b then -r else r
  | _, _ => False

/-- `x` has at most `P` significant decimal digits. -/
def SigDigits (P : ℕ) (x : ℚ) : Prop := ∃ n k : ℤ, |n| < 10 ^ P ∧ x = n * 10 ^ k

/-- What is assumed of the crate `strtod`: the text of a decimal number, as `Display` writes it, is read as the double nearest to it
(ties to even), an infinity beyond the range; nothing is said about the sign of a zero. -/
def StrtodOK (strtod : Str → Option Convert.Float) : Prop :=
  ∀ neg N s, ∃ f, strtod (decimalText neg N s) = some f ∧
    (f = F64.double.round neg (N / 10 ^ s) ∨ (F64.double.round neg (N / 10 ^ s) = .fin neg 0 ∧ f = .fin (!neg) 0))

end PgNumeric.Spec
