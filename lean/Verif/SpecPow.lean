import Verif.SpecLibm
import Verif.SpecApi
/-!
# Specification of the scale of a power
-/
namespace PgNumeric.Spec

/-- The scale of `x^k` for an `x` of scale `s` and an integer `k`: `s`, but at least 16 and at most 1000. -/
def powerScale (s : Int) : Int := min 1000 (max 16 s)

/-- `n` is a value of the type `i32`. -/
def IsI32 (n : ℤ) : Prop := -2147483648 ≤ n ∧ n ≤ 2147483647

/-- The leading part of a number: its first non-zero group of four decimal digits (aligned to the decimal point), the
rest replaced by zeros. For example 1.9 has the leading part 1 and 123456.7 has the leading part 120000. -/
def leadPart (x : ℚ) : ℚ := leadDigit x * 10000 ^ leadWeight x

end PgNumeric.Spec
