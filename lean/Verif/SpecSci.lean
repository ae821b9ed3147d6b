import Verif.SpecText
/-!
# Specification of scientific notation
-/
namespace PgNumeric.Spec

/-- An exponent as C's `printf` writes it: a sign and at least two digits. -/
def exponentText (e : ℤ) : Str :=
  (if e < 0 then 45 else 43) :: (if e.natAbs < 10 then [48, 48 + e.natAbs] else natText e.natAbs)

/-- `m * 10^(e - p)` in scientific notation with `p` digits after the point; `c` is the letter `e` (101) or `E` (69). -/
def sciText (neg : Bool) (m p : ℕ) (e : ℤ) (c : ℕ) : Str := decimalText neg m p ++ c :: exponentText e

end PgNumeric.Spec
