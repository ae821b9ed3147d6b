import Verif.SpecApi
/-!
# Specification of the scale of a square root
-/
namespace PgNumeric.Spec

/-- The scale of `sqrt x` for an `x` of scale `s`: 16 decimals beyond the estimated leading digit of the root, at
least `s`, at most 1000. -/
def sqrtScale (x : ℚ) (s : Int) : Int := min 1000 (max (15 - 2 * leadWeight x) s)

end PgNumeric.Spec
