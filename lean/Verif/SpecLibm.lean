import Mathlib.Analysis.SpecialFunctions.Log.Base
import Verif.Model.Power
import Verif.Spec
import Verif.SpecIeee
/-!
# What the theorems assume of the platform's floating-point functions
-/
namespace PgNumeric.Spec

/-- `f64::log10` and `f64::ln` are accurate to `10⁻¹⁰` on the numbers the code applies them to (a libm is accurate to about
`10⁻¹⁵` relative to the result, which is below 310 here), `log10` is exact on 1, 10, 100 and 1000, and `strtod`
rounds correctly. -/
structure LibmOK (lm : Libm) : Prop where
  log10 : ∀ x : ℚ, 1 / 10 ^ 250 ≤ x → x ≤ 10 ^ 250 → |(lm.log10 x : ℝ) - Real.logb 10 x| ≤ 1 / 10 ^ 10
  log10_pow : ∀ k : ℕ, k < 4 → lm.log10 ((10 ^ k : ℕ) : ℚ) = k
  ln : ∀ k : ℕ, 1 ≤ k → k ≤ 2 ^ 31 → |(lm.ln k : ℝ) - Real.log k| ≤ 1 / 10 ^ 10
  /-- `strtod` reads decimal texts as the nearest double -/
  strtod : StrtodOK lm.strtod

end PgNumeric.Spec
