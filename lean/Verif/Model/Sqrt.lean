import Verif.Model.Fast
import Verif.Model.Num
/-!
# Square root (src/var.rs:1568-1611, 2471-2489, src/num.rs:754-774)

The Newton loop of `sqrt_common` has no bound; the model takes the number of iterations allowed (`fuel`) and faults
with `diverge` when it is exhausted. A run of the code that does not terminate is a run that diverges for every fuel.
-/
namespace PgNumeric
namespace Var

/-- One round of the loop (src/var.rs:1594-1598): `(result + self / result) * 0.5`. -/
def sqrtStep [Build] (self result : Var) (localRscale : Int) : M Var := do
  let q ← divFastCommon self result localRscale true
  let q ← expect "should not be zero" q
  let sum ← addCommon result q
  mulCommon sum zeroPointFive localRscale

/-- The loop (src/var.rs:1593-1605). `last_val` is always a clone of `result` at the top of the loop. -/
def sqrtLoop [Build] (self : Var) (localRscale : Int) : Nat → Var → M Var
  | 0, _ => throw .diverge
  | fuel + 1, result => do
    let r ← sqrtStep self result localRscale
    if cmpCommon r result = 0 then pure r else sqrtLoop self localRscale fuel r

/-- The first guess (src/var.rs:1579-1589): half the first digit, half the weight (truncating division). -/
def sqrtGuess (weight d : Int) : Var := ⟨weight.tdiv 2, 0, .pos, [if d / 2 = 0 then 1 else d / 2]⟩

/-- src/var.rs:1569-1611 `sqrt_common`. -/
def sqrtCommon [Build] (fuel : Nat) (self : Var) (rscale : Int) : M Var := do
  dassert (self.sign = .pos)
  fits [rscale + 8]
  match self.digits with
  | [] => zeroScaled rscale
  | d :: _ =>
    let r ← sqrtLoop self (rscale + 8) fuel (sqrtGuess self.weight d)
    roundCommon r rscale

/-- src/var.rs:2472-2489 `sqrt`. -/
def sqrt [Build] (fuel : Nat) (self : Var) : M Var := do
  dassert (self.sign ≠ .neg)
  dassert (self.sign ≠ .nan)
  fits [self.weight + 1, (self.weight + 1) * DEC_DIGITS, NUMERIC_MIN_SIG_DIGITS - (((self.weight + 1) * DEC_DIGITS).tdiv 2 - 1)]
  let sweight := ((self.weight + 1) * DEC_DIGITS).tdiv 2 - 1
  let rscale := min (max (max (NUMERIC_MIN_SIG_DIGITS - sweight) self.dscale) NUMERIC_MIN_DISPLAY_SCALE)
    NUMERIC_MAX_DISPLAY_SCALE
  sqrtCommon fuel self rscale

end Var

namespace Num
open Var

/-- src/num.rs:759-774 `sqrt`. -/
def sqrt [Build] (fuel : Nat) (a : Bin) : M Bin := do
  asBinary a
  if a.isNan then Num.nan
  else
    let x ← a.asVar
    if x.sign = .neg then throw (.panic "cannot take square root of a negative number")
    else
      let u ← Var.sqrt fuel x
      finishNoOverflow u

end Num
end PgNumeric
