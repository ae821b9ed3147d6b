import Verif.Model.Convert
/-!
# Factorial (src/var.rs:2714-2733, src/num.rs:132-134)
-/
namespace PgNumeric
namespace Var

/-- The loop of `factorial` (src/var.rs:2727-2730): `for n in (2..num).rev()`; `k` factors `k+1, …, 2` remain. -/
def factorialLoop [Build] : Nat → Var → M Var
  | 0, r => pure r
  | k + 1, r => do
    let fact ← Convert.fromInt .i64 (k + 2)
    let r ← mulCommon r fact 0
    factorialLoop k r

/-- src/var.rs:2714-2733 `factorial`; `num` is the value of an `i64`. -/
def factorial [Build] (num : Int) : M (Option Var) :=
  if num ≤ 1 then pure (some one)
  else if num > 32177 then pure none
  else do
    let r ← Convert.fromInt .i64 num
    let r ← factorialLoop (num - 2).toNat r
    pure (some r)

end Var

namespace Num

/-- src/num.rs:132-134 `NumericBuf::factorial`. -/
def factorial [Build] (num : Int) : M (Option Bin) := do
  match ← Var.factorial num with
  | none => pure none
  | some v => finish v

end Num
end PgNumeric
