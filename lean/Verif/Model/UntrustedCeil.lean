import Verif.Model.UntrustedAdd
/-! Model of `ceil` and `floor` of numbers with any 16-bit digits: `Num.ceil` and `Num.floor` with the comparison and the addition in 16 bits. -/
namespace PgNumeric.Untrusted
open PgNumeric

/-- src/var.rs:375-386 `ceil_common`. -/
def ceilCommon [Build] (v : Var) : M Var := do
  dassert (v.sign ≠ .nan)
  let r ← Var.truncCommon v 0
  if v.sign = .pos then
    let c ← cmpCommon v r
    if c ≠ 0 then addCommon r Var.one else pure r
  else pure r

/-- src/var.rs:391-402 `floor_common`. -/
def floorCommon [Build] (v : Var) : M Var := do
  dassert (v.sign ≠ .nan)
  let r ← Var.truncCommon v 0
  if v.sign = .neg then
    let c ← cmpCommon v r
    if c ≠ 0 then subCommon r Var.one else pure r
  else pure r

/-- src/num.rs:709-720 `ceil`. -/
def ceil [Build] (a : Bin) : M Bin := do
  Num.asBinary a
  if a.isNan then Num.nan
  else
    let v ← a.asVar
    let r ← ceilCommon v
    let o ← Num.finish r
    expect VALUE_OVERFLOW_MSG o

/-- src/num.rs:727-738 `floor`. -/
def floor [Build] (a : Bin) : M Bin := do
  Num.asBinary a
  if a.isNan then Num.nan
  else
    let v ← a.asVar
    let r ← floorCommon v
    let o ← Num.finish r
    expect VALUE_OVERFLOW_MSG o

end PgNumeric.Untrusted
