import Verif.Model.Untrusted
/-! Model of addition and subtraction of numbers with any 16-bit digits.

`Var.addAbs` and `Var.subAbs` already compute with 16 bits; only the comparison of the magnitudes of `Var.addCommon` and
`Var.subCommon` has to be replaced by the one in 16 bits. -/
namespace PgNumeric.Untrusted
open PgNumeric

/-- src/var.rs:665-687, 692-714, 740-762, 767-789: the magnitudes are subtracted, by their order. -/
def difference [Build] (a b : Var) (first second : Sign) : M Var := do
  let c ← cmpAbs a b
  if c = 0 then Var.zeroScaled (max a.dscale b.dscale)
  else if c = 1 then do
    let r ← Var.subAbs a b
    pure { r with sign := first }
  else if c = -1 then do
    let r ← Var.subAbs b a
    pure { r with sign := second }
  else throw (.panic "invalid comparison result")

/-- src/var.rs:652-722 `add_common`. -/
def addCommon [Build] (a b : Var) : M Var := do
  dassert (a.sign ≠ .nan)
  dassert (b.sign ≠ .nan)
  if a.sign = .pos then
    if b.sign = .pos then
      let r ← Var.addAbs a b
      pure { r with sign := .pos }
    else difference a b .pos .neg
  else if b.sign = .pos then difference a b .neg .pos
  else
    let r ← Var.addAbs a b
    pure { r with sign := .neg }

/-- src/var.rs:725-797 `sub_common`. -/
def subCommon [Build] (a b : Var) : M Var := do
  dassert (a.sign ≠ .nan)
  dassert (b.sign ≠ .nan)
  if a.sign = .pos then
    if b.sign = .neg then
      let r ← Var.addAbs a b
      pure { r with sign := .pos }
    else difference a b .pos .neg
  else if b.sign = .neg then difference a b .neg .pos
  else
    let r ← Var.addAbs a b
    pure { r with sign := .neg }

/-- src/num.rs:504-516 `checked_add`. -/
def checkedAdd [Build] (a b : Bin) : M (Option Bin) := do
  Num.asBinary a
  Num.asBinary b
  if a.isNan || b.isNan then
    let n ← Num.nan
    pure (some n)
  else
    let x ← a.asVar
    let y ← b.asVar
    let r ← addCommon x y
    Num.finish r

/-- src/num.rs:521-533 `checked_sub`. -/
def checkedSub [Build] (a b : Bin) : M (Option Bin) := do
  Num.asBinary a
  Num.asBinary b
  if a.isNan || b.isNan then
    let n ← Num.nan
    pure (some n)
  else
    let x ← a.asVar
    let y ← b.asVar
    let r ← subCommon x y
    Num.finish r

end PgNumeric.Untrusted
