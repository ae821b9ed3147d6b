import Verif.Model.Ieee
import Verif.Model.Convert
import Verif.Model.Text
/-!
# Conversion of a numeric to a floating-point number (src/convert.rs:622-666, 707-733, 750-751)

`strtod::strtod` is an external crate and a parameter here; `None` is `none`.
-/
namespace PgNumeric
namespace Convert

/-- src/convert.rs:648-666 `TryFrom<&NumericVar> for f64`. -/
def toF64 [Build] (strtod : Str → Option Float) (v : Var) : M (Except Err Float) :=
  if v.sign = .nan then pure (.ok .nan)
  else do
    let s ← Text.write v
    match strtod s with
    | some f => pure (.ok f)
    | none => pure (.error .overflow)

/-- src/convert.rs:622-646 `TryFrom<&NumericVar> for f32`. -/
def toF32 [Build] (strtod : Str → Option Float) (v : Var) : M (Except Err Float) :=
  if v.sign = .nan then pure (.ok .nan)
  else do
    let s ← Text.write v
    match strtod s with
    | some val =>
      let f := F64.castF32 val
      if (f.isInfinite ∧ ¬ val.isInfinite) ∨ (f.isZero ∧ ¬ val.isZero) then pure (.error .overflow)
      else pure (.ok f)
    | none => pure (.error .overflow)

end Convert

namespace Num

/-- src/convert.rs:709-733 `TryFrom` of `NumericBuf`, `&NumericBuf` and `&Numeric` for `f64`. -/
def toF64 [Build] (strtod : Str → Option Convert.Float) (a : Bin) : M (Except Convert.Err Convert.Float) := do
  let v ← a.asVar
  Convert.toF64 strtod v

/-- src/convert.rs:709-733 `TryFrom` of `NumericBuf`, `&NumericBuf` and `&Numeric` for `f32`. -/
def toF32 [Build] (strtod : Str → Option Convert.Float) (a : Bin) : M (Except Convert.Err Convert.Float) := do
  let v ← a.asVar
  Convert.toF32 strtod v

end Num
end PgNumeric
