import Verif.SpecFloat
import Verif.Model.Convert
import Verif.Model.Ieee
import Verif.Model.Parse
/-!
# Conversion of floating-point numbers (src/convert.rs:259-320, 391-407)
-/
namespace PgNumeric
namespace Convert

/-- src/error.rs:121-128 `From<NumericParseError>`. -/
def ofParseError : ParseError → Err
  | .empty => .invalid
  | .invalid => .invalid
  | .overflow => .overflow

/-- src/convert.rs:298-320 `from_floating`, `PRECISION` being 6 for `f32` and 15 for `f64` (src/convert.rs:289-290).
`snprintf` is the specification `printfG`; its output is at most 45 bytes (`C39_printf_short`), so the 128-byte
buffer does not truncate it. -/
def ofFloat [Build] (precision : ℕ) (f : Float) : M (Except Err Bin) :=
  match f with
  | .nan => do
    let n ← Num.nan
    pure (.ok n)
  | .inf _ => pure (.error .invalid)
  | .fin neg q => do
    match ← Parse.fromStr (Spec.printfG precision neg q) with
    | .ok n => pure (.ok n)
    | .error e => pure (.error (ofParseError e))

end Convert
end PgNumeric
