import Verif.Model.Typmod
import Verif.Model.Text
import Verif.Model.Float
/-!
# What is printed for type modifiers and errors (src/typmod.rs:114-120, src/error.rs)
-/
namespace PgNumeric

namespace Typmod

/-- src/typmod.rs:114-120 `impl Display for Typmod`. Both parts are masked with `0xFFFF`, so they print without a sign. -/
def display [Build] (t : Typmod) : M Str := do
  let (precision, scale) ← extract t
  pure (str "(" ++ Text.dec precision.toNat ++ str ", " ++ Text.dec scale.toNat ++ str ")")

end Typmod

/-- src/error.rs:34-42 `impl Display for NumericParseError`. -/
def ParseError.display : ParseError → Str
  | .empty => str "cannot parse numeric from empty string"
  | .invalid => str "invalid numeric literal"
  | .overflow => str "value overflows numeric format"

/-- src/error.rs:80-87 `impl Display for NumericTryFromError`. -/
def Convert.Err.display : Convert.Err → Str
  | .invalid => str "cannot convert to numeric"
  | .overflow => str "value is out of range"

/-- The text of the error a program prints when a string is refused. -/
def Parse.complaint [Build] (s : Str) : M (Option Str) := do
  match ← Parse.fromStr s with
  | .ok _ => pure none
  | .error e => pure (some e.display)

/-- The text of the error a program prints when a number does not convert to an integer type. -/
def Convert.intComplaint [Build] (ty : IntTy) (a : Bin) : M (Option Str) := do
  match ← Convert.toInt ty a with
  | .ok _ => pure none
  | .error e => pure (some e.display)

/-- The text of the error a program prints when a float does not convert. -/
def Convert.floatComplaint [Build] (P : ℕ) (f : Convert.Float) : M (Option Str) := do
  match ← Convert.ofFloat P f with
  | .ok _ => pure none
  | .error e => pure (some e.display)

end PgNumeric
