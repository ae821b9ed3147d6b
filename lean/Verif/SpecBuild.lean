import Verif.SpecReal
import Verif.Model.Basic
/-!
# Independent specification: debug and release builds

A run of a function ends with a result, or it panics, or (a fault) it does something that the language leaves undefined. A debug build has two more
ways to end: at a debug assertion and at an arithmetic overflow check.
-/
namespace PgNumeric.Spec

/-- A debug build; `e` is the byte order of the length word. -/
abbrev dbg (e : Bool) : Build := ⟨true, e⟩
/-- A release build. -/
abbrev rel (e : Bool) : Build := ⟨false, e⟩

/-- The run `d` of a debug build ends as the run `r` of a release build does (the same result, the same panic), or at a debug assertion or an overflow
check. -/
def Agree {α : Type} (d r : M α) : Prop := d = r ∨ d = .error .assert ∨ d = .error .overflow

/-- The answers with which a debug build tells a program of a debug assertion or an overflow check. -/
def Check : RealAnswer → Prop
  | .plain .assertion | .overflow => True
  | _ => False

end PgNumeric.Spec
