/-!
# Basic vocabulary of the model

Faults, build configuration, checked machine arithmetic, checked indexing, constants.
-/
namespace PgNumeric

/-- What can go wrong at run time. -/
inductive Fault where
  /-- index outside a buffer: a Rust panic, or undefined behaviour behind `get_unchecked` -/
  | oob
  /-- i16/i32 arithmetic overflow in a debug build -/
  | overflow
  /-- a failed `debug_assert!` in a debug build -/
  | assert
  /-- an explicit panic / `expect` / `assert!` with its message -/
  | panic (msg : String)
  /-- a loop exceeded the bound given to the model (never shown by a terminating run) -/
  | diverge
  deriving DecidableEq, Repr

/-- Rust computations that may fault. -/
abbrev M := Except Fault

/-- The build configuration: `debug_assert!` and overflow checks are active iff `debug`; `bigEndianVarlen` is
the crate feature `big-endian-varlen` (src/binary.rs:313).
Theorems that quantify over `[Build]` hold for every configuration. -/
class Build where
  debug : Bool
  bigEndianVarlen : Bool := false

/-- `debug_assert!(c)`. -/
def dassert [Build] (c : Prop) [Decidable c] : M Unit :=
  if Build.debug && !(decide c) then throw .assert else pure ()

/-- Result of an i32 operation whose exact value is `x`: checked in debug, wrapping in release. -/
def i32 [Build] (x : Int) : M Int :=
  if -2147483648 ≤ x ∧ x ≤ 2147483647 then pure x
  else if Build.debug then throw .overflow else pure (Int.bmod x 4294967296)

/-- The intermediate i32 results `xs` of the weight, scale and digit-count arithmetic of a function. Outside the range the
code panics in a debug build and wraps in a release build; the model faults in both. Each function checks all its intermediate
results at once, including those of branches it then does not take. -/
def fits (xs : List Int) : M Unit :=
  if ∀ x ∈ xs, -2147483648 ≤ x ∧ x ≤ 2147483647 then pure () else throw .overflow

/-- Result of an i16 (`NumericDigit`) operation whose exact value is `x`. -/
def i16 [Build] (x : Int) : M Int :=
  if -32768 ≤ x ∧ x ≤ 32767 then pure x
  else if Build.debug then throw .overflow else pure (Int.bmod x 65536)

/-- Read `l[i]`; outside the buffer is a fault. -/
def getM (l : List Int) (i : Nat) : M Int :=
  match l[i]? with
  | some x => pure x
  | none => throw .oob

/-- Write `l[i] = x`; outside the buffer is a fault. -/
def setM (l : List Int) (i : Nat) (x : Int) : M (List Int) :=
  if i < l.length then pure (l.set i x) else throw .oob

/-- `&l[i..i+n]`; outside the buffer is a fault. -/
def sliceM (l : List Int) (i n : Nat) : M (List Int) :=
  if i + n ≤ l.length then pure ((l.drop i).take n) else throw .oob

/-- `Option::expect(msg)`. -/
def expect {α} (msg : String) : Option α → M α
  | some a => pure a
  | none => throw (.panic msg)

/-- src/var.rs:47 -/
abbrev NBASE : Int := 10000
/-- src/var.rs:48 -/
abbrev HALF_NBASE : Int := 5000
/-- src/var.rs:49 -/
abbrev DEC_DIGITS : Int := 4
/-- src/var.rs:50 -/
abbrev MUL_GUARD_DIGITS : Int := 2
/-- src/var.rs:51 -/
abbrev DIV_GUARD_DIGITS : Int := 4
/-- src/var.rs:33 -/
abbrev NUMERIC_MAX_PRECISION : Int := 1000
/-- src/var.rs:36 -/
abbrev NUMERIC_MAX_DISPLAY_SCALE : Int := 1000
/-- src/var.rs:37 -/
abbrev NUMERIC_MIN_DISPLAY_SCALE : Int := 0
/-- src/var.rs:39 -/
abbrev NUMERIC_MAX_RESULT_SCALE : Int := 2000
/-- src/var.rs:44 -/
abbrev NUMERIC_MIN_SIG_DIGITS : Int := 16
/-- src/binary.rs:82 -/
abbrev NUMERIC_WEIGHT_MAX : Int := 32767
/-- src/binary.rs:83 -/
abbrev NUMERIC_WEIGHT_MIN : Int := -32767
/-- src/binary.rs:84 -/
abbrev NUMERIC_DSCALE_MAX : Int := 16383
/-- src/num.rs:27 -/
abbrev DIVIDE_BY_ZERO_MSG : String := "attempt to divide by zero"
/-- src/num.rs:28 -/
abbrev VALUE_OVERFLOW_MSG : String := "value overflows numeric format"

/-- src/var.rs:53 `ROUND_POWERS: [0, 1000, 100, 10]` -/
def roundPower (di : Int) : Int :=
  if di = 1 then 1000 else if di = 2 then 100 else if di = 3 then 10 else 0

end PgNumeric
