import Verif.SpecText
import Mathlib.Data.Int.Log
/-!
# Independent specification of C's `%.*g`

`snprintf` is a libc function, not part of the repository: its result is specified here after C11 7.21.6.1
(and glibc: the exact value is rounded half to even). A finite floating-point number is its sign and its magnitude
as an exact rational; every `f64` (and `f32`) is one.
-/
namespace PgNumeric.Spec

/-- Round half to even. -/
def roundHalfEven (t : ℚ) : ℤ :=
  if t - ⌊t⌋ < 1 / 2 then ⌊t⌋
  else if 1 / 2 < t - ⌊t⌋ then ⌊t⌋ + 1
  else if ⌊t⌋ % 2 = 0 then ⌊t⌋ else ⌊t⌋ + 1

/-- The magnitudes of finite floating-point numbers: zero, or between the smallest subnormal and the largest
finite `f64` (here with a wide margin). -/
def FloatRange (q : ℚ) : Prop := q = 0 ∨ (10 ^ (-400 : ℤ) ≤ q ∧ q < 10 ^ (400 : ℤ))

/-- `q ≥ 0` to `P` significant decimal digits: the digits `m` and the decimal exponent `X`, so that the rounded
value is `m * 10^(X - P + 1)` with `10^(P-1) ≤ m < 10^P` (or `m = 0` for zero). -/
def sigDigits (P : ℕ) (q : ℚ) : ℕ × ℤ :=
  if q = 0 then (0, 0)
  else
    let e := Int.log 10 q
    let m := (roundHalfEven (q * 10 ^ ((P : ℤ) - 1 - e))).toNat
    if m = 10 ^ P then (10 ^ (P - 1), e + 1) else (m, e)

/-- `q` rounded to `P` significant digits. -/
def sigRound (P : ℕ) (q : ℚ) : ℚ := ((sigDigits P q).1 : ℚ) * 10 ^ ((sigDigits P q).2 - P + 1)

/-- Drop trailing `0`s of a fraction. -/
def trimZeros (s : Str) : Str := (s.reverse.dropWhile (· = 48)).reverse

/-- The fraction part as printed: nothing when no digit remains. -/
def fracText (s : Str) : Str := if trimZeros s = [] then [] else 46 :: trimZeros s

/-- `%.Pg` of a finite number. -/
def printfG (P : ℕ) (neg : Bool) (q : ℚ) : Str :=
  let (m, X) := sigDigits P q
  (if neg then [45] else []) ++
  (if -4 ≤ X ∧ X < P then
    -- style f with `P - 1 - X` decimals
    let D := ((P : ℤ) - 1 - X).toNat
    natText (m / 10 ^ D) ++ fracText (fixedText D m)
  else
    -- style e with `P - 1` decimals and an exponent of at least two digits
    natText (m / 10 ^ (P - 1)) ++ fracText (fixedText (P - 1) m) ++
      [101, if X < 0 then 45 else 43] ++ (if X.natAbs < 10 then [48] else []) ++ natText X.natAbs)

end PgNumeric.Spec
