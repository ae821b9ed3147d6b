import Verif.Spec
import Verif.Model.Parse
import Mathlib.Data.Nat.Digits.Defs
/-!
# Independent specification of numerals

The grammar of decimal numerals, as an explicit decomposition of byte strings, and the rational number a numeral
denotes. ASCII: `+` 43, `-` 45, `.` 46, `0`..`9` 48..57, `E` 69, `e` 101.
-/
namespace PgNumeric.Spec

/-- White space: space, tab, newline, form feed, carriage return. -/
def White (s : Str) : Prop := ∀ c ∈ s, c = 32 ∨ c = 9 ∨ c = 10 ∨ c = 12 ∨ c = 13

/-- A (possibly empty) string of decimal digits. -/
def DecDigits (s : Str) : Prop := ∀ c ∈ s, 48 ≤ c ∧ c ≤ 57

instance (s : Str) : Decidable (White s) := by unfold White; infer_instance
instance (s : Str) : Decidable (DecDigits s) := by unfold DecDigits; infer_instance

/-- The natural number written by a digit string. -/
def numVal (s : Str) : ℕ := s.foldl (fun n c => 10 * n + (c - 48)) 0

/-- An optional sign: nothing, `+` or `-`. -/
inductive SignOf : Str → Bool → Prop
  | none : SignOf [] false
  | plus : SignOf [43] false
  | minus : SignOf [45] true

/-- An optional exponent: nothing, or `e`/`E`, an optional sign and at least one digit. -/
def Exponent (e : Str) (x : ℤ) : Prop :=
  (e = [] ∧ x = 0) ∨
  ∃ c sgn ds neg, (c = 101 ∨ c = 69) ∧ SignOf sgn neg ∧ DecDigits ds ∧ ds ≠ [] ∧ e = c :: (sgn ++ ds) ∧
    x = if neg then -(numVal ds : ℤ) else numVal ds

/-- `s` is a numeral: optional sign, integer digits, optional point with fraction digits (at least one digit in
all), optional exponent. -/
def Numeral (s : Str) (neg : Bool) (int frac : Str) (exp : ℤ) : Prop :=
  ∃ sgn point e, SignOf sgn neg ∧ DecDigits int ∧ DecDigits frac ∧ int ++ frac ≠ [] ∧
    (point = [46] ∨ (point = [] ∧ frac = [])) ∧ Exponent e exp ∧ s = sgn ++ int ++ point ++ frac ++ e

/-- The number denoted by a numeral. -/
def numeralValue (neg : Bool) (int frac : Str) (exp : ℤ) : ℚ :=
  (if neg then -1 else 1) * (numVal (int ++ frac) : ℚ) * 10 ^ (exp - frac.length)

/-- `NaN` in any letter case. -/
def IsNaNText (s : Str) : Prop :=
  ∃ a b c, s = [a, b, c] ∧ (a = 78 ∨ a = 110) ∧ (b = 65 ∨ b = 97) ∧ (c = 78 ∨ c = 110)

/-- `s` is a numeral with white space around it. -/
def Literal (s : Str) (neg : Bool) (int frac : Str) (exp : ℤ) : Prop :=
  ∃ w₁ body w₂, White w₁ ∧ White w₂ ∧ Numeral body neg int frac exp ∧ s = w₁ ++ body ++ w₂

/-- `s` is `NaN` with white space around it. -/
def NaNLiteral (s : Str) : Prop := ∃ w₁ t w₂, White w₁ ∧ White w₂ ∧ IsNaNText t ∧ s = w₁ ++ t ++ w₂

/-- The library's bound on exponents: half the largest 32-bit integer. -/
abbrev exponentLimit : ℤ := 1073741823

/-- `s` starts (after white space) with a numeral whose exponent is out of range. -/
def HugeExponent (s : Str) : Prop :=
  ∃ w body rest neg int frac exp, White w ∧ Numeral body neg int frac exp ∧ exponentLimit ≤ |exp| ∧ s = w ++ body ++ rest

/-- The decimal digits of a natural number, without leading zeros (`0` for zero). -/
def natText (n : ℕ) : Str := if n = 0 then [48] else ((Nat.digits 10 n).reverse).map (· + 48)

/-- The last `k` decimal digits of `n`, most significant first, with leading zeros. -/
def fixedText (k n : ℕ) : Str := (List.range k).map fun i => 48 + n / 10 ^ (k - 1 - i) % 10

/-- `x` written in decimal with exactly `s` fraction digits: `-` for a negative number, the integer part without
superfluous zeros, and for `s > 0` a point and `s` digits. `n` is the integer `|x| * 10^s`. -/
def decimalText (neg : Bool) (n : ℕ) (s : ℕ) : Str :=
  (if neg then [45] else []) ++ natText (n / 10 ^ s) ++ (if s = 0 then [] else 46 :: fixedText s n)

end PgNumeric.Spec
