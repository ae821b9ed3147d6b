import Mathlib.Data.Rat.Floor
import Verif.Model.Var
/-!
# Independent specification

What the numbers *mean*: the rational value of a base-10000 digit string, and the rounding functions on the
rationals that the properties are stated with. Nothing here refers to the algorithms of the model.
-/
namespace PgNumeric.Spec

/-- The magnitude of the base-10000 digit string `ds` whose first digit has weight `w`:
`ds[0] * 10000^w + ds[1] * 10000^(w-1) + …`. -/
def mag : List Int → Int → ℚ
  | [], _ => 0
  | d :: ds, w => (d : ℚ) * (10000 : ℚ) ^ w + mag ds (w - 1)

/-- The rational denoted by a (non-NaN) variable. -/
def value (v : Var) : ℚ :=
  match v.sign with
  | .neg => - mag v.digits v.weight
  | _ => mag v.digits v.weight

/-- `x` rounded half away from zero to `s` decimal places (`s` may be negative). -/
def roundHalfAway (x : ℚ) (s : Int) : ℚ :=
  if x < 0 then -((⌊(-x) * 10 ^ s + 1 / 2⌋ : ℤ) : ℚ) / 10 ^ s
  else ((⌊x * 10 ^ s + 1 / 2⌋ : ℤ) : ℚ) / 10 ^ s

/-- `x` truncated towards zero to `s` decimal places (`s` may be negative). -/
def truncTo (x : ℚ) (s : Int) : ℚ :=
  if x < 0 then -((⌊(-x) * 10 ^ s⌋ : ℤ) : ℚ) / 10 ^ s
  else ((⌊x * 10 ^ s⌋ : ℤ) : ℚ) / 10 ^ s

/-- `x` has a decimal expansion with at most `s` places after the point. -/
def HasScale (x : ℚ) (s : Int) : Prop := ∃ n : ℤ, x * 10 ^ s = n

/-- All base-10000 digits are in range. -/
def Digits (ds : List Int) : Prop := ∀ d ∈ ds, 0 ≤ d ∧ d < 10000

/-- Stripped form: no leading or trailing zero digit; zero is `+0` with weight 0. -/
def Stripped (v : Var) : Prop :=
  v.digits.head? ≠ some 0 ∧ v.digits.getLast? ≠ some 0 ∧
  (v.digits = [] → v.weight = 0 ∧ v.sign = .pos)

/-- A canonical, storable, non-NaN variable. -/
structure Canonical (v : Var) : Prop where
  not_nan : v.sign ≠ .nan
  digits : Digits v.digits
  stripped : Stripped v
  weight_le : v.weight ≤ 32767
  dscale_nonneg : 0 ≤ v.dscale
  dscale_le : v.dscale ≤ 16383
  /-- the display scale covers every stored digit -/
  scale : HasScale (value v) v.dscale

/-- The largest magnitude plus one: `10000^32768 = 10^131072`. -/
def limit : ℚ := 10 ^ (131072 : ℕ)

end PgNumeric.Spec
