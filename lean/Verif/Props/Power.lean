import Verif.Proofs.Power
import Verif.SpecPow
import Verif.Props.Sqrt
import Mathlib.Analysis.Complex.ExponentialBounds
/-!
# Powers (C32, C33)

`Num.pow lm fuel a b`: `lm` are the floating-point functions of the platform, `fuel` bounds the loops of `ln` and
`exp`.
-/
namespace PgNumeric.Props
open PgNumeric Spec Var

theorem powerScale_bounds {s : Int} (_h : 0 ≤ s) : 16 ≤ powerScale s ∧ powerScale s ≤ 1000 := by
  unfold powerScale; omega

theorem zero_canonical : Canonical Var.zero :=
  ⟨by simp [Var.zero], Digits.nil, by simp [Stripped, Var.zero], by simp [Var.zero], by simp [Var.zero], by simp [Var.zero],
    ⟨0, by simp [value, Var.zero]⟩⟩

theorem zero_value : value Var.zero = 0 := by simp [value, Var.zero]

theorem cmp_zero {u : Var} (hu : Canonical u) : cmpCommon u Var.zero = cmpSign (value u) 0 := by
  rw [Num.cmpCommon_canonical hu zero_canonical, zero_value]

theorem cmpSign_neg {x y : ℚ} : cmpSign x y < 0 ↔ x < y := by
  unfold cmpSign; split
  · simp [*]
  · split
    · simp [*]
    · simp [*]

theorem truncTo_zero_iff {x : ℚ} : truncTo x 0 = x ↔ ∃ n : ℤ, x = n := by
  constructor
  · intro h
    obtain ⟨n, hn⟩ := truncTo_hasScale x 0
    rw [h] at hn
    exact ⟨n, by simpa using hn⟩
  · rintro ⟨n, rfl⟩
    exact truncTo_eq_self (HasScale.int _ le_rfl)

theorem round_int {n : ℤ} : roundHalfAway (n:ℚ) 0 = n := rmag_eq_self_iff (HasScale.int _ le_rfl)

/-- On numbers, `pow` first checks its domain. -/
theorem pow_checks [Build] (lm : Libm) (fuel : Nat) {u e : Var} (hu : Canonical u) (he : Canonical e) :
    (value u = 0 ∧ value e < 0 → Var.pow lm fuel u e = .error (.panic "zero raised to a negative power is undefined")) ∧
    (value u < 0 → (∀ n : ℤ, value e ≠ n) →
      Var.pow lm fuel u e = .error (.panic "a negative number raised to a non-integer power yields a complex result")) ∧
    (¬ (value u = 0 ∧ value e < 0) → (value u < 0 → ∃ n : ℤ, value e = n) →
      Var.pow lm fuel u e = powerCommon lm fuel u e) := by
  obtain ⟨t, et, -, -, -, tv, -, -, -, -, hc, -⟩ := trunc0_facts he
  have hun := hu.not_nan
  have hen := he.not_nan
  have h1 : cmpCommon u Var.zero = 0 ∧ cmpCommon e Var.zero < 0 ↔ value u = 0 ∧ value e < 0 := by
    rw [cmp_zero hu, cmp_zero he, cmpSign_eq_zero, cmpSign_neg]
  have h2 : cmpCommon u Var.zero < 0 ∧ cmpCommon e t ≠ 0 ↔ value u < 0 ∧ ∀ n : ℤ, value e ≠ n := by
    rw [cmp_zero hu, cmpSign_neg, hc, ne_eq, cmpSign_eq_zero, tv]
    have : value e = truncTo (value e) 0 ↔ ∃ n : ℤ, value e = n := by rw [eq_comm]; exact truncTo_zero_iff
    rw [this]; push Not; rfl
  unfold Var.pow
  rw [if_neg hun, if_neg hen]
  refine ⟨fun h => by rw [if_pos (h1.2 h)]; rfl, fun ha hb => ?_, fun ha hb => ?_⟩
  · rw [if_neg (mt h1.1 (fun h => by linarith [h.1]))]
    simp only [et, bind_ok]
    rw [if_pos (h2.2 ⟨ha, hb⟩)]; rfl
  · rw [if_neg (mt h1.1 ha)]
    simp only [et, bind_ok]
    rw [if_neg (mt h2.1 (fun h => by obtain ⟨n, hn⟩ := hb h.1; exact h.2 n hn))]

theorem int_len {e : Var} (he : Canonical e) {k : ℤ} (hk : value e = k) : e.ndigits = 0 ∨ e.ndigits ≤ e.weight + 1 := by
  by_cases hne : e.digits = []
  · left; simp [ndigits, hne]
  · right
    have := stripped_len he.digits he.stripped hne (s := 0) (by rw [hk]; exact HasScale.int _ le_rfl)
    omega

theorem powerScale_eq (u : Var) :
    min (max (max NUMERIC_MIN_SIG_DIGITS u.dscale) NUMERIC_MIN_DISPLAY_SCALE) NUMERIC_MAX_DISPLAY_SCALE =
      powerScale u.dscale := by
  unfold powerScale
  simp only [NUMERIC_MIN_SIG_DIGITS, NUMERIC_MIN_DISPLAY_SCALE, NUMERIC_MAX_DISPLAY_SCALE]; omega

/-- An integer exponent in the range of `i32` is handled by `power_int`. -/
theorem powerCommon_int [Build] (lm : Libm) (fuel : Nat) {u e : Var} (hu : Canonical u) (he : Canonical e) {k : ℤ}
    (hk : value e = k) (hr : IsI32 k) : powerCommon lm fuel u e = powerInt lm u k (powerScale u.dscale) := by
  unfold powerCommon
  rw [dassert_ok hu.not_nan, dassert_ok he.not_nan]
  simp only [bind_ok]
  have hew := he.small.lo
  have hew2 := he.small.hi
  rw [fits_ok (by fits_tac), bind_ok]
  rw [if_pos (int_len he hk)]
  have h := Convert.intoSigned_spec Convert.i32_wide rfl he.readable (n := k) (by rw [hk]; exact round_int)
  rw [if_pos ⟨hr.1, hr.2⟩] at h
  simp only [h, bind_ok]
  rw [powerScale_eq]

/-- An exponent that is not an integer, or not an `i32`, is handled by the general function. -/
theorem powerCommon_real [Build] (lm : Libm) (fuel : Nat) {u e : Var} (hu : Canonical u) (he : Canonical e)
    (hr : ∀ k : ℤ, value e = k → ¬ IsI32 k) : powerCommon lm fuel u e = powerReal lm fuel u e := by
  unfold powerCommon
  rw [dassert_ok hu.not_nan, dassert_ok he.not_nan]
  simp only [bind_ok]
  have hew := he.small.lo
  have hew2 := he.small.hi
  rw [fits_ok (by fits_tac), bind_ok]
  by_cases hlen : e.ndigits = 0 ∨ e.ndigits ≤ e.weight + 1
  · rw [if_pos hlen]
    have hint : ∃ k : ℤ, value e = k := by
      rcases hlen with h | h
      · have : e.digits = [] := by simpa [ndigits] using h
        exact ⟨0, by rw [(stripped_zero_iff he.digits he.stripped).2 this]; simp⟩
      · have h1 : ∃ n : ℤ, mag e.digits e.weight = n := by
          rw [mag_eq_dval]
          refine ⟨dval e.digits * 10000 ^ (e.weight + 1 - e.digits.length).toNat, ?_⟩
          simp only [ndigits] at h
          push_cast
          rw [← zpow_natCast, Int.toNat_of_nonneg (by omega)]
        obtain ⟨n, hn⟩ := h1
        unfold value
        cases e.sign
        · exact ⟨n, hn⟩
        · exact ⟨-n, by simp [hn]⟩
        · exact ⟨n, hn⟩
    obtain ⟨k, hk⟩ := hint
    have h := Convert.intoSigned_spec Convert.i32_wide rfl he.readable (n := k) (by rw [hk]; exact round_int)
    rw [if_neg (fun hc => hr k hk ⟨hc.1, hc.2⟩)] at h
    simp only [h, bind_ok]
  · rw [if_neg hlen]

/-- The outer layer of `pow` on numbers. -/
theorem pow_unfold [Build] (lm : Libm) (fuel : Nat) {a b : Bin} {u e : Var} (va : a.asVar = .ok u) (vb : b.asVar = .ok e) :
    Num.pow lm fuel a b = (do
      match ← Var.pow lm fuel u e with
      | none => pure none
      | some u =>
        if u.sign = .nan then do
          let n ← Num.nan
          pure (some n)
        else Num.finish u) := by
  unfold Num.pow
  simp only [va, vb, bind_ok]
  rfl

/-- Finishing a good result. -/
theorem pow_finish [Build] {lm : Libm} {fuel : Nat} {a b : Bin} {u e v : Var} {y : ℚ} {s : Int} (va : a.asVar = .ok u)
    (vb : b.asVar = .ok e) (h : Var.pow lm fuel u e = .ok (some v)) (hv : AddOK v s y) (hs0 : 0 ≤ s) (hs1 : s ≤ 16383)
    (hsc : HasScale y s) :
    (|y| < limit → ∃ r, Num.pow lm fuel a b = .ok (some r) ∧ Holds r y s) ∧
    (limit ≤ |y| → Num.pow lm fuel a b = .ok none) := by
  rw [pow_unfold lm fuel va vb, h]
  simp only [bind_ok, if_neg hv.not_nan]
  exact Num.finish_spec hv hs0 hs1 hsc

theorem pow_none [Build] {lm : Libm} {fuel : Nat} {a b : Bin} {u e : Var} (va : a.asVar = .ok u)
    (vb : b.asVar = .ok e) (h : Var.pow lm fuel u e = .ok none) : Num.pow lm fuel a b = .ok none := by
  rw [pow_unfold lm fuel va vb, h]; rfl

theorem pow_error [Build] {lm : Libm} {fuel : Nat} {a b : Bin} {u e : Var} {f : Fault} (va : a.asVar = .ok u)
    (vb : b.asVar = .ok e) (h : Var.pow lm fuel u e = .error f) : Num.pow lm fuel a b = .error f := by
  rw [pow_unfold lm fuel va vb, h]; rfl

theorem canonical_powOK {u : Var} (hu : Canonical u) {n : ℤ} (hn : value u = n) (h0 : n ≠ 0) : PowOK u n :=
  ⟨hu.digits, hu.not_nan, hu.stripped, hn, h0, hu.dscale_nonneg, by have := hu.dscale_le; omega⟩

/-- C32: an integer-valued number (of any scale `s`) raised to an integer `0 ≤ k < 2^31` is exact; the result has scale
`s`, at least 16 and at most 1000. `None` is returned exactly when the power has more than 131072 digits. -/
theorem C32_integer_power_exact [Build] {lm : Libm} (hl : LibmOK lm) (fuel : Nat) {a b : Bin} {n : ℤ} {k : ℕ} {s t : Int}
    (ha : Holds a n s) (hb : Holds b k t) (hk : k < 2 ^ 31) :
    (|(n:ℚ) ^ k| < limit → ∃ r, Num.pow lm fuel a b = .ok (some r) ∧ Holds r ((n:ℚ) ^ k) (powerScale s)) ∧
    (limit ≤ |(n:ℚ) ^ k| → Num.pow lm fuel a b = .ok none) := by
  obtain ⟨u, hu, hux, rfl, -, -, va⟩ := ha.exists_var
  obtain ⟨e, he, hex, -, -, -, vb⟩ := hb.exists_var
  obtain ⟨p0, p1⟩ := powerScale_bounds hu.dscale_nonneg
  have hk0 : ¬ (value u = 0 ∧ value e < 0) := by
    rintro ⟨-, h⟩; rw [hex] at h; exact absurd h (not_lt.2 (Nat.cast_nonneg k))
  have hpow : Var.pow lm fuel u e = powerInt lm u k (powerScale u.dscale) := by
    rw [(pow_checks lm fuel hu he).2.2 hk0 (fun _ => ⟨k, by rw [hex]; norm_num⟩)]
    exact powerCommon_int lm fuel hu he (k := k) (by rw [hex]; norm_num) ⟨by omega, by omega⟩
  by_cases hn : n = 0
  · subst hn
    have hd : u.digits = [] := (stripped_zero_iff hu.digits hu.stripped).1 (by rw [hux]; simp)
    have hz : Var.pow lm fuel u e = .ok (some (if k = 0 then { one with dscale := powerScale u.dscale }
        else ⟨0, powerScale u.dscale, .pos, []⟩)) := by
      rw [hpow]
      unfold powerInt
      rw [dassert_ok hu.not_nan]
      simp only [bind_ok]
      have hu' : u = ⟨0, u.dscale, .pos, []⟩ := by
        obtain ⟨h1, h2⟩ := hu.stripped.2.2 hd
        cases u; simp only at h1 h2 hd; subst h1 h2 hd; rfl
      have hzs := zeroScaled_ok (s := powerScale u.dscale) (by omega) (by omega)
      by_cases k0 : k = 0
      · rw [if_pos (by omega), if_pos k0]; rfl
      rw [if_neg (by omega), if_neg k0]
      by_cases k1 : k = 1
      · rw [if_pos (by omega)]
        have : roundCommon u (powerScale u.dscale) = .ok ⟨0, powerScale u.dscale, .pos, []⟩ := by
          obtain ⟨h1, -⟩ := hu.stripped.2.2 hd
          have h2 : u.ndigits = 0 := by simp [ndigits, hd]
          unfold roundCommon
          rw [dassert_ok hu.not_nan]
          simp only [bind_ok]
          rw [fits_ok (by fits_tac)]
          simp only [bind_ok, DEC_DIGITS]
          rw [if_neg (by omega), if_neg (by omega)]
          conv_lhs => rw [hu']
          rfl
        simp only [this, bind_ok, pure_ok]
      rw [if_neg (by omega), if_neg (by omega)]
      by_cases k2 : k = 2
      · rw [if_pos (by omega)]
        have : mulCommon u u (powerScale u.dscale) = .ok ⟨0, powerScale u.dscale, .pos, []⟩ := by
          have h2 : u.ndigits = 0 := by simp [ndigits, hd]
          unfold mulCommon
          rw [dassert_ok hu.not_nan]
          simp only [bind_ok]
          rw [if_pos (by left; split <;> exact h2), hzs]
        simp only [this, bind_ok, pure_ok]
      rw [if_neg (by omega), hd]
      simp only
      rw [if_neg (by omega)]
      simp only [hzs, bind_ok, pure_ok]
    have hsc : HasScale (((0:ℤ):ℚ) ^ k) (powerScale u.dscale) := by
      have := HasScale.int ((0:ℤ) ^ k) (s := powerScale u.dscale) (by omega)
      push_cast at this; exact_mod_cast this
    refine pow_finish va vb hz ?_ (by omega) (by omega) hsc
    by_cases k0 : k = 0
    · rw [if_pos k0, k0, pow_zero]; simpa using one_powOK.addOK (powerScale u.dscale)
    · rw [if_neg k0]
      have : ((0:ℤ):ℚ) ^ k = 0 := by simp [k0]
      rw [this]; exact AddOK.zero
  · have hP := canonical_powOK hu hux hn
    have hsc : HasScale ((n:ℚ) ^ k) (powerScale u.dscale) := by
      have := HasScale.int (n ^ k) (s := powerScale u.dscale) (by omega)
      push_cast at this; exact this
    rcases powerInt_nonneg hl hP hu.weight_le hk (s := powerScale u.dscale) (by omega) (by omega) with ⟨v, ev, hv⟩ | ⟨hlim, ev⟩
    · push_cast at hv
      exact pow_finish va vb (hpow.trans ev) hv (by omega) (by omega) hsc
    · push_cast at hlim
      exact ⟨fun h => absurd (lt_of_lt_of_le h hlim) (lt_irrefl _), fun _ => pow_none va vb (hpow.trans ev)⟩

/-- A non-trivial case: `(-7.00)^31`. -/
example [Build] {lm : Libm} (hl : LibmOK lm) : ∃ a b r, Holds a ((-7:ℤ):ℚ) 2 ∧ Holds b ((31:ℕ):ℚ) 0 ∧
    Num.pow lm 0 a b = .ok (some r) ∧ Holds r (((-7:ℤ):ℚ) ^ 31) 16 := by
  obtain ⟨a, ha⟩ := witness (x := ((-7:ℤ):ℚ)) (s := 2) (-700) (by norm_num) (by norm_num) (by norm_num) (by norm_num [abs_lt])
  obtain ⟨b, hb⟩ := witness (x := ((31:ℕ):ℚ)) (s := 0) 31 (by norm_num) (by norm_num) (by norm_num) (by norm_num [abs_lt])
  obtain ⟨r, e, h⟩ := (C32_integer_power_exact hl 0 ha hb (by norm_num)).1 (lt_limit (by norm_num [abs_lt]))
  exact ⟨a, b, r, ha, hb, e, h⟩

/-- C32: an integer-valued number raised to `-k`, `2 ≤ k < 2^31`, in a release build or with a base of at most 56 decimals: the result has the scale
of the base (at least 16) and differs from the exact power by at most 0.500000001 units of its last place. -/
theorem C32_negative_integer_power [Build] {lm : Libm} (hl : LibmOK lm) (fuel : Nat) {a b : Bin} {n : ℤ} {k : ℕ}
    {s t : Int} (ha : Holds a n s) (hb : Holds b (-(k:ℚ)) t) (hk1 : 2 ≤ k) (hk : k < 2 ^ 31)
    (hn : n ≠ 0) (hs : Build.debug = false ∨ s ≤ 56) :
    ∃ r y, Num.pow lm fuel a b = .ok (some r) ∧ Holds r y (powerScale s) ∧
      |y - ((n:ℚ) ^ k)⁻¹| ≤ (1 / 2 + 1 / 10 ^ 9) * 10 ^ (-powerScale s) := by
  obtain ⟨u, hu, hux, rfl, -, -, va⟩ := ha.exists_var
  obtain ⟨c, hc, hcx, -, -, -, vb⟩ := hb.exists_var
  obtain ⟨p0, p1⟩ := powerScale_bounds hu.dscale_nonneg
  have hk0 : ¬ (value u = 0 ∧ value c < 0) := by
    rintro ⟨h, -⟩; rw [hux] at h; exact hn (by exact_mod_cast h)
  have hcx' : value c = ((-(k:ℤ) : ℤ) : ℚ) := by rw [hcx]; push_cast; rfl
  have hpow : Var.pow lm fuel u c = powerInt lm u (-k) (powerScale u.dscale) := by
    rw [(pow_checks lm fuel hu hc).2.2 hk0 (fun _ => ⟨-k, hcx'⟩)]
    exact powerCommon_int lm fuel hu hc hcx' ⟨by omega, by omega⟩
  rcases powerInt_neg hl (canonical_powOK hu hux hn) hu.weight_le hk1 hk (s := powerScale u.dscale) (by omega) (by omega) with
    ⟨v, y, ev, hv, hsc, hy⟩ | ⟨hd, h57, -⟩
  · have hlim : |y| < limit := by
      have h1 : |((n:ℚ) ^ k)⁻¹| ≤ 1 := by
        rw [abs_inv]; exact inv_le_one_of_one_le₀ (abs_pow_ge hn k)
      have h2 : (10:ℚ) ^ (-powerScale u.dscale) ≤ 1 := zpow_le_one_of_nonpos₀ (by norm_num) (by omega)
      have h3 := abs_sub_abs_le_abs_sub y (((n:ℚ) ^ k)⁻¹)
      have h4 := T_zpow_pos (-powerScale u.dscale)
      generalize (10:ℚ) ^ (-powerScale u.dscale) = T at *
      refine lt_limit ?_
      have : (1 / 2 + 1 / 10 ^ 9) * T ≤ 1 * 1 := mul_le_mul (by norm_num) h2 h4.le (by norm_num)
      have h5 : |y| ≤ 2 := by linarith
      exact lt_of_le_of_lt h5 (by norm_num)
    obtain ⟨r, er, hr⟩ := (pow_finish va vb (hpow.trans ev) hv (by omega) (by omega) hsc).1 hlim
    exact ⟨r, y, er, hr, hy⟩
  · rcases hs with hs | hs
    · rw [hs] at hd; cases hd
    · unfold powerScale at h57; omega

example [Build] {lm : Libm} (hl : LibmOK lm) : ∃ a b r y, Holds a ((3:ℤ):ℚ) 0 ∧
    Holds b (-((5:ℕ):ℚ)) 0 ∧ Num.pow lm 0 a b = .ok (some r) ∧ Holds r y 16 ∧
    |y - (((3:ℤ):ℚ) ^ 5)⁻¹| ≤ (1 / 2 + 1 / 10 ^ 9) * 10 ^ (-16:ℤ) := by
  obtain ⟨a, ha⟩ := witness (x := ((3:ℤ):ℚ)) (s := 0) 3 (by norm_num) (by norm_num) (by norm_num) (by norm_num [abs_lt])
  obtain ⟨b, hb⟩ := witness (x := -((5:ℕ):ℚ)) (s := 0) (-5) (by norm_num) (by norm_num) (by norm_num) (by norm_num [abs_lt])
  obtain ⟨r, y, e, h1, h2⟩ := C32_negative_integer_power hl 0 ha hb (by norm_num) (by norm_num) (by norm_num) (.inr (by norm_num))
  exact ⟨a, b, r, y, ha, hb, e, h1, h2⟩

/-! ## Special cases -/

theorem nan_sign : Var.nan.sign = .nan := rfl

theorem one_holds [Build] : ∃ r, Num.finish Var.one = .ok (some r) ∧ Holds r 1 0 := by
  exact (Num.finish_spec (u := Var.one) (s := 0) (x := 1)
    ⟨one_canonical.digits, one_canonical.not_nan, one_canonical.stripped, rfl, one_value⟩ le_rfl (by norm_num)
    ⟨1, by simp⟩).1 (lt_limit (by norm_num))

/-- C33: `NaN ^ 0` is 1, NaN to any other power (NaN included) is NaN. -/
theorem C33_nan_base [Build] (lm : Libm) (fuel : Nat) {a b : Bin} (ha : IsNaN a) {k : WithTop ℚ} (hb : Denotes b k) :
    ∃ r, Num.pow lm fuel a b = .ok (some r) ∧ (if k = 0 then Holds r 1 0 else IsNaN r) := by
  obtain ⟨-, -, va⟩ := ha.facts
  rcases hb with ⟨hb, rfl⟩ | ⟨y, t, hb, rfl⟩
  · obtain ⟨-, -, vb⟩ := hb.facts
    refine ⟨Bin.nan, ?_, by rw [if_neg (by simp)]; exact nan_isNaN⟩
    rw [pow_unfold lm fuel va vb]
    have : Var.pow lm fuel Var.nan Var.nan = .ok (some Var.nan) := by
      unfold Var.pow; rw [if_pos nan_sign, if_neg (by simp [Var.nan])]; rfl
    rw [this]
    simp only [bind_ok]
    rw [if_pos nan_sign, Num.nan_ok]; rfl
  · obtain ⟨e, he, rfl, rfl, -, -, vb⟩ := hb.exists_var
    have hk : ((value e : ℚ) : WithTop ℚ) = 0 ↔ value e = 0 := by
      constructor
      · intro h; exact_mod_cast h
      · intro h; rw [h]; rfl
    rw [pow_unfold lm fuel va vb]
    by_cases h0 : value e = 0
    · obtain ⟨r, er, hr⟩ := one_holds
      have : Var.pow lm fuel Var.nan e = .ok (some Var.one) := by
        unfold Var.pow
        rw [if_pos nan_sign, if_pos ⟨he.not_nan, by rw [cmp_zero he, cmpSign_eq_zero]; exact h0⟩]; rfl
      rw [this]
      simp only [bind_ok]
      rw [if_neg one_canonical.not_nan]
      exact ⟨r, er, by rw [if_pos (hk.2 h0)]; exact hr⟩
    · have : Var.pow lm fuel Var.nan e = .ok (some Var.nan) := by
        unfold Var.pow
        rw [if_pos nan_sign, if_neg (by rw [cmp_zero he, cmpSign_eq_zero]; exact fun h => h0 h.2)]; rfl
      rw [this]
      simp only [bind_ok]
      refine ⟨Bin.nan, ?_, by rw [if_neg (mt hk.1 h0)]; exact nan_isNaN⟩
      rw [if_pos nan_sign, Num.nan_ok]; rfl

/-- C33: `1 ^ NaN` is 1 and any other number to the power NaN is NaN. -/
theorem C33_nan_exponent [Build] (lm : Libm) (fuel : Nat) {a b : Bin} {x : ℚ} {s : Int} (ha : Holds a x s) (hb : IsNaN b) :
    ∃ r, Num.pow lm fuel a b = .ok (some r) ∧ (if x = 1 then Holds r 1 0 else IsNaN r) := by
  obtain ⟨u, hu, rfl, rfl, -, -, va⟩ := ha.exists_var
  obtain ⟨-, -, vb⟩ := hb.facts
  have hc : cmpCommon u Var.one = 0 ↔ value u = 1 := by
    rw [Num.cmpCommon_canonical hu one_canonical, cmpSign_eq_zero, one_value]
  rw [pow_unfold lm fuel va vb]
  by_cases h1 : value u = 1
  · obtain ⟨r, er, hr⟩ := one_holds
    have : Var.pow lm fuel u Var.nan = .ok (some Var.one) := by
      unfold Var.pow
      rw [if_neg hu.not_nan, if_pos nan_sign, if_pos (hc.2 h1)]; rfl
    rw [this]
    simp only [bind_ok]
    rw [if_neg one_canonical.not_nan]
    exact ⟨r, er, by rw [if_pos h1]; exact hr⟩
  · have : Var.pow lm fuel u Var.nan = .ok (some Var.nan) := by
      unfold Var.pow
      rw [if_neg hu.not_nan, if_pos nan_sign, if_neg (mt hc.1 h1)]; rfl
    rw [this]
    simp only [bind_ok]
    refine ⟨Bin.nan, ?_, by rw [if_neg h1]; exact nan_isNaN⟩
    rw [if_pos nan_sign, Num.nan_ok]; rfl

example [Build] : ∃ a b, Holds a 1 3 ∧ IsNaN b := by
  obtain ⟨a, ha⟩ := witness (x := 1) (s := 3) 1000 (by norm_num) (by norm_num) (by norm_num) (by norm_num)
  exact ⟨a, Bin.nan, ha, nan_isNaN⟩

/-- C33: zero to a negative power panics. -/
theorem C33_zero_negative_panics [Build] (lm : Libm) (fuel : Nat) {a b : Bin} {y : ℚ} {s t : Int} (ha : Holds a 0 s)
    (hb : Holds b y t) (hy : y < 0) :
    Num.pow lm fuel a b = .error (.panic "zero raised to a negative power is undefined") := by
  obtain ⟨u, hu, hux, rfl, -, -, va⟩ := ha.exists_var
  obtain ⟨e, he, rfl, rfl, -, -, vb⟩ := hb.exists_var
  exact pow_error va vb ((pow_checks lm fuel hu he).1 ⟨hux, hy⟩)

/-- C33: a negative number to a power that is not an integer panics. -/
theorem C33_negative_fraction_panics [Build] (lm : Libm) (fuel : Nat) {a b : Bin} {x y : ℚ} {s t : Int} (ha : Holds a x s)
    (hb : Holds b y t) (hx : x < 0) (hy : ∀ n : ℤ, y ≠ n) :
    Num.pow lm fuel a b =
      .error (.panic "a negative number raised to a non-integer power yields a complex result") := by
  obtain ⟨u, hu, rfl, rfl, -, -, va⟩ := ha.exists_var
  obtain ⟨e, he, rfl, rfl, -, -, vb⟩ := hb.exists_var
  exact pow_error va vb ((pow_checks lm fuel hu he).2.1 hx hy)

example [Build] : ∃ a b, Holds a (-2) 0 ∧ Holds b (1/2) 1 ∧ ∀ n : ℤ, (1/2:ℚ) ≠ n := by
  obtain ⟨a, ha⟩ := witness (x := -2) (s := 0) (-2) (by norm_num) (by norm_num) (by norm_num) (by norm_num [abs_lt])
  obtain ⟨b, hb⟩ := witness (x := 1/2) (s := 1) 5 (by norm_num) (by norm_num) (by norm_num) (by norm_num [abs_lt])
  refine ⟨a, b, ha, hb, fun n h => ?_⟩
  have : (1:ℚ) = 2 * n := by linarith
  have : (1:ℤ) = 2 * n := by exact_mod_cast this
  omega

/-- C33: `x ^ 0` is 1 for every number. -/
theorem C33_pow_zero [Build] (lm : Libm) (fuel : Nat) {a b : Bin} {x : ℚ} {s t : Int} (ha : Holds a x s) (hb : Holds b 0 t) :
    ∃ r, Num.pow lm fuel a b = .ok (some r) ∧ Holds r 1 (powerScale s) := by
  obtain ⟨u, hu, rfl, rfl, -, -, va⟩ := ha.exists_var
  obtain ⟨e, he, hex, -, -, -, vb⟩ := hb.exists_var
  obtain ⟨p0, p1⟩ := powerScale_bounds hu.dscale_nonneg
  have hpow : Var.pow lm fuel u e = .ok (some { one with dscale := powerScale u.dscale }) := by
    rw [(pow_checks lm fuel hu he).2.2 (by rw [hex]; simp) (fun _ => ⟨0, by rw [hex]; norm_num⟩),
      powerCommon_int lm fuel hu he (k := 0) (by rw [hex]; norm_num) ⟨by norm_num, by norm_num⟩]
    unfold powerInt
    rw [dassert_ok hu.not_nan]
    simp only [bind_ok]
    rw [if_pos trivial]; rfl
  have hok := one_powOK.addOK (powerScale u.dscale)
  push_cast at hok
  exact (pow_finish va vb hpow hok (by omega) (by omega) (by
    have := HasScale.int 1 (s := powerScale u.dscale) (by omega); exact_mod_cast this)).1 (lt_limit (by norm_num))

/-- C33: `x ^ 1` is `x` rounded half away from zero to the result scale; `None` only if that rounds up to
`10^131072`. -/
theorem C33_pow_one [Build] (lm : Libm) (fuel : Nat) {a b : Bin} {x : ℚ} {s t : Int} (ha : Holds a x s) (hb : Holds b 1 t) :
    (|roundHalfAway x (powerScale s)| < limit →
      ∃ r, Num.pow lm fuel a b = .ok (some r) ∧ Holds r (roundHalfAway x (powerScale s)) (powerScale s)) ∧
    (limit ≤ |roundHalfAway x (powerScale s)| → Num.pow lm fuel a b = .ok none) := by
  obtain ⟨u, hu, rfl, rfl, -, -, va⟩ := ha.exists_var
  obtain ⟨e, he, hex, -, -, -, vb⟩ := hb.exists_var
  obtain ⟨p0, p1⟩ := powerScale_bounds hu.dscale_nonneg
  have hul := hu.small.lo
  have huh := hu.small.hi
  have hun := hu.small.len
  obtain ⟨v, ev, vd, vn, vs, vv⟩ := roundCommon_spec u (powerScale u.dscale) hu.digits hu.not_nan ⟨by omega, by omega⟩
    ⟨by omega, by omega⟩
  have hpow : Var.pow lm fuel u e = .ok (some v) := by
    rw [(pow_checks lm fuel hu he).2.2 (by rw [hex]; norm_num) (fun _ => ⟨1, by rw [hex]; norm_num⟩),
      powerCommon_int lm fuel hu he (k := 1) (by rw [hex]; norm_num) ⟨by norm_num, by norm_num⟩]
    unfold powerInt
    rw [dassert_ok hu.not_nan]
    simp only [bind_ok]
    rw [if_neg (by norm_num), if_pos trivial, ev]; rfl
  rw [pow_unfold lm fuel va vb, hpow]
  simp only [bind_ok]
  rw [if_neg vn]
  have hw1 := hu.weight_le
  have hw2 := hu.weight_ge
  have hw := roundCommon_weight u _ hu.digits hu.not_nan ev
  exact Num.finish_loose vd vn vs vv (by omega) (by omega) (roundHalfAway_hasScale _ _)
    (by rcases hw with h | h | ⟨-, h⟩
        · left; omega
        · left; omega
        · right; exact h)
    (by rcases hw with h | h | ⟨h, -⟩ <;> omega)
    (by have := (roundCommon_shape u _ ev).1; omega)

/-- C33: `x ^ -1` is `1/x` correctly rounded (half away from zero) to the result scale. -/
theorem C33_pow_neg_one [Build] (lm : Libm) (fuel : Nat) {a b : Bin} {x : ℚ} {s t : Int} (ha : Holds a x s) (hx : x ≠ 0)
    (hb : Holds b (-1) t) :
    ∃ r, Num.pow lm fuel a b = .ok (some r) ∧ Holds r (roundHalfAway (1 / x) (powerScale s)) (powerScale s) := by
  obtain ⟨u, hu, rfl, rfl, -, -, va⟩ := ha.exists_var
  obtain ⟨e, he, hex, -, -, -, vb⟩ := hb.exists_var
  obtain ⟨p0, p1⟩ := powerScale_bounds hu.dscale_nonneg
  have hne : u.digits ≠ [] := fun h => hx ((stripped_zero_iff hu.digits hu.stripped).2 h)
  obtain ⟨v, ev, hv⟩ := divCommon_spec one u one_small hu.small (powerScale u.dscale) (by omega) true one_canonical.digits hu.digits one_canonical.not_nan
    hu.not_nan hne hu.stripped.1 (by omega) (.inl (by omega))
  rw [if_pos rfl, one_value] at hv
  have hpow : Var.pow lm fuel u e = .ok (some v) := by
    rw [(pow_checks lm fuel hu he).2.2 (fun h => hx h.1) (fun _ => ⟨-1, by rw [hex]; norm_num⟩),
      powerCommon_int lm fuel hu he (k := -1) (by rw [hex]; norm_num) ⟨by norm_num, by norm_num⟩]
    unfold powerInt
    rw [dassert_ok hu.not_nan]
    simp only [bind_ok]
    rw [if_neg (by norm_num), if_neg (by norm_num), if_pos trivial]
    simp only [ev, bind_ok, expect, pure_ok]
  refine (pow_finish va vb hpow hv (by omega) (by omega) (roundHalfAway_hasScale _ _)).1 ?_
  have h1 := roundHalfAway_err (1 / value u) (powerScale u.dscale)
  have h2 : |1 / value u| ≤ 10 ^ u.dscale := by
    have hT := T_zpow_pos u.dscale
    obtain ⟨n, hn⟩ := hu.scale
    have hn0 : n ≠ 0 := by
      rintro rfl
      have : value u * 10 ^ u.dscale = 0 := by simpa using hn
      rcases mul_eq_zero.1 this with h | h
      · exact hx h
      · exact hT.ne' h
    have h3 : (1:ℚ) ≤ |value u| * 10 ^ u.dscale := by
      rw [← abs_of_pos hT, ← abs_mul, hn]; exact_mod_cast Int.one_le_abs hn0
    rw [abs_div, abs_one, div_le_iff₀ (abs_pos.2 hx), mul_comm]
    exact h3
  have h4 : (10:ℚ) ^ u.dscale ≤ 10 ^ (16383:ℤ) := T_zpow_le_iff.2 hu.dscale_le
  have h5 : (10:ℚ) ^ (-powerScale u.dscale) ≤ 10 ^ (0:ℤ) := T_zpow_le_iff.2 (by omega)
  have h6 : (10:ℚ) ^ (16383:ℤ) + 1 < limit := by
    rw [limit_eq, B_eq_T]
    have g1 : (1:ℚ) ≤ 10 ^ (16383:ℤ) := one_le_zpow₀ (by norm_num) (by norm_num)
    have g2 : (10:ℚ) ^ (16384:ℤ) ≤ 10 ^ (4 * 32768 : ℤ) := T_zpow_le_iff.2 (by norm_num)
    have g3 : (10:ℚ) ^ (16384:ℤ) = 10 ^ (16383:ℤ) * 10 := by rw [← zpow_add_one₀ (by norm_num)]; norm_num
    generalize (10:ℚ) ^ (16383:ℤ) = A at *
    generalize (10:ℚ) ^ (16384:ℤ) = B at *
    generalize (10:ℚ) ^ (4 * 32768:ℤ) = C at *
    linarith
  have h7 := abs_sub_abs_le_abs_sub (roundHalfAway (1 / value u) (powerScale u.dscale)) (1 / value u)
  have h8 := T_zpow_pos (-powerScale u.dscale)
  rw [zpow_zero] at h5
  refine lt_of_le_of_lt ?_ h6
  generalize (10:ℚ) ^ (16383:ℤ) = A at *
  linarith

/-- C33: zero to any positive power is zero; the scale is that of the rule for integer exponents, 16 for other exponents. -/
theorem C33_zero_base [Build] {lm : Libm} (hl : LibmOK lm) (fuel : Nat) {a b : Bin} {y : ℚ} {s t : Int} (ha : Holds a 0 s)
    (hb : Holds b y t) (hy : 0 < y) :
    ∃ r q, Num.pow lm fuel a b = .ok (some r) ∧ Holds r 0 q ∧
      ((∃ k : ℤ, y = k ∧ IsI32 k) → q = powerScale s) ∧ ((¬ ∃ k : ℤ, y = k ∧ IsI32 k) → q = 16) := by
  by_cases hi : ∃ k : ℤ, y = k ∧ IsI32 k
  · obtain ⟨k, rfl, h1, h2⟩ := hi
    have hk : 0 < k := by exact_mod_cast hy
    obtain ⟨m, rfl⟩ : ∃ m : ℕ, k = m := ⟨k.toNat, by omega⟩
    have hp : ((0:ℤ):ℚ) ^ m = 0 := by simp; omega
    obtain ⟨r, er, hr⟩ := (C32_integer_power_exact hl fuel (n := 0) (k := m) (by simpa using ha) (by simpa using hb)
      (by omega)).1 (by rw [hp]; exact lt_limit (by norm_num))
    rw [hp] at hr
    exact ⟨r, _, er, hr, fun _ => rfl, fun h => absurd ⟨m, rfl, h1, h2⟩ h⟩
  · obtain ⟨u, hu, hux, rfl, -, -, va⟩ := ha.exists_var
    obtain ⟨e, he, rfl, -, -, -, vb⟩ := hb.exists_var
    have hpow : Var.pow lm fuel u e = .ok (some ⟨0, 16, .pos, []⟩) := by
      rw [(pow_checks lm fuel hu he).2.2 (fun h => by linarith [h.2]) (fun h => by rw [hux] at h; exact absurd h (lt_irrefl _)),
        powerCommon_real lm fuel hu he (fun k h h2 => hi ⟨k, h, h2⟩)]
      unfold powerReal
      rw [if_pos (by rw [cmp_zero hu, cmpSign_eq_zero]; exact hux)]
      simp only [NUMERIC_MIN_SIG_DIGITS, zeroScaled_ok (s := 16) (by norm_num) (by norm_num), bind_ok, pure_ok]
    obtain ⟨r, er, hr⟩ := (pow_finish va vb hpow AddOK.zero (by norm_num) (by norm_num) ⟨0, by simp⟩).1 (lt_limit (by norm_num))
    exact ⟨r, 16, er, hr, fun h => absurd h hi, fun _ => rfl⟩

/-- C33 (a defect): a negative number raised to an integer that is not an `i32` value panics in a debug build, although
the power exists (for example `(-1)^2147483648 = 1`): the code takes the logarithm of the base. -/
theorem C33_negative_base_large_exponent_panics (e : Bool) (lm : Libm) (fuel : Nat) {a b : Bin} {x : ℚ} {k : ℤ} {s t : Int}
    (ha : @Holds ⟨true, e⟩ a x s) (hb : @Holds ⟨true, e⟩ b k t) (hx : x < 0) (hk : ¬ IsI32 k) :
    @Num.pow ⟨true, e⟩ lm fuel a b = .error .assert ∨ @Num.pow ⟨true, e⟩ lm fuel a b = .error .overflow := by
  let _ : Build := ⟨true, e⟩
  obtain ⟨u, hu, rfl, rfl, -, -, va⟩ := ha.exists_var
  obtain ⟨c, hc, hcx, -, -, -, vb⟩ := hb.exists_var
  suffices h : Var.pow lm fuel u c = .error .assert ∨ Var.pow lm fuel u c = .error .overflow from
    h.imp (pow_error va vb) (pow_error va vb)
  rw [(pow_checks lm fuel hu hc).2.2 (fun h => by linarith [h.1]) (fun _ => ⟨k, hcx⟩),
    powerCommon_real lm fuel hu hc (fun k' h h2 => by
      have : k' = k := by rw [hcx] at h; exact_mod_cast h.symm
      exact hk (this ▸ h2))]
  unfold powerReal
  rw [if_neg (by rw [cmp_zero hu, cmpSign_eq_zero]; exact hx.ne)]
  have h9 : Canonical zeroPointNine :=
    ⟨by simp [zeroPointNine], by intro d hd; simp [zeroPointNine] at hd; subst hd; norm_num,
      by simp [Stripped, zeroPointNine], by simp [zeroPointNine], by simp [zeroPointNine], by simp [zeroPointNine],
      ⟨9, by simp [value, mag, zeroPointNine]; norm_num⟩⟩
  have hest : ∃ w, estimateLnDweight lm u = .ok w := by
    unfold estimateLnDweight
    rw [dassert_ok hu.not_nan]
    simp only [bind_ok]
    rw [if_neg (by
      rw [Num.cmpCommon_canonical hu h9]
      have h0 : (0:ℚ) < value zeroPointNine := by simp [value, mag, zeroPointNine]
      intro h
      have := cmpSign_neg.2 (lt_trans hx h0)
      omega)]
    have hul := hu.small.lo
    have huh := hu.small.hi
    rw [fits_ok (by fits_tac), bind_ok]
    split <;> exact ⟨_, rfl⟩
  obtain ⟨w, ew⟩ := hest
  simp only [ew, bind_ok]
  have hln : ∀ l, lnCommon fuel u l = .error .assert := by
    intro l
    unfold lnCommon
    rw [dassert_ok hu.not_nan]
    simp only [bind_ok]
    have : dassert (cmpCommon u Var.zero > 0) = .error .assert := by
      have h : ¬ cmpCommon u Var.zero > 0 := by
        rw [cmp_zero hu]
        have := cmpSign_neg.2 hx
        omega
      unfold dassert
      simp only [h, decide_false]
      rfl
    rw [this]; rfl
  by_cases hf : ∀ x ∈ [8 - w], -2147483648 ≤ x ∧ x ≤ 2147483647
  · left; rw [fits_ok hf, bind_ok, hln]; rfl
  · right; rw [fits, if_neg hf]; rfl

example (e : Bool) : ∃ a b, @Holds ⟨true, e⟩ a (-1) 0 ∧ @Holds ⟨true, e⟩ b ((2147483648:ℤ):ℚ) 0 ∧ ¬ IsI32 2147483648 := by
  let _ : Build := ⟨true, e⟩
  obtain ⟨a, ha⟩ := witness (x := -1) (s := 0) (-1) (by norm_num) (by norm_num) (by norm_num) (by norm_num [abs_lt])
  obtain ⟨b, hb⟩ := witness (x := ((2147483648:ℤ):ℚ)) (s := 0) 2147483648 (by norm_num) (by norm_num) (by norm_num) (by norm_num [abs_lt])
  exact ⟨a, b, ha, hb, by unfold IsI32; norm_num⟩

/-! ## Defects of `power_int` -/

/-- `1.9` -/
def base19 : Var := ⟨0, 1, .pos, [1, 9000]⟩

theorem base19_canonical : Canonical base19 where
  not_nan := by simp [base19]
  digits := by intro d hd; simp [base19] at hd; rcases hd with rfl | rfl <;> norm_num
  stripped := by simp [Stripped, base19]
  weight_le := by simp [base19]
  dscale_nonneg := by simp [base19]
  dscale_le := by simp [base19]
  scale := ⟨19, by simp [value, mag, base19]; norm_num⟩

theorem base19_value : value base19 = 19 / 10 := by simp [value, mag, base19]; norm_num

theorem log_200 : (5:ℝ) + 1 / 10 ≤ Real.log 200 ∧ Real.log 200 ≤ 5 + 9 / 10 := by
  constructor
  · rw [Real.le_log_iff_exp_le (by norm_num)]
    have h1 : Real.exp (5 + 1 / 10) = Real.exp 1 ^ 5 * Real.exp (1 / 10) := by
      rw [Real.exp_add, ← Real.exp_nat_mul]; norm_num
    have h2 := Real.exp_one_lt_d9
    have h3 : Real.exp (1 / 10) ≤ 1 / (1 - 1 / 10) := by
      have := Real.one_sub_le_exp_neg (1 / 10 : ℝ)
      rw [Real.exp_neg] at this
      rw [le_div_iff₀ (by norm_num)]
      have hp := Real.exp_pos (1 / 10)
      calc Real.exp (1 / 10) * (1 - 1 / 10) ≤ Real.exp (1 / 10) * (Real.exp (1 / 10))⁻¹ :=
            mul_le_mul_of_nonneg_left this hp.le
        _ = 1 := mul_inv_cancel₀ hp.ne'
    rw [h1]
    calc Real.exp 1 ^ 5 * Real.exp (1 / 10) ≤ 2.7182818286 ^ 5 * (1 / (1 - 1 / 10)) :=
          mul_le_mul (pow_le_pow_left₀ (Real.exp_pos 1).le h2.le 5) h3 (Real.exp_pos _).le (by positivity)
      _ ≤ 200 := by norm_num
  · rw [Real.log_le_iff_le_exp (by norm_num)]
    have h1 : Real.exp (5 + 9 / 10) = Real.exp 1 ^ 5 * Real.exp (9 / 10) := by
      rw [Real.exp_add, ← Real.exp_nat_mul]; norm_num
    have h2 := Real.exp_one_gt_d9
    have h3 := Real.add_one_le_exp (9 / 10 : ℝ)
    rw [h1]
    calc (200:ℝ) ≤ 2.7182818283 ^ 5 * (9 / 10 + 1) := by norm_num
      _ ≤ Real.exp 1 ^ 5 * Real.exp (9 / 10) :=
          mul_le_mul (pow_le_pow_left₀ (by norm_num) h2.le 5) h3 (by norm_num) (by positivity)

theorem ln200 {lm : Libm} (hl : LibmOK lm) : F64.toI32 (lm.ln 200) = 5 := by
  have h := hl.ln 200 (by norm_num) (by norm_num)
  obtain ⟨h1, h2⟩ := log_200
  have e : ((200:ℕ):ℝ) = 200 := by norm_num
  rw [e, abs_le] at h
  have h3 : (5:ℝ) ≤ lm.ln ((200:ℕ):ℚ) ∧ (lm.ln ((200:ℕ):ℚ) : ℝ) < 6 := by
    constructor <;> norm_num at * <;> linarith [h.1, h.2]
  have h4 : (5:ℚ) ≤ lm.ln 200 ∧ lm.ln 200 < 6 := by
    constructor
    · have := h3.1; exact_mod_cast this
    · have := h3.2; exact_mod_cast this
  rw [F64.toI32_nonneg (by linarith [h4.1]) (by linarith [h4.2]), Int.floor_eq_iff]
  push_cast
  exact ⟨h4.1, by linarith [h4.2]⟩

theorem log10_one {lm : Libm} (hl : LibmOK lm) : lm.log10 1 = 0 := by
  have := hl.log10_pow 0 (by norm_num)
  simpa using this

theorem powLog_one {lm : Libm} (hl : LibmOK lm) (ds : List Int) (k : Int) : powLog lm 1 ds 0 k = 0 := by
  rw [powLog_eq]
  rw [show ((1:ℤ):ℚ) = 1 by norm_num, log10_one hl]
  have : F64.add 0 ((0 * 4 : ℤ) : ℚ) = 0 := by decide +kernel
  rw [this]
  unfold F64.mul
  rw [mul_zero]
  unfold F64.rnd
  rw [if_pos rfl]

/-- What the code computes for `1.9 ^ 200`. -/
def pow19 : Var := ⟨13, 16, .pos, [5632, 7462, 9479, 5642, 8267, 1221, 5861, 155, 783, 4098, 2232, 3210, 8596, 3511]⟩

theorem pow19_loop (d e : Bool) :
    (do
      let o ← @powLoop ⟨d, e⟩ 30 32 200 false base19 one
      match o with
      | some (r, false) => @roundCommon ⟨d, e⟩ r 16
      | _ => throw .oob : M Var) = .ok pow19 := by
  cases d <;> cases e <;> decide +kernel

/-- C32 (a defect): with a base that is not an integer the result can be wrong far above its last place. `1.9 ^ 200` is
delivered with 16 decimals, but is wrong by more than `10^24`: the size estimate that decides how many digits are kept
only looks at the first base-10000 digit of the base. -/
theorem C32_decimal_power_inaccurate [Build] {lm : Libm} (hl : LibmOK lm) (fuel : Nat) {a b : Bin} (ha : Holds a (19 / 10) 1)
    (hb : Holds b 200 0) :
    ∃ r y, Num.pow lm fuel a b = .ok (some r) ∧ Holds r y 16 ∧ 10 ^ 24 < |y - (19 / 10) ^ 200| := by
  obtain ⟨u, hu, hux, hus, -, -, va⟩ := ha.exists_var
  have : u = base19 := hu.unique base19_canonical (by rw [hux, base19_value]) (by rw [hus]; rfl)
  subst this
  obtain ⟨e, he, hex, -, -, -, vb⟩ := hb.exists_var
  have hpow : Var.pow lm fuel base19 e = .ok (some pow19) := by
    rw [(pow_checks lm fuel hu he).2.2 (fun h => by rw [hux] at h; norm_num at h) (fun _ => ⟨200, by rw [hex]; norm_num⟩),
      powerCommon_int lm fuel hu he (k := 200) (by rw [hex]; norm_num) ⟨by norm_num, by norm_num⟩]
    have hs : powerScale base19.dscale = 16 := by decide
    rw [hs]
    unfold powerInt
    rw [dassert_ok hu.not_nan]
    simp only [bind_ok]
    rw [if_neg (by norm_num), if_neg (by norm_num), if_neg (by norm_num), if_neg (by norm_num)]
    have hd : base19.digits = [1, 9000] := rfl
    have hw : base19.weight = 0 := rfl
    rw [hd]
    simp only
    rw [hw, fits_ok (by fits_tac), bind_ok, powLog_one hl]
    have ha : F64.add 0 1 = 1 := by decide +kernel
    rw [if_neg (by norm_num), ha, if_neg (by norm_num)]
    have h200 : |(200:ℤ)| = 200 := by norm_num
    rw [h200, i32_ok (by norm_num) (by norm_num)]
    simp only [bind_ok]
    have hsig : powSig lm 0 16 200 = .ok 30 := by
      unfold powSig
      have h0 : F64.toI32 0 = 0 := by decide +kernel
      rw [h0, if_neg (by norm_num), show ((200:ℤ):ℚ) = 200 by norm_num, ln200 hl, fits_ok (by fits_tac), bind_ok,
        i32_ok (by norm_num) (by norm_num), bind_ok, i32_ok (by norm_num) (by norm_num)]
      rfl
    simp only [hsig, bind_ok]
    have hl := pow19_loop Build.debug Build.bigEndianVarlen
    rw [show (decide ((200:ℤ) < 0)) = false by decide, if_neg (by norm_num)]
    change (do
      let o ← powLoop 30 32 200 false base19 one
      match o with
      | some (r, false) => roundCommon r 16
      | _ => throw .oob : M Var) = .ok pow19 at hl
    generalize powLoop 30 32 200 false base19 one = o at *
    match o, hl with
    | .ok (some (r, false)), hl =>
      simp only [bind_ok] at hl
      simp only [bind_ok, hl, pure_ok]
    | .ok none, hl => cases hl
    | .ok (some (r, true)), hl => cases hl
    | .error f, hl => cases hl
  have hval : value pow19 = 56327462947956428267122158610155078340982232321085963511 := by
    simp [value, mag, pow19]; norm_num
  have hok : AddOK pow19 16 56327462947956428267122158610155078340982232321085963511 :=
    ⟨by intro d hd; simp [pow19] at hd; omega, by simp [pow19], by simp [Stripped, pow19], rfl, hval⟩
  obtain ⟨r, er, hr⟩ := (pow_finish va vb hpow hok (by norm_num) (by norm_num) (by
    have := HasScale.int 56327462947956428267122158610155078340982232321085963511 (s := 16) (by norm_num)
    exact_mod_cast this)).1 (lt_of_lt_of_le (b := 10 ^ 100) (by norm_num [abs_lt]) (by
      unfold limit; exact pow_le_pow_right₀ (by norm_num) (by norm_num)))
  refine ⟨r, _, er, hr, ?_⟩
  rw [lt_abs]; right; norm_num

example [Build] : ∃ a b, Holds a (19 / 10) 1 ∧ Holds b 200 0 := by
  obtain ⟨a, ha⟩ := witness (x := 19/10) (s := 1) 19 (by norm_num) (by norm_num) (by norm_num) (by norm_num [abs_lt])
  obtain ⟨b, hb⟩ := witness (x := 200) (s := 0) 200 (by norm_num) (by norm_num) (by norm_num) (by norm_num [abs_lt])
  exact ⟨a, b, ha, hb⟩

/-- `1.0001` -/
def baseTiny : Var := ⟨0, 4, .pos, [1, 1]⟩

theorem baseTiny_canonical : Canonical baseTiny where
  not_nan := by simp [baseTiny]
  digits := by intro d hd; simp [baseTiny] at hd; subst hd; norm_num
  stripped := by simp [Stripped, baseTiny]
  weight_le := by simp [baseTiny]
  dscale_nonneg := by simp [baseTiny]
  dscale_le := by simp [baseTiny]
  scale := ⟨10001, by simp [value, mag, baseTiny]; norm_num⟩

theorem baseTiny_value : value baseTiny = 10001 / 10000 := by simp [value, mag, baseTiny]; norm_num

/-- C33 (a defect): the exponent `-2147483648` (`i32::MIN`). A debug build panics with an arithmetic overflow; a release
build returns 1 for `1.0001 ^ -2147483648`, whose value is below `10^-90000`. -/
theorem C33_min_exponent (d e : Bool) {lm : Libm} (hl : LibmOK lm) (fuel : Nat) {a b : Bin}
    (ha : @Holds ⟨d, e⟩ a (10001 / 10000) 4) (hb : @Holds ⟨d, e⟩ b (-2147483648) 0) :
    (d = true → @Num.pow ⟨d, e⟩ lm fuel a b = .error .overflow) ∧
    (d = false → ∃ r, @Num.pow ⟨d, e⟩ lm fuel a b = .ok (some r) ∧ @Holds ⟨d, e⟩ r 1 16) := by
  let _ : Build := ⟨d, e⟩
  obtain ⟨u, hu, hux, hus, -, -, va⟩ := ha.exists_var
  have : u = baseTiny := hu.unique baseTiny_canonical (by rw [hux, baseTiny_value]) (by rw [hus]; rfl)
  subst this
  obtain ⟨c, hc, hcx, -, -, -, vb⟩ := hb.exists_var
  have hpow : Var.pow lm fuel baseTiny c = (do
      let m ← i32 2147483648
      let sig ← powSig lm 0 16 m
      match ← powLoop sig 32 m true baseTiny (if m % 2 ≠ 0 then baseTiny else one) with
      | none => pure none
      | some (r, true) => do
        let q ← divFastCommon one r 16 true
        let q ← expect DIVIDE_BY_ZERO_MSG q
        pure (some q)
      | some (r, false) => do
        let r ← roundCommon r 16
        pure (some r)) := by
    rw [(pow_checks lm fuel hu hc).2.2 (fun h => by rw [hux] at h; norm_num at h) (fun _ => ⟨-2147483648, by rw [hcx]; norm_num⟩),
      powerCommon_int lm fuel hu hc (k := -2147483648) (by rw [hcx]; norm_num) ⟨by norm_num, by norm_num⟩]
    have hs : powerScale baseTiny.dscale = 16 := by decide
    rw [hs]
    unfold powerInt
    rw [dassert_ok hu.not_nan]
    simp only [bind_ok]
    rw [if_neg (by norm_num), if_neg (by norm_num), if_neg (by norm_num), if_neg (by norm_num)]
    have hd : baseTiny.digits = [1, 1] := rfl
    have hw : baseTiny.weight = 0 := rfl
    rw [hd]
    simp only
    rw [hw, fits_ok (by fits_tac), bind_ok, powLog_one hl]
    have ha : F64.add 0 1 = 1 := by decide +kernel
    rw [if_neg (by norm_num), ha, if_neg (by norm_num)]
    rw [show |(-2147483648:ℤ)| = 2147483648 by norm_num]
    rw [show (decide ((-2147483648:ℤ) < 0)) = true by decide]
    rfl
  constructor
  · rintro rfl
    refine pow_error va vb ?_
    rw [hpow]
    have : i32 2147483648 = .error .overflow := rfl
    rw [this]; rfl
  · rintro rfl
    have h1 : i32 2147483648 = .ok (-2147483648) := by
      show @i32 ⟨false, e⟩ _ = _
      cases e <;> decide +kernel
    have h2 : powSig lm 0 16 (-2147483648) = .ok 25 := by
      unfold powSig
      have h0 : F64.toI32 0 = 0 := by decide +kernel
      rw [h0, if_pos (by norm_num), fits_ok (by fits_tac), bind_ok, i32_ok (by norm_num) (by norm_num)]
      simp only [bind_ok]
      rw [i32_ok (by norm_num) (by norm_num)]
      rfl
    have h3 : powLoop 25 32 (-2147483648) true baseTiny one = .ok (some (one, true)) := rfl
    have h4 : divFastCommon one one 16 true = .ok (some { one with dscale := 16 }) := by
      show @divFastCommon ⟨false, e⟩ _ _ _ _ = _
      cases e <;> decide +kernel
    have hpow' : Var.pow lm fuel baseTiny c = .ok (some { one with dscale := 16 }) := by
      rw [hpow]
      simp only [h1, bind_ok, h2]
      rw [if_neg (by norm_num), h3]
      simp only [bind_ok, h4, expect, pure_ok]
    have hok := one_powOK.addOK 16
    push_cast at hok
    exact (pow_finish va vb hpow' hok (by norm_num) (by norm_num) ⟨10 ^ 16, by norm_num⟩).1 (lt_limit (by norm_num))

/-- The exact value of `1.0001 ^ -2147483648` is below `10^-90000`. -/
theorem C33_min_exponent_exact : ((10001 / 10000 : ℚ) ^ 2147483648)⁻¹ < (10 ^ 90000)⁻¹ := by
  refine inv_strictAnti₀ (by positivity) ?_
  -- (1 + 1/10000)^23864 ≥ 1 + 23864/10000 > ... > 10 by squaring
  have h1 : (10:ℚ) < (10001 / 10000) ^ 23100 := by
    have e : (10001 / 10000 : ℚ) ^ 23100 = ((10001 / 10000) ^ 231) ^ 100 := by rw [← pow_mul]
    rw [e]
    have h : (10233 / 10000 : ℚ) < (10001 / 10000) ^ 231 := by norm_num
    calc (10:ℚ) < (10233 / 10000) ^ 100 := by norm_num
      _ ≤ _ := pow_le_pow_left₀ (by norm_num) h.le 100
  calc (10:ℚ) ^ 90000 < ((10001 / 10000) ^ 23100) ^ 90000 := pow_lt_pow_left₀ h1 (by norm_num) (by norm_num)
    _ = (10001 / 10000) ^ (23100 * 90000) := (pow_mul _ _ _).symm
    _ ≤ (10001 / 10000) ^ 2147483648 := pow_le_pow_right₀ (by norm_num) (by norm_num)

end PgNumeric.Props
