import Verif.Proofs.PowInt
import Verif.Props.Power
import Verif.Proofs.LnWeight
/-!
# Integer powers of decimal numbers (C55)
-/
namespace PgNumeric.Props
open PgNumeric Spec Var

/-- `pow` with an integer exponent runs `power_int`. -/
theorem pow_int [Build] (lm : Libm) (fuel : Nat) {u e : Var} (hu : Canonical u) (he : Canonical e) {k : ℤ} (hk : value e = k)
    (hr : IsI32 k) (h0 : value u ≠ 0) : Var.pow lm fuel u e = powerInt lm u k (powerScale u.dscale) := by
  rw [(pow_checks lm fuel hu he).2.2 (fun h => h0 h.1) (fun _ => ⟨k, hk⟩)]
  exact powerCommon_int lm fuel hu he hk hr

theorem leadPart_pos {x : ℚ} {s : Int} [Build] {a : Bin} (ha : Holds a x s) (hx : x ≠ 0) :
    0 < leadPart x ∧ leadPart x ≤ |x| ∧ 1 ≤ leadDigit x ∧ leadDigit x < 10000 ∧
      |x| < ((leadDigit x : ℚ) + 1) * 10000 ^ leadWeight x := by
  obtain ⟨u, hu, rfl, rfl, -, -, va⟩ := ha.exists_var
  obtain ⟨d, ds, hd, d1, d2, hL1, hL2, hge, hlt⟩ := lead_facts hu hx
  have hB := B_zpow_pos u.weight
  have hdq : (1:ℚ) ≤ d := by exact_mod_cast d1
  unfold leadPart
  rw [hL1, hL2]
  refine ⟨?_, by exact_mod_cast hge, by omega, by omega, by exact_mod_cast hlt⟩
  push_cast
  positivity

/-- C55: a non-zero number raised to an integer `3 ≤ k < 2^31`, unless the power comes within one thousandth of the
largest representable number. The result has the scale of the base, at least 16 and at most 1000. Its error is half a
unit in the last place plus `(|x| / lead)^k / 40000` units, where `lead` is the leading part of the base; or the result
is zero, because the power of the leading part is negligible. -/
theorem C55_positive_power [Build] {lm : Libm} (hl : LibmOK lm) (fuel : Nat) {a b : Bin} {x : ℚ} {k : ℕ} {s t : Int}
    (ha : Holds a x s) (hb : Holds b k t) (hx : x ≠ 0) (hk1 : 3 ≤ k) (hk : k < 2 ^ 31)
    (hlim : |x ^ k| ≤ (1 - 1 / 10 ^ 3) * limit) :
    ∃ r y, Num.pow lm fuel a b = .ok (some r) ∧ Holds r y (powerScale s) ∧
      (|y - x ^ k| ≤ (1 / 2 + (|x| / leadPart x) ^ k / 40000) * 10 ^ (-powerScale s) ∨
        (y = 0 ∧ leadPart x ^ k ≤ 1 / 4 * 10 ^ (-powerScale s) ∧
          (k ≤ 10 ^ 8 → leadPart x ^ k ≤ 1 / 9 * 10 ^ (-powerScale s)))) := by
  have hlp := leadPart_pos ha hx
  obtain ⟨u, hu, rfl, rfl, -, -, va⟩ := ha.exists_var
  obtain ⟨c, hc, hcx, -, -, -, vb⟩ := hb.exists_var
  obtain ⟨p0, p1⟩ := powerScale_bounds hu.dscale_nonneg
  have hpow := pow_int lm fuel hu hc (k := k) (by rw [hcx]; norm_num) ⟨by omega, by omega⟩ hx
  have hL := limit_big
  have hL2 : (10:ℚ) ^ 40 ≤ limit := by unfold limit; exact pow_le_pow_right₀ (by norm_num) (by norm_num)
  rcases powerInt_pos hl hu hx hk1 hk (s := powerScale u.dscale) (by omega) (by omega) with
    ⟨v, ev, v1, v2, v3, v4, v5, v6, vl, v7, -, v8⟩ | ⟨h, -⟩
  · have hfin := (Num.finish_loose v1 v2 v3 rfl (by omega) (by omega) v4 v5 v6 vl).1 (by
      refine lt_of_le_of_lt v7 ?_
      generalize |value u ^ k| = X at *
      generalize limit = L at *
      norm_num at *
      linarith)
    obtain ⟨r, er, hr⟩ := hfin
    refine ⟨r, value v, ?_, hr, ?_⟩
    · rw [pow_unfold lm fuel va vb, hpow, ev]
      simp only [bind_ok, if_neg v2]
      exact er
    · rcases v8 with h | h
      · left
        refine h.trans (mul_le_mul_of_nonneg_right ?_ (T_zpow_pos _).le)
        have : 0 ≤ (|value u| / leadPart (value u)) ^ k := by
          have := hlp.1
          have := abs_nonneg (value u)
          positivity
        generalize (|value u| / leadPart (value u)) ^ k = R at *
        norm_num
        linarith
      · exact .inr h
  · exfalso
    generalize |value u ^ k| = X at *
    generalize limit = L at *
    norm_num at *
    linarith

/-- C55: a power beyond the largest representable number (by more than a thousandth) gives `None`. -/
theorem C55_positive_power_overflow [Build] {lm : Libm} (hl : LibmOK lm) (fuel : Nat) {a b : Bin} {x : ℚ} {k : ℕ} {s t : Int}
    (ha : Holds a x s) (hb : Holds b k t) (hk1 : 3 ≤ k) (hk : k < 2 ^ 31)
    (hlim : (1 + 1 / 10 ^ 3) * limit ≤ |x ^ k|) : Num.pow lm fuel a b = .ok none := by
  have hL2 : (10:ℚ) ^ 40 ≤ limit := by unfold limit; exact pow_le_pow_right₀ (by norm_num) (by norm_num)
  have hx : x ≠ 0 := by
    rintro rfl
    rw [zero_pow (by omega), abs_zero] at hlim
    generalize limit = L at *
    norm_num at *
    linarith
  obtain ⟨u, hu, rfl, rfl, -, -, va⟩ := ha.exists_var
  obtain ⟨c, hc, hcx, -, -, -, vb⟩ := hb.exists_var
  obtain ⟨p0, p1⟩ := powerScale_bounds hu.dscale_nonneg
  have hpow := pow_int lm fuel hu hc (k := k) (by rw [hcx]; norm_num) ⟨by omega, by omega⟩ hx
  rcases powerInt_pos hl hu hx hk1 hk (s := powerScale u.dscale) (by omega) (by omega) with
    ⟨v, ev, v1, v2, v3, v4, v5, v6, vl, -, v7, -⟩ | ⟨-, h⟩
  · have hfin := (Num.finish_loose v1 v2 v3 rfl (by omega) (by omega) v4 v5 v6 vl).2 (by
      refine le_trans ?_ v7
      generalize |value u ^ k| = X at *
      generalize limit = L at *
      norm_num at *
      linarith)
    rw [pow_unfold lm fuel va vb, hpow, ev]
    simp only [bind_ok, if_neg v2]
    exact hfin
  · exact pow_none va vb (hpow.trans h)

/-- C55: when the exponent does not exceed the leading group of four digits of the base (1234.5^1000, say), the result is
within 0.501 units of its last place. -/
theorem C55_small_exponent [Build] {lm : Libm} (hl : LibmOK lm) (fuel : Nat) {a b : Bin} {x : ℚ} {k : ℕ} {s t : Int}
    (ha : Holds a x s) (hb : Holds b k t) (hx : x ≠ 0) (hk1 : 3 ≤ k) (hk : (k:ℤ) ≤ leadDigit x)
    (hlim : |x ^ k| ≤ (1 - 1 / 10 ^ 3) * limit) :
    ∃ r y, Num.pow lm fuel a b = .ok (some r) ∧ Holds r y (powerScale s) ∧
      |y - x ^ k| ≤ (1 / 2 + 1 / 10 ^ 3) * 10 ^ (-powerScale s) := by
  obtain ⟨l0, l1, l2, l3, l4⟩ := leadPart_pos ha hx
  obtain ⟨r, y, e, h, hy⟩ := C55_positive_power hl fuel ha hb hx hk1 (by omega) hlim
  refine ⟨r, y, e, h, ?_⟩
  have hT := T_zpow_pos (-powerScale s)
  have hρ1 : |x| / leadPart x ≤ 1 + 1 / leadDigit x := by
    rw [div_le_iff₀ l0]
    unfold leadPart
    have : (0:ℚ) < leadDigit x := by exact_mod_cast (by omega : 0 < leadDigit x)
    have : (1 + 1 / (leadDigit x : ℚ)) * (leadDigit x * 10000 ^ leadWeight x) = (leadDigit x + 1) * 10000 ^ leadWeight x := by
      field_simp
    rw [this]
    exact l4.le
  have hρ : (|x| / leadPart x) ^ k ≤ 3 := by
    have hd : (0:ℝ) < leadDigit x := by exact_mod_cast (by omega : 0 < leadDigit x)
    have h1 : (((|x| / leadPart x : ℚ)) : ℝ) ≤ Real.exp (1 / leadDigit x) := by
      have h2 := castR hρ1
      have h3 := Real.add_one_le_exp (1 / (leadDigit x : ℝ))
      push_cast at h2 ⊢
      linarith
    have h0 : (0:ℝ) ≤ ((|x| / leadPart x : ℚ) : ℝ) := by
      have : 0 ≤ |x| / leadPart x := div_nonneg (abs_nonneg _) l0.le
      exact_mod_cast this
    have h4 : ((|x| / leadPart x : ℚ) : ℝ) ^ k ≤ 3 := by
      calc ((|x| / leadPart x : ℚ) : ℝ) ^ k ≤ Real.exp (1 / leadDigit x) ^ k := pow_le_pow_left₀ h0 h1 k
        _ = Real.exp (k * (1 / leadDigit x)) := by rw [← Real.exp_nat_mul]
        _ ≤ Real.exp 1 := by
          refine Real.exp_le_exp.2 ?_
          rw [mul_one_div, div_le_one hd]
          exact_mod_cast hk
        _ ≤ 3 := by have := Real.exp_one_lt_d9; linarith
    exact_mod_cast h4
  rcases hy with hy | ⟨rfl, -, hy⟩
  · refine hy.trans (mul_le_mul_of_nonneg_right ?_ hT.le)
    generalize (|x| / leadPart x) ^ k = R at *
    norm_num
    linarith
  · have h9 := hy (by omega)
    have hX : |x ^ k| = (|x| / leadPart x) ^ k * leadPart x ^ k := by
      rw [← mul_pow, div_mul_cancel₀ _ l0.ne', abs_pow]
    rw [zero_sub, abs_neg, hX]
    have hP : 0 < leadPart x ^ k := pow_pos l0 k
    generalize (|x| / leadPart x) ^ k = R at *
    generalize leadPart x ^ k = P at *
    have : R * P ≤ 3 * (1 / 9 * 10 ^ (-powerScale s)) := mul_le_mul hρ h9 hP.le (by norm_num)
    generalize (10:ℚ) ^ (-powerScale s) = T at *
    norm_num at *
    linarith

/-- C55: when the base is a single group of four digits (0.5, 12, 0.00007, 1500000, say), the result is within 0.501 units
of its last place for every exponent. -/
theorem C55_single_group [Build] {lm : Libm} (hl : LibmOK lm) (fuel : Nat) {a b : Bin} {x : ℚ} {k : ℕ} {s t : Int}
    (ha : Holds a x s) (hb : Holds b k t) (hx : x ≠ 0) (hk1 : 3 ≤ k) (hk : k < 2 ^ 31) (hg : |x| = leadPart x)
    (hlim : |x ^ k| ≤ (1 - 1 / 10 ^ 3) * limit) :
    ∃ r y, Num.pow lm fuel a b = .ok (some r) ∧ Holds r y (powerScale s) ∧
      |y - x ^ k| ≤ (1 / 2 + 1 / 10 ^ 3) * 10 ^ (-powerScale s) := by
  obtain ⟨l0, l1, l2, l3, l4⟩ := leadPart_pos ha hx
  obtain ⟨r, y, e, h, hy⟩ := C55_positive_power hl fuel ha hb hx hk1 (by omega) hlim
  refine ⟨r, y, e, h, ?_⟩
  have hT := T_zpow_pos (-powerScale s)
  rw [hg, div_self l0.ne', one_pow] at hy
  rcases hy with hy | ⟨rfl, hy, -⟩
  · exact hy.trans (mul_le_mul_of_nonneg_right (by norm_num) hT.le)
  · rw [zero_sub, abs_neg, abs_pow, hg]
    exact hy.trans (mul_le_mul_of_nonneg_right (by norm_num) hT.le)

/-- C55: for a base of magnitude at least one, the error in units of the last place is at most one half plus the power
divided by 40000: at least as many significant digits are correct as the scale says, and four more. -/
theorem C55_base_ge_one [Build] {lm : Libm} (hl : LibmOK lm) (fuel : Nat) {a b : Bin} {x : ℚ} {k : ℕ} {s t : Int}
    (ha : Holds a x s) (hb : Holds b k t) (hx : 1 ≤ |x|) (hk1 : 3 ≤ k) (hk : k < 2 ^ 31)
    (hlim : |x ^ k| ≤ (1 - 1 / 10 ^ 3) * limit) :
    ∃ r y, Num.pow lm fuel a b = .ok (some r) ∧ Holds r y (powerScale s) ∧
      |y - x ^ k| ≤ (1 / 2 + |x ^ k| / 40000) * 10 ^ (-powerScale s) := by
  have hx0 : x ≠ 0 := by rintro rfl; norm_num at hx
  obtain ⟨l0, l1, l2, l3, l4⟩ := leadPart_pos ha hx0
  obtain ⟨r, y, e, h, hy⟩ := C55_positive_power hl fuel ha hb hx0 hk1 (by omega) hlim
  refine ⟨r, y, e, h, ?_⟩
  have hT := T_zpow_pos (-powerScale s)
  have hw : 0 ≤ leadWeight x := by
    by_contra hc
    have h1 : (10000:ℚ) ^ leadWeight x ≤ 10000 ^ (-1:ℤ) := B_zpow_le_iff.2 (by omega)
    have h2 : (leadDigit x : ℚ) + 1 ≤ 10000 := by exact_mod_cast (by omega : leadDigit x + 1 ≤ 10000)
    have : ((leadDigit x : ℚ) + 1) * 10000 ^ leadWeight x ≤ 10000 * 10000 ^ (-1:ℤ) :=
      mul_le_mul h2 h1 (B_zpow_pos _).le (by norm_num)
    norm_num at this
    linarith
  have hl1 : 1 ≤ leadPart x := by
    unfold leadPart
    have h1 : (1:ℚ) ≤ leadDigit x := by exact_mod_cast l2
    have h2 : (1:ℚ) ≤ 10000 ^ leadWeight x := one_le_zpow₀ (by norm_num) hw
    nlinarith
  have hP : 1 ≤ leadPart x ^ k := one_le_pow₀ hl1
  rcases hy with hy | ⟨-, hy, -⟩
  · refine hy.trans (mul_le_mul_of_nonneg_right ?_ hT.le)
    have : (|x| / leadPart x) ^ k ≤ |x ^ k| := by
      rw [div_pow, abs_pow]
      exact div_le_self (by positivity) hP
    linarith
  · exfalso
    have hq := (powerScale_bounds (s := s) (by obtain ⟨u, hu, -, rfl, -⟩ := ha.exists_var; exact hu.dscale_nonneg)).1
    have : (10:ℚ) ^ (-powerScale s) ≤ 10 ^ (0:ℤ) := T_zpow_le_iff.2 (by omega)
    rw [zpow_zero] at this
    linarith

/-- C55: a non-zero number raised to `-k`, `2 ≤ k < 2^31`: the result is within 0.5001 units of its last place of the exact
power, whatever the base. `None` is returned only if the power reaches the largest representable number; a debug build may
stop on an arithmetic overflow in the division, but only if the power has over 52 digits at its scale. -/
theorem C55_negative_power [Build] {lm : Libm} (hl : LibmOK lm) (fuel : Nat) {a b : Bin} {x : ℚ} {k : ℕ} {s t : Int}
    (ha : Holds a x s) (hb : Holds b (-(k:ℚ)) t) (hx : x ≠ 0) (hk1 : 2 ≤ k) (hk : k < 2 ^ 31) :
    (∃ r y, Num.pow lm fuel a b = .ok (some r) ∧ Holds r y (powerScale s) ∧
      |y - (x ^ k)⁻¹| ≤ (1 / 2 + 1 / 10 ^ 4) * 10 ^ (-powerScale s)) ∨
    (limit - 1 ≤ |(x ^ k)⁻¹| ∧ Num.pow lm fuel a b = .ok none) ∨
    (Build.debug = true ∧ |x ^ k| < 10 ^ (powerScale s - 52) ∧ Num.pow lm fuel a b = .error .overflow) := by
  obtain ⟨u, hu, rfl, rfl, -, -, va⟩ := ha.exists_var
  obtain ⟨c, hc, hcx, -, -, -, vb⟩ := hb.exists_var
  obtain ⟨p0, p1⟩ := powerScale_bounds hu.dscale_nonneg
  have hpow := pow_int lm fuel hu hc (k := -k) (by rw [hcx]; push_cast; rfl) ⟨by omega, by omega⟩ hx
  rcases powerInt_negdec hl hu hx hk1 hk (s := powerScale u.dscale) (by omega) (by omega) with
    ⟨v, y, ev, hv, hsc, hy⟩ | ⟨h, ev⟩ | ⟨hd, hlong, ev⟩
  · have hf := pow_finish va vb (hpow.trans ev) hv (by omega) (by omega) hsc
    by_cases hlim : |y| < limit
    · obtain ⟨r, er, hr⟩ := hf.1 hlim
      exact .inl ⟨r, y, er, hr, hy⟩
    · refine .inr (.inl ⟨?_, hf.2 (not_lt.1 hlim)⟩)
      have h2 : (10:ℚ) ^ (-powerScale u.dscale) ≤ 1 := zpow_le_one_of_nonpos₀ (by norm_num) (by omega)
      have h3 := abs_sub_abs_le_abs_sub y ((value u ^ k)⁻¹)
      have h4 := T_zpow_pos (-powerScale u.dscale)
      generalize (10:ℚ) ^ (-powerScale u.dscale) = T at *
      have : (1 / 2 + 1 / 10 ^ 4) * T ≤ 1 * 1 := mul_le_mul (by norm_num) h2 h4.le (by norm_num)
      push Not at hlim
      linarith
  · exact .inr (.inl ⟨by linarith, pow_none va vb (hpow.trans ev)⟩)
  · exact .inr (.inr ⟨hd, hlong, pow_error va vb (hpow.trans ev)⟩)

/-- C55: the square. It is correctly rounded for bases of up to 12 decimals, and in general within `1/2 + n/10000` units of the last
place, `n` the number of base-10000 digits of the base. -/
theorem C55_square [Build] (lm : Libm) (fuel : Nat) {a b : Bin} {x : ℚ} {s t : Int} (ha : Holds a x s) (hb : Holds b 2 t)
    (hx : x ≠ 0) :
    ∃ y, |y - x ^ 2| ≤ (1 / 2 + ((leadWeight x + 1 + (s + 3) / 4 : ℤ) : ℚ) / 10 ^ 4) * 10 ^ (-powerScale s) ∧
      (s ≤ 12 → y = roundHalfAway (x ^ 2) (powerScale s)) ∧
      (|y| < limit → ∃ r, Num.pow lm fuel a b = .ok (some r) ∧ Holds r y (powerScale s)) ∧
      (limit ≤ |y| → Num.pow lm fuel a b = .ok none) := by
  obtain ⟨u, hu, rfl, rfl, -, -, va⟩ := ha.exists_var
  obtain ⟨c, hc, hcx, -, -, -, vb⟩ := hb.exists_var
  obtain ⟨p0, p1⟩ := powerScale_bounds hu.dscale_nonneg
  have hpow := pow_int lm fuel hu hc (k := 2) (by rw [hcx]; norm_num) ⟨by omega, by omega⟩ hx
  obtain ⟨d, ds, hd, d1, d2, hL1, hL2, hge, hlt⟩ := lead_facts hu hx
  have hne : u.digits ≠ [] := by rw [hd]; simp
  have hlen := stripped_len hu.digits hu.stripped hne hu.scale
  obtain ⟨w, ew, hw⟩ := mulCommon_spec u u hu.small hu.small (powerScale u.dscale) (by omega) hu.digits hu.digits hu.not_nan hu.not_nan (by omega) (.inl (by omega))
  obtain ⟨y, hy, hex, herr⟩ := hw.round
  have e2 : powerInt lm u 2 (powerScale u.dscale) = .ok (some w) := by
    unfold powerInt
    rw [dassert_ok hu.not_nan]
    simp only [bind_ok]
    rw [if_neg (by omega), if_neg (by omega), if_neg (by omega), if_pos trivial]
    simp only [ew, bind_ok, pure_ok]
  have hT := T_zpow_pos (-powerScale u.dscale)
  refine ⟨value w, ?_, fun hs => ?_, pow_finish va vb (hpow.trans e2) ⟨hw.digits, hw.not_nan, hw.stripped, hw.dscale, rfl⟩
    (by omega) (by omega) (by rw [hy]; exact roundHalfAway_hasScale _ _)⟩
  · rw [hL2, hy, pow_two]
    have h1 := roundHalfAway_err y (powerScale u.dscale)
    have h2 := abs_sub_le (roundHalfAway y (powerScale u.dscale)) y (value u * value u)
    rw [abs_sub_comm y] at h2
    have h3 : ((min u.digits.length u.digits.length : ℕ) : ℚ) ≤ ((u.weight + 1 + (u.dscale + 3) / 4 : ℤ) : ℚ) := by
      rw [min_self]
      have : ((u.digits.length : ℕ) : ℤ) ≤ u.weight + 1 + (u.dscale + 3) / 4 := by simp only [ndigits] at hlen; omega
      exact_mod_cast this
    generalize ((min u.digits.length u.digits.length : ℕ) : ℚ) = N at *
    generalize ((u.weight + 1 + (u.dscale + 3) / 4 : ℤ) : ℚ) = M at *
    generalize (10:ℚ) ^ (-powerScale u.dscale) = T at *
    have h4 : N * (1 / 10000) * T ≤ M / 10 ^ 4 * T := mul_le_mul_of_nonneg_right (by norm_num; linarith) hT.le
    linarith
  · rw [hy, hex (by omega), pow_two]

/-- `0.99995` -/
def base99 : Var := ⟨-1, 5, .pos, [9999, 5000]⟩

theorem base99_canonical : Canonical base99 where
  not_nan := by simp [base99]
  digits := by intro d hd; simp [base99] at hd; omega
  stripped := by simp [Stripped, base99]
  weight_le := by simp [base99]
  dscale_nonneg := by simp [base99]
  dscale_le := by simp [base99]
  scale := ⟨99995, by simp [value, mag, base99]; norm_num⟩

theorem base99_value : value base99 = 99995 / 100000 := by simp [value, mag, base99]; norm_num

/-- C55 (a defect): `0.99995 ^ 500000` is computed as zero, although it exceeds `10^-12`, ten thousand units of the last place of
the result: the size estimate only looks at the first base-10000 digit, 9999, of the base. -/
theorem C55_small_base_zero [Build] {lm : Libm} (hl : LibmOK lm) (fuel : Nat) {a b : Bin} (ha : Holds a (99995 / 100000) 5)
    (hb : Holds b 500000 0) :
    ∃ r, Num.pow lm fuel a b = .ok (some r) ∧ Holds r 0 16 ∧ (10:ℚ) ^ (-12:ℤ) < (99995 / 100000) ^ 500000 := by
  obtain ⟨u, hu, hux, hus, -, -, va⟩ := ha.exists_var
  have : u = base99 := hu.unique base99_canonical (by rw [hux, base99_value]) (by rw [hus]; rfl)
  subst this
  obtain ⟨c, hc, hcx, -, -, -, vb⟩ := hb.exists_var
  have hpow := pow_int lm fuel hu hc (k := 500000) (by rw [hcx]; norm_num) ⟨by omega, by omega⟩ (by rw [hux]; norm_num)
  have hs : powerScale base99.dscale = 16 := by decide
  rw [hs] at hpow
  have hp : powerInt lm base99 500000 16 = .ok (some ⟨0, 16, .pos, []⟩) := by
    unfold powerInt
    rw [dassert_ok hu.not_nan]
    simp only [bind_ok]
    rw [if_neg (by norm_num), if_neg (by norm_num), if_neg (by norm_num), if_neg (by norm_num)]
    have hd : base99.digits = [9999, 5000] := rfl
    have hw : base99.weight = -1 := rfl
    rw [hd, hw]
    simp only
    rw [fits_ok (by fits_tac), bind_ok]
    have e1 := (powLog_use hl (d := 9999) (by norm_num) (by norm_num) [5000] (w := -1) (by norm_num) (e := 500000) (k := 500000)
      (by norm_num) (by norm_num)).1
    rw [show (((9999:ℕ):ℤ)) = 9999 from rfl] at e1
    generalize powLog lm 9999 [5000] (-1) 500000 = f at *
    have hlog : Real.logb 10 ((9999:ℕ):ℝ) + 4 * ((-1:ℤ):ℝ) ≤ -(4 / 10 ^ 5) := by
      have h1 : Real.logb 10 ((9999:ℕ):ℝ) + 4 * ((-1:ℤ):ℝ) = Real.log (9999 / 10000) / Real.log 10 := by
        rw [Real.log_div (by norm_num) (by norm_num), sub_div, show (10000:ℝ) = 10 ^ 4 by norm_num, Real.log_pow]
        have : Real.log 10 ≠ 0 := by have := log_ten_bounds.1; intro h; rw [h] at this; norm_num at this
        field_simp
        rw [Real.logb]
        push_cast
        field_simp
        ring
      rw [h1, div_le_iff₀ (by have := log_ten_bounds.1; linarith)]
      have h2 := Real.log_le_sub_one_of_pos (by norm_num : (0:ℝ) < 9999 / 10000)
      have := log_ten_bounds.2.1
      norm_num at h2 ⊢
      linarith
    have hf : (f:ℝ) ≤ -19 := by
      rw [abs_le] at e1
      push_cast at e1 hlog
      norm_num at e1 hlog
      linarith [e1.2]
    have hfq : f ≤ -19 := by
      have : (f:ℝ) ≤ ((-19:ℚ):ℝ) := by push_cast; exact hf
      exact_mod_cast this
    have hadd : F64.add f 1 < ((-16:ℤ):ℚ) := by
      have := F64.rnd_err (f + 1)
      have hu1 := F64.u_small
      have h3 : |f + 1| = -(f + 1) := abs_of_neg (by linarith)
      rw [h3, abs_le] at this
      unfold F64.add
      have h4 : F64.u * (-(f + 1)) ≤ 1 / 100 * (-(f + 1)) := mul_le_mul_of_nonneg_right (le_trans hu1 (by norm_num)) (by linarith)
      push_cast
      linarith [this.2]
    rw [if_neg (by linarith), if_pos (.inl hadd)]
    simp only [zeroScaled_ok (s := 16) (by norm_num) (by norm_num), bind_ok, pure_ok]
  obtain ⟨r, er, hr⟩ := (pow_finish va vb (hpow.trans hp) AddOK.zero (by norm_num) (by norm_num) ⟨0, by simp⟩).1 (lt_limit (by norm_num))
  refine ⟨r, er, hr, ?_⟩
  have h1 : ((100000 / 99995 : ℝ)) ^ 500000 < 10 ^ 12 := by
    have h2 : (100000 / 99995 : ℝ) ≤ Real.exp (1 / 19999) := by
      have := Real.add_one_le_exp (1 / 19999 : ℝ)
      norm_num at this ⊢
      linarith
    have h3 := Real.exp_one_lt_d9
    calc ((100000 / 99995 : ℝ)) ^ 500000 ≤ Real.exp (1 / 19999) ^ 500000 := pow_le_pow_left₀ (by norm_num) h2 _
      _ = Real.exp (500000 / 19999) := by rw [← Real.exp_nat_mul]; norm_num
      _ ≤ Real.exp 26 := Real.exp_le_exp.2 (by norm_num)
      _ = Real.exp 1 ^ 26 := by rw [← Real.exp_nat_mul]; norm_num
      _ ≤ 2.7182818286 ^ 26 := pow_le_pow_left₀ (Real.exp_pos _).le h3.le _
      _ < 10 ^ 12 := by norm_num
  have h4 : ((100000 / 99995 : ℚ)) ^ 500000 < 10 ^ 12 := by
    have : (((100000 / 99995 : ℚ) ^ 500000 : ℚ) : ℝ) < ((10 ^ 12 : ℚ) : ℝ) := by
      rw [Rat.cast_pow, Rat.cast_pow]
      simpa using h1
    exact_mod_cast this
  have h5 : ((99995 / 100000 : ℚ)) ^ 500000 = (((100000 / 99995 : ℚ)) ^ 500000)⁻¹ := by
    rw [← inv_pow]
    congr 1
    norm_num
  rw [h5, zpow_neg]
  refine inv_strictAnti₀ (pow_pos (by norm_num) _) ?_
  exact_mod_cast h4

example [Build] : ∃ a b, Holds a (99995 / 100000) 5 ∧ Holds b 500000 0 := by
  obtain ⟨a, ha⟩ := witness (x := 99995 / 100000) (s := 5) 99995 (by norm_num) (by norm_num) (by norm_num) (by norm_num [abs_lt])
  obtain ⟨b, hb⟩ := witness (x := 500000) (s := 0) 500000 (by norm_num) (by norm_num) (by norm_num) (by norm_num [abs_lt])
  exact ⟨a, b, ha, hb⟩

/-! ## The hypotheses are met -/

/-- From a group and its place to the leading part. -/
theorem lead_of {x : ℚ} {d w : ℤ} (h0 : 0 < d) (h2 : d < 10000) (h3 : (d:ℚ) * 10000 ^ w ≤ |x|) (h4 : |x| < (d + 1) * 10000 ^ w) :
    leadDigit x = d ∧ leadPart x = d * 10000 ^ w := by
  have hB := B_zpow_pos w
  have hw : leadWeight x = w := by
    unfold leadWeight
    have hx : 0 < |x| := lt_of_lt_of_le (by have : (0:ℚ) < d := by exact_mod_cast h0
                                            positivity) h3
    refine le_antisymm ?_ ?_
    · rw [← Int.lt_add_one_iff, ← Int.lt_zpow_iff_log_lt (by norm_num) hx]
      refine h4.trans_le ?_
      push_cast
      rw [zpow_add_one₀ (by norm_num), mul_comm]
      refine mul_le_mul_of_nonneg_left ?_ hB.le
      have : ((d + 1 : ℤ) : ℚ) ≤ ((10000 : ℤ) : ℚ) := by exact_mod_cast (by omega : d + 1 ≤ 10000)
      push_cast at this
      exact this
    · rw [← Int.zpow_le_iff_le_log (by norm_num) hx]
      refine le_trans ?_ h3
      push_cast
      have : (1:ℚ) ≤ d := by exact_mod_cast h0
      nlinarith
  have hd : leadDigit x = d := by
    unfold leadDigit
    rw [hw, Int.floor_eq_iff, le_div_iff₀ hB, div_lt_iff₀ hB]
    exact ⟨h3, h4⟩
  exact ⟨hd, by unfold leadPart; rw [hd, hw]⟩

theorem small_lim {x : ℚ} (h : |x| ≤ 10 ^ 40) : |x| ≤ (1 - 1 / 10 ^ 3) * limit := by
  have hL2 : (10:ℚ) ^ 41 ≤ limit := by unfold limit; exact pow_le_pow_right₀ (by norm_num) (by norm_num)
  generalize limit = L at *
  norm_num at *
  linarith

/-- 1234.56789^7: the exponent is below the leading group 1234. -/
example [Build] {lm : Libm} (hl : LibmOK lm) : ∃ a b r y, Holds a (123456789 / 100000) 5 ∧ Holds b ((7:ℕ):ℚ) 0 ∧
    Num.pow lm 0 a b = .ok (some r) ∧ Holds r y 16 ∧ |y - (123456789 / 100000) ^ 7| ≤ (1 / 2 + 1 / 10 ^ 3) * 10 ^ (-16:ℤ) := by
  obtain ⟨a, ha⟩ := witness (x := 123456789 / 100000) (s := 5) 123456789 (by norm_num) (by norm_num) (by norm_num) (by norm_num [abs_lt])
  obtain ⟨b, hb⟩ := witness (x := ((7:ℕ):ℚ)) (s := 0) 7 (by norm_num) (by norm_num) (by norm_num) (by norm_num [abs_lt])
  obtain ⟨hd, -⟩ := lead_of (x := 123456789 / 100000) (d := 1234) (w := 0) (by norm_num) (by norm_num)
    (by norm_num [le_abs]) (by norm_num [abs_lt])
  obtain ⟨r, y, e, h, hy⟩ := C55_small_exponent hl 0 ha hb (by norm_num) (by norm_num) (by rw [hd]; norm_num)
    (small_lim (by norm_num [abs_le]))
  exact ⟨a, b, r, y, ha, hb, e, h, hy⟩

/-- (-0.0125)^9 is a single group; its exponent is unrestricted. -/
example [Build] {lm : Libm} (hl : LibmOK lm) : ∃ a b r y, Holds a (-125 / 10000) 4 ∧ Holds b ((9:ℕ):ℚ) 0 ∧
    Num.pow lm 0 a b = .ok (some r) ∧ Holds r y 16 ∧ |y - (-125 / 10000) ^ 9| ≤ (1 / 2 + 1 / 10 ^ 3) * 10 ^ (-16:ℤ) := by
  obtain ⟨a, ha⟩ := witness (x := -125 / 10000) (s := 4) (-125) (by norm_num) (by norm_num) (by norm_num) (by norm_num [abs_lt])
  obtain ⟨b, hb⟩ := witness (x := ((9:ℕ):ℚ)) (s := 0) 9 (by norm_num) (by norm_num) (by norm_num) (by norm_num [abs_lt])
  obtain ⟨-, hd⟩ := lead_of (x := -125 / 10000) (d := 125) (w := -1) (by norm_num) (by norm_num)
    (by norm_num [abs_of_neg]) (by norm_num [abs_of_neg])
  obtain ⟨r, y, e, h, hy⟩ := C55_single_group hl 0 ha hb (by norm_num) (by norm_num) (by norm_num) (by rw [hd]; norm_num [abs_of_neg])
    (small_lim (by norm_num [abs_le]))
  exact ⟨a, b, r, y, ha, hb, e, h, hy⟩

/-- 1.9^100, inaccurate but within the general bound. -/
example [Build] {lm : Libm} (hl : LibmOK lm) : ∃ a b r y, Holds a (19 / 10) 1 ∧ Holds b ((100:ℕ):ℚ) 0 ∧
    Num.pow lm 0 a b = .ok (some r) ∧ Holds r y 16 ∧ |y - (19 / 10) ^ 100| ≤ (1 / 2 + |(19 / 10) ^ 100| / 40000) * 10 ^ (-16:ℤ) := by
  obtain ⟨a, ha⟩ := witness (x := 19 / 10) (s := 1) 19 (by norm_num) (by norm_num) (by norm_num) (by norm_num [abs_lt])
  obtain ⟨b, hb⟩ := witness (x := ((100:ℕ):ℚ)) (s := 0) 100 (by norm_num) (by norm_num) (by norm_num) (by norm_num [abs_lt])
  obtain ⟨r, y, e, h, hy⟩ := C55_base_ge_one hl 0 ha hb (by norm_num [le_abs]) (by norm_num) (by norm_num) (small_lim (by norm_num [abs_le]))
  exact ⟨a, b, r, y, ha, hb, e, h, hy⟩

/-- 12.5^-9 in a release build. -/
example (e : Bool) {lm : Libm} (hl : LibmOK lm) : ∃ a b r y, @Holds ⟨false, e⟩ a (25 / 2) 1 ∧ @Holds ⟨false, e⟩ b (-((9:ℕ):ℚ)) 0 ∧
    @Num.pow ⟨false, e⟩ lm 0 a b = .ok (some r) ∧ @Holds ⟨false, e⟩ r y 16 ∧
    |y - ((25 / 2) ^ 9)⁻¹| ≤ (1 / 2 + 1 / 10 ^ 4) * 10 ^ (-16:ℤ) := by
  let _ : Build := ⟨false, e⟩
  obtain ⟨a, ha⟩ := witness (x := 25 / 2) (s := 1) 125 (by norm_num) (by norm_num) (by norm_num) (by norm_num [abs_lt])
  obtain ⟨b, hb⟩ := witness (x := -((9:ℕ):ℚ)) (s := 0) (-9) (by norm_num) (by norm_num) (by norm_num) (by norm_num [abs_lt])
  rcases C55_negative_power hl 0 ha hb (by norm_num) (by norm_num) (by norm_num) with ⟨r, y, e, h, hy⟩ | ⟨h, -⟩ | ⟨h, -⟩
  · exact ⟨a, b, r, y, ha, hb, e, h, hy⟩
  · exfalso
    have hL2 : (10:ℚ) ^ 40 ≤ limit := by unfold limit; exact pow_le_pow_right₀ (by norm_num) (by norm_num)
    rw [abs_of_pos (by positivity)] at h
    generalize limit = L at *
    norm_num at *
    linarith
  · exact absurd (show false = true from h) (by decide)

/-- A power that overflows: (12.5)^2000000. -/
example : (1 + 1 / 10 ^ 3) * limit ≤ |(25 / 2 : ℚ) ^ 2000000| := by
  unfold limit
  rw [abs_of_pos (pow_pos (by norm_num) _)]
  have h1 : (10:ℚ) ^ 131073 ≤ 10 ^ 2000000 := pow_le_pow_right₀ (by norm_num) (by norm_num)
  have h2 : (10:ℚ) ^ 2000000 ≤ (25 / 2) ^ 2000000 := pow_le_pow_left₀ (by norm_num) (by norm_num) _
  rw [pow_succ] at h1
  have h3 : (0:ℚ) < 10 ^ 131072 := pow_pos (by norm_num) _
  generalize (10:ℚ) ^ 131072 = L at *
  generalize (10:ℚ) ^ 2000000 = M at *
  generalize (25 / 2:ℚ) ^ 2000000 = N at *
  norm_num
  linarith

/-- 1.5^2 = 2.25 exactly. -/
example [Build] {lm : Libm} : ∃ a b r, Holds a (3 / 2) 1 ∧ Holds b 2 0 ∧ Num.pow lm 0 a b = .ok (some r) ∧ Holds r (9 / 4) 16 := by
  obtain ⟨a, ha⟩ := witness (x := 3 / 2) (s := 1) 15 (by norm_num) (by norm_num) (by norm_num) (by norm_num [abs_lt])
  obtain ⟨b, hb⟩ := witness (x := 2) (s := 0) 2 (by norm_num) (by norm_num) (by norm_num) (by norm_num [abs_lt])
  obtain ⟨y, -, h1, h2, -⟩ := C55_square lm 0 ha hb (by norm_num)
  have hy : y = 9 / 4 := by
    rw [h1 (by norm_num)]
    have : HasScale ((3 / 2 : ℚ) ^ 2) (powerScale 1) := ⟨225 * 10 ^ 14, by norm_num [powerScale]⟩
    rw [show roundHalfAway ((3 / 2 : ℚ) ^ 2) (powerScale 1) = (3 / 2) ^ 2 from rmag_eq_self_iff this]
    norm_num
  rw [hy] at h2
  obtain ⟨r, er, hr⟩ := h2 (lt_limit (by norm_num [abs_lt]))
  exact ⟨a, b, r, ha, hb, er, hr⟩

end PgNumeric.Props
