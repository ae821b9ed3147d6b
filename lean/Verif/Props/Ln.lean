import Verif.Props.Log
import Verif.Proofs.LogAcc
/-!
# Accuracy of the natural logarithm (C49)
-/
namespace PgNumeric.Props
open PgNumeric Spec Var

/-- A computed logarithm is far from the limit of the format. -/
theorem ln_lim {u v : Var} (hp : PosVar u) {t : ℤ} (ht0 : 0 ≤ t) (ht1 : t ≤ 1000)
    (hacc : |(value v : ℝ) - Real.log (value u)| ≤ (1 / 2 + (t + 10) * lnFactor (value u) / 10 ^ 8) * 10 ^ (-t)) :
    |value v| < limit := by
  refine lt_limit ?_
  have hbig := log_canon_le hp
  have h1 : (10:ℝ) ^ (-t) ≤ 1 := by
    rw [show (1:ℝ) = 10 ^ (0:ℤ) by norm_num]; exact zpow_le_zpow_right₀ (by norm_num) (by omega)
  have h2 : lnFactor (value u) ≤ 10 ^ 7 := by
    unfold lnFactor; rw [max_le_iff]; constructor
    · norm_num
    · linarith
  have h3 := lnFactor_pos (value u)
  have h4 : (0:ℝ) ≤ t := by exact_mod_cast ht0
  have h5 : (t:ℝ) ≤ 1000 := by exact_mod_cast ht1
  have h6 : |(value v : ℝ) - Real.log (value u)| ≤ 1000 := by
    refine hacc.trans ?_
    have : (1 / 2 + (t + 10) * lnFactor (value u) / 10 ^ 8 : ℝ) ≤ 1000 := by
      have := mul_le_mul (by linarith : (t + 10 : ℝ) ≤ 1010) h2 (by linarith) (by norm_num)
      norm_num at this ⊢
      linarith
    calc _ ≤ (1000:ℝ) * 1 := by
          apply mul_le_mul this h1 (by positivity) (by norm_num)
      _ = 1000 := by norm_num
  have h7 : |(value v : ℝ)| < 10 ^ 40 := by
    rw [abs_le] at h6 hbig
    rw [abs_lt]; constructor <;> norm_num <;> linarith [h6.1, h6.2, hbig.1, hbig.2]
  have : ((|value v| : ℚ) : ℝ) < ((10 ^ 40 : ℚ) : ℝ) := by push_cast; exact h7
  exact_mod_cast this

/-- The value and scale of a logarithm that was computed. -/
theorem ln_core [Build] (lm : Libm) (fuel : Nat) {a r : Bin} {u : Var} (hu : Canonical u) (hx : 0 < value u)
    (ea : Num.asBinary a = .ok ()) (na : a.isNan = false) (va : a.asVar = .ok u) (hr : Num.ln lm fuel a = .ok r) :
    ∃ w y t, estimateLnDweight lm u = .ok w ∧ lnCommon fuel u t = .ok y ∧ t = min (max (max (16 - w) u.dscale) 0) 1000 ∧
      Holds r (value y) t ∧
      |(value y : ℝ) - Real.log (value u)| ≤ (1 / 2 + (t + 10) * lnFactor (value u) / 10 ^ 8) * 10 ^ (-t) := by
  have hp := PosVar.of_canonical hu hx
  rw [ln_unfold lm fuel ea na va, (ln_checks lm fuel hu).2.2 hx] at hr
  obtain ⟨v, e1, e2⟩ := bind_elim hr
  obtain ⟨w, e3, e4⟩ := bind_elim e1
  simp only [NUMERIC_MIN_SIG_DIGITS, NUMERIC_MIN_DISPLAY_SCALE, NUMERIC_MAX_DISPLAY_SCALE] at e4
  obtain ⟨t, ht⟩ : ∃ t, t = min (max (max (16 - w) u.dscale) 0) 1000 := ⟨_, rfl⟩
  rw [← ht] at e4
  obtain ⟨-, -, e4⟩ := bind_elim e4
  have hd0 := hu.dscale_nonneg
  have ht0 : 0 ≤ t := by omega
  have ht1 : t ≤ 1000 := by omega
  obtain ⟨hw, hacc⟩ := lnCommon_spec hp ht0 (by omega) e4
  have hlim := ln_lim hp ht0 ht1 hacc
  obtain ⟨r', er, hr'⟩ := Num.finishNoOverflow_spec hw.digits hw.not_nan hw.dscale rfl ht0 (by omega) hw.scale hlim
    (hw.sm_limit hlim).stripM
  have : r' = r := by
    have : (Except.ok r' : M Bin) = .ok r := er.symm.trans e2
    cases this; rfl
  subst this
  exact ⟨w, v, t, e3, e4, ht, hr', hacc⟩

/-- C49: whenever `ln` of a positive number returns, the result is within half a unit in its last place of the exact
logarithm, plus a working error of `(t + 10) * max(1, 22 |ln x|) * 10^-8` units; the scale `t` is at most 1000 and at
least that of the operand (up to the cap of 1000). -/
theorem C49_ln_accuracy [Build] (lm : Libm) (fuel : Nat) {a r : Bin} {x : ℚ} {s : Int} (ha : Holds a x s) (hx : 0 < x)
    (hr : Num.ln lm fuel a = .ok r) :
    ∃ (y : ℚ) (t : Int), Holds r y t ∧ min s 1000 ≤ t ∧ t ≤ 1000 ∧
      |(y:ℝ) - Real.log x| ≤ (1 / 2 + (t + 10) * max 1 (22 * |Real.log x|) / 10 ^ 8) * 10 ^ (-t) := by
  obtain ⟨u, hu, rfl, rfl, ea, na, va⟩ := ha.exists_var
  obtain ⟨w, y, t, -, -, ht, h, hacc⟩ := ln_core lm fuel hu hx ea na va hr
  exact ⟨value y, t, h, by omega, by omega, hacc⟩

theorem scale_weight {w t : ℤ} (h : 16 - w ≤ t) : (10:ℝ) ^ (-t) ≤ 10 ^ w / 10 ^ 16 := by
  rw [le_div_iff₀ (by positivity)]
  calc (10:ℝ) ^ (-t) * 10 ^ 16 = 10 ^ (-t + 16) := by rw [zpow_add₀ (by norm_num)]; norm_num
    _ ≤ 10 ^ w := zpow_le_zpow_right₀ (by norm_num) (by omega)

/-- `(t + 10) * 10^-t` for `t ≥ 10`. -/
theorem unit_decay {t : ℤ} (h : 10 ≤ t) : ((t:ℝ) + 10) * 10 ^ (-t) ≤ 2 / 10 ^ 9 := by
  obtain ⟨n, rfl⟩ : ∃ n : ℕ, t = 10 + n := ⟨(t - 10).toNat, by omega⟩
  have : ∀ n : ℕ, (((10 + n : ℤ) : ℝ) + 10) * 10 ^ (-(10 + n : ℤ)) ≤ 2 / 10 ^ 9 := by
    intro n
    induction n with
    | zero => norm_num
    | succ n ih =>
      have e : (10:ℝ) ^ (-(10 + ((n + 1 : ℕ) : ℤ))) = 10 ^ (-(10 + (n : ℤ))) / 10 := by
        rw [show -(10 + ((n + 1 : ℕ) : ℤ)) = -(10 + (n : ℤ)) - 1 by push_cast; ring, zpow_sub₀ (by norm_num)]; norm_num
      rw [e]
      have hp : (0:ℝ) < 10 ^ (-(10 + (n : ℤ))) := by positivity
      push_cast at ih ⊢
      have hn : (0:ℝ) ≤ n := by positivity
      generalize (10:ℝ) ^ (-(10 + (n : ℤ))) = P at *
      nlinarith
  exact this n

/-- C49: with a libm that is accurate to `10^-10`, the logarithm has at least 15 correct significant digits, unless its
scale is the maximum 1000; and the logarithm of one is exactly zero. -/
theorem C49_ln_significant [Build] {lm : Libm} (hl : LibmOK lm) (fuel : Nat) {a r : Bin} {x : ℚ} {s : Int} (ha : Holds a x s)
    (hx : 0 < x) (hr : Num.ln lm fuel a = .ok r) :
    ∃ (y : ℚ) (t : Int), Holds r y t ∧ (t = 1000 ∨ |(y:ℝ) - Real.log x| ≤ |Real.log x| / 10 ^ 15) := by
  obtain ⟨u, hu, rfl, rfl, ea, na, va⟩ := ha.exists_var
  obtain ⟨w, y, t, ew, ey, ht, h, hacc⟩ := ln_core lm fuel hu hx ea na va hr
  refine ⟨value y, t, h, ?_⟩
  by_cases h1000 : t = 1000
  · exact .inl h1000
  right
  obtain ⟨w', ew', hw1, hw2⟩ := estimate_spec hl hu hx
  have : w' = w := by rw [ew] at ew'; cases ew'; rfl
  subst this
  by_cases h1 : value u = 1
  · have h3 := lnCommon_one' (s := t) hu.dscale_nonneg hu.dscale_le fuel
    rw [← one_scaled hu h1, ey] at h3
    rcases h3 with h3 | ⟨f, h3⟩
    · cases h3
      rw [h1]; simp [value]
    · cases h3
  · obtain ⟨g1, -⟩ := hw2 h1
    have hbig := log_canon_le (PosVar.of_canonical hu hx)
    have hw6 : w' ≤ 6 := by
      by_contra hcon
      push Not at hcon
      have : (10:ℝ) ^ (7:ℤ) ≤ 10 ^ w' := zpow_le_zpow_right₀ (by norm_num) (by omega)
      norm_num at this
      linarith
    have ht16 : 16 - w' ≤ t := by omega
    have hu1 := scale_weight ht16
    have hU : (0:ℝ) < 10 ^ (-t) := by positivity
    have h10 : (10:ℤ) ≤ t := by omega
    have ht' : (t:ℝ) ≤ 1000 := by have : t ≤ 1000 := by omega
                                  exact_mod_cast this
    have ht0 : (0:ℝ) ≤ t := by have : 0 ≤ t := by omega
                               exact_mod_cast this
    refine hacc.trans ?_
    unfold lnFactor
    have hL := abs_nonneg (Real.log (value u : ℝ))
    have hu2 := unit_decay h10
    generalize (10:ℝ) ^ (-t) = U at *
    generalize |Real.log (value u : ℝ)| = L at *
    have hU1 : U ≤ 1025 / 10 ^ 18 * L := by
      refine hu1.trans ?_
      norm_num
      linarith
    rcases le_total 1 (22 * L) with h22 | h22
    · rw [max_eq_right h22]
      have := mul_le_mul_of_nonneg_right hu2 hL
      norm_num at this hU1 ⊢
      linarith
    · rw [max_eq_left h22]
      have := mul_le_mul_of_nonneg_right (by linarith : (t:ℝ) + 10 ≤ 1010) hU.le
      norm_num at this hU1 ⊢
      linarith

/-- C49: the logarithm of a number between 0.9 and 1.1 is always found by a release build, within 600 rounds of its loops, and by a debug build
if the number has at most 80 decimals. -/
theorem C49_ln_total_near_one [Build] {lm : Libm} (hl : LibmOK lm) {fuel : Nat} (hf : 600 ≤ fuel) {a : Bin} {x : ℚ} {s : Int}
    (ha : Holds a x s) (h9 : 9 / 10 < x) (h11 : x < 11 / 10) (hs : Build.debug = false ∨ s ≤ 80) : ∃ r, Num.ln lm fuel a = .ok r := by
  obtain ⟨u, hu, rfl, rfl, ea, na, va⟩ := ha.exists_var
  have hx : 0 < value u := by linarith
  have hp := PosVar.of_canonical hu hx
  obtain ⟨w, ew, -, -⟩ := estimate_spec hl hu hx
  obtain ⟨hw1, hw2⟩ := estimate_bounds hl hu hx ew
  rw [ln_unfold lm fuel ea na va, (ln_checks lm fuel hu).2.2 hx]
  simp only [ew, bind_ok, NUMERIC_MIN_SIG_DIGITS, NUMERIC_MIN_DISPLAY_SCALE, NUMERIC_MAX_DISPLAY_SCALE]
  obtain ⟨t, ht⟩ : ∃ t, t = min (max (max (16 - w) u.dscale) 0) 1000 := ⟨_, rfl⟩
  rw [← ht, fits_ok (by fits_tac), bind_ok]
  rcases lnCommon_near hp (R := t) (by
      have : ((9 / 10 : ℚ) : ℝ) < (value u : ℝ) := by exact_mod_cast h9
      push_cast at this; exact this) (by
      have : (value u : ℝ) < ((11 / 10 : ℚ) : ℝ) := by exact_mod_cast h11
      push_cast at this; exact this) (by omega) (by omega) (fuel := fuel) (by omega) with ⟨y, ey⟩ | ⟨hd, -, h80⟩
  swap
  · rcases hs with h | h
    · rw [h] at hd; cases hd
    · omega
  obtain ⟨hw, hacc⟩ := lnCommon_spec hp (by omega) (by omega) ey
  obtain ⟨r, er, -⟩ := Num.finishNoOverflow_spec hw.digits hw.not_nan hw.dscale rfl hw.l_nonneg hw.l_le' hw.scale
    (ln_lim hp (by omega) (by omega) hacc) (hw.sm_limit (ln_lim hp (by omega) (by omega) hacc)).stripM
  exact ⟨r, by rw [ey]; exact er⟩

example (e : Bool) : ∃ a, @Holds ⟨false, e⟩ a (1 - 1 / 10 ^ 40) 50 := by
  let _ : Build := ⟨false, e⟩
  exact witness (x := 1 - 1 / 10 ^ 40) (s := 50) (10 ^ 50 - 10 ^ 10) (by norm_num) (by norm_num) (by norm_num) (by norm_num [abs_lt])

/-- The hypotheses are met: the run of `ln(1.05)` in any build, with any accurate libm. -/
example [Build] {lm : Libm} (hl : LibmOK lm) : ∃ a r, Holds a (105 / 100) 2 ∧ Num.ln lm 20 a = .ok r ∧
    Holds r (48790164169432003 / 10 ^ 18) 18 := by
  obtain ⟨a, ha⟩ := witness (x := 105 / 100) (s := 2) 105 (by norm_num) (by norm_num) (by norm_num) (by norm_num [abs_lt])
  obtain ⟨u, hu, hv, hs, ea, na, va⟩ := ha.exists_var
  have hc : Canonical ⟨0, 2, .pos, [1, 500]⟩ :=
    ⟨by decide, by unfold Digits; decide, ⟨by decide, by decide, fun h => by cases h⟩, by decide, by decide, by decide,
      ⟨105, by simp [value, mag]; norm_num⟩⟩
  have hul : u = ⟨0, 2, .pos, [1, 500]⟩ := hu.unique hc (by rw [hv]; simp [value, mag]; norm_num) (by rw [hs])
  subst hul
  have hest : estimateLnDweight lm ⟨0, 2, .pos, [1, 500]⟩ = .ok (-2) := by
    unfold estimateLnDweight
    rw [dassert_ok (by decide)]
    simp only [bind_ok]
    rw [if_pos (by decide)]
    have h1 : subCommon ⟨0, 2, .pos, [1, 500]⟩ one = .ok ⟨-1, 2, .pos, [500]⟩ := by
      show @subCommon ⟨Build.debug, Build.bigEndianVarlen⟩ _ _ = _
      generalize Build.debug = d
      generalize Build.bigEndianVarlen = e
      cases d <;> cases e <;> decide +kernel
    rw [h1, bind_ok]
    simp only
    rw [fits_ok (by fits_tac), bind_ok]
    have h2 : F64.toI32 (lm.log10 ((500 : ℤ) : ℚ)) = 2 := by
      have := toI32_log10 hl (d := 500) (j := 2) (by norm_num) (by norm_num) (by norm_num)
      exact_mod_cast this
    rw [h2]
    exact i32_ok (by simp only [DEC_DIGITS]; omega) (by simp only [DEC_DIGITS]; omega)
  have hln : lnCommon 20 ⟨0, 2, .pos, [1, 500]⟩ 18 = .ok ⟨-1, 18, .pos, [487, 9016, 4169, 4320, 300]⟩ := by
    show @lnCommon ⟨Build.debug, Build.bigEndianVarlen⟩ _ _ _ = _
    generalize Build.debug = d
    generalize Build.bigEndianVarlen = e
    cases d <;> cases e <;> decide +kernel
  obtain ⟨r, er, hr⟩ := Num.finishNoOverflow_spec (u := ⟨-1, 18, .pos, [487, 9016, 4169, 4320, 300]⟩) (s := 18)
    (x := 48790164169432003 / 10 ^ 18) (by unfold Digits; decide) (by decide) rfl (by simp [value, mag]; norm_num)
    (by norm_num) (by norm_num) ⟨48790164169432003, by norm_num⟩ (lt_limit (by norm_num [abs_lt]))
    (Small.stripM ⟨by simp, by simp, by simp⟩)
  refine ⟨a, r, ha, ?_, hr⟩
  rw [ln_unfold lm _ ea na va, (ln_checks lm _ hu).2.2 (by rw [hv]; norm_num)]
  simp only [hest, bind_ok]
  rw [fits_ok (by fits_tac), bind_ok, show min (max (max (NUMERIC_MIN_SIG_DIGITS - -2) (2:ℤ)) NUMERIC_MIN_DISPLAY_SCALE) NUMERIC_MAX_DISPLAY_SCALE = 18 by decide, hln]
  exact er

end PgNumeric.Props
