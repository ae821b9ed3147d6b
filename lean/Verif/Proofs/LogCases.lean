import Verif.Proofs.LogAcc
/-!
# The logarithm to a base does not panic
-/
namespace PgNumeric
open Spec Var

/-- `log_common` returns, or fails as one of the two logarithms does, or (debug) overflows in the division by the logarithm of the base. -/
theorem logCommon_full [Build] {lm : Libm} (hl : LibmOK lm) {u b : Var} (hu : Canonical u) (hb : Canonical b)
    (hu0 : 0 < value u) (hb0 : 0 < value b) (hu1 : value u = 1 ∨ (10:ℚ) ^ (-900:ℤ) ≤ |value u - 1|)
    (hb1 : (10:ℚ) ^ (-190:ℤ) ≤ |value b - 1|) (fuel : Nat) :
    ∃ nw bw t : ℤ, estimateLnDweight lm u = .ok nw ∧ estimateLnDweight lm b = .ok bw ∧
      t = min (max (max (max (16 - (nw - bw)) b.dscale) u.dscale) 0) 1000 ∧ 0 ≤ t + (nw - bw) - bw + 8 ∧ t + (nw - bw) - bw + 8 ≤ 5000 ∧
      0 ≤ t - bw + 8 ∧ t - bw + 8 ≤ 5000 ∧
      ((∃ y, logCommon lm fuel u b = .ok y) ∨
        (∃ f, (lnCommon fuel b (t + (nw - bw) - bw + 8) = .error f ∨ lnCommon fuel u (t - bw + 8) = .error f) ∧
          logCommon lm fuel u b = .error f) ∨
        (Build.debug = true ∧ logCommon lm fuel u b = .error .overflow ∧
          ∃ lb, lnCommon fuel b (t + (nw - bw) - bw + 8) = .ok lb ∧ 21 < lb.ndigits)) := by
  have hup := PosVar.of_canonical hu hu0
  have hbp := PosVar.of_canonical hb hb0
  have hU : (0:ℝ) < (value u : ℝ) := by exact_mod_cast hu0
  have hBr : (0:ℝ) < (value b : ℝ) := by exact_mod_cast hb0
  obtain ⟨nw, en, hn1, hn2⟩ := estimate_spec hl hu hu0
  obtain ⟨bw, eb, -, hb2⟩ := estimate_spec hl hb hb0
  have hbne : value b ≠ 1 := by
    intro h1; rw [h1] at hb1; simp at hb1
    have := T_zpow_pos (190:ℤ)
    have h2 : (0:ℚ) < ((10:ℚ) ^ (190:ℕ))⁻¹ := by positivity
    exact absurd hb1 (by norm_num)
  obtain ⟨hb3, hb4⟩ := hb2 hbne
  have hBbig := log_canon_le hbp
  have hNbig := log_canon_le hup
  have hbaway := log_away hBr (k := 190) (by norm_num) (by have := castR hb1; push_cast at this; exact this)
  have hbw1 := weight_lower hbaway hb4
  have hbw2 := weight_upper hb3 hBbig
  have hnw : -901 ≤ nw ∧ nw ≤ 6 := by
    by_cases h1 : value u = 1
    · rw [hn1 h1]; omega
    · obtain ⟨g1, g2⟩ := hn2 h1
      have := log_away hU (k := 900) (by norm_num) (by have := castR (hu1.resolve_left h1); push_cast at this; exact this)
      exact ⟨weight_lower this g2, weight_upper g1 hNbig⟩
  have hNw : |Real.log (value u)| ≤ 12 * (10:ℝ) ^ nw := by
    by_cases h1 : value u = 1
    · rw [h1]; simp; positivity
    · exact (hn2 h1).2
  obtain ⟨t, ht⟩ : ∃ t, t = min (max (max (max (16 - (nw - bw)) b.dscale) u.dscale) 0) 1000 := ⟨_, rfl⟩
  have hd1 := hu.dscale_nonneg
  have hd2 := hb.dscale_nonneg
  refine ⟨nw, bw, t, en, eb, ht, by omega, by omega, by omega, by omega, ?_⟩
  unfold logCommon
  rw [dassert_ok hu.not_nan, dassert_ok hb.not_nan, dassert_ok hup.cmp_zero_pos]
  simp only [bind_ok, en, eb, i32_ok (show -2147483648 ≤ nw - bw by omega) (show nw - bw ≤ 2147483647 by omega)]
  simp only [NUMERIC_MIN_SIG_DIGITS, NUMERIC_MIN_DISPLAY_SCALE, NUMERIC_MAX_DISPLAY_SCALE]
  rw [← ht]
  rw [show max (t + (nw - bw) - bw + 8) 0 = t + (nw - bw) - bw + 8 by omega,
    show max (t + (nw - bw) - nw + 8) 0 = t - bw + 8 by omega, fits_ok (by fits_tac), bind_ok]
  cases e1 : lnCommon fuel b (t + (nw - bw) - bw + 8) with
  | error f => exact .inr (.inl ⟨f, .inl rfl, rfl⟩)
  | ok lb =>
  cases e2 : lnCommon fuel u (t - bw + 8) with
  | error f => exact .inr (.inl ⟨f, .inr rfl, by simp only [bind_ok]; rfl⟩)
  | ok ln =>
  obtain ⟨wB, aB⟩ := lnCommon_spec hbp (by omega) (by omega) e1
  obtain ⟨wN, aN⟩ := lnCommon_spec hup (by omega) (by omega) e2
  have cB := lnErr_le (R := t + (nw - bw) - bw + 8) (by omega) (by omega) hBbig
  have cN := lnErr_le (R := t - bw + 8) (by omega) (by omega) hNbig
  have pB : (10:ℝ) ^ (-(t + (nw - bw) - bw + 8)) = 10 ^ bw * 10 ^ bw / 10 ^ nw * (10 ^ (-t) / 10 ^ 8) := by
    rw [show -(t + (nw - bw) - bw + 8) = bw + bw - nw + (-t - 8) by ring, zpow_add₀ (by norm_num),
      zpow_sub₀ (by norm_num) _ nw, zpow_add₀ (by norm_num) bw, zpow_sub₀ (by norm_num) _ 8]
    norm_num
  have pN : (10:ℝ) ^ (-(t - bw + 8)) = 10 ^ bw * (10 ^ (-t) / 10 ^ 8) := by
    rw [show -(t - bw + 8) = bw + (-t - 8) by ring, zpow_add₀ (by norm_num), zpow_sub₀ (by norm_num) _ 8]
    norm_num
  have aB' : |(value lb : ℝ) - Real.log (value b)| ≤ 100 * (10 ^ bw * 10 ^ bw / 10 ^ nw * (10 ^ (-t) / 10 ^ 8)) := by
    rw [pB] at aB
    exact aB.trans (mul_le_mul_of_nonneg_right cB (by positivity))
  have aN' : |(value ln : ℝ) - Real.log (value u)| ≤ 100 * (10 ^ bw * (10 ^ (-t) / 10 ^ 8)) := by
    rw [pN] at aN
    exact aN.trans (mul_le_mul_of_nonneg_right cN (by positivity))
  -- the error of the base is small
  have hsmall : (10:ℝ) ^ bw / 10 ^ nw * 10 ^ (-t) ≤ 1 / 10 ^ 16 := by
    rw [← zpow_sub₀ (by norm_num), ← zpow_add₀ (by norm_num), show (1 / 10 ^ 16 : ℝ) = 10 ^ (-16:ℤ) by norm_num]
    exact zpow_le_zpow_right₀ (by norm_num) (by omega)
  have hW : (0:ℝ) < 10 ^ bw := by positivity
  have hV : (0:ℝ) < 10 ^ nw := by positivity
  have hT : (0:ℝ) < 10 ^ (-t) := by positivity
  have hT1 : (10:ℝ) ^ (-t) ≤ 1 := by
    rw [show (1:ℝ) = 10 ^ (0:ℤ) by norm_num]; exact zpow_le_zpow_right₀ (by norm_num) (by omega)
  have hB0 : 0 < |Real.log (value b)| := by linarith
  have hbsmall : 100 * ((10:ℝ) ^ bw * 10 ^ bw / 10 ^ nw * (10 ^ (-t) / 10 ^ 8)) ≤ |Real.log (value b)| / 2 := by
    have := mul_le_mul_of_nonneg_left hsmall hW.le
    calc 100 * ((10:ℝ) ^ bw * 10 ^ bw / 10 ^ nw * (10 ^ (-t) / 10 ^ 8)) = 10 ^ bw * (10 ^ bw / 10 ^ nw * 10 ^ (-t)) / 10 ^ 6 := by
          ring
      _ ≤ _ := by norm_num at this ⊢; linarith
  obtain ⟨hlb0, hlb1, hq⟩ := quot_err (abs_pos.1 hB0) aN' aB' hbsmall
  have hlb0' : value lb ≠ 0 := by intro h0; apply hlb0; rw [h0]; simp
  have big : ∀ {v : Var} {X E : ℝ}, |(value v : ℝ) - X| ≤ E → |X| ≤ 320000 → E ≤ 10 ^ 10 → |value v| < 10000 ^ (33001:ℤ) := by
    intro v X E h1 h2 h3
    apply lt_big
    have : |(value v : ℝ)| < 10000 ^ (10:ℤ) := by
      rw [abs_le] at h1 h2
      rw [abs_lt]; norm_num at h3 ⊢; constructor <;> linarith [h1.1, h1.2, h2.1, h2.2]
    have : ((|value v| : ℚ) : ℝ) < ((10000 ^ (10:ℤ) : ℚ) : ℝ) := by norm_num at this ⊢; exact this
    exact_mod_cast this
  have hbig1 := big aB' hBbig (by linarith)
  have hbw6 : (10:ℝ) ^ bw ≤ 10 ^ 6 := by
    rw [show (10:ℝ) ^ 6 = 10 ^ (6:ℤ) by norm_num]; exact zpow_le_zpow_right₀ (by norm_num) (by omega)
  have hbig2 := big aN' hNbig (by
    have : (10:ℝ) ^ bw * (10 ^ (-t) / 10 ^ 8) ≤ 10 ^ 6 * (1 / 10 ^ 8) :=
      mul_le_mul hbw6 (by apply div_le_div_of_nonneg_right hT1; norm_num) (by positivity) (by norm_num)
    norm_num at this ⊢; linarith)
  rcases Work.divFast_full wN wB (show 0 ≤ t by omega) (by omega) hlb0' hbig2 hbig1 with ⟨v, z, ev, -⟩ | ⟨hd, e, hn, -⟩
  · exact .inl ⟨v, by simp only [bind_ok, ev, expect, pure_ok]⟩
  · right; right; refine ⟨hd, ?_, lb, rfl, hn⟩; simp only [bind_ok, e]; rfl

/-- `log_common` does not panic when neither operand is extremely close to one. -/
theorem logCommon_cases [Build] {lm : Libm} (hl : LibmOK lm) {u b : Var} (hu : Canonical u) (hb : Canonical b)
    (hu0 : 0 < value u) (hb0 : 0 < value b) (hu1 : value u = 1 ∨ (10:ℚ) ^ (-900:ℤ) ≤ |value u - 1|)
    (hb1 : (10:ℚ) ^ (-190:ℤ) ≤ |value b - 1|) (fuel : Nat) :
    (∃ y, logCommon lm fuel u b = .ok y) ∨ logCommon lm fuel u b = .error .diverge ∨
    (Build.debug = true ∧ logCommon lm fuel u b = .error .overflow) := by
  obtain ⟨nw, bw, t, -, -, -, h1, h2, h3, h4, h⟩ := logCommon_full hl hu hb hu0 hb0 hu1 hb1 fuel
  rcases h with h | ⟨f, h | h, e⟩ | ⟨hd, h, -⟩
  · exact .inl h
  · rcases lnCommon_cases (PosVar.of_canonical hb hb0) h1 h2 fuel with ⟨y, ey⟩ | ey | ⟨hd, ey⟩ <;> rw [h] at ey <;> cases ey
    · exact .inr (.inl e)
    · exact .inr (.inr ⟨hd, e⟩)
  · rcases lnCommon_cases (PosVar.of_canonical hu hu0) h3 h4 fuel with ⟨y, ey⟩ | ey | ⟨hd, ey⟩ <;> rw [h] at ey <;> cases ey
    · exact .inr (.inl e)
    · exact .inr (.inr ⟨hd, e⟩)
  · exact .inr (.inr ⟨hd, h⟩)

end PgNumeric
