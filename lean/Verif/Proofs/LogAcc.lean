import Verif.Proofs.LnWeight
import Verif.Props.Log
/-!
# Accuracy of `log_common`
-/
namespace PgNumeric
open Spec Var Props

theorem log_away {x : ℝ} (hx : 0 < x) {k : ℤ} (hk : 2 ≤ k) (h : (10:ℝ) ^ (-k) ≤ |x - 1|) :
    (10:ℝ) ^ (-k) ≤ 12 / 10 * |Real.log x| := by
  have l1 := Real.log_le_sub_one_of_pos hx
  have l2 := Real.one_sub_inv_le_log_of_pos hx
  have hk' : (10:ℝ) ^ (-k) ≤ 1 / 100 := by
    rw [show (1 / 100 : ℝ) = 10 ^ (-2:ℤ) by norm_num]; exact zpow_le_zpow_right₀ (by norm_num) (by omega)
  by_cases h1 : x < 1
  · rw [abs_of_neg (by linarith : x - 1 < 0)] at h
    rw [abs_of_neg (by linarith : Real.log x < 0)]
    have : (0:ℝ) < 10 ^ (-k) := by positivity
    linarith
  · push Not at h1
    rw [abs_of_nonneg (by linarith : 0 ≤ x - 1)] at h
    rw [abs_of_nonneg (Real.log_nonneg h1)]
    by_cases h2 : 11 / 10 ≤ x
    · linarith [log_eleven h2]
    · push Not at h2
      have : (x - 1) * (10 / 11) ≤ 1 - x⁻¹ := by
        rw [show 1 - x⁻¹ = (x - 1) / x by field_simp, le_div_iff₀ hx]
        nlinarith
      linarith

theorem weight_lower {L : ℝ} {w k : ℤ} (h1 : (10:ℝ) ^ (-k) ≤ 12 / 10 * L) (h2 : L ≤ 12 * (10:ℝ) ^ w) : -k - 1 ≤ w := by
  by_contra hcon
  push Not at hcon
  have h3 : (10:ℝ) ^ w ≤ 10 ^ (-k) / 100 := by
    rw [show (10:ℝ) ^ (-k) / 100 = 10 ^ (-k - 2) by rw [zpow_sub₀ (by norm_num)]; norm_num]
    exact zpow_le_zpow_right₀ (by norm_num) (by omega)
  have : (0:ℝ) < 10 ^ (-k) := by positivity
  linarith

theorem weight_upper {L : ℝ} {w : ℤ} (h1 : (10:ℝ) ^ w ≤ 1025 / 100 * L) (h2 : L ≤ 320000) : w ≤ 6 := by
  by_contra hcon
  push Not at hcon
  have : (10:ℝ) ^ (7:ℤ) ≤ 10 ^ w := zpow_le_zpow_right₀ (by norm_num) (by omega)
  norm_num at this
  linarith

/-- Perturbation of a quotient. -/
theorem quot_err {N N' B B' a b : ℝ} (hB : B ≠ 0) (hN' : |N' - N| ≤ a) (hB' : |B' - B| ≤ b) (hb : b ≤ |B| / 2) :
    B' ≠ 0 ∧ |B| / 2 ≤ |B'| ∧ |N' / B' - N / B| ≤ 2 * a / |B| + 2 * |N| * b / |B| ^ 2 := by
  have hBp : 0 < |B| := abs_pos.2 hB
  have h1 : |B| / 2 ≤ |B'| := by
    have := abs_sub_abs_le_abs_sub B B'
    rw [abs_sub_comm] at this
    linarith
  have hBp' : 0 < |B'| := by linarith
  have hB0 : B' ≠ 0 := abs_pos.1 hBp'
  refine ⟨hB0, h1, ?_⟩
  have e : N' / B' - N / B = (N' - N) / B' - N * (B' - B) / (B * B') := by field_simp; ring
  have e1 : |(N' - N) / B'| ≤ 2 * a / |B| := by
    rw [abs_div, div_le_div_iff₀ hBp' hBp]
    have h2 := mul_le_mul hN' h1 (by positivity) (le_trans (abs_nonneg _) hN')
    linarith
  have e2 : |N * (B' - B) / (B * B')| ≤ 2 * |N| * b / |B| ^ 2 := by
    rw [abs_div, abs_mul, abs_mul, div_le_div_iff₀ (by positivity) (by positivity)]
    have h2 := mul_le_mul hB' h1 (by positivity) (le_trans (abs_nonneg _) hB')
    have h3 := mul_le_mul_of_nonneg_left h2 (abs_nonneg N)
    have h4 := mul_le_mul_of_nonneg_right h3 hBp.le
    nlinarith
  rw [e]
  exact (abs_sub _ _).trans (add_le_add e1 e2)

theorem lnErr_le {R : ℤ} (h0 : 0 ≤ R) (h1 : R ≤ 1400) {x : ℝ} (hx : |Real.log x| ≤ 320000) :
    (1 / 2 + (R + 10) * lnFactor x / 10 ^ 8 : ℝ) ≤ 100 := by
  have h2 : lnFactor x ≤ 7040000 := by
    unfold lnFactor; rw [max_le_iff]; constructor
    · norm_num
    · linarith
  have h3 := lnFactor_pos x
  have h4 : (0:ℝ) ≤ R := by exact_mod_cast h0
  have h5 : (R:ℝ) ≤ 1400 := by exact_mod_cast h1
  have := mul_le_mul (by linarith : (R + 10 : ℝ) ≤ 1410) h2 (by linarith) (by norm_num)
  norm_num at this ⊢
  linarith

/-- Accuracy of `log_common`: `x` is one or at least `10^-900` away from it, the base at least `10^-190`. -/
theorem logCommon_pos [Build] {lm : Libm} (hl : LibmOK lm) {u b : Var} (hup : PosVar u) (hbp : PosVar b) (hone : value u = 1 → Canonical u)
    (hu1 : value u = 1 ∨ (10:ℚ) ^ (-900:ℤ) ≤ |value u - 1|)
    (hb1 : (10:ℚ) ^ (-190:ℤ) ≤ |value b - 1|) {fuel : Nat} {y : Var} (h : logCommon lm fuel u b = .ok y) :
    ∃ t : ℤ, Work y t ∧ min (max u.dscale b.dscale) 1000 ≤ t ∧ t ≤ 1000 ∧
      |(value y : ℝ) - Real.logb (value b) (value u)| ≤ (51 / 100) * 10 ^ (-t) ∧
      (t = 1000 ∨ |(value y : ℝ) - Real.logb (value b) (value u)| ≤ |Real.logb (value b) (value u)| / 10 ^ 14) ∧
      |Real.logb (value b) (value u)| ≤ 10 ^ 200 := by
  have hu0 := hup.pos
  have hb0 := hbp.pos
  have hU : (0:ℝ) < (value u : ℝ) := by exact_mod_cast hu0
  have hBr : (0:ℝ) < (value b : ℝ) := by exact_mod_cast hb0
  obtain ⟨nw, en, hn1, hn2⟩ := estimate_pos hl hup
  obtain ⟨bw, eb, -, hb2⟩ := estimate_pos hl hbp
  have hbne : value b ≠ 1 := by
    intro h1; rw [h1] at hb1; simp at hb1
    have := T_zpow_pos (190:ℤ)
    have h2 : (0:ℚ) < ((10:ℚ) ^ (190:ℕ))⁻¹ := by positivity
    exact absurd hb1 (by norm_num)
  obtain ⟨hb3, hb4⟩ := hb2 hbne
  have hBbig := log_canon_le hbp
  have hNbig := log_canon_le hup
  have hbaway := log_away hBr (k := 190) (by norm_num) (by have := castR hb1; push_cast at this; exact this)
  have hbw1 := weight_lower hbaway hb4
  have hbw2 := weight_upper hb3 hBbig
  have hnw : -901 ≤ nw ∧ nw ≤ 6 := by
    by_cases h1 : value u = 1
    · rw [hn1 h1]; omega
    · obtain ⟨g1, g2⟩ := hn2 h1
      have := log_away hU (k := 900) (by norm_num) (by have := castR (hu1.resolve_left h1); push_cast at this; exact this)
      exact ⟨weight_lower this g2, weight_upper g1 hNbig⟩
  have hNw : |Real.log (value u)| ≤ 12 * (10:ℝ) ^ nw := by
    by_cases h1 : value u = 1
    · rw [h1]; simp; positivity
    · exact (hn2 h1).2
  unfold logCommon at h
  rw [dassert_ok hup.not_nan, dassert_ok hbp.not_nan, dassert_ok hup.cmp_zero_pos] at h
  simp only [bind_ok, en, eb, i32_ok (show -2147483648 ≤ nw - bw by omega) (show nw - bw ≤ 2147483647 by omega)] at h
  simp only [NUMERIC_MIN_SIG_DIGITS, NUMERIC_MIN_DISPLAY_SCALE, NUMERIC_MAX_DISPLAY_SCALE] at h
  obtain ⟨t, ht⟩ : ∃ t, t = min (max (max (max (16 - (nw - bw)) b.dscale) u.dscale) 0) 1000 := ⟨_, rfl⟩
  rw [← ht] at h
  have hd1 := hup.dscale_nonneg
  have hd2 := hbp.dscale_nonneg
  rw [show max (t + (nw - bw) - bw + 8) 0 = t + (nw - bw) - bw + 8 by omega,
    show max (t + (nw - bw) - nw + 8) 0 = t - bw + 8 by omega, fits_ok (by fits_tac), bind_ok] at h
  obtain ⟨lb, e1, h⟩ := bind_elim h
  obtain ⟨ln, e2, h⟩ := bind_elim h
  obtain ⟨q, e3, h⟩ := bind_elim h
  obtain ⟨wB, aB⟩ := lnCommon_spec hbp (by omega) (by omega) e1
  obtain ⟨wN, aN⟩ := lnCommon_spec hup (by omega) (by omega) e2
  have cB := lnErr_le (R := t + (nw - bw) - bw + 8) (by omega) (by omega) hBbig
  have cN := lnErr_le (R := t - bw + 8) (by omega) (by omega) hNbig
  have pB : (10:ℝ) ^ (-(t + (nw - bw) - bw + 8)) = 10 ^ bw * 10 ^ bw / 10 ^ nw * (10 ^ (-t) / 10 ^ 8) := by
    rw [show -(t + (nw - bw) - bw + 8) = bw + bw - nw + (-t - 8) by ring, zpow_add₀ (by norm_num),
      zpow_sub₀ (by norm_num) _ nw, zpow_add₀ (by norm_num) bw, zpow_sub₀ (by norm_num) _ 8]
    norm_num
  have pN : (10:ℝ) ^ (-(t - bw + 8)) = 10 ^ bw * (10 ^ (-t) / 10 ^ 8) := by
    rw [show -(t - bw + 8) = bw + (-t - 8) by ring, zpow_add₀ (by norm_num), zpow_sub₀ (by norm_num) _ 8]
    norm_num
  have aB' : |(value lb : ℝ) - Real.log (value b)| ≤ 100 * (10 ^ bw * 10 ^ bw / 10 ^ nw * (10 ^ (-t) / 10 ^ 8)) := by
    rw [pB] at aB
    exact aB.trans (mul_le_mul_of_nonneg_right cB (by positivity))
  have aN' : |(value ln : ℝ) - Real.log (value u)| ≤ 100 * (10 ^ bw * (10 ^ (-t) / 10 ^ 8)) := by
    rw [pN] at aN
    exact aN.trans (mul_le_mul_of_nonneg_right cN (by positivity))
  -- the error of the base is small
  have hsmall : (10:ℝ) ^ bw / 10 ^ nw * 10 ^ (-t) ≤ 1 / 10 ^ 16 := by
    rw [← zpow_sub₀ (by norm_num), ← zpow_add₀ (by norm_num), show (1 / 10 ^ 16 : ℝ) = 10 ^ (-16:ℤ) by norm_num]
    exact zpow_le_zpow_right₀ (by norm_num) (by omega)
  have hW : (0:ℝ) < 10 ^ bw := by positivity
  have hV : (0:ℝ) < 10 ^ nw := by positivity
  have hT : (0:ℝ) < 10 ^ (-t) := by positivity
  have hT1 : (10:ℝ) ^ (-t) ≤ 1 := by
    rw [show (1:ℝ) = 10 ^ (0:ℤ) by norm_num]; exact zpow_le_zpow_right₀ (by norm_num) (by omega)
  have hB0 : 0 < |Real.log (value b)| := by linarith
  have hbsmall : 100 * ((10:ℝ) ^ bw * 10 ^ bw / 10 ^ nw * (10 ^ (-t) / 10 ^ 8)) ≤ |Real.log (value b)| / 2 := by
    have := mul_le_mul_of_nonneg_left hsmall hW.le
    calc 100 * ((10:ℝ) ^ bw * 10 ^ bw / 10 ^ nw * (10 ^ (-t) / 10 ^ 8)) = 10 ^ bw * (10 ^ bw / 10 ^ nw * 10 ^ (-t)) / 10 ^ 6 := by
          ring
      _ ≤ _ := by norm_num at this ⊢; linarith
  obtain ⟨hlb0, hlb1, hq⟩ := quot_err (abs_pos.1 hB0) aN' aB' hbsmall
  -- the perturbation of the quotient
  have hq1 : 2 * (100 * ((10:ℝ) ^ bw * (10 ^ (-t) / 10 ^ 8))) / |Real.log (value b)| ≤ 3 / 10 ^ 5 * 10 ^ (-t) := by
    rw [div_le_iff₀ hB0]
    have := mul_le_mul_of_nonneg_right hb3 hT.le
    have h0 := mul_pos hB0 hT
    generalize (10:ℝ) ^ (-t) = T at *
    generalize (10:ℝ) ^ bw = W at *
    norm_num at this ⊢
    linarith
  have hq2 : 2 * |Real.log (value u)| * (100 * ((10:ℝ) ^ bw * 10 ^ bw / 10 ^ nw * (10 ^ (-t) / 10 ^ 8))) / |Real.log (value b)| ^ 2 ≤
      3 / 10 ^ 3 * 10 ^ (-t) := by
    rw [div_le_iff₀ (by positivity)]
    have s1 : (10:ℝ) ^ bw * 10 ^ bw ≤ (1025 / 100) ^ 2 * |Real.log (value b)| ^ 2 := by
      have := mul_le_mul hb3 hb3 hW.le (by positivity)
      nlinarith
    have s2 : |Real.log (value u)| * (1 / (10:ℝ) ^ nw) ≤ 12 := by
      rw [mul_one_div, div_le_iff₀ hV]; exact hNw
    calc 2 * |Real.log (value u)| * (100 * ((10:ℝ) ^ bw * 10 ^ bw / 10 ^ nw * (10 ^ (-t) / 10 ^ 8)))
        = (|Real.log (value u)| * (1 / (10:ℝ) ^ nw)) * ((10:ℝ) ^ bw * 10 ^ bw) * (2 * 10 ^ (-t) / 10 ^ 6) := by ring
      _ ≤ 12 * ((1025 / 100) ^ 2 * |Real.log (value b)| ^ 2) * (2 * 10 ^ (-t) / 10 ^ 6) := by
          apply mul_le_mul_of_nonneg_right _ (by positivity)
          apply mul_le_mul s2 s1 (by positivity) (by norm_num)
      _ ≤ _ := by
          have : 0 ≤ |Real.log (value b)| ^ 2 * (10:ℝ) ^ (-t) := by positivity
          generalize (10:ℝ) ^ (-t) = T at *
          generalize |Real.log (value b : ℝ)| = L at *
          norm_num
          nlinarith
  -- the division
  have hlb0' : value lb ≠ 0 := by intro h0; apply hlb0; rw [h0]; simp
  have big : ∀ {v : Var} {X E : ℝ}, |(value v : ℝ) - X| ≤ E → |X| ≤ 320000 → E ≤ 10 ^ 10 → |value v| < 10000 ^ (33001:ℤ) := by
    intro v X E h1 h2 h3
    apply lt_big
    have : |(value v : ℝ)| < 10000 ^ (10:ℤ) := by
      rw [abs_le] at h1 h2
      rw [abs_lt]; norm_num at h3 ⊢; constructor <;> linarith [h1.1, h1.2, h2.1, h2.2]
    have : ((|value v| : ℚ) : ℝ) < ((10000 ^ (10:ℤ) : ℚ) : ℝ) := by norm_num at this ⊢; exact this
    exact_mod_cast this
  have hbig1 := big aB' hBbig (by linarith)
  have hbw6 : (10:ℝ) ^ bw ≤ 10 ^ 6 := by
    rw [show (10:ℝ) ^ 6 = 10 ^ (6:ℤ) by norm_num]; exact zpow_le_zpow_right₀ (by norm_num) (by omega)
  have hbig2 := big aN' hNbig (by
    have : (10:ℝ) ^ bw * (10 ^ (-t) / 10 ^ 8) ≤ 10 ^ 6 * (1 / 10 ^ 8) :=
      mul_le_mul hbw6 (by apply div_le_div_of_nonneg_right hT1; norm_num) (by positivity) (by norm_num)
    norm_num at this ⊢; linarith)
  rcases Work.divFast wN wB (show 0 ≤ t by omega) (by omega) hlb0' hbig2 hbig1 with ⟨v, z, ev, hv, -, -, hacc⟩ | ⟨-, e⟩
  swap
  · rw [e] at e3; cases e3
  rw [ev] at e3
  cases e3
  simp only [expect, pure_ok] at h
  cases h
  have hlogb : Real.logb (value b) (value u) = Real.log (value u) / Real.log (value b) := rfl
  have hfin : |(value y : ℝ) - Real.logb (value b) (value u)| ≤ (51 / 100) * 10 ^ (-t) := by
    rw [hlogb]
    have := abs_sub_le (value y : ℝ) ((value ln : ℝ) / value lb) (Real.log (value u) / Real.log (value b))
    generalize (10:ℝ) ^ (-t) = T at *
    norm_num at hacc
    linarith
  refine ⟨t, hv, by omega, by omega, hfin, ?_, ?_⟩
  · by_cases h1 : value u = 1
    · right
      have hu := hone h1
      have h3 := lnCommon_one' (s := t - bw + 8) hu.dscale_nonneg hu.dscale_le fuel
      rw [← one_scaled hu h1, e2] at h3
      rcases h3 with h3 | ⟨f, h3⟩
      swap
      · cases h3
      cases h3
      obtain ⟨d, ds, hlbd⟩ := List.exists_cons_of_ne_nil (fun h0 => hlb0' (wB.zero_iff.1 h0))
      have hd0 : d ≠ 0 := by have := wB.stripped.1; rw [hlbd] at this; simpa using this
      rw [divFast_zero hlbd hd0 wB.not_nan (by omega) (by omega)] at ev
      cases ev
      rw [h1]; simp [value]
    · by_cases h1000 : t = 1000
      · exact .inl h1000
      right
      refine hfin.trans ?_
      have ht16 : 16 - (nw - bw) ≤ t := by omega
      rw [hlogb, abs_div, div_div, le_div_iff₀ (by positivity)]
      have p : (10:ℝ) ^ (-t) * 10 ^ bw ≤ 10 ^ nw / 10 ^ 16 := by
        rw [le_div_iff₀ (by positivity), ← zpow_add₀ (by norm_num), show (10:ℝ) ^ 16 = 10 ^ (16:ℤ) by norm_num,
          ← zpow_add₀ (by norm_num)]
        exact zpow_le_zpow_right₀ (by norm_num) (by omega)
      have g1 := (hn2 h1).1
      have := mul_le_mul_of_nonneg_left hb4 hT.le
      generalize (10:ℝ) ^ (-t) = T at *
      generalize (10:ℝ) ^ bw = W at *
      generalize (10:ℝ) ^ nw = V at *
      norm_num at p ⊢
      linarith
  · rw [hlogb, abs_div, div_le_iff₀ hB0]
    have : (10:ℝ) ^ (-190:ℤ) * 10 ^ 200 = 10 ^ 10 := by norm_num
    have h2 := mul_le_mul_of_nonneg_right hbaway (show (0:ℝ) ≤ 10 ^ 200 by positivity)
    rw [this] at h2
    linarith

theorem scale_lower {x : ℚ} {s : ℤ} (h : HasScale x s) (hx : x ≠ 0) : (10:ℚ) ^ (-s) ≤ |x| := by
  obtain ⟨n, hn⟩ := h.abs
  have hT := T_zpow_pos s
  have hn1 : (1:ℚ) ≤ n := by
    have : (0:ℚ) < n := by rw [← hn]; have := abs_pos.2 hx; positivity
    have : 0 < n := by exact_mod_cast this
    exact_mod_cast this
  rw [zpow_neg, inv_le_iff_one_le_mul₀ hT, hn]; exact hn1

/-- Accuracy, for valid numbers, of `log_common`: `x` is one or at least `10^-900` away from it, the base at least `10^-190`. -/
theorem logCommon_spec [Build] {lm : Libm} (hl : LibmOK lm) {u b : Var} (hu : Canonical u) (hb : Canonical b)
    (hu0 : 0 < value u) (hb0 : 0 < value b) (hu1 : value u = 1 ∨ (10:ℚ) ^ (-900:ℤ) ≤ |value u - 1|)
    (hb1 : (10:ℚ) ^ (-190:ℤ) ≤ |value b - 1|) {fuel : Nat} {y : Var} (h : logCommon lm fuel u b = .ok y) :
    ∃ t : ℤ, Work y t ∧ min (max u.dscale b.dscale) 1000 ≤ t ∧ t ≤ 1000 ∧
      |(value y : ℝ) - Real.logb (value b) (value u)| ≤ (51 / 100) * 10 ^ (-t) ∧
      (t = 1000 ∨ |(value y : ℝ) - Real.logb (value b) (value u)| ≤ |Real.logb (value b) (value u)| / 10 ^ 14) ∧
      |Real.logb (value b) (value u)| ≤ 10 ^ 200 :=
  logCommon_pos hl (PosVar.of_canonical hu hu0) (PosVar.of_canonical hb hb0) (fun _ => hu) hu1 hb1 h

/-- The estimate of the weight of a logarithm is small. -/
theorem estimate_bounds_pos [Build] {lm : Libm} (hl : LibmOK lm) {u : Var} (hu : PosVar u) {w : ℤ}
    (h : estimateLnDweight lm u = .ok w) : -16384 ≤ w ∧ w ≤ 6 := by
  have hx := hu.pos
  obtain ⟨w', e, h1, h2⟩ := estimate_pos hl hu
  rw [h] at e
  cases e
  by_cases h3 : value u = 1
  · rw [h1 h3]; omega
  obtain ⟨g1, g2⟩ := h2 h3
  have hux : (0:ℝ) < (value u : ℝ) := by exact_mod_cast hx
  have haway : (10:ℝ) ^ (-16383:ℤ) ≤ |(value u : ℝ) - 1| := by
    have h1 : HasScale (value u - 1) 16383 := by
      have := (hu.scale.mono hu.dscale_le).sub (HasScale.int 1 (show (0:ℤ) ≤ 16383 by norm_num))
      simpa using this
    have := castR (scale_lower h1 (sub_ne_zero.2 h3))
    push_cast at this; exact this
  have := weight_lower (log_away hux (k := 16383) (by norm_num) haway) g2
  have := weight_upper g1 (log_canon_le hu)
  omega

theorem estimate_bounds [Build] {lm : Libm} (hl : LibmOK lm) {u : Var} (hu : Canonical u) (hx : 0 < value u) {w : ℤ}
    (h : estimateLnDweight lm u = .ok w) : -16384 ≤ w ∧ w ≤ 6 :=
  estimate_bounds_pos hl (PosVar.of_canonical hu hx) h

theorem Work.sm_limit {v : Var} {l : Int} (h : Work v l) (hk : |value v| < limit) : Small v :=
  h.sm (hk.trans_le (by rw [limit_eq]; exact B_zpow_le_iff.2 (by norm_num)))

end PgNumeric
