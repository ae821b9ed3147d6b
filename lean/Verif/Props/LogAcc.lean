import Verif.Props.Ln
import Verif.Proofs.LogAcc
/-!
# Accuracy of logarithms to other bases (C50)
-/
namespace PgNumeric.Props
open PgNumeric Spec Var

theorem lt_limit_wide {x : ℚ} (h : |x| < 10 ^ 201) : |x| < limit := by
  refine lt_trans h ?_
  unfold limit
  exact pow_lt_pow_right₀ (by norm_num) (by norm_num)

theorem log_lim {v : Var} {t : ℤ} {L : ℝ} (hw : Work v t) (hacc : |(value v : ℝ) - L| ≤ (51 / 100) * 10 ^ (-t)) (hbig : |L| ≤ 10 ^ 200) :
    |value v| < limit := by
  refine lt_limit_wide ?_
  have h1 : (10:ℝ) ^ (-t) ≤ 1 := by
    rw [show (1:ℝ) = 10 ^ (0:ℤ) by norm_num]
    exact zpow_le_zpow_right₀ (by norm_num) (by have := hw.l_nonneg; omega)
  have h7 : |(value v : ℝ)| < 10 ^ 201 := by
    have h2 := abs_sub_abs_le_abs_sub (value v : ℝ) (L)
    have h3 : (10:ℝ) ^ 201 = 10 * 10 ^ 200 := by norm_num
    have h4 : (1:ℝ) ≤ 10 ^ 200 := by norm_num
    rw [h3]
    generalize (10:ℝ) ^ 200 = Z at *
    generalize (10:ℝ) ^ (-t) = T at *
    linarith
  have : ((|value v| : ℚ) : ℝ) < ((10 ^ 201 : ℚ) : ℝ) := by push_cast; exact h7
  exact_mod_cast this

/-- What a logarithm that was computed is worth. -/
theorem log_core [Build] {lm : Libm} (hl : LibmOK lm) (fuel : Nat) {r : Bin} {u b : Var} (hu : Canonical u) (hb : Canonical b)
    (hu0 : 0 < value u) (hb0 : 0 < value b) (hu1 : value u = 1 ∨ (10:ℚ) ^ (-900:ℤ) ≤ |value u - 1|)
    (hb1 : (10:ℚ) ^ (-190:ℤ) ≤ |value b - 1|) (hr : (do let w ← Var.log lm fuel u b; Num.finishNoOverflow w) = .ok r) :
    ∃ (y : ℚ) (t : Int), Holds r y t ∧ min (max u.dscale b.dscale) 1000 ≤ t ∧ t ≤ 1000 ∧
      |(y:ℝ) - Real.logb (value b) (value u)| ≤ (51 / 100) * 10 ^ (-t) ∧
      (t = 1000 ∨ |(y:ℝ) - Real.logb (value b) (value u)| ≤ |Real.logb (value b) (value u)| / 10 ^ 14) := by
  rw [(log_checks lm fuel hu hb).2.2.2.2 hu0 hb0] at hr
  obtain ⟨v, e1, e2⟩ := bind_elim hr
  obtain ⟨t, hw, ht1, ht2, hacc, hsig, hbig⟩ := logCommon_spec hl hu hb hu0 hb0 hu1 hb1 e1
  have hlim := log_lim hw hacc hbig
  obtain ⟨r', er, hr'⟩ := Num.finishNoOverflow_spec hw.digits hw.not_nan hw.dscale rfl hw.l_nonneg hw.l_le' hw.scale hlim
    (hw.sm_limit hlim).stripM
  have : r' = r := by
    have : (Except.ok r' : M Bin) = .ok r := er.symm.trans e2
    cases this; rfl
  subst this
  exact ⟨value v, t, hr', ht1, ht2, hacc, hsig⟩

/-- C50: a logarithm to any base, when it returns, is within 0.51 units in its last place of the exact value, and has at
least 14 correct significant digits unless its scale is the maximum 1000. The scale is at least those of the operands (up
to 1000). Argument and base must not be extremely close to one (the argument may be one): see `C50_near_one_fails`. -/
theorem C50_log_accuracy [Build] {lm : Libm} (hl : LibmOK lm) (fuel : Nat) {a b r : Bin} {x y : ℚ} {s t : Int}
    (ha : Holds a x s) (hb : Holds b y t) (hx : 0 < x) (hy : 0 < y) (hx1 : x = 1 ∨ (10:ℚ) ^ (-900:ℤ) ≤ |x - 1|)
    (hy1 : (10:ℚ) ^ (-190:ℤ) ≤ |y - 1|) (hr : Num.log lm fuel a b = .ok r) :
    ∃ (z : ℚ) (q : Int), Holds r z q ∧ min (max s t) 1000 ≤ q ∧ q ≤ 1000 ∧
      |(z:ℝ) - Real.logb y x| ≤ (51 / 100) * 10 ^ (-q) ∧
      (q = 1000 ∨ |(z:ℝ) - Real.logb y x| ≤ |Real.logb y x| / 10 ^ 14) := by
  obtain ⟨u, hu, rfl, rfl, ea, na, va⟩ := ha.exists_var
  obtain ⟨v, hv, rfl, rfl, eb, nb, vb⟩ := hb.exists_var
  rw [log_unfold lm fuel ea na va eb nb vb] at hr
  exact log_core hl fuel hu hv hx hy hx1 hy1 hr

/-- C50: `log2`. -/
theorem C50_log2_accuracy [Build] {lm : Libm} (hl : LibmOK lm) (fuel : Nat) {a r : Bin} {x : ℚ} {s : Int}
    (ha : Holds a x s) (hx : 0 < x) (hx1 : x = 1 ∨ (10:ℚ) ^ (-900:ℤ) ≤ |x - 1|) (hr : Num.log2 lm fuel a = .ok r) :
    ∃ (z : ℚ) (q : Int), Holds r z q ∧ min s 1000 ≤ q ∧ q ≤ 1000 ∧
      |(z:ℝ) - Real.logb 2 x| ≤ (51 / 100) * 10 ^ (-q) ∧ (q = 1000 ∨ |(z:ℝ) - Real.logb 2 x| ≤ |Real.logb 2 x| / 10 ^ 14) := by
  obtain ⟨u, hu, rfl, rfl, ea, na, va⟩ := ha.exists_var
  unfold Num.log2 at hr
  simp only [ea, na, va, bind_ok, Bool.false_eq_true, if_false] at hr
  have h2 : value Var.two = 2 := by simp [value, mag, Var.two]
  obtain ⟨z, q, h, h3, h4, h5, h6⟩ := log_core hl fuel hu two_canonical hx (by rw [h2]; norm_num) hx1 (by rw [h2]; norm_num) hr
  rw [h2, Rat.cast_ofNat] at h5 h6
  have hd := hu.dscale_nonneg
  exact ⟨z, q, h, by simp only [Var.two] at h3; omega, h4, h5, h6⟩

/-- C50: `log10`. -/
theorem C50_log10_accuracy [Build] {lm : Libm} (hl : LibmOK lm) (fuel : Nat) {a r : Bin} {x : ℚ} {s : Int}
    (ha : Holds a x s) (hx : 0 < x) (hx1 : x = 1 ∨ (10:ℚ) ^ (-900:ℤ) ≤ |x - 1|) (hr : Num.log10 lm fuel a = .ok r) :
    ∃ (z : ℚ) (q : Int), Holds r z q ∧ min s 1000 ≤ q ∧ q ≤ 1000 ∧
      |(z:ℝ) - Real.logb 10 x| ≤ (51 / 100) * 10 ^ (-q) ∧ (q = 1000 ∨ |(z:ℝ) - Real.logb 10 x| ≤ |Real.logb 10 x| / 10 ^ 14) := by
  obtain ⟨u, hu, rfl, rfl, ea, na, va⟩ := ha.exists_var
  unfold Num.log10 at hr
  simp only [ea, na, va, bind_ok, Bool.false_eq_true, if_false] at hr
  have h2 : value Var.ten = 10 := by simp [value, mag, Var.ten]
  obtain ⟨z, q, h, h3, h4, h5, h6⟩ := log_core hl fuel hu ten_canonical hx (by rw [h2]; norm_num) hx1 (by rw [h2]; norm_num) hr
  rw [h2, Rat.cast_ofNat] at h5 h6
  have hd := hu.dscale_nonneg
  exact ⟨z, q, h, by simp only [Var.ten] at h3; omega, h4, h5, h6⟩

/-- A number of scale `q` within 0.51 units of an integer is that integer. -/
theorem near_int {z : ℚ} {q : ℤ} {k : ℤ} (hq : 0 ≤ q) (hz : HasScale z q) (h : |(z:ℝ) - k| ≤ (51 / 100) * 10 ^ (-q)) : z = k := by
  obtain ⟨n, hn⟩ := hz
  obtain ⟨m, hm⟩ := HasScale.int k hq
  have hT := T_zpow_pos q
  have hc : |z - k| ≤ 51 / 100 * 10 ^ (-q) := by
    have : ((|z - k| : ℚ) : ℝ) ≤ ((51 / 100 * (10:ℚ) ^ (-q) : ℚ) : ℝ) := by push_cast; exact h
    exact_mod_cast this
  have hTT : (10:ℚ) ^ (-q) * 10 ^ q = 1 := by rw [← zpow_add₀ (by norm_num)]; simp
  have : |((n - m : ℤ) : ℚ)| < 1 := by
    push_cast
    rw [← hn, ← hm, ← sub_mul, abs_mul, abs_of_pos hT]
    have := mul_le_mul_of_nonneg_right hc hT.le
    rw [mul_assoc, hTT] at this
    norm_num at this ⊢
    linarith
  have h2 : |n - m| < 1 := by exact_mod_cast this
  have h3 : n = m := by rw [Int.abs_lt_one_iff] at h2; omega
  have : z * 10 ^ q = k * 10 ^ q := by rw [hn, hm, h3]
  exact mul_right_cancel₀ hT.ne' this

/-- C50: the logarithm of a power of the base is the exponent, exactly. -/
theorem C50_log_exact [Build] {lm : Libm} (hl : LibmOK lm) (fuel : Nat) {a b r : Bin} {y : ℚ} {s t : Int} {k : ℤ}
    (ha : Holds a (y ^ k) s) (hb : Holds b y t) (hy : 0 < y) (hx1 : y ^ k = 1 ∨ (10:ℚ) ^ (-900:ℤ) ≤ |y ^ k - 1|)
    (hy1 : (10:ℚ) ^ (-190:ℤ) ≤ |y - 1|) (hr : Num.log lm fuel a b = .ok r) :
    ∃ q : Int, Holds r k q := by
  obtain ⟨z, q, h, -, -, h3, -⟩ := C50_log_accuracy hl fuel ha hb (zpow_pos hy k) hy hx1 hy1 hr
  have hyr : (0:ℝ) < (y:ℝ) := by exact_mod_cast hy
  have hy1' : (y:ℝ) ≠ 1 := by
    intro h1
    have : y = 1 := by exact_mod_cast h1
    rw [this] at hy1; norm_num at hy1
  have hlog : Real.logb (y:ℝ) ((y ^ k : ℚ) : ℝ) = k := by
    push_cast
    rw [Real.logb, Real.log_zpow]
    have : Real.log (y:ℝ) ≠ 0 := by
      rw [Real.log_ne_zero]
      exact ⟨hyr.ne', hy1', by linarith⟩
    field_simp
  rw [hlog] at h3
  have := near_int (by obtain ⟨v, hv, -, -, hs⟩ := h; rw [← hs]; exact hv.dscale_nonneg) h.bounds.1 h3
  rw [this] at h
  exact ⟨q, h⟩

/-- C50 (defect): for an argument within `10^-1100` of one, the logarithm to a base between 1.1 and 1.5 never returns: the
logarithm of the base is computed to zero decimals, and the division by zero panics. -/
theorem C50_near_one_fails [Build] {lm : Libm} (hl : LibmOK lm) (fuel : Nat) {a b : Bin} {x y : ℚ} {s t : Int}
    (ha : Holds a x s) (hb : Holds b y t) (hx : x ≠ 1) (hx1 : |x - 1| ≤ (10:ℚ) ^ (-1100:ℤ))
    (hy1 : 11 / 10 ≤ y) (hy2 : y ≤ 3 / 2) (r : Bin) : Num.log lm fuel a b ≠ .ok r := by
  obtain ⟨u, hu, rfl, rfl, ea, na, va⟩ := ha.exists_var
  obtain ⟨v, hv, rfl, rfl, eb, nb, vb⟩ := hb.exists_var
  have hsm : (10:ℚ) ^ (-1100:ℤ) ≤ 1 / 10 := by
    rw [show (1 / 10 : ℚ) = 10 ^ (-1:ℤ) by norm_num, T_zpow_le_iff]; norm_num
  have hu0 : 0 < value u := by
    have := abs_le.1 (hx1.trans hsm); linarith [this.1]
  have hv0 : 0 < value v := by linarith
  have hup := PosVar.of_canonical hu hu0
  have hvp := PosVar.of_canonical hv hv0
  intro hr
  rw [log_unfold lm fuel ea na va eb nb vb, (log_checks lm fuel hu hv).2.2.2.2 hu0 hv0] at hr
  obtain ⟨w, hr, -⟩ := bind_elim hr
  obtain ⟨nw, en, -, hn2⟩ := estimate_spec hl hu hu0
  obtain ⟨bw, eb', -, hb2⟩ := estimate_spec hl hv hv0
  obtain ⟨hb3, hb4⟩ := hb2 (by intro h; rw [h] at hy1; norm_num at hy1)
  have n1 : (11 / 10 : ℝ) ≤ value v := by have := castR hy1; push_cast at this; exact this
  have n2 : (value v : ℝ) ≤ 3 / 2 := by have := castR hy2; push_cast at this; exact this
  have hl1 := log_eleven n1
  have hl2 : Real.log (value v) ≤ 41 / 100 := by
    have h1 := Real.log_le_log (by linarith) n2
    have h2 : Real.log (3 / 2) ≤ 41 / 100 := by
      have e : 2 * Real.log (3 / 2) = Real.log 2 + Real.log (9 / 8) := by
        rw [← Real.log_mul (by norm_num) (by norm_num), ← Real.log_rpow (by norm_num)]; norm_num
      have := Real.log_le_sub_one_of_pos (show (0:ℝ) < 9 / 8 by norm_num)
      have := Real.log_two_lt_d9
      norm_num at *
      linarith
    linarith
  have hbw : -3 ≤ bw ∧ bw ≤ 6 := by
    rw [abs_of_pos (by linarith)] at hb3 hb4
    exact ⟨weight_lower (k := 2) (by norm_num; linarith) hb4, weight_upper hb3 (by linarith)⟩
  have hux : (0:ℝ) < (value u : ℝ) := by exact_mod_cast hu0
  have haway : (10:ℝ) ^ (-16383:ℤ) ≤ |(value u : ℝ) - 1| := by
    have h1 : HasScale (value u - 1) 16383 := by
      have := (hu.scale.mono hu.dscale_le).sub (HasScale.int 1 (show (0:ℤ) ≤ 16383 by norm_num))
      simpa using this
    have := castR (scale_lower h1 (sub_ne_zero.2 hx))
    push_cast at this; exact this
  obtain ⟨hn3, hn4⟩ := hn2 hx
  have hnw1 := weight_lower (log_away hux (k := 16383) (by norm_num) haway) hn4
  have hnw2 : nw ≤ -1098 := by
    by_contra hcon
    push Not at hcon
    have h1 : (10:ℝ) ^ (-1100:ℤ) * 100 < 10 ^ nw := by
      rw [show (100:ℝ) = 10 ^ (2:ℤ) by norm_num, ← zpow_add₀ (by norm_num)]
      exact zpow_lt_zpow_right₀ (by norm_num) (by omega)
    have h2 : |(value u : ℝ) - 1| ≤ (10:ℝ) ^ (-1100:ℤ) := by have := castR hx1; push_cast at this; exact this
    have h3 : (10:ℝ) ^ (-1100:ℤ) ≤ 1 / 10 := by have := castR hsm; push_cast at this; exact this
    have l1 := Real.log_le_sub_one_of_pos hux
    have l2 := Real.one_sub_inv_le_log_of_pos hux
    have h4 : |Real.log (value u)| ≤ 12 / 10 * |(value u : ℝ) - 1| := by
      have h5 : |(value u : ℝ) - 1| ≤ 1 / 10 := h2.trans h3
      rw [abs_le] at h5
      by_cases h : (value u : ℝ) < 1
      · have : ((value u : ℝ) - 1) * (10 / 9) ≤ 1 - (value u:ℝ)⁻¹ := by
          rw [show 1 - (value u:ℝ)⁻¹ = ((value u:ℝ) - 1) / value u by field_simp, le_div_iff₀ hux]
          nlinarith
        rw [abs_of_neg (by linarith : (value u:ℝ) - 1 < 0), abs_of_neg (by linarith : Real.log (value u:ℝ) < 0)]
        linarith
      · push Not at h
        rw [abs_of_nonneg (by linarith : 0 ≤ (value u:ℝ) - 1), abs_of_nonneg (Real.log_nonneg h)]
        linarith
    have h6 : (0:ℝ) < 10 ^ (-1100:ℤ) := by positivity
    generalize (10:ℝ) ^ (-1100:ℤ) = E at *
    linarith
  unfold logCommon at hr
  rw [dassert_ok hu.not_nan, dassert_ok hv.not_nan, dassert_ok hup.cmp_zero_pos] at hr
  simp only [bind_ok, en, eb', i32_ok (show -2147483648 ≤ nw - bw by omega) (show nw - bw ≤ 2147483647 by omega)] at hr
  simp only [NUMERIC_MIN_SIG_DIGITS, NUMERIC_MIN_DISPLAY_SCALE, NUMERIC_MAX_DISPLAY_SCALE] at hr
  rw [show min (max (max (max (16 - (nw - bw)) v.dscale) u.dscale) 0) 1000 = 1000 by omega,
    show max (1000 + (nw - bw) - bw + 8) 0 = 0 by omega, fits_ok (by fits_tac), bind_ok] at hr
  obtain ⟨lb, e1, hr⟩ := bind_elim hr
  obtain ⟨ln, e2, hr⟩ := bind_elim hr
  obtain ⟨q, e3, hr⟩ := bind_elim hr
  obtain ⟨wB, aB⟩ := lnCommon_spec hvp le_rfl (by norm_num) e1
  have hz : value lb = 0 := by
    have hf : lnFactor (value v) ≤ 10 := by
      unfold lnFactor; rw [max_le_iff, abs_of_pos (by linarith)]; constructor <;> linarith
    have h1 : |(value lb : ℝ)| < 1 := by
      norm_num at aB
      rw [abs_le] at aB
      rw [abs_lt]; constructor <;> linarith [aB.1, aB.2]
    obtain ⟨n, hn⟩ := wB.scale
    simp only [zpow_zero, mul_one] at hn
    rw [hn] at h1 ⊢
    have h2 : |n| < 1 := by exact_mod_cast h1
    rw [Int.abs_lt_one_iff] at h2
    rw [h2]; simp
  have hd := wB.zero_iff.2 hz
  unfold divFastCommon at e3
  rcases dassert_cases (ln.sign ≠ .nan) with h | ⟨f, h⟩
  swap
  · rw [h] at e3; cases e3
  rw [h, dassert_ok wB.not_nan, hd] at e3
  simp only [bind_ok, pure_ok] at e3
  cases e3
  cases hr

theorem estimate_near [Build] {lm : Libm} (hl : LibmOK lm) (k : ℕ) (s : ℤ) (h1 : 100 ≤ k) (h2 : k < 1000)
    (hc : cmpCommon ⟨0, s, .pos, [1, k]⟩ zeroPointNine ≥ 0 ∧ cmpCommon ⟨0, s, .pos, [1, k]⟩ onePointOne ≤ 0)
    (hs : subCommon ⟨0, s, .pos, [1, k]⟩ one = .ok ⟨-1, s, .pos, [k]⟩) :
    estimateLnDweight lm ⟨0, s, .pos, [1, k]⟩ = .ok (-2) := by
  unfold estimateLnDweight
  rw [dassert_ok (by simp)]
  simp only [bind_ok]
  rw [if_pos hc, hs]
  simp only [bind_ok]
  rw [fits_ok (by fits_tac), bind_ok]
  have h2 : F64.toI32 (lm.log10 (((k:ℤ)) : ℚ)) = 2 := by
    have := toI32_log10 hl (d := k) (j := 2) (by omega) (by omega) (by norm_num)
    exact_mod_cast this
  rw [h2]
  exact i32_ok (by simp only [DEC_DIGITS]; omega) (by simp only [DEC_DIGITS]; omega)

/-- The hypotheses of the accuracy theorems are met: `log(1.02^2, 1.02)` in any build with any accurate libm returns. -/
example [Build] {lm : Libm} (hl : LibmOK lm) : ∃ a b r, Holds a ((102 / 100) ^ (2:ℤ)) 4 ∧ Holds b (102 / 100) 2 ∧
    Num.log lm 30 a b = .ok r := by
  obtain ⟨a, ha⟩ := witness (x := (102 / 100) ^ (2:ℤ)) (s := 4) 10404 (by norm_num) (by norm_num) (by norm_num) (by norm_num [abs_lt])
  obtain ⟨b, hb⟩ := witness (x := 102 / 100) (s := 2) 102 (by norm_num) (by norm_num) (by norm_num) (by norm_num [abs_lt])
  obtain ⟨u, hu, hv, hs, ea, na, va⟩ := ha.exists_var
  obtain ⟨v, hv', hvv, hvs, eb, nb, vb⟩ := hb.exists_var
  have hc1 : Canonical ⟨0, 4, .pos, [1, 404]⟩ :=
    ⟨by decide, by unfold Digits; decide, ⟨by decide, by decide, fun h => by cases h⟩, by decide, by decide, by decide,
      ⟨10404, by simp [value, mag]; norm_num⟩⟩
  have hc2 : Canonical ⟨0, 2, .pos, [1, 200]⟩ :=
    ⟨by decide, by unfold Digits; decide, ⟨by decide, by decide, fun h => by cases h⟩, by decide, by decide, by decide,
      ⟨102, by simp [value, mag]; norm_num⟩⟩
  have hul : u = ⟨0, 4, .pos, [1, 404]⟩ := hu.unique hc1 (by rw [hv]; simp [value, mag]; norm_num) (by rw [hs])
  have hvl : v = ⟨0, 2, .pos, [1, 200]⟩ := hv'.unique hc2 (by rw [hvv]; simp [value, mag]; norm_num) (by rw [hvs])
  subst hul hvl
  have s1 : subCommon ⟨0, 4, .pos, [1, 404]⟩ one = .ok ⟨-1, 4, .pos, [404]⟩ ∧
      subCommon ⟨0, 2, .pos, [1, 200]⟩ one = .ok ⟨-1, 2, .pos, [200]⟩ := by
    show @subCommon ⟨Build.debug, Build.bigEndianVarlen⟩ _ _ = _ ∧ @subCommon ⟨Build.debug, Build.bigEndianVarlen⟩ _ _ = _
    generalize Build.debug = d
    generalize Build.bigEndianVarlen = e
    cases d <;> cases e <;> decide +kernel
  have h1 := estimate_near hl 404 4 (by norm_num) (by norm_num) (by decide) s1.1
  have h2 := estimate_near hl 200 2 (by norm_num) (by norm_num) (by decide) s1.2
  have hln : ∃ y z w, lnCommon 30 ⟨0, 2, .pos, [1, 200]⟩ 26 = .ok y ∧ lnCommon 30 ⟨0, 4, .pos, [1, 404]⟩ 26 = .ok z ∧
      divFastCommon z y 16 true = .ok (some w) ∧ w = ⟨0, 16, .pos, [2]⟩ := by
    show ∃ y z w, @lnCommon ⟨Build.debug, Build.bigEndianVarlen⟩ _ _ _ = _ ∧ @lnCommon ⟨Build.debug, Build.bigEndianVarlen⟩ _ _ _ = _ ∧
      @divFastCommon ⟨Build.debug, Build.bigEndianVarlen⟩ _ _ _ _ = _ ∧ _
    refine ⟨⟨-1, 26, .pos, [198, 262, 7296, 1797, 1302, 6029, 700]⟩, ⟨-1, 26, .pos, [396, 525, 4592, 3594, 2605, 2058, 1300]⟩, _, ?_, ?_, ?_, rfl⟩
    all_goals
      generalize Build.debug = d
      generalize Build.bigEndianVarlen = e
      cases d <;> cases e <;> decide +kernel
  obtain ⟨y, z, w, ey, ez, ew, hw⟩ := hln
  obtain ⟨r, er, -⟩ := Num.finishNoOverflow_spec (u := w) (s := 16) (x := 2) (by rw [hw]; unfold Digits; decide) (by rw [hw]; decide)
    (by rw [hw]) (by rw [hw]; simp [value, mag]) (by norm_num) (by norm_num) ⟨2 * 10 ^ 16, by norm_num⟩ (lt_limit (by norm_num [abs_lt]))
    (by rw [hw]; exact Small.stripM ⟨by simp, by simp, by simp⟩)
  refine ⟨a, b, r, ha, hb, ?_⟩
  rw [log_unfold lm _ ea na va eb nb vb, (log_checks lm _ hu hv').2.2.2.2 (by rw [hv]; norm_num) (by rw [hvv]; norm_num)]
  have : logCommon lm 30 ⟨0, 4, .pos, [1, 404]⟩ ⟨0, 2, .pos, [1, 200]⟩ = .ok w := by
    unfold logCommon
    rw [dassert_ok hu.not_nan, dassert_ok (PosVar.of_canonical hu (by rw [hv]; norm_num)).cmp_zero_pos]
    push_cast at h1 h2
    simp only [bind_ok, h1, h2]
    rw [show (-2 - -2 : ℤ) = 0 by norm_num, i32_ok (by norm_num) (by norm_num)]
    simp only [bind_ok]
    rw [fits_ok (by fits_tac), bind_ok]
    rw [show max (min (max (max (max (NUMERIC_MIN_SIG_DIGITS - 0) 2) 4) NUMERIC_MIN_DISPLAY_SCALE) NUMERIC_MAX_DISPLAY_SCALE + 0 - -2 + 8)
      NUMERIC_MIN_DISPLAY_SCALE = 26 by decide, ey, ez,
      show min (max (max (max (NUMERIC_MIN_SIG_DIGITS - 0) 2) 4) NUMERIC_MIN_DISPLAY_SCALE) NUMERIC_MAX_DISPLAY_SCALE = 16 by decide]
    simp only [bind_ok, ew, expect, pure_ok]
  rw [this]
  exact er

/-- The hypotheses of the defect are met. -/
example [Build] : ∃ (a b : Bin) (x : ℚ), Holds a x 1100 ∧ Holds b (13 / 10) 1 ∧ x ≠ 1 ∧ |x - 1| ≤ (10:ℚ) ^ (-1100:ℤ) := by
  have hp : (0:ℚ) < 10 ^ (-1100:ℤ) := T_zpow_pos _
  have hp1 : (10:ℚ) ^ (-1100:ℤ) ≤ 1 := by
    rw [show (1:ℚ) = 10 ^ (0:ℤ) by norm_num, T_zpow_le_iff]; norm_num
  obtain ⟨a, ha⟩ := witness (x := 1 + (10:ℚ) ^ (-1100:ℤ)) (s := 1100) (10 ^ 1100 + 1) (by
    rw [add_mul, ← zpow_add₀ (by norm_num), neg_add_cancel, zpow_zero]; push_cast; rw [one_mul]; rfl) (by norm_num) (by norm_num)
    (by generalize (10:ℚ) ^ (-1100:ℤ) = E at *
        rw [abs_of_pos (by linarith)]; norm_num; linarith)
  obtain ⟨b, hb⟩ := witness (x := 13 / 10) (s := 1) 13 (by norm_num) (by norm_num) (by norm_num) (by norm_num [abs_lt])
  refine ⟨a, b, _, ha, hb, by linarith, ?_⟩
  rw [add_sub_cancel_left, abs_of_pos hp]

end PgNumeric.Props
