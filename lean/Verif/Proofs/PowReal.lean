import Verif.Props.Exp
import Verif.Proofs.LogAcc
/-!
# Accuracy of `power_common` for exponents that are not `i32` integers
-/
namespace PgNumeric
open Spec Var Props

/-- The error of `ln_common` in units of its last place. -/
noncomputable def lnC (R : ℤ) (L : ℝ) : ℝ := 1 / 2 + (R + 10) * (1 + 22 * |L|) / 10 ^ 8

theorem lnC_bound {R : ℤ} {L : ℝ} (h1 : R ≤ 5000) :
    lnC R L ≤ 1 / 2 + 5010 * (1 + 22 * |L|) / 10 ^ 8 := by
  unfold lnC
  have h2 : (R:ℝ) ≤ 5000 := by exact_mod_cast h1
  have h3 := abs_nonneg L
  have := mul_le_mul_of_nonneg_right (by linarith : (R + 10 : ℝ) ≤ 5010) (by linarith : 0 ≤ 1 + 22 * |L|)
  linarith

theorem lnC_nonneg {R : ℤ} {L : ℝ} (h0 : 0 ≤ R) : 0 ≤ lnC R L := by
  unfold lnC
  have h2 : (0:ℝ) ≤ R := by exact_mod_cast h0
  positivity

/-- A product of a logarithm and a number stays within the range of working variables. -/
theorem prod_small {y e N : Var} {R : ℤ} (wN : Work N R) (hy : |(value y : ℝ)| ≤ 10 ^ 8) (he : |value e| < limit) {C : ℝ}
    (hC : C ≤ 1) (h : |(value N : ℝ) - value y * value e| ≤ C) : Small N := by
  have h1 : |value N - value y * value e| ≤ 1 := by
    have : ((|value N - value y * value e| : ℚ) : ℝ) ≤ ((1 : ℚ) : ℝ) := by push_cast; exact h.trans hC
    exact_mod_cast this
  have h2 : |value y| ≤ 10 ^ 8 := by
    have : ((|value y| : ℚ) : ℝ) ≤ ((10 ^ 8 : ℚ) : ℝ) := by push_cast; exact hy
    exact_mod_cast this
  refine wN.sm ?_
  have h3 : |value y * value e| ≤ 10 ^ 8 * limit := by
    rw [abs_mul]; exact mul_le_mul h2 he.le (abs_nonneg _) (by norm_num)
  have h4 := abs_sub_abs_le_abs_sub (value N) (value y * value e)
  have h5 := one_lt_limit
  rw [abs_one] at h5
  have h6 : (10:ℚ) ^ 12 * limit ≤ 10000 ^ (33001:ℤ) := by
    rw [limit_eq, show (10:ℚ) ^ 12 = 10000 ^ (3:ℤ) by norm_num, ← zpow_add₀ B_ne]
    exact B_zpow_le_iff.2 (by norm_num)
  generalize (10000:ℚ) ^ (33001:ℤ) = Z at *
  generalize limit = L at *
  norm_num at *
  linarith

/-- One logarithm and product of `power_common`. -/
theorem powLn_spec [Build] {u e : Var} (hu : Canonical u) (hu0 : 0 < value u) (he : Canonical e) {w R : ℤ}
    (hw : value u ≠ 1 → (10:ℝ) ^ w ≤ 1025 / 100 * |Real.log (value u)|)
    (hR0 : 0 ≤ R) (hR1 : R ≤ 5000) {fuel : Nat} {y : Var} (h : lnCommon fuel u R = .ok y) :
    ∃ N, mulCommon y e R = .ok N ∧ Work N R ∧ Small N ∧ |(value N : ℝ) - value e * Real.log (value u)| ≤
      (lnC R (Real.log (value u)) * (1025 / 100) * |(value e : ℝ) * Real.log (value u)| * 10 ^ (-w) + 63 / 100) * 10 ^ (-R) := by
  have hp := PosVar.of_canonical hu hu0
  obtain ⟨wy, ay⟩ := lnCommon_spec hp hR0 hR1 h
  have hbig := log_canon_le hp
  have hT : (0:ℝ) < 10 ^ (-R) := by positivity
  have hT1 : (10:ℝ) ^ (-R) ≤ 1 := by
    rw [show (1:ℝ) = 10 ^ (0:ℤ) by norm_num]; exact zpow_le_zpow_right₀ (by norm_num) (by omega)
  have hfac : lnFactor (value u) ≤ 1 + 22 * |Real.log (value u)| := by
    unfold lnFactor
    have := abs_nonneg (Real.log (value u : ℝ))
    rw [max_le_iff]; constructor <;> linarith
  have hRr : (0:ℝ) ≤ R := by exact_mod_cast hR0
  have ay2 : |(value y : ℝ) - Real.log (value u)| ≤ lnC R (Real.log (value u)) * 10 ^ (-R) := by
    refine ay.trans (mul_le_mul_of_nonneg_right ?_ hT.le)
    unfold lnC
    have := mul_le_mul_of_nonneg_left hfac (by linarith : (0:ℝ) ≤ R + 10)
    linarith
  have hc0 := lnC_nonneg (L := Real.log (value u : ℝ)) hR0
  have hc1 := lnC_bound (L := Real.log (value u : ℝ)) hR1
  have hy8 : |(value y : ℝ)| < 10 ^ 8 := by
    have h1 := abs_sub_abs_le_abs_sub (value y : ℝ) (Real.log (value u))
    have h2 : lnC R (Real.log (value u)) * 10 ^ (-R) ≤ 400 := by
      have := mul_le_mul hc1 hT1 hT.le (by positivity)
      linarith
    norm_num
    linarith
  have hlen : (y.digits.length : ℤ) ≤ 1253 := by
    have hq : |value y| < 10000 ^ (2:ℤ) := by
      have := hy8
      have : ((|value y| : ℚ) : ℝ) < ((10 ^ 8 : ℚ) : ℝ) := by push_cast; exact this
      have : |value y| < 10 ^ 8 := by exact_mod_cast this
      norm_num at this ⊢
      exact this
    have := (wy.bounds (by norm_num) hq).2.2.2
    omega
  obtain ⟨N, eN, wN, aN⟩ := wy.mul (Work.of_canonical he) hR0 (by omega) (wy.smR (by norm_num at hy8 ⊢; linarith)) he.small (n := 1253) (by omega)
  refine ⟨N, eN, wN, prod_small wN hy8.le he.abs_lt ?_ aN, ?_⟩
  · have := mul_le_mul_of_nonneg_left hT1 (by norm_num : (0:ℝ) ≤ 1 / 2 + ((1253:ℕ):ℝ) / 10000)
    norm_num at this ⊢
    linarith
  have key : |(value e : ℝ)| * |(value y : ℝ) - Real.log (value u)| ≤
      lnC R (Real.log (value u)) * (1025 / 100) * |(value e : ℝ) * Real.log (value u)| * 10 ^ (-w) * 10 ^ (-R) := by
    by_cases h1 : value u = 1
    · have h3 := lnCommon_one' (s := R) hu.dscale_nonneg hu.dscale_le fuel
      rw [← one_scaled hu h1, h] at h3
      rcases h3 with h3 | ⟨f, h3⟩
      swap
      · cases h3
      cases h3
      rw [h1]
      simp [value]
    · have h2 := hw h1
      have hW : (0:ℝ) < 10 ^ (-w) := by positivity
      have hWW : (10:ℝ) ^ w * 10 ^ (-w) = 1 := by rw [← zpow_add₀ (by norm_num)]; simp
      have h3 : 1 ≤ 1025 / 100 * |Real.log (value u)| * 10 ^ (-w) := by
        rw [← hWW]; exact mul_le_mul_of_nonneg_right h2 hW.le
      calc |(value e : ℝ)| * |(value y : ℝ) - Real.log (value u)|
          ≤ |(value e : ℝ)| * (lnC R (Real.log (value u)) * 10 ^ (-R)) := mul_le_mul_of_nonneg_left ay2 (abs_nonneg _)
        _ ≤ |(value e : ℝ)| * (lnC R (Real.log (value u)) * 10 ^ (-R)) * (1025 / 100 * |Real.log (value u)| * 10 ^ (-w)) :=
            le_mul_of_one_le_right (by positivity) h3
        _ = _ := by rw [abs_mul]; ring
  have e1 : (value N : ℝ) - value e * Real.log (value u) = (value N - value y * value e) + value e * (value y - Real.log (value u)) := by ring
  rw [e1]
  refine (abs_add_le _ _).trans ?_
  rw [abs_mul]
  push_cast at aN
  rw [add_mul]
  have : (1 / 2 + 1253 / 10000 : ℝ) * 10 ^ (-R) ≤ 63 / 100 * 10 ^ (-R) := mul_le_mul_of_nonneg_right (by norm_num) hT.le
  linarith


/-- The estimate of the weight of the logarithm. -/
theorem powEst_spec [Build] {lm : Libm} (hl : LibmOK lm) {u : Var} (hu : Canonical u) (hu0 : 0 < value u)
    (hu1 : value u = 1 ∨ (10:ℚ) ^ (-980:ℤ) ≤ |value u - 1|) :
    ∃ w, estimateLnDweight lm u = .ok w ∧ -981 ≤ w ∧ w ≤ 6 ∧
      (value u ≠ 1 → (10:ℝ) ^ w ≤ 1025 / 100 * |Real.log (value u)|) ∧ (10:ℝ) ^ w ≤ 1 + 1025 / 100 * |Real.log (value u)| := by
  have hup := PosVar.of_canonical hu hu0
  have hU : (0:ℝ) < (value u : ℝ) := by exact_mod_cast hu0
  obtain ⟨w, ew, h1, h2⟩ := estimate_spec hl hu hu0
  refine ⟨w, ew, ?_⟩
  by_cases hu : value u = 1
  · rw [h1 hu]
    refine ⟨by norm_num, by norm_num, fun h => absurd hu h, ?_⟩
    have := abs_nonneg (Real.log (value u : ℝ))
    norm_num
  · obtain ⟨g1, g2⟩ := h2 hu
    have := log_away hU (k := 980) (by norm_num) (by have := castR (hu1.resolve_left hu); push_cast at this; exact this)
    exact ⟨weight_lower this g2, weight_upper g1 (log_canon_le hup), fun _ => g1, by linarith⟩

theorem ten_neg (n : ℤ) {k : ℕ} (h : (k:ℤ) ≤ n) : (10:ℝ) ^ (-n) ≤ 1 / 10 ^ k := by
  rw [one_div, ← zpow_natCast, ← zpow_neg]
  exact zpow_le_zpow_right₀ (by norm_num) (by omega)

/-- The first, low-precision, product. -/
theorem powFirst_spec [Build] {lm : Libm} (hl : LibmOK lm) {u e : Var} (hu : Canonical u) (hu0 : 0 < value u) (he : Canonical e)
    {w : ℤ} (hw0 : -981 ≤ w) (hw6 : w ≤ 6) (hw : value u ≠ 1 → (10:ℝ) ^ w ≤ 1025 / 100 * |Real.log (value u)|)
    {fuel : Nat} {y : Var} (h : lnCommon fuel u (8 - w) = .ok y) :
    ∃ N val, mulCommon y e (8 - w) = .ok N ∧ lm.toF64 N = .ok val ∧
      (|(value e : ℝ) * Real.log (value u)| ≤ 10 ^ 240 →
        |(val : ℝ) - value e * Real.log (value u)| ≤ 8 / 10 ^ 6 * |(value e : ℝ) * Real.log (value u)| + 1 / 100) ∧
      (30000 ≤ |(value e : ℝ) * Real.log (value u)| → 6020 < |val|) := by
  obtain ⟨N, eN, wN, sN, aN⟩ := powLn_spec hu hu0 he hw (by omega) (by omega) h
  have hbig := log_canon_le (PosVar.of_canonical hu hu0)
  have hc0 := lnC_nonneg (L := Real.log (value u : ℝ)) (R := 8 - w) (by omega)
  have hc : lnC (8 - w) (Real.log (value u : ℝ)) ≤ 72 := by
    unfold lnC
    have h2 : ((8 - w : ℤ) : ℝ) ≤ 989 := by exact_mod_cast (by omega : 8 - w ≤ 989)
    have h3 := abs_nonneg (Real.log (value u : ℝ))
    have := mul_le_mul (by linarith : (((8 - w : ℤ) : ℝ) + 10) ≤ 999) (by linarith : 1 + 22 * |Real.log (value u : ℝ)| ≤ 1 + 22 * 320000)
      (by linarith) (by norm_num)
    norm_num at this ⊢
    linarith
  have hw2 := ten_neg (8 - w) (k := 2) (by push_cast; omega)
  have hw8 : (10:ℝ) ^ (-w) * 10 ^ (-(8 - w)) = 1 / 10 ^ 8 := by
    rw [← zpow_add₀ (by norm_num), show -w + -(8 - w) = -8 by ring]; norm_num
  set T : ℝ := (value e : ℝ) * Real.log (value u) with hTd
  have hT0 := abs_nonneg T
  have hN : |(value N : ℝ) - T| ≤ 75 / 10 ^ 7 * |T| + 7 / 1000 := by
    refine aN.trans ?_
    rw [add_mul, mul_assoc _ ((10:ℝ) ^ (-w)), hw8]
    have h1 : lnC (8 - w) (Real.log (value u : ℝ)) * (1025 / 100) * |T| ≤ 72 * (1025 / 100) * |T| :=
      mul_le_mul_of_nonneg_right (mul_le_mul_of_nonneg_right hc (by norm_num)) hT0
    generalize (10:ℝ) ^ (-(8 - w)) = Q at *
    norm_num at hw2 ⊢
    linarith
  have hNb : |(value N : ℝ)| ≤ 2 * |T| + 1 := by
    have := abs_sub_abs_le_abs_sub (value N : ℝ) T
    linarith
  obtain ⟨val, ev, hv', hbig'⟩ := hl.toF64_all wN sN
  refine ⟨N, val, eN, ev, ?_, ?_⟩
  swap
  · intro h3
    apply hbig'
    have h1 : (20000:ℝ) ≤ |(value N : ℝ)| := by
      have := abs_sub_abs_le_abs_sub T (value N : ℝ)
      rw [abs_sub_comm] at this
      linarith
    have : ((20000:ℚ):ℝ) ≤ ((|value N| : ℚ) : ℝ) := by push_cast; exact h1
    exact_mod_cast this
  intro hT
  have hNq : |value N| ≤ 10 ^ 250 := by
    have h1 : |(value N : ℝ)| ≤ 10 ^ 250 := by
      have h2 : (10:ℝ) ^ 250 = 10 ^ 10 * 10 ^ 240 := by norm_num
      have h3 : (1:ℝ) ≤ 10 ^ 240 := by norm_num
      rw [h2]
      generalize (10:ℝ) ^ 240 = Z at *
      norm_num
      linarith
    have : ((|value N| : ℚ) : ℝ) ≤ ((10 ^ 250 : ℚ) : ℝ) := by push_cast; exact h1
    exact_mod_cast this
  have hv := hv' hNq
  have hv2 : |val - value N| ≤ |value N| / 10 ^ 15 + 1 / 10 ^ 20 := by
    have := tiny300; linarith
  have hv3 := castR hv2
  push_cast at hv3
  have := abs_sub_le (val:ℝ) (value N) T
  generalize |(value N : ℝ)| = A at *
  norm_num at hv3 ⊢
  linarith

/-- The approximate decimal weight of the result. -/
theorem powWeight {val : ℚ} {T : ℝ} (hT : |T| ≤ 6030) (h : |(val : ℝ) - T| ≤ 6 / 100) :
    ∃ v, F64.toI32 (F64.mul val F64.LOG10_E) = v ∧ T ≤ (v + 1) * Real.log 10 + 7 / 100 ∧ (v - 1) * Real.log 10 ≤ T + 7 / 100 := by
  obtain ⟨l1, l2, -⟩ := log_ten_bounds
  have hval : |val| ≤ 7000 := by
    have h1 := abs_sub_abs_le_abs_sub (val:ℝ) T
    have : |(val:ℝ)| ≤ 7000 := by linarith
    have : ((|val| : ℚ) : ℝ) ≤ ((7000:ℚ):ℝ) := by push_cast; exact this
    exact_mod_cast this
  obtain ⟨t1, t2⟩ := expLog_spec (x := (val:ℝ)) hval (by simp)
  obtain ⟨d1, d2, -⟩ := toI32_near (x := F64.mul val F64.LOG10_E) (by
    have := mul_le_mul_of_nonneg_left hval (by norm_num : (0:ℚ) ≤ 4344 / 10000)
    norm_num at this ⊢
    linarith)
  refine ⟨_, rfl, ?_, ?_⟩
  · have a1 := castR d1.le
    push_cast at a1
    have h3 := mul_le_mul_of_nonneg_right (by linarith : (F64.mul val F64.LOG10_E : ℝ) ≤ F64.toI32 (F64.mul val F64.LOG10_E) + 1)
      (by linarith : 0 ≤ Real.log 10)
    have := (abs_le.1 t1).1
    have := (abs_le.1 h).1
    norm_num at *
    linarith
  · have a1 := castR d2.le
    push_cast at a1
    have h3 := mul_le_mul_of_nonneg_right (by linarith : (F64.toI32 (F64.mul val F64.LOG10_E) : ℝ) - 1 ≤ F64.mul val F64.LOG10_E)
      (by linarith : 0 ≤ Real.log 10)
    have := (abs_le.1 t1).2
    have := (abs_le.1 h).2
    norm_num at *
    linarith

theorem exp_mul_log_ten (n : ℤ) : Real.exp ((n:ℝ) * Real.log 10) = 10 ^ n := by
  rw [mul_comm, ← Real.rpow_def_of_pos (by norm_num), Real.rpow_intCast]

theorem exp_small : Real.exp (7 / 100) ≤ 108 / 100 := by
  have h3 := Real.abs_exp_sub_one_sub_id_le (x := 7 / 100) (by norm_num [abs_le])
  have := (abs_le.1 h3).2
  norm_num at this ⊢
  linarith

/-- The scale of the result and the second logarithm, for an exponent of `e` that is not extreme. -/
theorem powerReal_core [Build] {lm : Libm} (hl : LibmOK lm) {u e : Var} (hu : Canonical u) (hu0 : 0 < value u)
    (hu1 : value u = 1 ∨ (10:ℚ) ^ (-980:ℤ) ≤ |value u - 1|) (he : Canonical e)
    (hT1 : -2290 ≤ (value e : ℝ) * Real.log (value u)) (hT2 : (value e : ℝ) * Real.log (value u) ≤ 6030) {fuel : Nat} {o : Option Var}
    (h : powerReal lm fuel u e = .ok o) :
    o = none ∧ 6019 ≤ (value e : ℝ) * Real.log (value u) ∨
    ∃ N l rs, expCommon lm fuel N rs = .ok o ∧ Work N l ∧ Small N ∧ l ≤ 5000 ∧ min (max u.dscale e.dscale) 1000 ≤ rs ∧ 0 ≤ rs ∧ rs ≤ 1000 ∧
      |(value N : ℝ) - value e * Real.log (value u)| ≤ 1 / 10 ^ 4 ∧
      Real.exp (value e * Real.log (value u)) * |(value N : ℝ) - value e * Real.log (value u)| ≤
        (5 / 1000 + 9 / 10 ^ 6 * |Real.log (value u)|) * 10 ^ (-rs) ∧
      (rs = 1000 ∨ 10 ^ (-rs) ≤ 108 / 100 * Real.exp (value e * Real.log (value u)) / 10 ^ 15) := by
  obtain ⟨w, ew, hw0, hw6, hw, hwL⟩ := powEst_spec hl hu hu0 hu1
  set T : ℝ := (value e : ℝ) * Real.log (value u) with hTd
  have hTa : |T| ≤ 6030 := abs_le.2 ⟨by linarith, hT2⟩
  obtain ⟨l1, l2, -⟩ := log_ten_bounds
  unfold powerReal at h
  rw [if_neg (by rw [cmp_zero hu, cmpSign_eq_zero]; exact hu0.ne')] at h
  simp only [ew, bind_ok, NUMERIC_MIN_SIG_DIGITS, NUMERIC_MIN_DISPLAY_SCALE, NUMERIC_MAX_DISPLAY_SCALE] at h
  rw [show min (max (8 - w) 0) 1000 = 8 - w by omega, fits_ok (by fits_tac), bind_ok] at h
  obtain ⟨y1, e1, h⟩ := bind_elim h
  obtain ⟨N1, val, eN1, ev, hv, -⟩ := powFirst_spec hl hu hu0 he hw0 hw6 hw e1
  replace hv := hv (by rw [← hTd]; exact hTa.trans (by norm_num))
  rw [← hTd] at hv
  simp only [eN1, ev, bind_ok, expect, pure_ok] at h
  have hv6 : |(val:ℝ) - T| ≤ 6 / 100 := by
    refine hv.trans ?_
    norm_num
    linarith
  by_cases h6 : |val| > 6020
  · left
    rw [if_pos h6] at h
    cases h
    refine ⟨rfl, ?_⟩
    have h1 : (6020:ℝ) ≤ |(val:ℝ)| := by have := castR h6.le; push_cast at this; exact this
    have h2 := abs_sub_abs_le_abs_sub (val:ℝ) T
    rcases le_abs'.1 (by linarith : 6019 ≤ |T|) with h3 | h3
    · linarith
    · exact h3
  right
  rw [if_neg h6] at h
  obtain ⟨v, ev', hvT, hTv⟩ := powWeight hTa hv6
  rw [ev'] at h
  have hvlo : -996 ≤ v := by
    by_contra hc
    have : (v:ℝ) + 1 ≤ -996 := by exact_mod_cast (by omega : v + 1 ≤ -996)
    have := mul_le_mul_of_nonneg_right this (by linarith : 0 ≤ Real.log 10)
    linarith
  have hvhi : v ≤ 2621 := by
    by_contra hc
    have : (2621:ℝ) ≤ v - 1 := by
      have : (2622:ℝ) ≤ v := by exact_mod_cast (by omega : 2622 ≤ v)
      linarith
    have := mul_le_mul_of_nonneg_right this (by linarith : 0 ≤ Real.log 10)
    linarith
  obtain ⟨rs, hrs⟩ : ∃ rs, rs = min (max (max (max (16 - v) u.dscale) e.dscale) 0) 1000 := ⟨_, rfl⟩
  rw [← hrs] at h
  have hd1 := hu.dscale_nonneg
  have hd2 := he.dscale_nonneg
  rw [show max (rs + v - w + 8) 0 = rs + v - w + 8 by omega, fits_ok (by fits_tac), bind_ok] at h
  obtain ⟨y2, e2, h⟩ := bind_elim h
  obtain ⟨N, eN, wN, sN, aN⟩ := powLn_spec hu hu0 he hw (by omega) (by omega) e2
  rw [← hTd] at aN
  simp only [eN, bind_ok] at h
  have hc0 := lnC_nonneg (L := Real.log (value u : ℝ)) (R := rs + v - w + 8) (by omega)
  have hc1 := lnC_bound (L := Real.log (value u : ℝ)) (R := rs + v - w + 8) (by omega)
  have hbig := log_canon_le (PosVar.of_canonical hu hu0)
  have hL0 := abs_nonneg (Real.log (value u : ℝ))
  have hT0 := abs_nonneg T
  have hunit : (10:ℝ) ^ (-(rs + v - w + 8)) = 10 ^ w * (10 ^ (-v) * 10 ^ (-rs) / 10 ^ 8) := by
    rw [show -(rs + v - w + 8) = w + (-v + -rs - 8) by ring, zpow_add₀ (by norm_num), zpow_sub₀ (by norm_num) _ 8,
      zpow_add₀ (by norm_num)]
    norm_num
  have hww : (10:ℝ) ^ (-w) * 10 ^ w = 1 := by rw [← zpow_add₀ (by norm_num)]; simp
  have hV : (0:ℝ) < 10 ^ (-v) := by positivity
  have hS : (0:ℝ) < 10 ^ (-rs) := by positivity
  -- the error of the second product
  obtain ⟨D, hD⟩ : ∃ D, D = lnC (rs + v - w + 8) (Real.log (value u : ℝ)) * (1025 / 100) * |T| + 63 / 100 * (10:ℝ) ^ w := ⟨_, rfl⟩
  have aN' : |(value N : ℝ) - T| ≤ D * (10 ^ (-v) * 10 ^ (-rs) / 10 ^ 8) := by
    refine aN.trans (le_of_eq ?_)
    rw [hunit, hD]
    calc _ = (lnC (rs + v - w + 8) (Real.log (value u : ℝ)) * (1025 / 100) * |T| * (10 ^ (-w) * 10 ^ w) + 63 / 100 * (10:ℝ) ^ w) *
          (10 ^ (-v) * 10 ^ (-rs) / 10 ^ 8) := by ring
      _ = _ := by rw [hww, mul_one]
  have hD0 : 0 ≤ D := by rw [hD]; positivity
  have hDL : D ≤ 30920 + 75 * |Real.log (value u : ℝ)| := by
    rw [hD]
    have h1 : lnC (rs + v - w + 8) (Real.log (value u : ℝ)) * (1025 / 100) * |T| ≤
        (1 / 2 + 5010 * (1 + 22 * |Real.log (value u : ℝ)|) / 10 ^ 8) * (1025 / 100) * 6030 := by
      apply mul_le_mul _ hTa hT0 (by positivity)
      exact mul_le_mul_of_nonneg_right hc1 (by norm_num)
    generalize (10:ℝ) ^ w = W at *
    norm_num at h1 ⊢
    linarith
  refine ⟨N, rs + v - w + 8, rs, h, wN, sN, by omega, by omega, by omega, by omega, ?_, ?_, ?_⟩
  · have h4 : (10:ℝ) ^ (-v) * 10 ^ (-rs) ≤ 1 / 10 ^ 4 := by
      rw [← zpow_add₀ (by norm_num), show -v + -rs = -(v + rs) by ring]
      exact ten_neg _ (by push_cast; omega)
    have h5 : D ≤ 3 * 10 ^ 7 := by norm_num; linarith
    have h6 := mul_le_mul h5 (div_le_div_of_nonneg_right h4 (by norm_num : (0:ℝ) ≤ 10 ^ 8)) (by positivity) (by norm_num)
    refine aN'.trans (h6.trans ?_)
    norm_num
  · have hE : Real.exp T ≤ 108 / 100 * (10 * 10 ^ v) := by
      have h1 := Real.exp_le_exp.2 hvT
      rw [Real.exp_add, show ((v:ℝ) + 1) * Real.log 10 = ((v + 1 : ℤ) : ℝ) * Real.log 10 by push_cast; ring, exp_mul_log_ten,
        zpow_add₀ (by norm_num), zpow_one] at h1
      have h2 := mul_le_mul_of_nonneg_left exp_small (by positivity : (0:ℝ) ≤ 10 ^ v * 10)
      linarith
    have hvv : (10:ℝ) ^ v * 10 ^ (-v) = 1 := by rw [← zpow_add₀ (by norm_num)]; simp
    have h1 := mul_le_mul hE aN' (abs_nonneg _) (by positivity)
    refine h1.trans ?_
    calc _ = 108 / 10 ^ 9 * D * ((10:ℝ) ^ v * 10 ^ (-v)) * 10 ^ (-rs) := by ring
      _ = 108 / 10 ^ 9 * D * 10 ^ (-rs) := by rw [hvv, mul_one]
      _ ≤ _ := by
        apply mul_le_mul_of_nonneg_right _ hS.le
        norm_num
        linarith
  · by_cases h1000 : rs = 1000
    · exact .inl h1000
    right
    have h16 : 16 - v ≤ rs := by omega
    have h1 : -(rs:ℝ) * Real.log 10 ≤ T + 7 / 100 - (15:ℤ) * Real.log 10 := by
      have : (16:ℝ) - v ≤ rs := by exact_mod_cast h16
      have := mul_le_mul_of_nonneg_right (by linarith : -(rs:ℝ) ≤ (v - 1) - 15) (by linarith : 0 ≤ Real.log 10)
      push_cast
      linarith
    have h2 := Real.exp_le_exp.2 h1
    rw [show -(rs:ℝ) = ((-rs : ℤ) : ℝ) by push_cast; ring, exp_mul_log_ten, Real.exp_sub, exp_mul_log_ten, Real.exp_add] at h2
    refine h2.trans ?_
    have h3 : (10:ℝ) ^ (15:ℤ) = 10 ^ 15 := by norm_cast
    rw [h3]
    apply div_le_div_of_nonneg_right _ (by norm_num)
    rw [mul_comm]
    exact mul_le_mul_of_nonneg_right exp_small (Real.exp_pos _).le

/-- A result that can be stored. -/
def Storable (R : Var) : Prop :=
  Digits R.digits ∧ R.sign ≠ .nan ∧ HasScale (value R) R.dscale ∧ 0 ≤ R.dscale ∧ R.dscale ≤ 1000 ∧ -653 ≤ R.weight ∧ R.weight ≤ 653 ∧
    (R.digits.length : Int) ≤ 100000 ∧ |value R| < limit

/-- The scales to which the logarithm of the base is asked for. -/
def PowReq [Build] (lm : Libm) (u e : Var) (R : ℤ) : Prop :=
  ∃ w v : ℤ, estimateLnDweight lm u = .ok w ∧ R ≤ max 0 (max 24 (max u.dscale e.dscale + v + 8) - w) ∧
    ((value e : ℝ) * Real.log (value u) ≤ 57 → v ≤ 26)

/-- If the logarithms of the base are found, so is the power. -/
theorem powerReal_ok [Build] {lm : Libm} (hl : LibmOK lm) {fuel : Nat} (hf : 4200 ≤ fuel) {u e : Var} (hu : Canonical u)
    (hu0 : 0 < value u) (hu1 : value u = 1 ∨ (10:ℚ) ^ (-980:ℤ) ≤ |value u - 1|) (he : Canonical e)
    {F : Fault → Prop}
    (hln : ∀ R : ℤ, 0 ≤ R → R ≤ 5000 → PowReq lm u e R → (∃ y, lnCommon fuel u R = .ok y) ∨ (∃ f, F f ∧ lnCommon fuel u R = .error f)) :
    (∃ o, powerReal lm fuel u e = .ok o ∧ ∀ R, o = some R → Storable R) ∨ (∃ f, F f ∧ powerReal lm fuel u e = .error f) := by
  obtain ⟨w, ew, hw0, hw6, hw, -⟩ := powEst_spec hl hu hu0 hu1
  have hp := PosVar.of_canonical hu hu0
  have hbig := log_canon_le hp
  have hud := hu.dscale_nonneg
  have hed := he.dscale_nonneg
  unfold powerReal
  rw [if_neg (by rw [cmp_zero hu, cmpSign_eq_zero]; exact hu0.ne')]
  simp only [ew, bind_ok, NUMERIC_MIN_SIG_DIGITS, NUMERIC_MIN_DISPLAY_SCALE, NUMERIC_MAX_DISPLAY_SCALE]
  rw [show min (max (8 - w) 0) 1000 = 8 - w by omega, fits_ok (by fits_tac), bind_ok]
  rcases hln (8 - w) (by omega) (by omega) ⟨w, 0, ew, by omega, fun _ => by norm_num⟩ with ⟨y1, e1⟩ | ⟨f, hd, e1⟩
  swap
  · right; rw [e1]; exact ⟨f, hd, rfl⟩
  obtain ⟨N1, val, eN1, ev, hv1, hv2⟩ := powFirst_spec hl hu hu0 he hw0 hw6 hw e1
  simp only [e1, eN1, ev, bind_ok, expect, pure_ok]
  by_cases h6 : |val| > 6020
  · rw [if_pos h6]; exact .inl ⟨_, rfl, fun R h => by cases h⟩
  rw [if_neg h6]
  push Not at h6
  obtain ⟨v, hvd⟩ : ∃ v, v = F64.toI32 (F64.mul val F64.LOG10_E) := ⟨_, rfl⟩
  have hvb : |v| ≤ 2700 := by
    obtain ⟨-, t2⟩ := expLog_spec (val := val) (x := (val:ℝ)) (by linarith) (by simp)
    have hX : |F64.mul val F64.LOG10_E| ≤ 2700 := by
      have := mul_le_mul_of_nonneg_left h6 (by norm_num : (0:ℚ) ≤ 4344 / 10000)
      norm_num at this
      linarith
    obtain ⟨-, -, d3⟩ := toI32_near (x := F64.mul val F64.LOG10_E) (hX.trans (by norm_num))
    rw [← hvd] at d3
    have : |(v:ℚ)| ≤ 2700 := d3.trans hX
    exact_mod_cast this
  rw [← hvd]
  obtain ⟨rs, hrs⟩ : ∃ rs, rs = min (max (max (max (16 - v) u.dscale) e.dscale) 0) 1000 := ⟨_, rfl⟩
  rw [← hrs]
  obtain ⟨l, hlv⟩ : ∃ l, l = max (rs + v - w + 8) 0 := ⟨_, rfl⟩
  rw [← hlv]
  rw [abs_le] at hvb
  rw [fits_ok (by fits_tac), bind_ok]
  have hv57 : (value e : ℝ) * Real.log (value u) ≤ 57 → v ≤ 26 := by
    intro h57
    have h30 : |(value e : ℝ) * Real.log (value u)| < 30000 := by
      by_contra hcon
      exact absurd (hv2 (not_lt.1 hcon)) (not_lt.2 h6)
    have hval := hv1 (h30.le.trans (by norm_num))
    obtain ⟨t1, t2⟩ := expLog_spec (val := val) (x := (val:ℝ)) (by linarith) (by simp)
    have hX : |F64.mul val F64.LOG10_E| ≤ 2700 := by
      have := mul_le_mul_of_nonneg_left h6 (by norm_num : (0:ℚ) ≤ 4344 / 10000)
      norm_num at this
      linarith
    obtain ⟨-, d2, -⟩ := toI32_near (x := F64.mul val F64.LOG10_E) (hX.trans (by norm_num))
    rw [← hvd] at d2
    have h1 := (abs_le.1 hval).2
    have h2 := (abs_le.1 t1).2
    have hv58 : (val:ℝ) ≤ 58 := by linarith
    have hlog : (2302 / 1000 : ℝ) ≤ Real.log 10 := by have := log_ten_bounds.1; linarith
    have hXr : (F64.mul val F64.LOG10_E : ℝ) ≤ 253 / 10 := by
      by_contra hcon
      push Not at hcon
      nlinarith
    have d3 : ((v:ℚ):ℝ) < ((F64.mul val F64.LOG10_E + 1 : ℚ) : ℝ) := by exact_mod_cast d2
    push_cast at d3
    have d4 : (v:ℝ) < ((27:ℤ):ℝ) := by push_cast; linarith
    have : v < 27 := by exact_mod_cast d4
    omega
  rcases hln l (by omega) (by omega) ⟨w, v, ew, by omega, hv57⟩ with ⟨y2, e2⟩ | ⟨f, hd, e2⟩
  swap
  · right; rw [e2]; exact ⟨f, hd, rfl⟩
  obtain ⟨wy, ay⟩ := lnCommon_spec hp (by omega) (by omega) e2
  have hyb : |(value y2 : ℝ)| ≤ 10 ^ 8 := by
    have hf1 : lnFactor (value u) ≤ 7040000 := by
      unfold lnFactor; rw [max_le_iff]; constructor
      · norm_num
      · linarith
    have hf2 := lnFactor_pos (value u : ℝ)
    have hl0 : (0:ℝ) ≤ l := by exact_mod_cast (by omega : 0 ≤ l)
    have hl5 : (l:ℝ) ≤ 5000 := by exact_mod_cast (by omega : l ≤ 5000)
    have h1 : (10:ℝ) ^ (-l) ≤ 1 := by
      rw [show (1:ℝ) = 10 ^ (0:ℤ) by norm_num]; exact zpow_le_zpow_right₀ (by norm_num) (by omega)
    have h2 := mul_le_mul (by linarith : (l + 10 : ℝ) ≤ 5010) hf1 (by linarith) (by norm_num)
    have h3 : (1 / 2 + (l + 10) * lnFactor (value u) / 10 ^ 8 : ℝ) ≤ 400 := by norm_num at h2 ⊢; linarith
    have h4 := mul_le_mul h3 h1 (by positivity) (by norm_num)
    have h5 := abs_sub_abs_le_abs_sub (value y2 : ℝ) (Real.log (value u))
    have h6 := ay.trans h4
    norm_num
    linarith
  have hlen : (y2.digits.length : ℤ) ≤ 1254 := by
    have hq : |value y2| < 10000 ^ (3:ℤ) := by
      have : ((|value y2| : ℚ) : ℝ) ≤ ((10 ^ 8 : ℚ) : ℝ) := by push_cast; exact hyb
      have : |value y2| ≤ 10 ^ 8 := by exact_mod_cast this
      norm_num at this ⊢
      linarith
    have := (wy.bounds (by norm_num) hq).2.2.2
    omega
  obtain ⟨N, eN, wN, aN⟩ := wy.mul (Work.of_canonical he) (l := l) (by omega) (by omega) (wy.smR (by norm_num at hyb ⊢; linarith)) he.small
    (n := 1254) (by omega)
  have hT1 : (10:ℝ) ^ (-l) ≤ 1 := by
    rw [show (1:ℝ) = 10 ^ (0:ℤ) by norm_num]; exact zpow_le_zpow_right₀ (by norm_num) (by omega)
  have sN := prod_small wN hyb he.abs_lt (by
    have := mul_le_mul_of_nonneg_left hT1 (by norm_num : (0:ℝ) ≤ 1 / 2 + ((1254:ℕ):ℝ) / 10000)
    norm_num at this ⊢
    linarith) aN
  obtain ⟨val2, -, -, -, m1, m2⟩ := expCommon_spec hl hf wN sN (rs := rs) (by omega) (by omega)
  simp only [e2, eN, bind_ok]
  rcases le_or_gt 6000 |val2| with h | h
  · exact .inl ⟨_, m1 h, fun R h => by cases h⟩
  · obtain ⟨R, eR, r1, r2, r3, r4, r5, r6, r6', r7, -⟩ := m2 h
    refine .inl ⟨_, eR, fun R' h => ?_⟩
    cases h
    exact ⟨r1, r2, by rw [r3]; exact r4, by rw [r3]; omega, by rw [r3]; omega, r5, r6, r6', r7⟩

end PgNumeric
