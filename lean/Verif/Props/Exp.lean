import Verif.Props.Log
import Verif.Proofs.ExpCommon
/-!
# Accuracy of the exponential (C51)
-/
namespace PgNumeric.Props
open PgNumeric Spec Var

/-- The double nearest to an argument, against the limit 6000 of the code. -/
theorem val_lt {val x : ℚ} (hv : |val - x| ≤ |x| / 10 ^ 15 + 1 / 10 ^ 300) (hx : |x| ≤ 6000 - 1 / 10 ^ 9) : |val| < 6000 := by
  have h1 := abs_sub_abs_le_abs_sub val x
  have := tiny300
  generalize (1:ℚ) / 10 ^ 300 = ε at *
  generalize |x| = X at *
  norm_num at hv hx this
  linarith

theorem val_ge {val x : ℚ} (hv : |val - x| ≤ |x| / 10 ^ 15 + 1 / 10 ^ 300) (hx : 6000 + 1 / 10 ^ 9 ≤ |x|) : 6000 ≤ |val| := by
  have h1 := abs_sub_abs_le_abs_sub x val
  rw [abs_sub_comm] at h1
  have := tiny300
  generalize (1:ℚ) / 10 ^ 300 = ε at *
  generalize |x| = X at *
  norm_num at hv hx this
  linarith

theorem exp_unfold [Build] (lm : Libm) (fuel : Nat) {a : Bin} {u : Var} (ea : Num.asBinary a = .ok ()) (na : a.isNan = false)
    (va : a.asVar = .ok u) : Num.exp lm fuel a = (do
      match ← Var.exp lm fuel u with
      | none => pure none
      | some u => Num.finish u) := by
  unfold Num.exp
  simp only [ea, na, va, bind_ok, Bool.false_eq_true, if_false]
  rfl

/-- The estimate of the scale stays within `i32`. -/
theorem exp_fits (x : ℚ) : fits [NUMERIC_MIN_SIG_DIGITS - F64.toI32 (min (max x (-2000)) 2000)] = .ok () := by
  have h := toI32_bounds (x := min (max x (-2000)) 2000) (B := 2000) (by norm_num) (by norm_num)
    (by rw [abs_le]; constructor <;> simp)
  rw [abs_le] at h
  exact fits_ok (by fits_tac)

theorem exp_core [Build] {lm : Libm} (hl : LibmOK lm) {fuel : Nat} (hf : 4200 ≤ fuel) {a : Bin} {x : ℚ} {s : Int}
    (ha : Holds a x s) (hx : |x| ≤ 6001) :
    (∃ r y t, Num.exp lm fuel a = .ok (some r) ∧ Holds r y t ∧ min s 1000 ≤ t ∧ t ≤ 1000 ∧
      |(y:ℝ) - Real.exp x| ≤ 51 / 100 * 10 ^ (-t) ∧ (t = 1000 ∨ |(y:ℝ) - Real.exp x| ≤ Real.exp x / 10 ^ 15)) ∨
    (6000 - 1 / 10 ^ 9 < |x| ∧ Num.exp lm fuel a = .ok none) := by
  obtain ⟨u, hu, rfl, rfl, ea, na, va⟩ := ha.exists_var
  have hw := Work.of_canonical hu
  have hd0 := hu.dscale_nonneg
  have hd1 := hu.dscale_le
  have h250 : |value u| ≤ 10 ^ 250 := hx.trans (by norm_num)
  obtain ⟨val0, ev0, hv0⟩ := hl.toF64 hu.digits hu.not_nan hu.stripped hu.dscale_nonneg hu.scale hu.small (by omega) h250
  obtain ⟨v, hvdef⟩ : ∃ v, v = min (max (F64.mul val0 F64.LOG10_E) (-2000)) 2000 := ⟨_, rfl⟩
  obtain ⟨t, ht⟩ : ∃ t, t = min (max (max (16 - F64.toI32 v) u.dscale) 0) 1000 := ⟨_, rfl⟩
  have hcode : Var.exp lm fuel u = expCommon lm fuel u t := by
    unfold Var.exp
    rw [dassert_ok hu.not_nan]
    simp only [ev0, bind_ok]
    rw [exp_fits, bind_ok]
    simp only [ht, hvdef, NUMERIC_MIN_SIG_DIGITS, NUMERIC_MIN_DISPLAY_SCALE, NUMERIC_MAX_DISPLAY_SCALE]
  obtain ⟨val, ev, hval, -, hnone, hmain⟩ := expCommon_spec hl hf hw hu.small (rs := t) (by omega) (by omega)
  have hvv : val = val0 := by rw [ev0] at ev; cases ev; rfl
  subst hvv
  replace hval := hval h250
  rw [exp_unfold lm fuel ea na va, hcode]
  rcases le_or_gt 6000 |val| with hge | hlt
  · right
    refine ⟨?_, by rw [hnone hge]; rfl⟩
    by_contra hc
    exact absurd (val_lt hval (not_lt.1 hc)) (not_lt.2 hge)
  obtain ⟨R, eR, h1, h2, h3, h4, h5, h6, hlen, h7, h8⟩ := hmain hlt
  · left
    rw [eR]
    simp only [bind_ok]
    obtain ⟨r, er, hr⟩ := (Num.finish_loose h1 h2 h3 rfl (by omega) (by omega) h4 (.inl (by omega)) (by omega) (by omega)).1 h7
    refine ⟨r, value R, t, er, hr, by omega, by omega, h8, ?_⟩
    by_cases h1000 : t = 1000
    · exact .inl h1000
    right
    have ht16 : 16 - F64.toI32 v ≤ t := by omega
    have hvalR : |(val : ℝ) - (value u : ℝ)| ≤ 1 / 10 ^ 10 := by
      have h1 : |val - value u| ≤ 1 / 10 ^ 10 := by
        have := tiny300
        generalize (1:ℚ) / 10 ^ 300 = ε at *
        generalize |value u| = A at *
        norm_num at hval this hx ⊢
        linarith
      have := castR h1
      push_cast at this
      exact this
    obtain ⟨t1, t2⟩ := expLog_spec (by linarith) hvalR
    have hv2 : |v| ≤ 2000 := by rw [hvdef, abs_le]; constructor <;> simp
    obtain ⟨-, d2, -⟩ := toI32_near (x := v) (hv2.trans (by norm_num))
    have hvle : v ≤ F64.mul val F64.LOG10_E := by
      rcases le_total (F64.mul val F64.LOG10_E) (-2000) with hc | hc
      · exfalso
        have hv' : v = -2000 := by rw [hvdef, max_eq_right hc]; norm_num
        rw [hv'] at ht16
        have : F64.toI32 (-2000) = -2000 := by decide +kernel
        omega
      · rw [hvdef, max_eq_left hc]; exact min_le_left _ _
    have hle : (10:ℝ) ^ (-t) ≤ 1001 / 1000 * Real.exp (value u) / 10 ^ 15 := by
      obtain ⟨l1, l2, -⟩ := log_ten_bounds
      have g1 : (-t:ℝ) ≤ F64.mul val F64.LOG10_E - 15 := by
        have a1 : ((16 - F64.toI32 v : ℤ) : ℝ) ≤ t := by exact_mod_cast ht16
        have a2 := castR d2.le
        have a3 := castR hvle
        push_cast at a1 a2
        linarith
      have g2 : (-t:ℝ) * Real.log 10 ≤ value u + 1 / 10 ^ 4 - 15 * Real.log 10 := by
        have := mul_le_mul_of_nonneg_right g1 (by linarith : 0 ≤ Real.log 10)
        have := (abs_le.1 t1).2
        linarith
      have g3 := Real.exp_le_exp.2 g2
      have g4 : Real.exp ((-t:ℝ) * Real.log 10) = 10 ^ (-t) := by
        rw [mul_comm, ← Real.rpow_def_of_pos (by norm_num)]
        rw [show (-t:ℝ) = ((-t : ℤ) : ℝ) by push_cast; rfl, Real.rpow_intCast]
      have g5 : Real.exp (15 * Real.log 10) = 10 ^ 15 := by
        rw [mul_comm, ← Real.rpow_def_of_pos (by norm_num)]; norm_num
      rw [g4, Real.exp_sub, Real.exp_add, g5] at g3
      refine g3.trans ?_
      apply div_le_div_of_nonneg_right _ (by norm_num)
      rw [mul_comm]
      apply mul_le_mul_of_nonneg_right _ (Real.exp_pos _).le
      have h3 := Real.abs_exp_sub_one_le (x := 1 / 10 ^ 4) (by norm_num [abs_le])
      rw [abs_of_pos (by norm_num : (0:ℝ) < 1 / 10 ^ 4)] at h3
      have := (abs_le.1 h3).2
      norm_num at this ⊢
      linarith
    refine h8.trans ?_
    have := Real.exp_pos (value u : ℝ)
    generalize (10:ℝ) ^ (-t) = U at *
    generalize Real.exp (value u : ℝ) = E at *
    norm_num at hle ⊢
    linarith

/-- C51: `e^x` of a number whose magnitude is below 6000 is accurate to 0.51 units in its last place, has a scale `t` between
`min(s, 1000)` and 1000, and, unless `t` is the maximum 1000, at least 15 correct significant digits. The computation
terminates and never panics, in debug builds as well: the divisors of the series are too short for the overflow of the fast division. -/
theorem C51_exp_accuracy [Build] {lm : Libm} (hl : LibmOK lm) {fuel : Nat} (hf : 4200 ≤ fuel) {a : Bin} {x : ℚ} {s : Int}
    (ha : Holds a x s) (hx : |x| ≤ 6000 - 1 / 10 ^ 9) :
    ∃ r y t, Num.exp lm fuel a = .ok (some r) ∧ Holds r y t ∧ min s 1000 ≤ t ∧ t ≤ 1000 ∧
      |(y:ℝ) - Real.exp x| ≤ 51 / 100 * 10 ^ (-t) ∧ (t = 1000 ∨ |(y:ℝ) - Real.exp x| ≤ Real.exp x / 10 ^ 15) := by
  rcases exp_core hl hf ha (hx.trans (by norm_num)) with h | ⟨h, -⟩
  · exact h
  · linarith

/-- C51: beyond magnitude 6000 the code reports an overflow, even for negative `x`, where `e^x` is tiny but representable. -/
theorem C51_exp_overflow [Build] {lm : Libm} (hl : LibmOK lm) (fuel : Nat) {a : Bin} {x : ℚ} {s : Int}
    (ha : Holds a x s) (hx : 6000 + 1 / 10 ^ 9 ≤ |x|) : Num.exp lm fuel a = .ok none := by
  obtain ⟨u, hu, rfl, rfl, ea, na, va⟩ := ha.exists_var
  obtain ⟨val, ev, hv, hbig⟩ := hl.toF64_all (Work.of_canonical hu) hu.small
  have hge : 6000 ≤ |val| := by
    rcases le_or_gt |value u| (10 ^ 250) with h | h
    · exact val_ge (hv h) hx
    · have h1 : (20000:ℚ) ≤ 10 ^ 250 := by norm_num
      linarith [hbig (h1.trans h.le)]
  rw [exp_unfold lm fuel ea na va]
  unfold Var.exp expCommon
  rw [dassert_ok hu.not_nan]
  simp only [ev, bind_ok, expect, pure_ok]
  rw [exp_fits, bind_ok, if_pos hge]
  rfl

/-- C51: for every `x` without exception, `exp` gives an accurate number, or `None` if the magnitude of `x` is above about 6000. -/
theorem C51_exp_all [Build] {lm : Libm} (hl : LibmOK lm) {fuel : Nat} (hf : 4200 ≤ fuel) {a : Bin} {x : ℚ} {s : Int}
    (ha : Holds a x s) :
    (|x| < 6000 + 1 / 10 ^ 9 ∧ ∃ r y t, Num.exp lm fuel a = .ok (some r) ∧ Holds r y t ∧ min s 1000 ≤ t ∧ t ≤ 1000 ∧
      |(y:ℝ) - Real.exp x| ≤ 51 / 100 * 10 ^ (-t) ∧ (t = 1000 ∨ |(y:ℝ) - Real.exp x| ≤ Real.exp x / 10 ^ 15)) ∨
    (6000 - 1 / 10 ^ 9 < |x| ∧ Num.exp lm fuel a = .ok none) := by
  rcases le_or_gt (6000 + 1 / 10 ^ 9) |x| with hx | hx
  · exact .inr ⟨by linarith, C51_exp_overflow hl fuel ha hx⟩
  · rcases exp_core hl hf ha (hx.le.trans (by norm_num)) with h | h
    · exact .inl ⟨hx, h⟩
    · exact .inr h

/-- C51: `e^NaN` is NaN. -/
theorem C51_exp_nan [Build] (lm : Libm) (fuel : Nat) {a : Bin} (ha : IsNaN a) :
    ∃ r, Num.exp lm fuel a = .ok (some r) ∧ IsNaN r := by
  obtain ⟨ea, na⟩ := ha.facts
  refine ⟨_, ?_, nan_isNaN⟩
  unfold Num.exp
  simp only [ea, na, bind_ok, if_true, Num.nan_ok, pure_ok]

/-- C51: `e^0` is exactly one. -/
theorem C51_exp_zero [Build] {lm : Libm} (hl : LibmOK lm) {fuel : Nat} (hf : 4200 ≤ fuel) {a : Bin} {s : Int}
    (ha : Holds a 0 s) : ∃ r t, Num.exp lm fuel a = .ok (some r) ∧ Holds r 1 t := by
  obtain ⟨r, y, t, h1, h2, h3, -, h4, -⟩ := C51_exp_accuracy hl hf ha (by norm_num)
  refine ⟨r, t, h1, ?_⟩
  obtain ⟨u, hu, rfl, rfl, -, -, -⟩ := h2.exists_var
  have ht0 := hu.dscale_nonneg
  obtain ⟨p, hp⟩ := hu.scale
  obtain ⟨n, hn⟩ : ∃ n : ℕ, u.dscale = n := ⟨u.dscale.toNat, by omega⟩
  rw [hn] at hp h4
  rw [zpow_natCast] at hp
  rw [zpow_neg, zpow_natCast] at h4
  have hpR : (value u : ℝ) * 10 ^ n = p := by exact_mod_cast congrArg (fun q : ℚ => (q : ℝ)) hp
  have h5 : |((p - 10 ^ n : ℤ) : ℝ)| < 1 := by
    push_cast
    rw [← hpR]
    have hT : (0:ℝ) < 10 ^ n := by positivity
    rw [show (value u : ℝ) * 10 ^ n - 10 ^ n = (value u - 1) * 10 ^ n by ring, abs_mul, abs_of_pos hT]
    rw [Rat.cast_zero, Real.exp_zero] at h4
    have := mul_le_mul_of_nonneg_right h4 hT.le
    rw [mul_assoc, inv_mul_cancel₀ hT.ne'] at this
    linarith
  have h6 : |p - 10 ^ n| < 1 := by exact_mod_cast h5
  have h7 : p = 10 ^ n := by rw [Int.abs_lt_one_iff] at h6; omega
  have h8 : value u = 1 := by
    have hT : (0:ℚ) < 10 ^ n := by positivity
    rw [h7] at hp
    push_cast at hp
    have : value u * 10 ^ n = 1 * 10 ^ n := by rw [hp, one_mul]
    exact mul_right_cancel₀ hT.ne' this
  rw [← h8]
  exact h2

/-- The hypotheses are met, with any accurate libm: the numbers 2.5 and -5999.99999999. -/
example [Build] {lm : Libm} (hl : LibmOK lm) : ∃ a b r q y t, Holds a (25 / 10) 1 ∧
    Holds b (-599999999999 / 10 ^ 8) 8 ∧ Num.exp lm 4200 a = .ok (some r) ∧
    Num.exp lm 4200 b = .ok (some q) ∧ Holds r y t ∧ |(y:ℝ) - Real.exp (25 / 10)| ≤ 1 / 10 := by
  obtain ⟨a, ha⟩ := witness (x := 25 / 10) (s := 1) 25 (by norm_num) (by norm_num) (by norm_num) (by norm_num [abs_lt])
  obtain ⟨b, hb⟩ := witness (x := -599999999999 / 10 ^ 8) (s := 8) (-599999999999) (by norm_num) (by norm_num) (by norm_num)
    (by norm_num [abs_lt])
  obtain ⟨r, y, t, h1, h2, h3, -, h4, -⟩ := C51_exp_accuracy hl (fuel := 4200) le_rfl ha (by norm_num [abs_le])
  obtain ⟨q, -, -, h5, -⟩ := C51_exp_accuracy hl (fuel := 4200) le_rfl hb (by norm_num [abs_le])
  refine ⟨a, b, r, q, y, t, ha, hb, h1, h5, h2, ?_⟩
  have ht : (10:ℝ) ^ (-t) ≤ 10 ^ (-1:ℤ) := zpow_le_zpow_right₀ (by norm_num) (by omega)
  push_cast at h4
  refine h4.trans ?_
  generalize (10:ℝ) ^ (-t) = U at *
  norm_num at ht ⊢
  linarith

end PgNumeric.Props
