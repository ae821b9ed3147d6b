import Verif.Props.Ln
import Verif.Props.LogAcc
import Verif.Props.NoPanic
/-!
# Logarithms and powers that never return (C49, C50, C52)

The range reduction of `ln` takes square roots, so it inherits the oscillation of `C34_sqrt_may_not_terminate`.
-/
namespace PgNumeric.Props
open PgNumeric Spec Var

theorem loopArg_log : (120:ℝ) < Real.log (value loopArg : ℝ) := by
  rw [loopArg_value]
  have h2 := Real.log_two_gt_d9
  have h1 : ((2:ℝ) ^ 200) ≤ ((3710043354833666842836714662318530742411107790758794940487738 : ℚ) : ℝ) := by norm_num
  have h3 := Real.log_le_log (by positivity) h1
  rw [Real.log_pow] at h3
  norm_num at h3 h2 ⊢
  linarith

/-- The first square root of the range reduction never ends. -/
theorem lnCommon_loop [Build] {R : ℤ} (h0 : 0 ≤ R) (h1 : R ≤ 22) (fuel : Nat) : lnCommon fuel loopArg R = .error .diverge := by
  have hpos : 0 < value loopArg := by rw [loopArg_value]; norm_num
  have hp := PosVar.of_canonical loopArg_canonical hpos
  have hbig : (4 : ℝ) ≤ (value loopArg : ℝ) := by rw [loopArg_value]; norm_num
  have hdiv : sqrtCommon fuel loopArg 0 = .error .diverge := by
    obtain ⟨c1, c2, c3⟩ := loop_cycle Build.debug Build.bigEndianVarlen
    have := chase_diverges 14 c1 (fun fuel => (cycle_diverges c2 c3 fuel).1) fuel
    unfold sqrtCommon
    rw [dassert_ok (by decide)]
    simp only [bind_ok, loopArg] at this ⊢
    rw [show (0:Int) + 8 = 8 from rfl, this]
    rfl
  unfold lnCommon
  rw [dassert_ok loopArg_canonical.not_nan, dassert_ok hp.cmp_zero_pos]
  simp only [bind_ok]
  cases fuel with
  | zero => rfl
  | succ f =>
    have e1 : lnReduce (fun x => cmpCommon x zeroPointNine ≤ 0) R (f + 1) (f + 1) loopArg two = .ok (loopArg, two) := by
      unfold lnReduce
      rw [if_neg]
      · rfl
      · simp only [decide_eq_true_eq, hp.cmp_nine]; linarith
    have e2 : lnReduce (fun x => cmpCommon x onePointOne ≥ 0) R (f + 1) (f + 1) loopArg two = .error .diverge := by
      unfold lnReduce
      rw [if_pos (by simp only [decide_eq_true_eq, hp.cmp_eleven]; linarith)]
      have hw : loopArg.weight * DEC_DIGITS = 60 := by decide
      rw [hw, show (60:ℤ).tdiv 2 = 30 by decide, fits_ok (by fits_tac), bind_ok]
      simp only [NUMERIC_MIN_DISPLAY_SCALE]
      rw [show max (R - 30 + 8) 0 = 0 by omega, hdiv]
      rfl
    rw [e1]
    simp only [bind_ok]
    rw [e2]
    rfl

theorem estimate_loop [Build] {lm : Libm} (hl : LibmOK lm) : ∃ w, estimateLnDweight lm loopArg = .ok w ∧ 2 ≤ w ∧ w ≤ 6 := by
  have hpos : 0 < value loopArg := by rw [loopArg_value]; norm_num
  obtain ⟨w, ew, -, h⟩ := estimate_spec hl loopArg_canonical hpos
  obtain ⟨-, h6⟩ := estimate_bounds hl loopArg_canonical hpos ew
  refine ⟨w, ew, ?_, h6⟩
  have := (h (by rw [loopArg_value]; norm_num)).2
  rw [abs_of_pos (by linarith [loopArg_log])] at this
  by_contra hc
  have h3 : (10:ℝ) ^ w ≤ 10 ^ (1:ℤ) := zpow_le_zpow_right₀ (by norm_num) (by omega)
  norm_num at h3
  linarith [loopArg_log]

theorem loopArg_eq [Build] {b : Bin} (hb : Holds b 3710043354833666842836714662318530742411107790758794940487738 0) :
    Num.asBinary b = .ok () ∧ b.isNan = false ∧ b.asVar = .ok loopArg := by
  obtain ⟨u, hu, hv, hs, ea, na, va⟩ := hb.exists_var
  have hul : u = loopArg := hu.unique loopArg_canonical (by rw [hv, loopArg_value]) (by rw [hs]; rfl)
  subst hul
  exact ⟨ea, na, va⟩

/-- C49 (a defect): `ln` does not always return: for this 61-digit integer it runs for ever, in every build. -/
theorem C49_ln_may_not_terminate [Build] {lm : Libm} (hl : LibmOK lm) {b : Bin}
    (hb : Holds b 3710043354833666842836714662318530742411107790758794940487738 0) (fuel : Nat) :
    Num.ln lm fuel b = .error .diverge := by
  obtain ⟨ea, na, va⟩ := loopArg_eq hb
  have hpos : 0 < value loopArg := by rw [loopArg_value]; norm_num
  obtain ⟨w, ew, h2, h6⟩ := estimate_loop hl
  rw [ln_unfold lm fuel ea na va, (ln_checks lm fuel loopArg_canonical).2.2 hpos]
  simp only [ew, bind_ok, NUMERIC_MIN_SIG_DIGITS, NUMERIC_MIN_DISPLAY_SCALE, NUMERIC_MAX_DISPLAY_SCALE]
  rw [fits_ok (by fits_tac), bind_ok, show min (max (max (16 - w) loopArg.dscale) 0) 1000 = 16 - w by simp only [loopArg]; omega,
    lnCommon_loop (by omega) (by omega)]
  rfl

/-- C52 (a defect): a power of that integer with an exponent that is not a 32-bit integer, for example 1/2, never returns, in any build. -/
theorem C52_pow_may_not_terminate [Build] {lm : Libm} (hl : LibmOK lm) {a b : Bin} {y : ℚ} {t : ℤ}
    (ha : Holds a 3710043354833666842836714662318530742411107790758794940487738 0) (hb : Holds b y t) (hy : ∀ k : ℤ, y = k → ¬ IsI32 k)
    (fuel : Nat) : Num.pow lm fuel a b = .error .diverge := by
  obtain ⟨ea, na, va⟩ := loopArg_eq ha
  obtain ⟨c, hc, rfl, rfl, -, -, vb⟩ := hb.exists_var
  have hpos : 0 < value loopArg := by rw [loopArg_value]; norm_num
  obtain ⟨w, ew, h2, h6⟩ := estimate_loop hl
  rw [pow_unfold lm fuel va vb, (pow_checks lm fuel loopArg_canonical hc).2.2 (fun h => by linarith [h.1]) (fun h => by linarith),
    powerCommon_real lm fuel loopArg_canonical hc hy]
  unfold powerReal
  rw [if_neg (by rw [cmp_zero loopArg_canonical, cmpSign_eq_zero]; exact hpos.ne')]
  simp only [ew, bind_ok, NUMERIC_MIN_DISPLAY_SCALE, NUMERIC_MAX_DISPLAY_SCALE]
  rw [fits_ok (by fits_tac), bind_ok, show min (max (8 - w) 0) 1000 = 8 - w by omega, lnCommon_loop (by omega) (by omega)]
  rfl

theorem log_loop (e : Bool) {lm : Libm} (hl : LibmOK lm) (fuel : Nat) {v : Var} (hv : Canonical v) (hd : v.dscale = 0) (h1 : 1 < value v)
    (hlo : (1:ℝ) ≤ 2 * Real.log (value v)) (hhi : Real.log (value v) ≤ 3) : @logCommon ⟨false, e⟩ lm fuel loopArg v = .error .diverge := by
  let _ : Build := ⟨false, e⟩
  have hpos : 0 < value loopArg := by rw [loopArg_value]; norm_num
  have hv0 : 0 < value v := by linarith
  obtain ⟨w, ew, h2, h6⟩ := estimate_loop hl
  obtain ⟨bw, eb, -, hb⟩ := estimate_spec hl hv hv0
  obtain ⟨hb1, hb2⟩ := hb h1.ne'
  rw [abs_of_pos (by linarith)] at hb1 hb2
  have hbl : -1 ≤ bw := by
    by_contra hc
    have : (10:ℝ) ^ bw ≤ 10 ^ (-2:ℤ) := zpow_le_zpow_right₀ (by norm_num) (by omega)
    norm_num at this
    linarith
  have hbu : bw ≤ 1 := by
    by_contra hc
    have : (10:ℝ) ^ (2:ℤ) ≤ 10 ^ bw := zpow_le_zpow_right₀ (by norm_num) (by omega)
    norm_num at this
    linarith
  show logCommon lm fuel loopArg v = .error .diverge
  unfold logCommon
  rw [dassert_ok loopArg_canonical.not_nan, dassert_ok hv.not_nan,
    dassert_ok (PosVar.of_canonical loopArg_canonical hpos).cmp_zero_pos]
  simp only [bind_ok, eb, ew]
  rw [i32_ok (by omega) (by omega)]
  simp only [bind_ok, NUMERIC_MIN_SIG_DIGITS, NUMERIC_MIN_DISPLAY_SCALE, NUMERIC_MAX_DISPLAY_SCALE, hd]
  have hs : min (max (max (max (16 - (w - bw)) 0) loopArg.dscale) 0) 1000 = 16 - (w - bw) := by simp only [loopArg]; omega
  rw [hs, fits_ok (by fits_tac), bind_ok]
  rcases lnCommon_cases (PosVar.of_canonical hv hv0) (R := max (16 - (w - bw) + (w - bw) - bw + 8) 0) (by omega) (by omega) fuel with
    ⟨y, ey⟩ | ey | ⟨h, -⟩
  · rw [ey, bind_ok, show max (16 - (w - bw) + (w - bw) - w + 8) 0 = 24 - w by omega, lnCommon_loop (by omega) (by omega)]
    rfl
  · rw [ey]; rfl
  · cases h

/-- C50 (a defect): `log2` and `log10` of that integer never return in a release build. -/
theorem C50_log_may_not_terminate (e : Bool) {lm : Libm} (hl : LibmOK lm) {b : Bin}
    (hb : @Holds ⟨false, e⟩ b 3710043354833666842836714662318530742411107790758794940487738 0) (fuel : Nat) :
    @Num.log2 ⟨false, e⟩ lm fuel b = .error .diverge ∧ @Num.log10 ⟨false, e⟩ lm fuel b = .error .diverge := by
  let _ : Build := ⟨false, e⟩
  obtain ⟨ea, na, va⟩ := loopArg_eq hb
  have hpos : 0 < value loopArg := by rw [loopArg_value]; norm_num
  have l2 := Real.log_two_gt_d9
  have l2' := Real.log_two_lt_d9
  have key : ∀ {v : Var}, Canonical v → v.dscale = 0 → 1 < value v → (1:ℝ) ≤ 2 * Real.log (value v) → Real.log (value v) ≤ 3 →
      Var.log lm fuel loopArg v = .error .diverge := by
    intro v hv hd h1 hlo hhi
    rw [(log_checks lm fuel loopArg_canonical hv).2.2.2.2 hpos (by linarith)]
    exact log_loop e hl fuel hv hd h1 hlo hhi
  constructor
  · show Num.log2 lm fuel b = _
    unfold Num.log2
    simp only [ea, na, va, bind_ok, Bool.false_eq_true, if_false]
    have h2 : value Var.two = 2 := by simp [value, mag, Var.two]
    rw [key two_canonical rfl (by rw [h2]; norm_num) (by rw [h2, Rat.cast_ofNat]; linarith) (by rw [h2, Rat.cast_ofNat]; linarith)]
    rfl
  · show Num.log10 lm fuel b = _
    unfold Num.log10
    simp only [ea, na, va, bind_ok, Bool.false_eq_true, if_false]
    have h8 : Real.log 8 = 3 * Real.log 2 := by rw [show (8:ℝ) = 2 ^ 3 by norm_num, Real.log_pow]; norm_num
    have h16 : Real.log 16 = 4 * Real.log 2 := by rw [show (16:ℝ) = 2 ^ 4 by norm_num, Real.log_pow]; norm_num
    have a1 := Real.log_le_log (by norm_num) (show (8:ℝ) ≤ 10 by norm_num)
    have a2 := Real.log_le_log (by norm_num) (show (10:ℝ) ≤ 16 by norm_num)
    have h10 : value Var.ten = 10 := by simp [value, mag, Var.ten]
    rw [key ten_canonical rfl (by rw [h10]; norm_num) (by rw [h10, Rat.cast_ofNat]; linarith) (by rw [h10, Rat.cast_ofNat]; linarith)]
    rfl

/-- Such arguments exist. -/
example [Build] : ∃ a b, Holds a 3710043354833666842836714662318530742411107790758794940487738 0 ∧ Holds b (1/2) 1 ∧
    ∀ k : ℤ, (1/2 : ℚ) = k → ¬ IsI32 k := by
  obtain ⟨b, hb⟩ := witness (x := 1/2) (s := 1) 5 (by norm_num) (by norm_num) (by norm_num) (by norm_num [abs_lt])
  refine ⟨_, b, cast loopArg_canonical.holds loopArg_value rfl, hb, fun k hk _ => ?_⟩
  have : (1:ℚ) = (2 * k : ℤ) := by push_cast; linarith
  have : (1:ℤ) = 2 * k := by exact_mod_cast this
  omega

end PgNumeric.Props
