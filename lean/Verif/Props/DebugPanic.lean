import Verif.Props.Hang
import Verif.Props.SqrtTotal
/-!
# Overflow panics of debug builds (C34, C49)

`div_fast_common` folds a digit into the next one with an `i32` product that can overflow (C47). Here: square roots and logarithms of ordinary
numbers run into it.
-/
namespace PgNumeric.Props
open PgNumeric Spec Var

/-- A number of 84 digits whose square root is 9990.99909990… -/
def panicArg : Var := ⟨1, 76, .pos, [9982, 63, 144, 225, 306, 387, 468, 549, 630, 711, 792, 873, 954, 1035, 1116, 1197, 1278, 1359, 1440, 1521, 1602]⟩

theorem panicArg_value : value panicArg = 998200630144022503060387046805490630071107920873095410351116119712781359144015211602 / 10 ^ 76 := by
  simp only [value, panicArg, mag]
  norm_num

theorem panicArg_canonical : Canonical panicArg where
  not_nan := by decide
  digits := by unfold Digits; decide
  stripped := by refine ⟨by decide, by decide, fun h => ?_⟩; cases h
  weight_le := by decide
  dscale_nonneg := by decide
  dscale_le := by decide
  scale := by rw [panicArg_value]; exact ⟨998200630144022503060387046805490630071107920873095410351116119712781359144015211602, by norm_num [panicArg]⟩

theorem chase_error [Build] {a : Var} {L : Int} {f : Fault} (n : Nat) {r r' : Var} (h : chase a L n r = some r') (he : sqrtStep a r' L = .error f)
    (k : Nat) : sqrtLoop a L (k + n + 1) r = .error f := by
  induction n generalizing r with
  | zero => simp only [chase, Option.some.injEq] at h; subst h; rw [sqrtLoop, he]; rfl
  | succ n ih =>
    simp only [chase] at h
    cases hs : sqrtStep a r L with
    | error _ => rw [hs] at h; cases h
    | ok r1 =>
      rw [hs] at h
      simp only at h
      by_cases hc : cmpCommon r1 r = 0
      · rw [if_pos hc] at h; cases h
      · rw [if_neg hc] at h
        have := ih h
        rw [show k + (n + 1) + 1 = (k + n + 1) + 1 by omega, sqrtLoop, hs]
        simp only [bind_ok]
        rw [if_neg hc]; exact this

/-- Eight rounds, then the overflow. -/
def overflows [Build] (L : Int) : Bool :=
  match chase panicArg L 8 (sqrtGuess 1 9982) with
  | some r => match sqrtStep panicArg r L with
    | .error .overflow => true
    | _ => false
  | none => false

theorem overflows_at (e : Bool) : @overflows ⟨true, e⟩ 84 = true ∧ @overflows ⟨true, e⟩ 90 = true := by
  cases e <;> decide +kernel

theorem sqrtCommon_panics (e : Bool) {q : Int} (hq : q = 76 ∨ q = 82) {fuel : Nat} (hf : 9 ≤ fuel) :
    @sqrtCommon ⟨true, e⟩ fuel panicArg q = .error .overflow := by
  let _ : Build := ⟨true, e⟩
  have h : overflows (q + 8) = true := by
    rcases hq with rfl | rfl
    · exact (overflows_at e).1
    · exact (overflows_at e).2
  obtain ⟨k, rfl⟩ : ∃ k, fuel = k + 8 + 1 := ⟨fuel - 9, by omega⟩
  have hl : sqrtLoop panicArg (q + 8) (k + 8 + 1) (sqrtGuess 1 9982) = .error .overflow := by
    unfold overflows at h
    cases hc : chase panicArg (q + 8) 8 (sqrtGuess 1 9982) with
    | none => rw [hc] at h; cases h
    | some r =>
      rw [hc] at h
      simp only at h
      refine chase_error 8 hc ?_ k
      split at h
      · assumption
      · cases h
  clear h
  have hd : panicArg.digits = 9982 :: panicArg.digits.tail := rfl
  have hw : panicArg.weight = 1 := rfl
  unfold sqrtCommon
  rw [dassert_ok (show panicArg.sign = .pos from rfl), bind_ok, fits_ok (by fits_tac), bind_ok, hd, hw]
  generalize panicArg = a at *
  simp only [hl]
  rfl

theorem panicArg_eq [Build] {b : Bin} (hb : Holds b (998200630144022503060387046805490630071107920873095410351116119712781359144015211602 / 10 ^ 76) 76) :
    Num.asBinary b = .ok () ∧ b.isNan = false ∧ b.asVar = .ok panicArg := by
  obtain ⟨u, hu, hv, hs, ea, na, va⟩ := hb.exists_var
  have hul : u = panicArg := hu.unique panicArg_canonical (by rw [hv, panicArg_value]) (by rw [hs]; rfl)
  subst hul
  exact ⟨ea, na, va⟩

/-- C34 (a defect): in a debug build the square root of this number of 84 digits panics with an arithmetic overflow. -/
theorem C34_sqrt_debug_panics (e : Bool) {b : Bin}
    (hb : @Holds ⟨true, e⟩ b (998200630144022503060387046805490630071107920873095410351116119712781359144015211602 / 10 ^ 76) 76)
    {fuel : Nat} (hf : 9 ≤ fuel) : @Num.sqrt ⟨true, e⟩ fuel b = .error .overflow := by
  let _ : Build := ⟨true, e⟩
  obtain ⟨ea, na, va⟩ := panicArg_eq hb
  have hpos : 0 ≤ value panicArg := by rw [panicArg_value]; norm_num
  obtain ⟨hsg, hsq⟩ := sqrt_unfold panicArg_canonical hpos fuel
  have hsc : sqrtScale (value panicArg) panicArg.dscale = 76 := by
    unfold sqrtScale
    rw [← canonical_weight panicArg_canonical]; decide
  rw [hsc] at hsq
  show Num.sqrt fuel b = _
  unfold Num.sqrt
  simp only [ea, bind_ok, na, Bool.false_eq_true, if_false, va]
  rw [if_neg (by rw [hsg]; simp), hsq, sqrtCommon_panics e (.inl rfl) hf]
  rfl

theorem lnCommon_panics (e : Bool) {fuel : Nat} (hf : 9 ≤ fuel) : @lnCommon ⟨true, e⟩ fuel panicArg 76 = .error .overflow := by
  let _ : Build := ⟨true, e⟩
  have hpos : 0 < value panicArg := by rw [panicArg_value]; norm_num
  have hp := PosVar.of_canonical panicArg_canonical hpos
  have hbig : (4 : ℝ) ≤ (value panicArg : ℝ) := by rw [panicArg_value]; norm_num
  have hdiv : sqrtCommon fuel panicArg 82 = .error .overflow := sqrtCommon_panics e (.inr rfl) hf
  show lnCommon fuel panicArg 76 = _
  unfold lnCommon
  rw [dassert_ok panicArg_canonical.not_nan, dassert_ok hp.cmp_zero_pos]
  simp only [bind_ok]
  obtain ⟨f, rfl⟩ : ∃ f, fuel = f + 1 := ⟨fuel - 1, by omega⟩
  have e1 : lnReduce (fun x => cmpCommon x zeroPointNine ≤ 0) 76 (f + 1) (f + 1) panicArg two = .ok (panicArg, two) := by
    unfold lnReduce
    rw [if_neg]
    · rfl
    · simp only [decide_eq_true_eq, hp.cmp_nine]; linarith
  have e2 : lnReduce (fun x => cmpCommon x onePointOne ≥ 0) 76 (f + 1) (f + 1) panicArg two = .error .overflow := by
    unfold lnReduce
    rw [if_pos (by simp only [decide_eq_true_eq, hp.cmp_eleven]; linarith)]
    have hw : panicArg.weight * DEC_DIGITS = 4 := by decide
    rw [hw, show (4:ℤ).tdiv 2 = 2 by decide, fits_ok (by fits_tac), bind_ok]
    simp only [NUMERIC_MIN_DISPLAY_SCALE]
    rw [show max ((76:ℤ) - 2 + 8) 0 = 82 by omega, hdiv]
    rfl
  rw [e1]
  simp only [bind_ok]
  rw [e2]
  rfl

/-- C49 (a defect): in a debug build the natural logarithm of that number panics with an arithmetic overflow, whatever the platform's `ln`. -/
theorem C49_ln_debug_panics (e : Bool) {lm : Libm} (hl : LibmOK lm) {b : Bin}
    (hb : @Holds ⟨true, e⟩ b (998200630144022503060387046805490630071107920873095410351116119712781359144015211602 / 10 ^ 76) 76)
    {fuel : Nat} (hf : 9 ≤ fuel) : @Num.ln ⟨true, e⟩ lm fuel b = .error .overflow := by
  let _ : Build := ⟨true, e⟩
  obtain ⟨ea, na, va⟩ := panicArg_eq hb
  have hpos : 0 < value panicArg := by rw [panicArg_value]; norm_num
  obtain ⟨w, ew, -, h⟩ := estimate_spec hl panicArg_canonical hpos
  have hw6 : -1 ≤ w ∧ w ≤ 6 := by
    refine ⟨?_, (estimate_bounds hl panicArg_canonical hpos ew).2⟩
    have h2 := (h (by rw [panicArg_value]; norm_num)).2
    have hlog : (1:ℝ) ≤ Real.log (value panicArg) := by
      rw [Real.le_log_iff_exp_le (by exact_mod_cast hpos)]
      have := Real.exp_one_lt_d9
      have : (3:ℝ) ≤ (value panicArg : ℝ) := by rw [panicArg_value]; norm_num
      linarith
    rw [abs_of_pos (by linarith)] at h2
    by_contra hc
    have h3 : (10:ℝ) ^ w ≤ 10 ^ (-2:ℤ) := zpow_le_zpow_right₀ (by norm_num) (by omega)
    norm_num at h3
    linarith
  show Num.ln lm fuel b = _
  rw [ln_unfold lm fuel ea na va, (ln_checks lm fuel panicArg_canonical).2.2 hpos]
  simp only [ew, bind_ok, NUMERIC_MIN_SIG_DIGITS, NUMERIC_MIN_DISPLAY_SCALE, NUMERIC_MAX_DISPLAY_SCALE]
  rw [fits_ok (by fits_tac), bind_ok, show min (max (max (16 - w) panicArg.dscale) 0) 1000 = 76 by simp only [panicArg]; omega,
    lnCommon_panics e hf]
  rfl

/-- That number is a storable numeric. -/
example [Build] : ∃ b : Bin, Holds b (998200630144022503060387046805490630071107920873095410351116119712781359144015211602 / 10 ^ 76) 76 :=
  ⟨_, cast panicArg_canonical.holds panicArg_value rfl⟩

end PgNumeric.Props
