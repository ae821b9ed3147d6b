import Mathlib.Data.Real.Sqrt
import Verif.Proofs.Sqrt
import Verif.SpecSqrt
import Verif.Props.Arith
/-!
# Square roots (C34)

`Num.sqrt fuel b` runs the Newton loop of the code for at most `fuel` rounds (`diverge` when they are used up).
-/
namespace PgNumeric.Props
open PgNumeric Spec Var

theorem sqrtScale_bounds {x : ℚ} {s : Int} (h : 0 ≤ s) : 0 ≤ sqrtScale x s ∧ sqrtScale x s ≤ 1000 := by
  unfold sqrtScale; omega

theorem canonical_weight {v : Var} (hv : Canonical v) : v.weight = leadWeight (value v) := by
  have h := Num.firstDigit_eq hv
  by_cases hd : v.digits = []
  · have := (stripped_zero_iff hv.digits hv.stripped).2 hd
    rw [(hv.stripped.2.2 hd).1, this, Num.lead_zero.2]
  · obtain ⟨d, ds, e⟩ := List.exists_cons_of_ne_nil hd
    have hh := hv.stripped.1
    rw [e] at h hh
    have : d ≠ 0 := by simpa using hh
    simp only [firstDigit, if_pos this, Prod.mk.injEq] at h
    exact h.2

theorem sqrt_unfold [Build] {u : Var} (hu : Canonical u) (hn : 0 ≤ value u) (fuel : Nat) :
    u.sign = .pos ∧ Var.sqrt fuel u = sqrtCommon fuel u (sqrtScale (value u) u.dscale) := by
  have hsg : u.sign = .pos := by
    cases hs : u.sign
    · rfl
    · have := hu.signOK hs
      unfold value at hn; rw [hs] at hn; simp only at hn; linarith
    · exact absurd hs hu.not_nan
  refine ⟨hsg, ?_⟩
  unfold Var.sqrt
  rw [dassert_ok (by rw [hsg]; simp), dassert_ok (by rw [hsg]; simp)]
  simp only [bind_ok]
  have h1 := canonical_weight hu
  have h2 := hu.dscale_nonneg
  have hw1 := hu.small.lo
  have hw2 := hu.small.hi
  have h3 : ((u.weight + 1) * 4).tdiv 2 = 2 * (u.weight + 1) := by
    rw [show (u.weight + 1) * 4 = (2 * (u.weight + 1)) * 2 by ring]
    exact Int.mul_tdiv_cancel _ (by norm_num)
  rw [fits_ok (by simp only [DEC_DIGITS]; rw [h3]; fits_tac), bind_ok]
  congr 1
  unfold sqrtScale
  simp only [DEC_DIGITS, NUMERIC_MIN_SIG_DIGITS, NUMERIC_MIN_DISPLAY_SCALE, NUMERIC_MAX_DISPLAY_SCALE]
  rw [h3, ← h1]
  omega

/-- Every outcome of `sqrt` of a positive number, with its cause. -/
theorem sqrt_outcomes_full [Build] {b : Bin} {x : ℚ} {s : Int} (hb : Holds b x s) (hx : 0 < x) (fuel : Nat) :
    (∃ r y, Num.sqrt fuel b = .ok r ∧ Holds r y (sqrtScale x s) ∧
      |(y:ℝ) - √(x:ℝ)| ≤ (1 / 2 + 16 / 10 ^ 9) * 10 ^ (-sqrtScale x s)) ∨
    (Num.sqrt fuel b = .error .diverge ∧ ∃ u, Canonical u ∧ value u = x ∧ u.dscale = s ∧
      sqrtCommon fuel u (sqrtScale x s) = .error .diverge) ∨
    (x < 10 ^ (-2016:ℤ) ∧ Num.sqrt fuel b = .error (.panic "should not be zero")) ∨
    (Build.debug = true ∧ Num.sqrt fuel b = .error .overflow ∧ ∃ u, Canonical u ∧ value u = x ∧ u.dscale = s ∧
      sqrtCommon fuel u (sqrtScale x s) = .error .overflow) := by
  obtain ⟨u, hu, rfl, rfl, ea, na, va⟩ := hb.exists_var
  obtain ⟨hsg, hsq⟩ := sqrt_unfold hu hx.le fuel
  obtain ⟨hq0, hq1⟩ := sqrtScale_bounds (x := value u) hu.dscale_nonneg
  have hun : Num.sqrt fuel b = (do
      let w ← sqrtCommon fuel u (sqrtScale (value u) u.dscale)
      Num.finishNoOverflow w) := by
    unfold Num.sqrt
    simp only [ea, bind_ok, na, Bool.false_eq_true, if_false, va]
    rw [if_neg (by rw [hsg]; simp), hsq]
  rw [hun]
  have hT : (10:ℚ) ^ (-(sqrtScale (value u) u.dscale + 8)) = 10 ^ (-sqrtScale (value u) u.dscale) / 10 ^ 8 := by
    rw [show -(sqrtScale (value u) u.dscale + 8) = -sqrtScale (value u) u.dscale - 8 by ring, zpow_sub₀ (by norm_num)]
    norm_num
  have hcore := sqrtCommon_spec (PosVar.of_canonical hu hx) hq0 (by omega) fuel
  have hsq2 : sqrtScale (value u) u.dscale = min 1000 (max (15 - 2 * u.weight) u.dscale) := by
    unfold sqrtScale; rw [canonical_weight hu]
  generalize sqrtScale (value u) u.dscale = q at *
  rcases hcore with ⟨w, ρ, ew, wd, wn, ws, wv, hρ, hc, w0, ew0, ok0⟩ | e | ⟨hs, e⟩ | ⟨hd, e⟩
  · left
    have hT0 := T_zpow_pos (-q)
    have hTq1 : (10:ℚ) ^ (-q) ≤ 1 := by
      rw [show (1:ℚ) = 10 ^ (0:ℤ) by norm_num, T_zpow_le_iff]; omega
    rw [hT] at hc
    -- the result fits
    have hlim : |roundHalfAway ρ q| < limit := by
      have h1 := abs_le.1 hc
      have h2 : ρ - 1 ≤ value u / ρ := by linarith [h1.2]
      rw [le_div_iff₀ hρ] at h2
      have h3 : value u < limit := lt_of_le_of_lt (le_abs_self _) hu.abs_lt
      have h4 := abs_le.1 (roundHalfAway_err ρ q)
      have h5 : (100:ℚ) < limit := by
        have := lt_limit (x := 100) (by norm_num)
        exact lt_of_le_of_lt (le_abs_self _) this
      rw [abs_lt]
      by_contra hcon
      rw [not_and_or] at hcon
      rcases hcon with hcon | hcon
      · push Not at hcon; linarith
      · push Not at hcon
        have : limit - 1 ≤ ρ := by linarith
        nlinarith
    obtain ⟨r, er, hr⟩ := Num.finishNoOverflow_spec wd wn ws wv hq0 (by omega) (roundHalfAway_hasScale _ _) hlim
      (round_stripM ew0 ⟨by have := ok0.small.lo; omega, by have := ok0.small.hi; omega⟩ (by have := ok0.small.len; omega))
    refine ⟨r, _, by rw [ew]; exact er, hr, ?_⟩
    -- accuracy
    have hxR : (0:ℝ) < (value u : ℝ) := by exact_mod_cast hx
    have hρR : (0:ℝ) < (ρ:ℝ) := by exact_mod_cast hρ
    have h1 : |(roundHalfAway ρ q : ℝ) - ρ| ≤ (10:ℝ) ^ (-q) / 2 := by
      have := roundHalfAway_err ρ q
      have : ((|roundHalfAway ρ q - ρ| : ℚ) : ℝ) ≤ (((10:ℚ) ^ (-q) / 2 : ℚ) : ℝ) := by exact_mod_cast this
      push_cast at this
      exact this
    have h2 : |(ρ:ℝ) - (value u : ℝ) / ρ| ≤ 16 / 10 * ((10:ℝ) ^ (-q) / 10 ^ 8) := by
      have : ((|ρ - value u / ρ| : ℚ) : ℝ) ≤ ((16 / 10 * ((10:ℚ) ^ (-q) / 10 ^ 8) : ℚ) : ℝ) := by exact_mod_cast hc
      push_cast at this
      exact this
    have hsp := Real.sqrt_pos.2 hxR
    have hss := Real.mul_self_sqrt hxR.le
    have h3 : |(ρ:ℝ) - √(value u : ℝ)| ≤ |(ρ:ℝ) - (value u : ℝ) / ρ| := by
      have e1 : (ρ:ℝ) - (value u : ℝ) / ρ = (ρ - √(value u : ℝ)) * ((ρ + √(value u : ℝ)) / ρ) := by
        field_simp
        nlinarith
      rw [e1, abs_mul]
      have : 1 ≤ |((ρ:ℝ) + √(value u : ℝ)) / ρ| := by
        rw [abs_of_pos (by positivity), le_div_iff₀ hρR]; linarith
      exact le_mul_of_one_le_right (abs_nonneg _) this
    have h4 := abs_sub_le (roundHalfAway ρ q : ℝ) ρ (√(value u : ℝ))
    generalize (10:ℝ) ^ (-q) = T at *
    linarith
  · right; left; exact ⟨by rw [e]; rfl, u, hu, rfl, rfl, e⟩
  · right; right; left
    refine ⟨?_, by rw [e]; rfl⟩
    have hge : (10000:ℚ) ^ u.weight ≤ value u := by
      have hne : u.digits ≠ [] := by
        intro h
        have := (stripped_zero_iff hu.digits hu.stripped).2 h
        linarith
      have := stripped_mag_ge hu.digits hu.stripped hne
      rwa [← abs_value _ hu.digits, abs_of_pos hx] at this
    by_cases hq : q = 1000
    · rw [hq] at hs; exact hs
    · exfalso
      have := lt_of_le_of_lt hge hs
      rw [B_eq_T, T_zpow_lt_iff] at this
      omega
  · right; right; right; exact ⟨hd, by rw [e]; rfl, u, hu, rfl, rfl, e⟩

/-- Every outcome of `sqrt` of a positive number. -/
theorem sqrt_outcomes [Build] {b : Bin} {x : ℚ} {s : Int} (hb : Holds b x s) (hx : 0 < x) (fuel : Nat) :
    (∃ r y, Num.sqrt fuel b = .ok r ∧ Holds r y (sqrtScale x s) ∧
      |(y:ℝ) - √(x:ℝ)| ≤ (1 / 2 + 16 / 10 ^ 9) * 10 ^ (-sqrtScale x s)) ∨
    (Num.sqrt fuel b = .error .diverge ∧ ∃ u, Canonical u ∧ value u = x ∧ u.dscale = s ∧
      sqrtCommon fuel u (sqrtScale x s) = .error .diverge) ∨
    (x < 10 ^ (-2016:ℤ) ∧ Num.sqrt fuel b = .error (.panic "should not be zero")) ∨
    (Build.debug = true ∧ Num.sqrt fuel b = .error .overflow) := by
  rcases sqrt_outcomes_full hb hx fuel with h | h | h | ⟨hd, h, -⟩
  exacts [.inl h, .inr (.inl h), .inr (.inr (.inl h)), .inr (.inr (.inr ⟨hd, h⟩))]

/-- C34: whenever `sqrt` of a non-negative number returns, the result has the documented scale and is within half a
unit, plus `1.6 * 10^-8` units, of the exact root. -/
theorem C34_sqrt_accuracy [Build] {b : Bin} {x : ℚ} {s : Int} (hb : Holds b x s) (hx : 0 ≤ x) {fuel : Nat} {r : Bin}
    (hr : Num.sqrt fuel b = .ok r) :
    ∃ y : ℚ, Holds r y (sqrtScale x s) ∧
      |(y:ℝ) - √(x:ℝ)| ≤ (1 / 2 + 16 / 10 ^ 9) * 10 ^ (-sqrtScale x s) := by
  rcases eq_or_lt_of_le hx with h0 | h0
  · obtain ⟨u, hu, hux, rfl, ea, na, va⟩ := hb.exists_var
    subst hux
    obtain ⟨hsg, hsq⟩ := sqrt_unfold hu hx fuel
    obtain ⟨hq0, hq1⟩ := sqrtScale_bounds (x := value u) hu.dscale_nonneg
    have hd := (stripped_zero_iff hu.digits hu.stripped).1 h0.symm
    have hun : Num.sqrt fuel b = (do
        let w ← sqrtCommon fuel u (sqrtScale (value u) u.dscale)
        Num.finishNoOverflow w) := by
      unfold Num.sqrt
      simp only [ea, bind_ok, na, Bool.false_eq_true, if_false, va]
      rw [if_neg (by rw [hsg]; simp), hsq]
    have hz : sqrtCommon fuel u (sqrtScale (value u) u.dscale) = .ok ⟨0, sqrtScale (value u) u.dscale, .pos, []⟩ := by
      unfold sqrtCommon
      rw [dassert_ok hsg, hd, bind_ok, fits_ok (by fits_tac), bind_ok]
      exact zeroScaled_ok hq0 (by omega)
    generalize sqrtScale (value u) u.dscale = q at *
    obtain ⟨r', er, hr'⟩ := Num.finishNoOverflow_spec (u := ⟨0, q, .pos, []⟩) (s := q) (x := 0) Digits.nil (by simp)
      rfl (by simp [value]) hq0 (by omega) ⟨0, by simp⟩ (by rw [abs_zero]; exact lt_of_le_of_lt (abs_nonneg _) hu.abs_lt)
      (Small.stripM ⟨by simp, by simp, by simp⟩)
    rw [hun, hz] at hr
    have : r' = r := by
      have : (Except.ok r' : M Bin) = .ok r := er.symm.trans hr
      cases this; rfl
    subst this
    refine ⟨0, hr', ?_⟩
    rw [← h0]
    simp only [Rat.cast_zero, Real.sqrt_zero, sub_self, abs_zero]
    positivity
  · rcases sqrt_outcomes hb h0 fuel with ⟨r', y, er, hy, hc⟩ | ⟨e, -⟩ | ⟨-, e⟩ | ⟨-, e⟩
    · rw [er] at hr; cases hr
      exact ⟨y, hy, hc⟩
    all_goals rw [e] at hr; cases hr

/-- C34: a root that is representable at the result scale is returned exactly. -/
theorem C34_sqrt_exact [Build] {b : Bin} {x y : ℚ} {s : Int} (hb : Holds b x s) (hy0 : 0 ≤ y) (hy : y * y = x)
    (hys : HasScale y (sqrtScale x s)) {fuel : Nat} {r : Bin} (hr : Num.sqrt fuel b = .ok r) :
    Holds r y (sqrtScale x s) := by
  have hx : 0 ≤ x := by rw [← hy]; positivity
  obtain ⟨z, hz, hc⟩ := C34_sqrt_accuracy hb hx hr
  have hsq : √(x:ℝ) = y := by
    rw [← hy]; push_cast
    exact Real.sqrt_mul_self (by exact_mod_cast hy0)
  rw [hsq] at hc
  have hzs := hz.bounds.1
  obtain ⟨m, hm⟩ := hys
  obtain ⟨n, hn⟩ := hzs
  generalize sqrtScale x s = q at *
  have hc' : |z - y| ≤ (1 / 2 + 16 / 10 ^ 9) * 10 ^ (-q) := by
    have : ((|z - y| : ℚ) : ℝ) ≤ (((1 / 2 + 16 / 10 ^ 9) * (10:ℚ) ^ (-q) : ℚ) : ℝ) := by push_cast; exact hc
    exact_mod_cast this
  have hT := T_zpow_pos q
  have hTT : (10:ℚ) ^ (-q) * 10 ^ q = 1 := by rw [← zpow_add₀ (by norm_num)]; simp
  have : |((n - m : ℤ) : ℚ)| < 1 := by
    push_cast
    rw [← hn, ← hm, ← sub_mul, abs_mul, abs_of_pos hT]
    have := mul_le_mul_of_nonneg_right hc' hT.le
    rw [mul_assoc, hTT] at this
    norm_num at this ⊢
    linarith
  have h2 : |n - m| < 1 := by exact_mod_cast this
  have h3 : n = m := by rw [Int.abs_lt_one_iff] at h2; omega
  have : z = y := by
    have : z * 10 ^ q = y * 10 ^ q := by rw [hn, hm, h3]
    exact mul_right_cancel₀ hT.ne' this
  rw [← this]; exact hz

/-- C34: `sqrt` of a negative number panics. -/
theorem C34_sqrt_negative [Build] {b : Bin} {x : ℚ} {s : Int} (hb : Holds b x s) (hx : x < 0) (fuel : Nat) :
    Num.sqrt fuel b = .error (.panic "cannot take square root of a negative number") := by
  obtain ⟨u, hu, rfl, rfl, ea, na, va⟩ := hb.exists_var
  have hsg : u.sign = .neg := by
    have hm := mag_nonneg hu.digits u.weight
    cases hs : u.sign
    · unfold value at hx; rw [hs] at hx; simp only at hx; linarith
    · rfl
    · exact absurd hs hu.not_nan
  unfold Num.sqrt
  simp only [ea, bind_ok, na, Bool.false_eq_true, if_false, va]
  rw [if_pos hsg]; rfl

/-- C34: `sqrt` of NaN is NaN. -/
theorem C34_sqrt_nan [Build] {b : Bin} (hb : IsNaN b) (fuel : Nat) :
    ∃ r, Num.sqrt fuel b = .ok r ∧ IsNaN r := by
  obtain ⟨ea, na⟩ := Num.nan_isNan' hb
  refine ⟨Bin.nan, ?_, nan_isNaN⟩
  unfold Num.sqrt
  simp only [ea, bind_ok, na, if_true, Num.nan_ok]

/-- C34: in a release build the only outcomes are the accurate root, non-termination of the Newton loop, and, for
arguments below `10^-2016` only, the panic "should not be zero". -/
theorem C34_release_outcomes (e : Bool) {b : Bin} {x : ℚ} {s : Int} (hb : @Holds ⟨false, e⟩ b x s) (hx : 0 < x)
    (fuel : Nat) :
    (∃ r y, @Num.sqrt ⟨false, e⟩ fuel b = .ok r ∧ @Holds ⟨false, e⟩ r y (sqrtScale x s) ∧
      |(y:ℝ) - √(x:ℝ)| ≤ (1 / 2 + 16 / 10 ^ 9) * 10 ^ (-sqrtScale x s)) ∨
    @Num.sqrt ⟨false, e⟩ fuel b = .error .diverge ∨
    (x < 10 ^ (-2016:ℤ) ∧ @Num.sqrt ⟨false, e⟩ fuel b = .error (.panic "should not be zero")) := by
  let _ : Build := ⟨false, e⟩
  rcases sqrt_outcomes hb hx fuel with h | ⟨h, -⟩ | h | ⟨h, -⟩
  · exact .inl h
  · exact .inr (.inl h)
  · exact .inr (.inr h)
  · cases h


/-! ## Non-termination and the panic are real -/

/-- `n` rounds of the loop that do not stop. -/
def chase [Build] (a : Var) (L : Int) : Nat → Var → Option Var
  | 0, r => some r
  | n + 1, r =>
    match sqrtStep a r L with
    | .ok r' => if cmpCommon r' r = 0 then none else chase a L n r'
    | .error _ => none

theorem chase_diverges [Build] {a : Var} {L : Int} (n : Nat) {r r' : Var} (h : chase a L n r = some r')
    (hd : ∀ fuel, sqrtLoop a L fuel r' = .error .diverge) : ∀ fuel, sqrtLoop a L fuel r = .error .diverge := by
  induction n generalizing r with
  | zero => simp only [chase, Option.some.injEq] at h; subst h; exact hd
  | succ n ih =>
    intro fuel
    cases fuel with
    | zero => rfl
    | succ fuel =>
      simp only [chase] at h
      cases hs : sqrtStep a r L with
      | error _ => rw [hs] at h; cases h
      | ok r1 =>
        rw [hs] at h
        simp only at h
        by_cases hc : cmpCommon r1 r = 0
        · rw [if_pos hc] at h; cases h
        · rw [if_neg hc] at h
          have := ih h fuel
          rw [sqrtLoop, hs]
          simp only [bind_ok]
          rw [if_neg hc]; exact this

/-- A two-cycle of iterates never stops. -/
theorem cycle_diverges [Build] {a : Var} {L : Int} {r t : Var} (h1 : chase a L 1 r = some t) (h2 : chase a L 1 t = some r) :
    ∀ fuel, sqrtLoop a L fuel r = .error .diverge ∧ sqrtLoop a L fuel t = .error .diverge := by
  have key : ∀ r t : Var, chase a L 1 r = some t → ∀ fuel, sqrtLoop a L fuel t = .error .diverge →
      sqrtLoop a L (fuel + 1) r = .error .diverge := by
    intro r t h fuel hd
    simp only [chase] at h
    cases hs : sqrtStep a r L with
    | error _ => rw [hs] at h; cases h
    | ok r1 =>
      rw [hs] at h
      simp only at h
      by_cases hc : cmpCommon r1 r = 0
      · rw [if_pos hc] at h; cases h
      · rw [if_neg hc] at h
        cases h
        rw [sqrtLoop, hs]
        simp only [bind_ok]
        rw [if_neg hc]; exact hd
  intro fuel
  induction fuel with
  | zero => exact ⟨rfl, rfl⟩
  | succ fuel ih => exact ⟨key r t h1 fuel ih.2, key t r h2 fuel ih.1⟩

/-- The 61-digit integer of `C34_sqrt_may_not_terminate`. -/
def loopArg : Var := ⟨15, 0, .pos,
  [3, 7100, 4335, 4833, 6668, 4283, 6714, 6623, 1853, 742, 4111, 779, 758, 7949, 4048, 7738]⟩

theorem loopArg_value : value loopArg = 3710043354833666842836714662318530742411107790758794940487738 := by
  simp only [value, loopArg, mag]
  norm_num

theorem loopArg_canonical : Canonical loopArg where
  not_nan := by decide
  digits := by unfold Digits; decide
  stripped := by refine ⟨by decide, by decide, fun h => ?_⟩; cases h
  weight_le := by decide
  dscale_nonneg := by decide
  dscale_le := by decide
  scale := by rw [loopArg_value]; exact ⟨3710043354833666842836714662318530742411107790758794940487738, by norm_num [loopArg]⟩

theorem loop_cycle (dbg e : Bool) :
    let _ : Build := ⟨dbg, e⟩
    chase loopArg 8 14 (sqrtGuess 15 3) = some ⟨7, 8, .pos, [192, 6147, 2827, 4700, 3966, 1999, 9999, 9999, 9999, 9999]⟩ ∧
    chase loopArg 8 1 ⟨7, 8, .pos, [192, 6147, 2827, 4700, 3966, 1999, 9999, 9999, 9999, 9999]⟩ =
      some ⟨7, 8, .pos, [192, 6147, 2827, 4700, 3966, 2000]⟩ ∧
    chase loopArg 8 1 ⟨7, 8, .pos, [192, 6147, 2827, 4700, 3966, 2000]⟩ =
      some ⟨7, 8, .pos, [192, 6147, 2827, 4700, 3966, 1999, 9999, 9999, 9999, 9999]⟩ := by
  cases dbg <;> cases e <;> decide +kernel

/-- C34: `sqrt` does not always terminate. For this 61-digit integer the Newton iterates oscillate for ever between two
neighbouring values, in every build. -/
theorem C34_sqrt_may_not_terminate [Build] {b : Bin}
    (hb : Holds b 3710043354833666842836714662318530742411107790758794940487738 0) (fuel : Nat) :
    Num.sqrt fuel b = .error .diverge := by
  obtain ⟨u, hu, hv, hs, ea, na, va⟩ := hb.exists_var
  have hul : u = loopArg := hu.unique loopArg_canonical (by rw [hv, loopArg_value]) (by rw [hs]; rfl)
  subst hul
  have hpos : 0 ≤ value loopArg := by rw [hv]; norm_num
  obtain ⟨hsg, hsq⟩ := sqrt_unfold hu hpos fuel
  have hsc : sqrtScale (value loopArg) loopArg.dscale = 0 := by
    unfold sqrtScale
    rw [← canonical_weight hu]; decide
  rw [hsc] at hsq
  have hdiv : sqrtCommon fuel loopArg 0 = .error .diverge := by
    obtain ⟨c1, c2, c3⟩ := loop_cycle Build.debug Build.bigEndianVarlen
    have := chase_diverges 14 c1 (fun fuel => (cycle_diverges c2 c3 fuel).1) fuel
    unfold sqrtCommon
    rw [dassert_ok hsg]
    simp only [bind_ok, loopArg] at this ⊢
    rw [show (0:Int) + 8 = 8 from rfl, this]
    rfl
  unfold Num.sqrt
  simp only [ea, bind_ok, na, Bool.false_eq_true, if_false, va]
  rw [if_neg (by rw [hsg]; simp), hsq, hdiv]
  rfl

/-- Such a numeric exists. -/
example [Build] : ∃ b, Holds b 3710043354833666842836714662318530742411107790758794940487738 0 :=
  ⟨_, cast loopArg_canonical.holds loopArg_value rfl⟩

/-- The argument `10^-2100`. -/
def tinyArg : Var := ⟨-525, 2100, .pos, [1]⟩

theorem tinyArg_canonical : Canonical tinyArg where
  not_nan := by decide
  digits := by unfold Digits; decide
  stripped := by refine ⟨by decide, by decide, fun h => ?_⟩; cases h
  weight_le := by decide
  dscale_nonneg := by decide
  dscale_le := by decide
  scale := ⟨1, by
    have : (10000:ℚ) ^ (-525:ℤ) * 10 ^ (2100:ℤ) = 1 := by
      rw [B_eq_T, ← zpow_add₀ (by norm_num)]; norm_num
    simpa [value, mag, tinyArg] using this⟩

/-- C34: the panic on tiny arguments is real: `sqrt(10^-2100)` panics "should not be zero". -/
theorem C34_sqrt_panics_on_tiny [Build] {b : Bin} (hb : Holds b (10 ^ (-2100:ℤ)) 2100) (fuel : Nat) (hf : 2 ≤ fuel) :
    Num.sqrt fuel b = .error (.panic "should not be zero") := by
  obtain ⟨u, hu, hv, hs, ea, na, va⟩ := hb.exists_var
  have hval : value tinyArg = 10 ^ (-2100:ℤ) := by
    have : (10000:ℚ) ^ (-525:ℤ) = 10 ^ (-2100:ℤ) := by rw [B_eq_T]; norm_num
    simpa [value, mag, tinyArg] using this
  have hul : u = tinyArg := hu.unique tinyArg_canonical (by rw [hv, hval]) (by rw [hs]; rfl)
  subst hul
  have hpos : 0 ≤ value tinyArg := by rw [hval]; exact (T_zpow_pos _).le
  obtain ⟨hsg, hsq⟩ := sqrt_unfold hu hpos fuel
  have hsc : sqrtScale (value tinyArg) tinyArg.dscale = 1000 := by
    unfold sqrtScale
    rw [← canonical_weight hu]; decide
  rw [hsc] at hsq
  obtain ⟨k, rfl⟩ : ∃ k, fuel = k + 2 := ⟨fuel - 2, by omega⟩
  have hstep : ∀ dbg e : Bool, @sqrtStep ⟨dbg, e⟩ tinyArg (sqrtGuess (-525) 1) 1008 = .ok ⟨0, 1008, .pos, []⟩ ∧
      @sqrtStep ⟨dbg, e⟩ tinyArg ⟨0, 1008, .pos, []⟩ 1008 = .error (.panic "should not be zero") := by
    intro dbg e
    cases dbg <;> cases e <;> decide +kernel
  obtain ⟨s1, s2⟩ := hstep Build.debug Build.bigEndianVarlen
  have hl : sqrtCommon (k + 2) tinyArg 1000 = .error (.panic "should not be zero") := by
    unfold sqrtCommon
    rw [dassert_ok hsg]
    simp only [bind_ok, tinyArg] at s1 s2 ⊢
    rw [show (1000:Int) + 8 = 1008 from rfl, sqrtLoop, s1]
    simp only [bind_ok]
    rw [if_neg (by decide), sqrtLoop, s2]
    rfl
  unfold Num.sqrt
  simp only [ea, bind_ok, na, Bool.false_eq_true, if_false, va]
  rw [if_neg (by rw [hsg]; simp), hsq, hl]
  rfl

/-- A run that returns: `sqrt(2)`, scale 15. -/
example : ∃ b r, @Holds ⟨false, false⟩ b 2 0 ∧ @Num.sqrt ⟨false, false⟩ 20 b = .ok r := by
  let _ : Build := ⟨false, false⟩
  obtain ⟨b, hb⟩ := witness (x := 2) (s := 0) 2 (by norm_num) (by norm_num) (by norm_num) (by norm_num [abs_lt])
  obtain ⟨u, hu, hv, hs, ea, na, va⟩ := hb.exists_var
  have h2 : Canonical Var.two :=
    ⟨by decide, by unfold Digits; decide, ⟨by decide, by decide, fun h => by cases h⟩, by decide, by decide, by decide,
      ⟨2, by simp [value, mag, Var.two]⟩⟩
  have hul : u = Var.two := hu.unique h2 (by rw [hv]; simp [value, mag, Var.two]) (by rw [hs]; rfl)
  subst hul
  obtain ⟨hsg, hsq⟩ := sqrt_unfold hu (by rw [hv]; norm_num) 20
  have hsc : sqrtScale (value Var.two) Var.two.dscale = 15 := by
    unfold sqrtScale
    rw [← canonical_weight hu]; decide
  rw [hsc] at hsq
  have hex : ∃ w, sqrtCommon 20 Var.two 15 = .ok w ∧ w = ⟨0, 15, .pos, [1, 4142, 1356, 2373, 950]⟩ := ⟨_, by decide +kernel, rfl⟩
  obtain ⟨w, ew, hw⟩ := hex
  have hwn : w.sign ≠ .nan := by rw [hw]; decide
  refine ⟨b, Bin.encode (strip w), hb, ?_⟩
  unfold Num.sqrt
  simp only [ea, bind_ok, na, Bool.false_eq_true, if_false, va]
  rw [if_neg (by rw [hsg]; simp), hsq, ew]
  simp only [bind_ok]
  unfold Num.finishNoOverflow
  rw [makeResultNoOverflow_ok hwn (by rw [hw]; decide +kernel)]
  simp only [bind_ok, Num.intoBuf_ok (strip_sign hwn)]

end PgNumeric.Props
