import Verif.Props.PowReal
/-!
# Runs that show the defects of C52: `1.1^-30000.5` is one, `0.5^8000.5` overflows
-/
namespace PgNumeric.Props
open PgNumeric Spec Var

theorem isOk_elim {α : Type} {m : M α} (h : m.isOk = true) : ∃ a, m = .ok a := by
  cases m with
  | error e => cases h
  | ok a => exact ⟨a, rfl⟩

open Lean Elab Tactic Meta in
/-- Closes a goal `x = y` by reflexivity, checked by the kernel alone (as `decide +kernel` does), with free variables allowed. -/
elab "krefl" : tactic => do
  let g ← getMainGoal
  let some (α, _, b) := (← instantiateMVars (← g.getType)).eq? | throwError "not an equation"
  let u ← getDecLevel α
  g.assign (mkApp2 (mkConst ``Eq.refl [u.succ]) α b)

theorem ln_11_0 (e : Bool) : (@lnCommon ⟨false, e⟩ 4200 ⟨0, 1, .pos, [1, 1000]⟩ 0).isOk = true := by krefl
theorem ln_11_8 (e : Bool) : (@lnCommon ⟨false, e⟩ 4200 ⟨0, 1, .pos, [1, 1000]⟩ 8).isOk = true := by krefl
theorem ln_11_9 (e : Bool) : (@lnCommon ⟨false, e⟩ 4200 ⟨0, 1, .pos, [1, 1000]⟩ 9).isOk = true := by krefl
theorem ln_11_10 (e : Bool) : (@lnCommon ⟨false, e⟩ 4200 ⟨0, 1, .pos, [1, 1000]⟩ 10).isOk = true := by krefl

theorem root_0_0 (e : Bool) : @sqrtCommon ⟨false, e⟩ 4200 ⟨-1, 1, .pos, [5000]⟩ 10 = .ok ⟨-1, 10, .pos, [7071, 678, 1200]⟩ := by krefl
theorem root_0_1 (e : Bool) : @sqrtCommon ⟨false, e⟩ 4200 ⟨-1, 10, .pos, [7071, 678, 1200]⟩ 10 = .ok ⟨-1, 10, .pos, [8408, 9641, 5300]⟩ := by krefl
theorem root_0_2 (e : Bool) : @sqrtCommon ⟨false, e⟩ 4200 ⟨-1, 10, .pos, [8408, 9641, 5300]⟩ 10 = .ok ⟨-1, 10, .pos, [9170, 404, 3200]⟩ := by krefl
theorem root_8_0 (e : Bool) : @sqrtCommon ⟨false, e⟩ 4200 ⟨-1, 1, .pos, [5000]⟩ 18 = .ok ⟨-1, 18, .pos, [7071, 678, 1186, 5475, 2400]⟩ := by krefl
theorem root_8_1 (e : Bool) : @sqrtCommon ⟨false, e⟩ 4200 ⟨-1, 18, .pos, [7071, 678, 1186, 5475, 2400]⟩ 18 = .ok ⟨-1, 18, .pos, [8408, 9641, 5253, 7145, 4300]⟩ := by krefl
theorem root_8_2 (e : Bool) : @sqrtCommon ⟨false, e⟩ 4200 ⟨-1, 18, .pos, [8408, 9641, 5253, 7145, 4300]⟩ 18 = .ok ⟨-1, 18, .pos, [9170, 404, 3204, 6712, 3200]⟩ := by krefl
theorem root_9_0 (e : Bool) : @sqrtCommon ⟨false, e⟩ 4200 ⟨-1, 1, .pos, [5000]⟩ 19 = .ok ⟨-1, 19, .pos, [7071, 678, 1186, 5475, 2440]⟩ := by krefl
theorem root_9_1 (e : Bool) : @sqrtCommon ⟨false, e⟩ 4200 ⟨-1, 19, .pos, [7071, 678, 1186, 5475, 2440]⟩ 19 = .ok ⟨-1, 19, .pos, [8408, 9641, 5253, 7145, 4300]⟩ := by krefl
theorem root_9_2 (e : Bool) : @sqrtCommon ⟨false, e⟩ 4200 ⟨-1, 19, .pos, [8408, 9641, 5253, 7145, 4300]⟩ 19 = .ok ⟨-1, 19, .pos, [9170, 404, 3204, 6712, 3170]⟩ := by krefl

/-- Three square roots bring `0.5` above `0.9`; the series then converges. -/
theorem ln_05_of (e : Bool) {k : ℤ} (hk0 : 0 ≤ k) (hk1 : k ≤ 9) {x y z : Var}
    (e1 : @sqrtCommon ⟨false, e⟩ 4200 ⟨-1, 1, .pos, [5000]⟩ (k + 10) = .ok x) (hx : x.weight = -1)
    (e2 : @sqrtCommon ⟨false, e⟩ 4200 x (k + 10) = .ok y) (hy : y.weight = -1)
    (e3 : @sqrtCommon ⟨false, e⟩ 4200 y (k + 10) = .ok z)
    (c1 : cmpCommon x zeroPointNine ≤ 0) (c2 : cmpCommon y zeroPointNine ≤ 0) (c3 : ¬ cmpCommon z zeroPointNine ≤ 0)
    (c4 : ¬ cmpCommon z onePointOne ≥ 0) :
    (@lnCommon ⟨false, e⟩ 4200 ⟨-1, 1, .pos, [5000]⟩ k).isOk = true := by
  let _ : Build := ⟨false, e⟩
  have hl : max (k - ((-1:ℤ) * DEC_DIGITS).tdiv 2 + 8) NUMERIC_MIN_DISPLAY_SCALE = k + 10 := by
    rw [show ((-1:ℤ) * DEC_DIGITS).tdiv 2 = -2 by decide]
    simp only [NUMERIC_MIN_DISPLAY_SCALE]
    omega
  have hfit : fits [(-1:ℤ) * DEC_DIGITS, k - ((-1:ℤ) * DEC_DIGITS).tdiv 2, k - ((-1:ℤ) * DEC_DIGITS).tdiv 2 + 8] = .ok () := by
    rw [show ((-1:ℤ) * DEC_DIGITS).tdiv 2 = -2 by decide, show ((-1:ℤ) * DEC_DIGITS) = -4 by decide]
    exact fits_ok (by fits_tac)
  have m1 : mulCommon two two 0 = .ok ⟨0, 0, .pos, [4]⟩ := by krefl
  have m2 : mulCommon ⟨0, 0, .pos, [4]⟩ two 0 = .ok ⟨0, 0, .pos, [8]⟩ := by krefl
  have m3 : mulCommon ⟨0, 0, .pos, [8]⟩ two 0 = .ok ⟨0, 0, .pos, [16]⟩ := by krefl
  have r1 : lnReduce (fun x => cmpCommon x zeroPointNine ≤ 0) k 4200 4200 ⟨-1, 1, .pos, [5000]⟩ two = .ok (z, ⟨0, 0, .pos, [16]⟩) := by
    rw [show (4200:ℕ) = 4196 + 4 by rfl] at e1 e2 e3 ⊢
    rw [lnReduce, if_pos (by decide)]
    simp only [hfit, hl, e1, m1, bind_ok]
    rw [lnReduce, if_pos (by simpa using c1)]
    simp only [hx, hfit, hl, e2, m2, bind_ok]
    rw [lnReduce, if_pos (by simpa using c2)]
    simp only [hy, hfit, hl, e3, m3, bind_ok]
    rw [lnReduce, if_neg (by simpa using c3)]
    rfl
  have r2 : lnReduce (fun x => cmpCommon x onePointOne ≥ 0) k 4200 4200 z ⟨0, 0, .pos, [16]⟩ = .ok (z, ⟨0, 0, .pos, [16]⟩) := by
    rw [lnReduce, if_neg (by simpa using c4)]
    rfl
  have hcu : Canonical ⟨-1, 1, .pos, [5000]⟩ :=
    ⟨by decide, by unfold Digits; decide, ⟨by decide, by decide, fun h => by cases h⟩, by decide, by decide, by decide,
      ⟨5, by simp [value, mag]; norm_num⟩⟩
  rcases lnCommon_outcome (PosVar.of_canonical hcu (by simp [value, mag])) hk0 (by omega) r1 r2 with ⟨y, h, -⟩ | ⟨h, -⟩ | ⟨h, -⟩
  · show (lnCommon 4200 _ k).isOk = true
    rw [h]; rfl
  · exact absurd (show false = true from h) (by decide)
  · omega

theorem ln_05 (e : Bool) : (@lnCommon ⟨false, e⟩ 4200 ⟨-1, 1, .pos, [5000]⟩ 0).isOk = true ∧
    (@lnCommon ⟨false, e⟩ 4200 ⟨-1, 1, .pos, [5000]⟩ 8).isOk = true ∧
    (@lnCommon ⟨false, e⟩ 4200 ⟨-1, 1, .pos, [5000]⟩ 9).isOk = true :=
  ⟨ln_05_of e (by norm_num) (by norm_num) (root_0_0 e) rfl (root_0_1 e) rfl (root_0_2 e) (by decide) (by decide) (by decide) (by decide),
   ln_05_of e (by norm_num) (by norm_num) (root_8_0 e) rfl (root_8_1 e) rfl (root_8_2 e) (by decide) (by decide) (by decide) (by decide),
   ln_05_of e (by norm_num) (by norm_num) (root_9_0 e) rfl (root_9_1 e) rfl (root_9_2 e) (by decide) (by decide) (by decide) (by decide)⟩

/-- A release build that finds the logarithms finds the tiny power. -/
theorem tiny_returns (e : Bool) {lm : Libm} (hl : LibmOK lm) {a b : Bin} {u c : Var} (hu : @Canonical u) (hc : Canonical c)
    (va : @Bin.asVar ⟨false, e⟩ a = .ok u) (vb : @Bin.asVar ⟨false, e⟩ b = .ok c) (hu0 : 0 < value u)
    (hy : ∀ k : ℤ, value c = k → ¬ IsI32 k)
    (h1 : (95 / 1000 : ℝ) ≤ |Real.log (value u)|) (h2 : |Real.log (value u)| ≤ 93 / 100)
    (hT1 : -6000 ≤ (value c : ℝ) * Real.log (value u)) (hT2 : (value c : ℝ) * Real.log (value u) ≤ -2340)
    (hln : (@lnCommon ⟨false, e⟩ 4200 u 0).isOk = true ∧ (@lnCommon ⟨false, e⟩ 4200 u 8).isOk = true ∧
      (@lnCommon ⟨false, e⟩ 4200 u 9).isOk = true ∧ ((@lnCommon ⟨false, e⟩ 4200 u 10).isOk = true ∨ 12 / 100 < |Real.log (value u)|)) :
    ∃ o, @Num.pow ⟨false, e⟩ lm 4200 a b = .ok o := by
  let _ : Build := ⟨false, e⟩
  obtain ⟨l0, l8, l9, l10⟩ := hln
  obtain ⟨w, ew, hw0, hw6, hw⟩ := tiny_weight hl hu hu0 h1 h2
  have hfirst : ∃ y1, lnCommon 4200 u (8 - w) = .ok y1 := by
    rcases (by omega : w = 0 ∨ w = -1 ∨ w = -2) with h | h | h
    · rw [h]; exact isOk_elim l8
    · rw [h]; exact isOk_elim l9
    · rw [h]
      rcases l10 with l10 | l10
      · exact isOk_elim l10
      · exfalso
        obtain ⟨w', ew', -, hw'⟩ := estimate_spec hl hu hu0
        rw [ew] at ew'; cases ew'
        have h3 := (hw' (by intro h; rw [h] at h1; norm_num at h1)).2
        rw [h] at h3
        norm_num at h3 l10
        linarith
  obtain ⟨y1, e1⟩ := hfirst
  obtain ⟨y2, e2⟩ := isOk_elim l0
  obtain ⟨wy, n, hn, hn1⟩ := ln_integer hu hu0 h2 e2
  have hn3 : |(n:ℝ)| ≤ 3 := by
    have := abs_sub_abs_le_abs_sub (n:ℝ) (Real.log (value u))
    linarith
  have hy3 : |(value y2 : ℝ)| ≤ 10 ^ 12 := by
    rw [hn]
    push_cast
    norm_num
    linarith
  have hlen : (y2.digits.length : ℤ) ≤ 1 := by
    have hq : |value y2| < 10000 ^ (1:ℤ) := by
      rw [hn]
      have : |n| ≤ 3 := by exact_mod_cast hn3
      have : |(n:ℚ)| ≤ 3 := by exact_mod_cast this
      norm_num
      linarith
    have := (wy.bounds (k := 1) (by norm_num) hq).2.2.2
    omega
  obtain ⟨N, eN, wN, aN⟩ := wy.mul (Work.of_canonical hc) le_rfl (by norm_num) (wy.smR hy3) hc.small (n := 1) (by omega)
  obtain ⟨val, -, -, -, m1, m2⟩ := expCommon_spec hl (fuel := 4200) le_rfl wN (prod_small wN (by rw [hn]; push_cast; norm_num; linarith) hc.abs_lt (by norm_num) aN) (rs := 1000) (by norm_num) le_rfl
  show ∃ o, Num.pow lm 4200 a b = .ok o
  rw [pow_unfold lm 4200 va vb, (pow_checks lm 4200 hu hc).2.2 (fun h => by linarith [h.1]) (fun h => by linarith),
    powerCommon_real lm 4200 hu hc hy, powerReal_tiny hl hu hu0 hc ew hw0 (by omega) hw hT1 hT2 e1]
  simp only [e2, eN, bind_ok]
  rcases le_or_gt 6000 |val| with h | h
  · rw [m1 h]; exact ⟨none, rfl⟩
  · obtain ⟨R, eR, r1, r2, r3, r4, r5, r6, rl, r7, -⟩ := m2 h
    rw [eR]
    simp only [bind_ok, if_neg r2]
    obtain ⟨r, er, -⟩ := (Num.finish_loose r1 r2 r3 rfl (by norm_num) (by norm_num) r4 (.inl (by omega)) (by omega) (by omega)).1 r7
    exact ⟨_, er⟩

/-- C52 (defect), a run: `1.1^-30000.5` returns exactly one, while the exact power is below `10^-1016`. -/
theorem C52_tiny_power_run (e : Bool) {lm : Libm} (hl : LibmOK lm) :
    ∃ a b r, @Holds ⟨false, e⟩ a (11 / 10) 1 ∧ @Holds ⟨false, e⟩ b (-300005 / 10) 1 ∧ @Num.pow ⟨false, e⟩ lm 4200 a b = .ok (some r) ∧
      @Holds ⟨false, e⟩ r 1 1000 ∧ (11 / 10 : ℝ) ^ (-300005 / 10 : ℝ) ≤ 10 ^ (-1016:ℤ) := by
  let _ : Build := ⟨false, e⟩
  obtain ⟨a, ha⟩ := witness (x := 11 / 10) (s := 1) 11 (by norm_num) (by norm_num) (by norm_num) (by norm_num [abs_lt])
  obtain ⟨b, hb⟩ := witness (x := -300005 / 10) (s := 1) (-300005) (by norm_num) (by norm_num) (by norm_num) (by norm_num [abs_lt])
  have hy : ∀ k : ℤ, (-300005 / 10 : ℚ) = k → ¬ IsI32 k :=
    fun k hk => half_not_int (n := -60001) (by norm_num) k (by rw [← hk]; norm_num)
  obtain ⟨u, hu, hv, hs, -, -, va⟩ := ha.exists_var
  obtain ⟨c, hc, hcv, hcs, -, -, vb⟩ := hb.exists_var
  have hcu : Canonical ⟨0, 1, .pos, [1, 1000]⟩ :=
    ⟨by decide, by unfold Digits; decide, ⟨by decide, by decide, fun h => by cases h⟩, by decide, by decide, by decide,
      ⟨11, by simp [value, mag]; norm_num⟩⟩
  have hul : u = ⟨0, 1, .pos, [1, 1000]⟩ := hu.unique hcu (by rw [hv]; simp [value, mag]; norm_num) (by rw [hs])
  obtain ⟨g1, g2⟩ := log_range_above (x := 11 / 10) le_rfl (by norm_num)
  have g3 : Real.log (11 / 10 : ℝ) ≤ 1 / 10 := by
    have := Real.log_le_sub_one_of_pos (x := 11 / 10) (by norm_num)
    linarith
  have hvR : (value u : ℝ) = 11 / 10 := by rw [hv]; norm_num
  have hcR : (value c : ℝ) = -300005 / 10 := by rw [hcv]; norm_num
  have habs : |Real.log (value u : ℝ)| = Real.log (11 / 10) := by rw [hvR]; exact abs_of_pos (by linarith)
  have hln := And.intro (ln_11_0 e) (And.intro (ln_11_8 e) (And.intro (ln_11_9 e) (ln_11_10 e)))
  rw [← hul] at hln
  obtain ⟨o, eo⟩ := tiny_returns e hl hu hc va vb (by rw [hv]; norm_num) (by rw [hcv]; exact hy)
    (by rw [habs]; exact g1) (by rw [habs]; linarith) (by rw [hvR, hcR]; linarith) (by rw [hvR, hcR]; linarith)
    ⟨hln.1, hln.2.1, hln.2.2.1, .inl hln.2.2.2⟩
  have eo' : Num.pow lm 4200 a b = .ok o := eo
  obtain ⟨⟨r, rfl, hr⟩, h⟩ := C52_tiny_power_is_one hl (fuel := 4200) le_rfl ha hb (by norm_num) (by norm_num) hy
    (by push_cast; linarith) (by push_cast; linarith) eo'
  push_cast at h
  exact ⟨a, b, r, ha, hb, eo, hr, h⟩

/-- C52 (defect), a run: `0.5^8000.5` is reported as an overflow, while the exact power is below `10^-1016`. -/
theorem C52_tiny_overflow_run (e : Bool) {lm : Libm} (hl : LibmOK lm) :
    ∃ a b, @Holds ⟨false, e⟩ a (5 / 10) 1 ∧ @Holds ⟨false, e⟩ b (80005 / 10) 1 ∧ @Num.pow ⟨false, e⟩ lm 4200 a b = .ok none ∧
      (5 / 10 : ℝ) ^ (80005 / 10 : ℝ) ≤ 10 ^ (-1016:ℤ) := by
  let _ : Build := ⟨false, e⟩
  obtain ⟨a, ha⟩ := witness (x := 5 / 10) (s := 1) 5 (by norm_num) (by norm_num) (by norm_num) (by norm_num [abs_lt])
  obtain ⟨b, hb⟩ := witness (x := 80005 / 10) (s := 1) 80005 (by norm_num) (by norm_num) (by norm_num) (by norm_num [abs_lt])
  have hy : ∀ k : ℤ, (80005 / 10 : ℚ) = k → ¬ IsI32 k :=
    fun k hk => half_not_int (n := 16001) (by norm_num) k (by rw [← hk]; norm_num)
  obtain ⟨u, hu, hv, hs, -, -, va⟩ := ha.exists_var
  obtain ⟨c, hc, hcv, hcs, -, -, vb⟩ := hb.exists_var
  have hcu : Canonical ⟨-1, 1, .pos, [5000]⟩ :=
    ⟨by decide, by unfold Digits; decide, ⟨by decide, by decide, fun h => by cases h⟩, by decide, by decide, by decide,
      ⟨5, by simp [value, mag]; norm_num⟩⟩
  have hul : u = ⟨-1, 1, .pos, [5000]⟩ := hu.unique hcu (by rw [hv]; simp [value, mag]; norm_num) (by rw [hs])
  have g0 : Real.log (5 / 10 : ℝ) = -Real.log 2 := by rw [← Real.log_inv]; norm_num
  have g1 := Real.log_two_gt_d9
  have g2 := Real.log_two_lt_d9
  have hvR : (value u : ℝ) = 5 / 10 := by rw [hv]; norm_num
  have hcR : (value c : ℝ) = 80005 / 10 := by rw [hcv]; norm_num
  have habs : |Real.log (value u : ℝ)| = Real.log 2 := by rw [hvR, g0, abs_neg]; exact abs_of_pos (by linarith)
  have hln := ln_05 e
  rw [← hul] at hln
  obtain ⟨o, eo⟩ := tiny_returns e hl hu hc va vb (by rw [hv]; norm_num) (by rw [hcv]; exact hy)
    (by rw [habs]; linarith) (by rw [habs]; linarith) (by rw [hvR, hcR, g0]; linarith) (by rw [hvR, hcR, g0]; linarith)
    ⟨hln.1, hln.2.1, hln.2.2, .inr (by rw [habs]; linarith)⟩
  have eo' : Num.pow lm 4200 a b = .ok o := eo
  obtain ⟨rfl, h⟩ := C52_tiny_power_overflows hl (fuel := 4200) le_rfl ha hb (by norm_num) (by norm_num) (by norm_num) hy
    (by push_cast; rw [g0]; linarith) eo'
  push_cast at h
  exact ⟨a, b, ha, hb, eo, h⟩

end PgNumeric.Props
