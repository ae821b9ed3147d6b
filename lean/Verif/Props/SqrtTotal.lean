import Verif.Props.Sqrt
import Verif.Proofs.SqrtTotal
/-!
# Termination of square roots (C53)
-/
namespace PgNumeric.Props
open PgNumeric Spec Var

theorem sqrt_ge_pow {x : ℚ} {k : ℤ} (h : (10:ℚ) ^ (2 * k) ≤ x) : (10:ℝ) ^ k ≤ √(x:ℝ) := by
  refine Real.le_sqrt_of_sq_le ?_
  have := castR h
  push_cast at this
  rwa [← zpow_natCast, ← zpow_mul, mul_comm]

/-- The root spans at least eight digits of the working scale. -/
theorem sqrt_units {x : ℚ} {s : Int} (hx : (10:ℚ) ^ (-2000:ℤ) ≤ x) : (10:ℝ) ^ 8 ≤ √(x:ℝ) * 10 ^ (sqrtScale x s + 8) := by
  have hx0 : 0 < x := lt_of_lt_of_le (T_zpow_pos _) hx
  have key : ∀ k : ℤ, (10:ℚ) ^ (2 * k) ≤ x → -k ≤ sqrtScale x s → (10:ℝ) ^ 8 ≤ √(x:ℝ) * 10 ^ (sqrtScale x s + 8) := by
    intro k h1 h2
    calc (10:ℝ) ^ 8 = 10 ^ k * 10 ^ (-k + 8) := by rw [← zpow_add₀ (by norm_num)]; norm_num
      _ ≤ √(x:ℝ) * 10 ^ (sqrtScale x s + 8) :=
        mul_le_mul (sqrt_ge_pow h1) (zpow_le_zpow_right₀ (by norm_num) (by omega)) (by positivity) (by positivity)
  by_cases hq : sqrtScale x s = 1000
  · exact key (-1000) (by norm_num at hx ⊢; exact hx) (by omega)
  · have hw := Int.zpow_log_le_self (b := 10000) (by norm_num) hx0
    have hlw : leadWeight x = Int.log 10000 x := by unfold leadWeight; rw [abs_of_pos hx0]
    refine key (2 * leadWeight x) ?_ ?_
    · rw [hlw, ← mul_assoc, show (2:ℤ) * 2 = 4 by rfl, zpow_mul]
      exact_mod_cast hw
    · unfold sqrtScale at hq ⊢; omega

/-- C53: the square root of a number of at least `10^-2000` terminates, within 60 rounds, and is accurate, unless the exact root, measured in
units of the working precision (8 decimals more than the result has), has a fractional part within `10^-8` of 1/4. -/
theorem C53_sqrt_terminates [Build] {b : Bin} {x : ℚ} {s : Int} (hb : Holds b x s) (hx : (10:ℚ) ^ (-2000:ℤ) ≤ x)
    (hq : 1 / 10 ^ 8 < |Int.fract (√(x:ℝ) * 10 ^ (sqrtScale x s + 8)) - 1 / 4|) {fuel : Nat} (hf : 60 ≤ fuel) :
    (∃ r y, Num.sqrt fuel b = .ok r ∧ Holds r y (sqrtScale x s) ∧
      |(y:ℝ) - √(x:ℝ)| ≤ (1 / 2 + 16 / 10 ^ 9) * 10 ^ (-sqrtScale x s)) ∨
    (Build.debug = true ∧ Num.sqrt fuel b = .error .overflow) := by
  have hx0 : 0 < x := lt_of_lt_of_le (T_zpow_pos _) hx
  have hs0 := hb.bounds.2.1
  obtain ⟨q0, q1⟩ := sqrtScale_bounds (x := x) hs0
  rcases sqrt_outcomes hb hx0 fuel with h | ⟨-, u, hu, rfl, rfl, e⟩ | ⟨h, -⟩ | h
  · exact .inl h
  · rcases sqrtCommon_stops (PosVar.of_canonical hu hx0) q0 (by omega) hf (sqrt_units hx) hq with ⟨w, ew⟩ | ⟨-, ew⟩
    all_goals rw [e] at ew; cases ew
  · exact absurd h (not_lt.2 (le_trans (T_zpow_le_iff.2 (by norm_num)) hx))
  · exact .inr h

/-- A rational root of an integer is an integer. -/
theorem rat_sq_int {y : ℚ} {n : ℤ} (h : y * y = n) : ∃ m : ℤ, y = m := by
  have h1 := Rat.mul_self_den y
  rw [h, Rat.den_intCast] at h1
  have h2 : y.den = 1 := by
    have := Nat.eq_one_of_mul_eq_one_right h1.symm
    exact this
  exact ⟨y.num, (Rat.den_eq_one_iff y).1 h2 |>.symm⟩

/-- The rational root of a number of scale `s` has scale `(s+1)/2`. -/
theorem root_scale {x y : ℚ} {s : Int} (hy : y * y = x) (hx : HasScale x s) : HasScale y ((s + 1) / 2) := by
  have : HasScale x (2 * ((s + 1) / 2)) := hx.mono (by omega)
  obtain ⟨n, hn⟩ := this
  refine rat_sq_int (n := n) ?_
  rw [← hn, ← hy, two_mul, zpow_add₀ (by norm_num)]
  ring

/-- The square root of zero. -/
theorem sqrt_zero_ok [Build] {b : Bin} {s : Int} (hb : Holds b 0 s) (fuel : Nat) :
    ∃ r, Num.sqrt fuel b = .ok r ∧ Holds r 0 (sqrtScale 0 s) := by
  obtain ⟨u, hu, hux, rfl, ea, na, va⟩ := hb.exists_var
  obtain ⟨hsg, hsq⟩ := sqrt_unfold hu hux.ge fuel
  obtain ⟨hq0, hq1⟩ := sqrtScale_bounds (x := value u) hu.dscale_nonneg
  have hd := (stripped_zero_iff hu.digits hu.stripped).1 hux
  have hz : sqrtCommon fuel u (sqrtScale (value u) u.dscale) = .ok ⟨0, sqrtScale (value u) u.dscale, .pos, []⟩ := by
    unfold sqrtCommon
    rw [dassert_ok hsg, hd, bind_ok, fits_ok (by fits_tac), bind_ok]
    exact zeroScaled_ok hq0 (by omega)
  rw [hux] at hz hsq hq0 hq1
  obtain ⟨r, er, hr⟩ := Num.finishNoOverflow_spec (u := ⟨0, sqrtScale 0 u.dscale, .pos, []⟩) (s := sqrtScale 0 u.dscale) (x := 0)
    Digits.nil (by simp) rfl (by simp [value]) hq0 (by omega) ⟨0, by simp⟩
    (by rw [abs_zero]; exact lt_of_le_of_lt (abs_nonneg _) hu.abs_lt) (Small.stripM ⟨by simp, by simp, by simp⟩)
  refine ⟨r, ?_, hr⟩
  unfold Num.sqrt
  simp only [ea, bind_ok, na, Bool.false_eq_true, if_false, va]
  rw [if_neg (by rw [hsg]; simp), hsq, hz]
  exact er

/-- C53: the square root of a perfect square always terminates and is exact: if `y * y = x` for a rational `y ≥ 0` and `x` has at most 2000
decimals, `sqrt x` is `y`. -/
theorem C53_perfect_square [Build] {b : Bin} {x y : ℚ} {s : Int} (hb : Holds b x s) (hy0 : 0 ≤ y) (hy : y * y = x) (hs : s ≤ 2000)
    {fuel : Nat} (hf : 60 ≤ fuel) :
    (∃ r, Num.sqrt fuel b = .ok r ∧ Holds r y (sqrtScale x s)) ∨ (Build.debug = true ∧ Num.sqrt fuel b = .error .overflow) := by
  have hs0 := hb.bounds.2.1
  rcases eq_or_lt_of_le hy0 with h0 | h0
  · subst h0
    have hx : x = 0 := by rw [← hy]; ring
    subst hx
    exact .inl (sqrt_zero_ok hb fuel)
  have hys := root_scale hy hb.bounds.1
  have hle : (s + 1) / 2 ≤ sqrtScale x s := by unfold sqrtScale; omega
  have hx : (10:ℚ) ^ (-2000:ℤ) ≤ x := by
    obtain ⟨m, hm⟩ := hys.mono (s := (s + 1) / 2) (t := 1000) (by omega)
    have hT := T_zpow_pos (1000:ℤ)
    have hm0 : (1:ℚ) ≤ m := by
      have : (0:ℚ) < m := by rw [← hm]; exact mul_pos h0 hT
      have : 0 < m := by exact_mod_cast this
      have : 1 ≤ m := by omega
      exact_mod_cast this
    have hy1 : (10:ℚ) ^ (-1000:ℤ) ≤ y := by
      rw [zpow_neg, inv_le_iff_one_le_mul₀ hT, hm]; exact hm0
    calc (10:ℚ) ^ (-2000:ℤ) = 10 ^ (-1000:ℤ) * 10 ^ (-1000:ℤ) := by rw [← zpow_add₀ (by norm_num)]; norm_num
      _ ≤ y * y := mul_le_mul hy1 hy1 (T_zpow_pos _).le hy0
      _ = x := hy
  have hroot : √(x:ℝ) = y := by
    rw [← hy]; push_cast
    exact Real.sqrt_mul_self (by exact_mod_cast hy0)
  rcases C53_sqrt_terminates hb hx (by
      obtain ⟨m, hm⟩ := hys.mono (s := (s + 1) / 2) (t := sqrtScale x s + 8) (by omega)
      have : (y:ℝ) * 10 ^ (sqrtScale x s + 8) = (m:ℝ) := by
        have := congrArg (fun z : ℚ => (z:ℝ)) hm
        push_cast at this
        exact this
      rw [hroot, this, Int.fract_intCast]
      norm_num [abs_of_neg]) hf with ⟨r, z, er, -, -⟩ | h
  · exact .inl ⟨r, er, C34_sqrt_exact hb hy0 hy (hys.mono hle) er⟩
  · exact .inr h

/-- C53: squaring and taking the root gives back the absolute value, for every number of at most 1000 decimals whose square is in range. -/
theorem C53_sqrt_of_square [Build] {a : Bin} {x : ℚ} {s : Int} (ha : Holds a x s) (hs : s ≤ 1000) (hl : |x * x| < limit)
    {fuel : Nat} (hf : 60 ≤ fuel) :
    ∃ b, Num.checkedMul a a = .ok (some b) ∧
      ((∃ r, Num.sqrt fuel b = .ok r ∧ Holds r |x| (sqrtScale (x * x) (s + s))) ∨
        (Build.debug = true ∧ Num.sqrt fuel b = .error .overflow)) := by
  obtain ⟨b, eb, hb⟩ := C10_mul_exact ha ha (by omega) hl
  exact ⟨b, eb, C53_perfect_square hb (abs_nonneg x) (abs_mul_abs_self x) (by omega) hf⟩

/-- The hypotheses of `C53_sqrt_terminates` are met by 2: `sqrt(2)` returns in a release build. -/
example (e : Bool) : ∃ b r, @Holds ⟨false, e⟩ b 2 0 ∧ @Num.sqrt ⟨false, e⟩ 60 b = .ok r := by
  let _ : Build := ⟨false, e⟩
  obtain ⟨b, hb⟩ := witness (x := 2) (s := 0) 2 (by norm_num) (by norm_num) (by norm_num) (by norm_num [abs_lt])
  have hlw : leadWeight 2 = 0 := by
    unfold leadWeight
    norm_num [Int.log]
  have hq : sqrtScale 2 0 = 15 := by unfold sqrtScale; rw [hlw]; rfl
  have h1 : (141421356237309504880168.87:ℝ) ≤ √2 * 10 ^ 23 := by
    have : (1.4142135623730950488016887:ℝ) ≤ √2 := Real.le_sqrt_of_sq_le (by norm_num)
    linarith
  have h2 : √2 * 10 ^ 23 ≤ (141421356237309504880168.88:ℝ) := by
    have : √2 ≤ (1.4142135623730950488016888:ℝ) := Real.sqrt_le_iff.2 ⟨by norm_num, by norm_num⟩
    linarith
  have hfl : ⌊√(2:ℝ) * 10 ^ 23⌋ = 141421356237309504880168 := by
    rw [Int.floor_eq_iff]; push_cast; constructor <;> linarith
  rcases C53_sqrt_terminates hb ((T_zpow_le_iff.2 (by norm_num : (-2000:ℤ) ≤ 0)).trans (by norm_num)) (by
    rw [hq]
    push_cast
    have e23 : (10:ℝ) ^ (23:ℤ) = 10 ^ (23:ℕ) := by norm_num
    rw [e23]
    rw [Int.fract, hfl, lt_abs]
    left
    push_cast
    norm_num at h1 ⊢
    linarith) (fuel := 60) le_rfl with ⟨r, y, er, -⟩ | ⟨h, -⟩
  · exact ⟨b, r, hb, er⟩
  · cases h

/-- And the hypotheses of `C53_perfect_square`: `1.44`. -/
example (e : Bool) : ∃ b r, @Holds ⟨false, e⟩ b (144 / 100) 2 ∧ @Num.sqrt ⟨false, e⟩ 60 b = .ok r ∧
    @Holds ⟨false, e⟩ r (12 / 10) (sqrtScale (144 / 100) 2) := by
  let _ : Build := ⟨false, e⟩
  obtain ⟨b, hb⟩ := witness (x := 144 / 100) (s := 2) 144 (by norm_num) (by norm_num) (by norm_num) (by norm_num [abs_lt])
  rcases C53_perfect_square hb (y := 12 / 10) (by norm_num) (by norm_num) (by norm_num) (fuel := 60) le_rfl with ⟨r, er, hr⟩ | ⟨h, -⟩
  · exact ⟨b, r, hb, er, hr⟩
  · cases h

end PgNumeric.Props
