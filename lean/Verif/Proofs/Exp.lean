import Verif.Proofs.LnWeight
/-!
# The exponential: range reduction
-/
namespace PgNumeric
open Spec Var

theorem log_ten_fine : |(F64.LOG10_E : ℝ) * Real.log 10 - 1| ≤ 1 / 10 ^ 8 := by
  have h : 3 * Real.log 10 = 10 * Real.log 2 - Real.log (1024 / 1000) := by
    rw [Real.log_div (by norm_num) (by norm_num), show (1024:ℝ) = 2 ^ 10 by norm_num, show (1000:ℝ) = 10 ^ 3 by norm_num,
      Real.log_pow, Real.log_pow]
    push_cast; ring
  have h1 := halfLog_tail (z := 3 / 253) (by rw [abs_of_pos (by norm_num)]; norm_num) 2
  have h2 := halfLog_quot (x := 1024 / 1000) (by norm_num)
  rw [show ((1024:ℝ) / 1000 - 1) / (1024 / 1000 + 1) = 3 / 253 by norm_num] at h2
  rw [h2, abs_of_pos (by norm_num : (0:ℝ) < 3 / 253)] at h1
  simp only [halfSum, Finset.sum_range_succ, Finset.sum_range_zero] at h1
  norm_num at h1
  have h3 := Real.log_two_gt_d9
  have h4 := Real.log_two_lt_d9
  have e : (F64.LOG10_E : ℝ) = 3911776933737095 / 9007199254740992 := by unfold F64.LOG10_E; push_cast; rfl
  rw [abs_le] at h1
  norm_num at h
  rw [e, abs_le]
  constructor <;> norm_num <;> linarith [h1.1, h1.2]

theorem cent_bounds : 99 / 10000 ≤ F64.CENT ∧ F64.CENT ≤ 1000001 / 100000000 := by
  unfold F64.CENT; norm_num

/-- The halving loop runs at most 20 times. -/
theorem expHalve_spec [Build] {v0 : ℚ} (hv0 : |v0| ≤ 6000) (fuel : Nat) :
    ∀ {n : ℕ} {val : ℚ} {tmp : Var}, n ≤ 20 → 20 < n + fuel → Work tmp 0 → value tmp = 2 ^ n →
      |val - v0 / 2 ^ n| ≤ n * (2 / 10 ^ 16) * (|v0| / 2 ^ n) →
      ∃ (N : ℕ) (tmp' : Var), expHalve fuel val n tmp = .ok ((N : ℤ), tmp') ∧ N ≤ 20 ∧ n ≤ N ∧ Work tmp' 0 ∧
        value tmp' = 2 ^ N ∧ |v0| / 2 ^ N ≤ 1002 / 100000 := by
  obtain ⟨hc1, hc2⟩ := cent_bounds
  induction fuel with
  | zero => intro n val tmp h1 h2; omega
  | succ fuel ih =>
    intro n val tmp hn hf ht htv hv
    have hn20 : (n:ℚ) ≤ 20 := by exact_mod_cast hn
    have hn0 : (0:ℚ) ≤ n := by positivity
    have hA : 0 ≤ |v0| / 2 ^ n := by positivity
    have hab : |v0 / 2 ^ n| = |v0| / 2 ^ n := by rw [abs_div, abs_of_pos (by positivity : (0:ℚ) < 2 ^ n)]
    have hv' : |val - v0 / 2 ^ n| ≤ 1 / 10 ^ 13 * (|v0| / 2 ^ n) := by
      refine hv.trans (mul_le_mul_of_nonneg_right ?_ hA)
      norm_num; linarith
    have h1 := abs_sub_abs_le_abs_sub val (v0 / 2 ^ n)
    have h2 := abs_sub_abs_le_abs_sub (v0 / 2 ^ n) val
    rw [abs_sub_comm] at h2
    rw [hab] at h1 h2
    unfold expHalve
    by_cases hgt : |val| > F64.CENT
    · rw [if_pos hgt]
      have hlt : n < 20 := by
        by_contra hcon
        have : n = 20 := by omega
        subst this
        have : |v0| / 2 ^ 20 ≤ 6000 / 2 ^ 20 := by apply div_le_div_of_nonneg_right hv0; positivity
        norm_num at this h1 hv'
        linarith
      have htsm : Small tmp := by
        refine ht.sm (lt_big ?_)
        rw [htv, abs_of_pos (by positivity)]
        calc (2:ℚ) ^ n ≤ 2 ^ 20 := pow_le_pow_right₀ (by norm_num) hn
          _ < _ := by norm_num
      obtain ⟨t', et, ht', htv'⟩ := ht.add ht htsm htsm
      rw [max_self] at ht'
      simp only [et, bind_ok]
      have hp : (2:ℚ) ^ (n + 1) = 2 * 2 ^ n := by rw [pow_succ]; ring
      have hcast : ((n:ℤ) + 1) = ((n + 1 : ℕ) : ℤ) := by push_cast; rfl
      rw [hcast]
      obtain ⟨N, tmp', e, h3, h4, h5, h6, h7⟩ := ih (n := n + 1) (val := F64.div val 2) (tmp := t') (by omega) (by omega) ht'
        (by rw [htv', htv, hp]; ring) (by
          have hr := F64.rnd_err (val / 2)
          change |F64.div val 2 - _| ≤ _ at hr
          have hu := F64.u_small
          have hr' : |F64.div val 2 - val / 2| ≤ 12 / 10 ^ 17 * |val / 2| := hr.trans (mul_le_mul_of_nonneg_right hu (abs_nonneg _))
          rw [abs_div, abs_of_pos (by norm_num : (0:ℚ) < 2)] at hr'
          have e1 : v0 / 2 ^ (n + 1) = v0 / 2 ^ n / 2 := by rw [hp]; field_simp
          have e2 : |v0| / 2 ^ (n + 1) = |v0| / 2 ^ n / 2 := by rw [hp]; field_simp
          have h8 := abs_sub_le (F64.div val 2) (val / 2) (v0 / 2 ^ n / 2)
          have h9 : |val / 2 - v0 / 2 ^ n / 2| ≤ n * (2 / 10 ^ 16) * (|v0| / 2 ^ n) / 2 := by
            rw [← sub_div, abs_div, abs_of_pos (by norm_num : (0:ℚ) < 2)]
            exact div_le_div_of_nonneg_right hv (by norm_num)
          rw [e1, e2]
          push_cast
          generalize |v0| / 2 ^ n = A at *
          norm_num at *
          nlinarith)
      exact ⟨N, tmp', e, h3, by omega, h5, h6, h7⟩
    · rw [if_neg hgt]
      push Not at hgt
      refine ⟨n, tmp, rfl, hn, le_rfl, ht, htv, ?_⟩
      norm_num at hv' hc2 ⊢
      linarith

/-- The range reduction divides exactly by a power of two. -/
theorem expReduce_spec [Build] {a : Var} {s : Int} (ha : Work a s) {val : ℚ} (hval : |val| < 6000)
    (hv : |val - value a| ≤ |value a| / 10 ^ 15 + 1 / 10 ^ 300) {fuel : Nat} (hf : 20 ≤ fuel) :
    ∃ (n : ℕ) (x : Var), expReduce fuel a val = .ok ((n : ℤ), x) ∧ n ≤ 20 ∧ Wide x (s + n) ∧ value x = value a / 2 ^ n ∧
      |value x| ≤ 101 / 10000 := by
  obtain ⟨hc1, hc2⟩ := cent_bounds
  have hs0 := ha.l_nonneg
  have hs1 := ha.l_le'
  have htiny : (1:ℚ) / 10 ^ 300 ≤ 1 / 10 ^ 20 :=
    one_div_le_one_div_of_le (by norm_num) (pow_le_pow_right₀ (by norm_num) (by norm_num))
  generalize (1:ℚ) / 10 ^ 300 = ε at hv htiny
  have h1 := abs_sub_abs_le_abs_sub (value a) val
  rw [abs_sub_comm] at h1
  have hX : |value a| ≤ 1001 / 1000 * |val| + 2 / 10 ^ 20 := by
    have h2 := abs_nonneg val
    generalize |value a| = A at *
    generalize |val| = V at *
    norm_num at hv htiny h1 ⊢
    linarith
  unfold expReduce
  by_cases hgt : |val| > F64.CENT
  · rw [if_pos hgt]
    obtain ⟨N, tmp, e, hN, hN1, ht, htv, hb⟩ := expHalve_spec (v0 := val) hval.le fuel (n := 1) (val := F64.div val 2) (tmp := two)
      (by omega) (by omega) (two_powOK.work rfl) (by rw [two_powOK.value]; norm_num) (by
        have hr := F64.rnd_err (val / 2)
        change |F64.div val 2 - _| ≤ _ at hr
        have hr' : |F64.div val 2 - val / 2| ≤ 12 / 10 ^ 17 * |val / 2| := hr.trans (mul_le_mul_of_nonneg_right F64.u_small (abs_nonneg _))
        rw [abs_div, abs_of_pos (by norm_num : (0:ℚ) < 2)] at hr'
        have := abs_nonneg val
        norm_num at *
        linarith)
    rw [show ((1:ℕ):ℤ) = 1 by rfl] at e
    simp only [e, bind_ok]
    have hp1 : (1:ℚ) ≤ 2 ^ N := one_le_pow₀ (by norm_num)
    have ht0 : value tmp ≠ 0 := by rw [htv]; positivity
    have hA : |value a| < 10000 ^ (33001:ℤ) := lt_big (by norm_num; linarith)
    have hB : |value tmp| < 10000 ^ (33001:ℤ) := by
      apply lt_big
      rw [htv, abs_of_pos (by positivity)]
      calc (2:ℚ) ^ N ≤ 2 ^ 20 := pow_le_pow_right₀ (by norm_num) hN
        _ < _ := by norm_num
    rw [ha.dscale, fits_ok (by fits_tac), bind_ok]
    have ha0 : value a ≠ 0 := by
      intro h0
      rw [h0] at hv
      norm_num at *
      linarith
    have htn : tmp.ndigits ≤ 21 := by
      have := (ht.bounds (k := 2) (by norm_num) (by
        rw [htv, abs_of_pos (by positivity)]
        calc (2:ℚ) ^ N ≤ 2 ^ 20 := pow_le_pow_right₀ (by norm_num) hN
          _ < _ := by norm_num)).2.2.2
      simp only [ndigits]; omega
    obtain ⟨x, y, ex, hx, hxv, hy⟩ := ha.toWide.divFast ht.toWide (l := s + N) (by omega) (by omega) ha0 ht0 hA hB htn
    · refine ⟨N, x, ?_, hN, hx, ?_, ?_⟩
      · simp only [ex, bind_ok, expect, pure_ok]
      all_goals
        have hexact : value x = value a / 2 ^ N := by
          have hsc : HasScale (value a / 2 ^ N) (s + N) := by
            obtain ⟨m, hm⟩ := ha.scale
            refine ⟨m * 5 ^ N, ?_⟩
            rw [zpow_add₀ (by norm_num), zpow_natCast, show (10:ℚ) ^ N = 2 ^ N * 5 ^ N by rw [← mul_pow]; norm_num]
            push_cast
            rw [← hm]
            field_simp
          have hy' : |y - value a / 2 ^ N| ≤ 1 / 10 ^ 10 * 10 ^ (-(s + N : ℤ)) := by
            have : ((|y - value a / 2 ^ N| : ℚ) : ℝ) ≤ ((1 / 10 ^ 10 * (10:ℚ) ^ (-(s + N : ℤ)) : ℚ) : ℝ) := by
              push_cast
              rw [htv] at hy
              push_cast at hy
              calc _ ≤ _ := hy
                _ = _ := by ring
            exact_mod_cast this
          have hT := T_zpow_pos (s + N : ℤ)
          have hTT : (10:ℚ) ^ (-(s + N : ℤ)) * 10 ^ (s + N : ℤ) = 1 := by rw [← zpow_add₀ (by norm_num)]; simp
          obtain ⟨p, hp⟩ := hx.scale
          obtain ⟨q, hq⟩ := hsc
          have hr := roundHalfAway_err y (s + N)
          rw [← hxv] at hr
          have h2 := abs_sub_le (value x) y (value a / 2 ^ N)
          have h3 : |value x - value a / 2 ^ N| ≤ 51 / 100 * 10 ^ (-(s + N : ℤ)) := by
            have := T_zpow_pos (-(s + N : ℤ))
            generalize (10:ℚ) ^ (-(s + N : ℤ)) = T at *
            norm_num at hy'
            linarith
          have h4 : |((p - q : ℤ) : ℚ)| < 1 := by
            push_cast
            rw [← hp, ← hq, ← sub_mul, abs_mul, abs_of_pos hT]
            have := mul_le_mul_of_nonneg_right h3 hT.le
            rw [mul_assoc, hTT] at this
            linarith
          have h5 : |p - q| < 1 := by exact_mod_cast h4
          have h6 : p = q := by rw [Int.abs_lt_one_iff] at h5; omega
          have : value x * 10 ^ (s + N : ℤ) = value a / 2 ^ N * 10 ^ (s + N : ℤ) := by rw [hp, hq, h6]
          exact mul_right_cancel₀ hT.ne' this
      · exact hexact
      · rw [hexact, abs_div, abs_of_pos (by positivity : (0:ℚ) < 2 ^ N)]
        have e1 : |value a| / 2 ^ N ≤ (1001 / 1000 * |val| + 2 / 10 ^ 20) / 2 ^ N := div_le_div_of_nonneg_right hX (by positivity)
        have e2 : (1001 / 1000 * |val| + 2 / 10 ^ 20) / 2 ^ N = 1001 / 1000 * (|val| / 2 ^ N) + 2 / 10 ^ 20 / 2 ^ N := by ring
        have e3 : (2 / 10 ^ 20 : ℚ) / 2 ^ N ≤ 2 / 10 ^ 20 := div_le_self (by norm_num) hp1
        rw [e2] at e1
        norm_num at *
        linarith
  · rw [if_neg hgt]
    push Not at hgt
    refine ⟨0, a, rfl, by omega, by simpa using ha.toWide, by simp, ?_⟩
    norm_num at *
    linarith

end PgNumeric
