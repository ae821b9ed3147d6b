import Mathlib.Analysis.Complex.ExponentialBounds
import Verif.Proofs.Ln
import Verif.Proofs.SqrtShort
/-!
# Logarithms of short numbers do not overflow in debug builds
-/
namespace PgNumeric
open Spec Var

theorem log_lt_B {y : ℚ} (h : 0 < y) {k : ℤ} : (y:ℚ) < 10000 ^ k ↔ Real.log y < k * Real.log 10000 := by
  have hy : (0:ℝ) < (y:ℝ) := by exact_mod_cast h
  rw [← Real.log_zpow, Real.log_lt_log_iff hy (by positivity)]
  rw [show ((10000:ℝ) ^ k) = (((10000:ℚ) ^ k : ℚ) : ℝ) by push_cast; rfl]
  norm_cast

theorem log_B_pos : (8:ℝ) < Real.log 10000 := by
  rw [Real.lt_log_iff_exp_lt (by norm_num)]
  have : Real.exp 8 = Real.exp 1 ^ 8 := by rw [← Real.exp_nat_mul]; norm_num
  rw [this]
  have h := Real.exp_one_lt_d9
  calc Real.exp 1 ^ 8 < 3 ^ 8 := by gcongr; linarith
    _ < 10000 := by norm_num

/-- The reduction of a number below `10^136`, for a logarithm to at most 55 decimals, never overflows. -/
theorem lnReduce_short [Build] {again : Var → Bool} {R : Int} (hR0 : 0 ≤ R) (hR1 : R ≤ 55) (sf fuel : Nat) :
    ∀ {x fact : Var} {j : ℕ}, PosVar x → value x < 10000 ^ (34:ℤ) → PowOK fact (2 ^ j) → fact.weight ≤ 100 →
      Budget (10 ^ (-(R + 8))) (value x) j →
      (∀ x, PosVar x → again x = true → 95 / 1000 ≤ |Real.log (value x)|) →
      lnReduce again R sf fuel x fact ≠ .error .overflow ∧
      ∀ p, lnReduce again R sf fuel x fact = .ok p → value p.1 < 10000 ^ (34:ℤ) ∧
        (p.1 = x ∨ ∃ y, PosVar y ∧ p.1.dscale = max (R - 2 * y.weight + 8) 0 ∧ |Real.log (value p.1) - Real.log (value y) / 2| ≤ 1 / 100) := by
  induction fuel with
  | zero => intro x fact j _ _ _ _ _ _; exact ⟨(by intro h; cases h), (by intro p h; cases h)⟩
  | succ fuel ih =>
    intro x fact j hx hx34 hf hfw hbud hC2
    rw [lnReduce]
    by_cases hag : again x = true
    · rw [if_pos hag]
      have htd : (x.weight * DEC_DIGITS).tdiv 2 = 2 * x.weight := by
        rw [show x.weight * DEC_DIGITS = (2 * x.weight) * 2 by simp only [DEC_DIGITS]; ring, Int.mul_tdiv_cancel _ (by norm_num)]
      have hw1 := hx.weight_ge
      have hw2 := hx.weight_le
      have hw3 : x.weight < 34 := B_zpow_lt_iff.1 (lt_of_le_of_lt hx.ge hx34)
      have htt := tdiv2_bounds x.weight
      have hmax : max (R - (x.weight * DEC_DIGITS).tdiv 2 + 8) NUMERIC_MIN_DISPLAY_SCALE = max (R - 2 * x.weight + 8) 0 := by
        rw [htd]
      rw [fits_ok (by rw [htd]; simp only [DEC_DIGITS]; fits_tac), bind_ok]
      have hno : sqrtCommon sf x (max (R - (x.weight * DEC_DIGITS).tdiv 2 + 8) NUMERIC_MIN_DISPLAY_SCALE) ≠ .error .overflow := by
        rw [hmax]
        refine sqrtCommon_short hx (by omega) (by omega) sf ?_ ?_
        · refine le_trans ?_ hx.ge
          rw [B_eq_T]
          calc 4 * ((10:ℚ) ^ (-(max (R - 2 * x.weight + 8) 0 + 8))) ^ 2
              ≤ 10 ^ (1:ℤ) * ((10:ℚ) ^ (-(max (R - 2 * x.weight + 8) 0 + 8))) ^ 2 := by gcongr; norm_num
            _ = 10 ^ (1 + -(max (R - 2 * x.weight + 8) 0 + 8) * 2) := by
                rw [zpow_add₀ (by norm_num), zpow_mul]; norm_cast
            _ ≤ 10 ^ (4 * x.weight) := T_zpow_le_iff.2 (by omega)
        · generalize x.weight.tdiv 2 = t at htt ⊢
          omega
      rcases sqrtCommon_spec hx (s := max (R - (x.weight * DEC_DIGITS).tdiv 2 + 8) NUMERIC_MIN_DISPLAY_SCALE)
        (by simp only [NUMERIC_MIN_DISPLAY_SCALE]; omega) (by rw [htd]; simp only [NUMERIC_MIN_DISPLAY_SCALE]; omega) sf with
        ⟨u, ρ, eu, -, -, hus, -⟩ | e | ⟨-, e⟩ | ⟨-, e⟩
      · obtain ⟨hu, hlog⟩ := reduce_step hx hR0 (by omega) eu
        have two_ok : PowOK two 2 := two_powOK
        obtain ⟨w, ew, hw⟩ := hf.mul two_ok (by omega) (by simp [two]) (s := 0) le_rfl (by norm_num)
        rw [← pow_succ] at hw
        simp only [eu, ew, bind_ok]
        have hU := unit_small (l := R + 8) (by omega)
        have hl' : |Real.log (value u) - Real.log (value x) / 2| ≤ 1 / 100 := by
          refine hlog.trans ?_
          linarith
        have hu34 : value u < 10000 ^ (34:ℤ) := by
          rw [log_lt_B hu.pos]
          have h1 := (log_lt_B hx.pos).1 hx34
          have h2 := abs_le.1 hl'
          have h3 := log_B_pos
          push_cast at h1 ⊢
          linarith
        obtain ⟨h1, h2⟩ := ih hu hu34 hw (hbud.weight hU (hC2 x hx hag) hw) (hbud.step hlog) hC2
        refine ⟨h1, fun p hp => ?_⟩
        obtain ⟨h3, h4⟩ := h2 p hp
        refine ⟨h3, .inr ?_⟩
        rcases h4 with h4 | h4
        · rw [h4]
          exact ⟨x, hx, by rw [hus, hmax], hl'⟩
        · exact h4
      · simp only [e]
        exact ⟨(by intro h; cases h), (by intro p h; cases h)⟩
      · simp only [e]
        exact ⟨(by intro h; cases h), (by intro p h; cases h)⟩
      · exact absurd e hno
    · rw [if_neg hag]
      refine ⟨(by intro h; cases h), fun p h => ?_⟩
      cases h
      exact ⟨hx34, .inl rfl⟩

/-- The logarithm of a number below `10^136` with at most 80 decimals, to at most 55 decimals, never overflows. -/
theorem lnCommon_short [Build] {a : Var} (ha : PosVar a) {R : Int} (hR0 : 0 ≤ R) (hR1 : R ≤ 55) (fuel : Nat) (h34 : value a < 10000 ^ (34:ℤ))
    (hds : a.dscale ≤ 80) : lnCommon fuel a R ≠ .error .overflow := by
  have hun : lnCommon fuel a R = (do
      let (x, fact) ← lnReduce (fun x => cmpCommon x zeroPointNine ≤ 0) R fuel fuel a two
      let (x, fact) ← lnReduce (fun x => cmpCommon x onePointOne ≥ 0) R fuel fuel x fact
      fits [R + 8]
      let num ← subCommon x one
      let den ← addCommon x one
      let z ← divFastCommon num den (R + 8) true
      let z ← expect DIVIDE_BY_ZERO_MSG z
      let zz ← mulCommon z z (R + 8)
      let sum ← lnSeries zz (R + 8) fuel one z z
      mulCommon sum fact R) := by
    unfold lnCommon
    rw [dassert_ok ha.not_nan, dassert_ok ha.cmp_zero_pos]
    rfl
  have c9 : ∀ x, PosVar x → decide (cmpCommon x zeroPointNine ≤ 0) = true → 95 / 1000 ≤ |Real.log (value x)| := fun x hx h => by
    rw [← abs_neg]
    exact (log_nine (by exact_mod_cast hx.pos) (hx.cmp_nine.1 (by simpa using h))).trans (le_abs_self _)
  have c11 : ∀ x, PosVar x → decide (cmpCommon x onePointOne ≥ 0) = true → 95 / 1000 ≤ |Real.log (value x)| := fun x hx h =>
    (log_eleven (hx.cmp_eleven.1 (by simpa using h))).trans (le_abs_self _)
  have t2 : PowOK two (2 ^ 1) := by rw [pow_one]; exact two_powOK
  obtain ⟨n1, o1⟩ := lnReduce_short (again := fun x => cmpCommon x zeroPointNine ≤ 0) hR0 hR1 fuel fuel (j := 1) ha h34 t2 (by simp [two])
    (Budget.start ha (by positivity)) c9
  rcases lnReduce_outcome (again := fun x => cmpCommon x zeroPointNine ≤ 0) hR0 (by omega) c9
    fuel fuel (j := 1) ha t2 (by simp [two]) (Budget.start ha (by positivity)) with ⟨p, e1, p1, k, p2, p3, p4⟩ | e1 | ⟨hd, e1⟩
  rotate_left
  · rw [hun, e1]; intro h; cases h
  · exact absurd e1 n1
  obtain ⟨p34, pc⟩ := o1 p e1
  obtain ⟨n2, o2⟩ := lnReduce_short (again := fun x => cmpCommon x onePointOne ≥ 0) hR0 hR1 fuel fuel (j := k) p1 p34 p2 p3 p4 c11
  rcases lnReduce_outcome (again := fun x => cmpCommon x onePointOne ≥ 0) hR0 (by omega) c11 fuel fuel (j := k) p1 p2 p3 p4 with
    ⟨q, e2, -⟩ | e2 | ⟨hd, e2⟩
  rotate_left
  · rw [hun, e1]
    simp only [bind_ok, e2]; intro h; cases h
  · exact absurd e2 n2
  obtain ⟨q34, qc⟩ := o2 q e2
  obtain ⟨-, hx, hx9, hx11, -⟩ := lnReduce_both ha hR0 (by omega) e1 e2
  have hcase : q.1 = a ∨ ∃ y, PosVar y ∧ q.1.dscale = max (R - 2 * y.weight + 8) 0 ∧
      |Real.log (value q.1) - Real.log (value y) / 2| ≤ 1 / 100 := by
    rcases qc with h | h
    · rw [h]; exact pc
    · exact .inr h
  have hq80 : q.1.dscale ≤ 80 := by
    rcases hcase with h | ⟨y, hy, h1, h2⟩
    · rw [h]; exact hds
    · have hyw : -2 < y.weight := by
        by_contra hcon
        have hlt : value y < 10000 ^ (-1:ℤ) := lt_of_lt_of_le hy.lt (B_zpow_le_iff.2 (by omega))
        rw [log_lt_B hy.pos] at hlt
        have h3 : -(1:ℝ) ≤ Real.log (value q.1) := by
          rw [Real.le_log_iff_exp_le (by linarith)]
          have h6 := Real.add_one_le_exp 1
          rw [Real.exp_neg]
          have : (Real.exp 1)⁻¹ ≤ 2⁻¹ := inv_anti₀ (by norm_num) (by linarith)
          norm_num at this
          linarith
        have h4 := abs_le.1 h2
        have h5 := log_B_pos
        push_cast at hlt
        linarith
      omega
  rcases lnCommon_outcome ha hR0 (by omega) e1 e2 with ⟨y, h, -⟩ | ⟨-, -, h⟩ | ⟨-, h⟩
  · rw [h]; intro h'; cases h'
  · omega
  · rw [h]; intro h'; cases h'

end PgNumeric
