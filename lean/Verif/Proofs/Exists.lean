import Verif.Proofs.Api2
/-!
# Every representable number has a representation
-/
namespace PgNumeric
open Spec Var

theorem exists_digits (n : ℕ) : ∃ ds, Digits ds ∧ dval ds = n := by
  induction n using Nat.strong_induction_on with
  | _ n ih =>
    by_cases h : n = 0
    · exact ⟨[], Digits.nil, by simp [h]⟩
    · obtain ⟨ds, hd, hv⟩ := ih (n / 10000) (by omega)
      refine ⟨ds ++ [((n % 10000 : ℕ) : Int)], ?_, ?_⟩
      · rw [Digits.append, Digits.cons]
        exact ⟨hd, by omega, Digits.nil⟩
      · rw [dval_append, hv]
        simp [dval]
        omega

/-- Every rational with at most `s ≤ 16383` decimal places below `10^131072` is represented. -/
theorem exists_canonical {x : ℚ} {s : Int} (hs : HasScale x s) (h0 : 0 ≤ s) (h1 : s ≤ 16383) (hl : |x| < limit) :
    ∃ v, Canonical v ∧ value v = x ∧ v.dscale = s := by
  obtain ⟨n, hn⟩ := (hs.mono (show s ≤ 4 * s by omega)).abs
  rw [← B_eq_T] at hn
  have hn0 : 0 ≤ n := by
    have : (0:ℚ) ≤ n := by rw [← hn]; exact mul_nonneg (abs_nonneg _) (B_zpow_pos _).le
    exact_mod_cast this
  obtain ⟨ds, hd, hv⟩ := exists_digits n.toNat
  have hm : mag ds ((ds.length : Int) - 1 - s) = |x| := by
    rw [mag_eq_dval, hv, Int.toNat_of_nonneg hn0, ← hn, mul_assoc, ← zpow_add₀ B_ne]
    have : s + ((ds.length : Int) - 1 - s + 1 - ds.length) = 0 := by ring
    rw [this]; simp
  refine ⟨strip ⟨(ds.length : Int) - 1 - s, s, if x < 0 then .neg else .pos, ds⟩, ?_, ?_, ?_⟩
  · have hval : value ⟨(ds.length : Int) - 1 - s, s, if x < 0 then .neg else .pos, ds⟩ = x := by
      unfold value
      split <;> rename_i hh <;> simp only [hm]
      · have : x < 0 := by by_contra hc; simp [hc] at hh
        rw [abs_of_neg this]; ring
      · have : ¬ x < 0 := by intro hc; simp [hc] at hh
        rw [abs_of_nonneg (not_lt.1 this)]
    have hok : AddOK (strip ⟨(ds.length : Int) - 1 - s, s, if x < 0 then .neg else .pos, ds⟩) s x :=
      ⟨strip_digits hd, strip_sign (by simp only; split <;> simp), strip_stripped _, by simp, by rw [strip_value, hval]⟩
    exact hok.canonical h0 h1 hs hl
  · rw [strip_value]
    unfold value
    split <;> rename_i hh <;> simp only [hm]
    · have : x < 0 := by by_contra hc; simp [hc] at hh
      rw [abs_of_neg this]; ring
    · have : ¬ x < 0 := by intro hc; simp [hc] at hh
      rw [abs_of_nonneg (not_lt.1 this)]
  · simp

theorem exists_holds [Build] {x : ℚ} {s : Int} (hs : HasScale x s) (h0 : 0 ≤ s) (h1 : s ≤ 16383) (hl : |x| < limit) :
    ∃ b, Holds b x s := by
  obtain ⟨v, hc, hv, hd⟩ := exists_canonical hs h0 h1 hl
  exact ⟨_, v, hc, rfl, hv, hd⟩

theorem lt_limit {x : ℚ} (h : |x| < 10 ^ 40) : |x| < limit := by
  refine lt_trans h ?_
  unfold limit
  exact pow_lt_pow_right₀ (by norm_num) (by norm_num)

end PgNumeric
