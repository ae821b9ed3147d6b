import Verif.Proofs.Factorial
import Verif.Props.Arith
/-!
# Factorial (C31)
-/
namespace PgNumeric.Props
open PgNumeric Spec

/-- C31: `factorial(n)` is exactly `n!` with scale 0 for `0 ≤ n ≤ 32177`. -/
theorem C31_factorial_exact [Build] {n : ℕ} (h : n ≤ 32177) :
    ∃ r, Num.factorial n = .ok (some r) ∧ Holds r (n.factorial : ℕ) 0 := by
  rcases Nat.lt_or_ge n 2 with h1 | h1
  · have h0 : ((n.factorial : ℕ) : ℚ) = 1 := by interval_cases n <;> simp
    have hc : Canonical Var.one :=
      ⟨by simp [Var.one], by intro d hd; simp [Var.one] at hd; subst hd; norm_num, by simp [Stripped, Var.one], by norm_num [Var.one],
        by norm_num [Var.one], by norm_num [Var.one], ⟨1, by simp [value, mag, Var.one]⟩⟩
    refine ⟨Bin.encode Var.one, ?_, Var.one, hc, rfl, by rw [h0]; simp [value, mag, Var.one], rfl⟩
    have hf := (Num.finish_spec (u := Var.one) (s := 0) (x := 1)
      ⟨hc.digits, hc.not_nan, hc.stripped, rfl, by simp [value, mag, Var.one]⟩ le_rfl (by norm_num) ⟨1, by simp⟩).1
      (lt_limit (by norm_num))
    obtain ⟨r, er, v, hv, e1, e2, e3⟩ := hf
    have : v = Var.one := hv.unique hc (by rw [e2]; simp [value, mag, Var.one]) (by rw [e3]; rfl)
    subst this
    unfold Num.factorial Var.factorial
    rw [if_pos (by omega)]
    simp only [pure_ok, bind_ok, er, e1]
  · obtain ⟨u, eu, hu⟩ := factorial_spec (n := (n : Int)) (by omega) (by omega)
    have hl : |(((n.factorial : ℕ) : ℤ) : ℚ)| < limit := by
      rw [abs_of_nonneg (by positivity)]
      exact_mod_cast (factorial_lt_limit_iff n).2 h
    have hf := (Num.finish_loose hu.digits hu.not_nan hu.dscale hu.value le_rfl (by norm_num) (HasScale.int _ le_rfl)
      hu.weight hu.weight_ge (by have := hu.small.len; omega)).1 (by simpa using hl)
    obtain ⟨r, er, hr⟩ := hf
    refine ⟨r, ?_, cast hr (by simp) rfl⟩
    unfold Num.factorial
    simp only [eu, bind_ok, er]

/-- C31: `factorial(n)` of a negative `n` is 1. -/
theorem C31_factorial_negative [Build] {n : Int} (h : n ≤ 1) :
    ∃ r, Num.factorial n = .ok (some r) ∧ Holds r 1 0 := by
  obtain ⟨r, er, hr⟩ := C31_factorial_exact (n := 0) (by norm_num)
  refine ⟨r, ?_, cast hr (by simp) rfl⟩
  unfold Num.factorial Var.factorial at er ⊢
  rw [if_pos (by norm_num)] at er
  rw [if_pos h]
  exact er

/-- C31: `factorial` returns `None` exactly for `n > 32177`. -/
theorem C31_factorial_none_iff [Build] (n : Int) : Num.factorial n = .ok none ↔ 32177 < n := by
  constructor
  · intro h
    by_contra hc
    rcases le_or_gt n 1 with h1 | h1
    · obtain ⟨r, er, -⟩ := C31_factorial_negative h1
      rw [er] at h; cases h
    · obtain ⟨r, er, -⟩ := C31_factorial_exact (n := n.toNat) (by omega)
      rw [Int.toNat_of_nonneg (by omega), h] at er; cases er
  · intro h
    unfold Num.factorial Var.factorial
    rw [if_neg (by omega), if_pos h]
    rfl

/-- C31: that is exactly when the factorial does not fit. -/
theorem C31_bound_is_sharp (n : ℕ) : 32177 < n ↔ limit ≤ ((n.factorial : ℕ) : ℚ) := by
  rw [← not_le, ← factorial_lt_limit_iff, not_lt]

example [Build] : ∃ r, Num.factorial 20 = .ok (some r) ∧ Holds r 2432902008176640000 0 := by
  obtain ⟨r, er, hr⟩ := C31_factorial_exact (n := 20) (by norm_num)
  exact ⟨r, er, cast hr (by norm_num [Nat.factorial]) rfl⟩

example [Build] : ∃ r, Num.factorial 32177 = .ok (some r) ∧ Holds r (Nat.factorial 32177 : ℕ) 0 :=
  C31_factorial_exact (n := 32177) le_rfl

end PgNumeric.Props
