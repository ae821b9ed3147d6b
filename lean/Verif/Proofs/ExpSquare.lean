import Verif.Proofs.ExpSeries
/-!
# The exponential: the squarings
-/
namespace PgNumeric
open Spec Var

/-- A positive working variable lies between two powers of 10000 given by its weight. -/
theorem Wide.weight_bounds {v : Var} {l : Int} (h : Wide v l) (hp : 0 < value v) :
    (10000:ℚ) ^ v.weight ≤ value v ∧ value v < 10000 ^ (v.weight + 1) := by
  have hne : v.digits ≠ [] := fun hc => hp.ne' (h.zero_iff.1 hc)
  have e := abs_value v h.digits
  rw [abs_of_pos hp] at e
  rw [e]
  refine ⟨?_, mag_lt h.digits _⟩
  obtain ⟨d, ds, hd⟩ := List.exists_cons_of_ne_nil hne
  have h1 := h.digits
  have h2 := h.stripped.1
  rw [hd] at h1 h2 ⊢
  exact mag_ge_of_head h1 (by intro h0; subst h0; exact h2 rfl) _

theorem log_10000 : (9208 / 1000 : ℝ) ≤ Real.log 10000 := by
  rw [show (10000:ℝ) = 10 ^ 4 by norm_num, Real.log_pow]
  have := log_ten_bounds.1
  push_cast
  linarith

/-- The weight of a number whose logarithm is at most 6002. -/
theorem Wide.weight_of_log {v : Var} {l : Int} (h : Wide v l) (hp : 0 < value v) (hl : |Real.log (value v : ℝ)| ≤ 6002) :
    -653 ≤ v.weight ∧ v.weight ≤ 652 ∧ value v < 10000 ^ (653:ℤ) := by
  obtain ⟨h1, h2⟩ := h.weight_bounds hp
  have hR : (0:ℝ) < value v := by exact_mod_cast hp
  have h1R : (10000:ℝ) ^ v.weight ≤ value v := by have := castR h1; push_cast at this; exact this
  have h2R : (value v : ℝ) ≤ 10000 ^ (v.weight + 1) := by have := castR h2.le; push_cast at this; exact this
  have g1 := Real.log_le_log (by positivity) h1R
  have g2 := Real.log_le_log hR h2R
  rw [Real.log_zpow] at g1 g2
  have hL := log_10000
  rw [abs_le] at hl
  have w1 : v.weight ≤ 652 := by
    by_contra hc
    have : (653:ℤ) ≤ v.weight := by omega
    have : (653:ℝ) ≤ v.weight := by exact_mod_cast this
    nlinarith [hl.2]
  have w2 : -653 ≤ v.weight := by
    by_contra hc
    have : v.weight + 1 ≤ -653 := by omega
    have : ((v.weight + 1 : ℤ) : ℝ) ≤ -653 := by exact_mod_cast this
    nlinarith [hl.1]
  exact ⟨w2, w1, lt_of_lt_of_le h2 (zpow_le_zpow_right₀ (by norm_num) (by omega))⟩

/-- Each squaring doubles the logarithm up to a relative error of one unit of the working precision. -/
theorem expSquare_step [Build] {S m : Int} (hS0 : 8 ≤ S) (hS1 : S ≤ 4101) {r : Var} (hr : Wide r m) (hp : 0 < value r)
    (hl : |Real.log (value r : ℝ)| ≤ 6002) :
    ∃ u l', mulCommon r r (max (S - r.weight * 2 * DEC_DIGITS) NUMERIC_MIN_DISPLAY_SCALE) = .ok u ∧ Work u l' ∧ 0 < value u ∧
      |Real.log (value u : ℝ) - 2 * Real.log (value r : ℝ)| ≤ 101 / 100 * 10 ^ (-S) := by
  obtain ⟨w1, w2, hb⟩ := hr.weight_of_log hp hl
  obtain ⟨h1, -⟩ := hr.weight_bounds hp
  obtain ⟨-, -, -, hlen⟩ := hr.bounds (k := 653) (by norm_num) (by rw [abs_of_pos hp]; exact hb)
  have hml := hr.l_le
  simp only [DEC_DIGITS, NUMERIC_MIN_DISPLAY_SCALE]
  set L := max (S - r.weight * 2 * 4) 0 with hL
  have hrsm : Small r := hr.sm (lt_of_lt_of_le (by rw [abs_of_pos hp]; exact hb) (B_zpow_le_iff.2 (by norm_num)))
  obtain ⟨u, eu, hu, hue⟩ := hr.mul hr (l := L) (by omega) (by omega) hrsm hrsm (n := 4760) (by omega)
  have hR : (0:ℝ) < value r := by exact_mod_cast hp
  have h1R : (10000:ℝ) ^ r.weight ≤ value r := by have := castR h1; push_cast at this; exact this
  have hrel : (10:ℝ) ^ (-L) ≤ 10 ^ (-S) * (value r * value r) := by
    have e : (10:ℝ) ^ (-L) ≤ 10 ^ (-S) * (10000 ^ r.weight * 10000 ^ r.weight) := by
      have e1 : (10000:ℝ) ^ r.weight = 10 ^ (4 * r.weight) := by rw [zpow_mul]; norm_num
      rw [e1, ← zpow_add₀ (by norm_num), ← zpow_add₀ (by norm_num)]
      exact zpow_le_zpow_right₀ (by norm_num) (by omega)
    refine e.trans (mul_le_mul_of_nonneg_left ?_ (by positivity))
    exact mul_le_mul h1R h1R (by positivity) hR.le
  have hS : (10:ℝ) ^ (-S) ≤ 1 / 10 ^ 8 := unit_small hS0
  have hSp : (0:ℝ) < 10 ^ (-S) := by positivity
  have hq : (0:ℝ) < value r * value r := by positivity
  have hLp : (0:ℝ) < 10 ^ (-L) := by positivity
  have hue' : |(value u : ℝ) - value r * value r| ≤ 10 ^ (-S) * (value r * value r) := by
    push_cast at hue
    refine hue.trans ((mul_le_of_le_one_left hLp.le (by norm_num)).trans hrel)
  have hlo : 99 / 100 * (value r * value r : ℝ) ≤ value u ∧ 1 / 101 * 100 * (value r * value r : ℝ) ≤ value u := by
    have := (abs_le.1 hue').1
    generalize (10:ℝ) ^ (-S) = U at *
    generalize (value r * value r : ℝ) = Q at *
    constructor <;> nlinarith
  have hup : 0 < value u := by
    have : (0:ℝ) < value u := by linarith [hlo.1]
    exact_mod_cast this
  refine ⟨u, L, eu, hu, hup, ?_⟩
  have e2 : 2 * Real.log (value r : ℝ) = Real.log (value r * value r) := by
    rw [Real.log_mul hR.ne' hR.ne']; ring
  rw [e2]
  refine (log_lip (m := 1 / 101 * 100 * (value r * value r)) (by positivity) hlo.2 (by linarith)).trans ?_
  rw [div_le_iff₀ (by positivity)]
  calc _ ≤ _ := hue'
    _ = _ := by ring

theorem expSquare_spec [Build] {S : Int} (hS0 : 8 ≤ S) (hS1 : S ≤ 4101) (n : ℕ) :
    ∀ {r : Var} {m : Int} {L δ : ℝ}, Wide r m → 0 < value r → |Real.log (value r : ℝ) - L| ≤ δ → 2 ^ n * |L| ≤ 6001 →
      2 ^ n * (δ + 101 / 100 * 10 ^ (-S)) ≤ 1 →
      ∃ R m', expSquare S n r = .ok R ∧ Wide R m' ∧ 0 < value R ∧
        |Real.log (value R : ℝ) - 2 ^ n * L| ≤ 2 ^ n * (δ + 101 / 100 * 10 ^ (-S)) := by
  have hSp : (0:ℝ) < 10 ^ (-S) := by positivity
  induction n with
  | zero =>
    intro r m L δ hr hp h1 _ _
    refine ⟨r, m, rfl, hr, hp, ?_⟩
    rw [pow_zero, one_mul, one_mul]
    linarith
  | succ n ih =>
    intro r m L δ hr hp h1 h2 h3
    have hp1 : (1:ℝ) ≤ 2 ^ n := one_le_pow₀ (by norm_num)
    have hδ : 0 ≤ δ := (abs_nonneg _).trans h1
    have hp2 : (2:ℝ) ^ (n + 1) = 2 * 2 ^ n := by rw [pow_succ]; ring
    rw [hp2] at h2 h3 ⊢
    have hL0 := abs_nonneg L
    have hl : |Real.log (value r : ℝ)| ≤ 6002 := by
      have := abs_sub_abs_le_abs_sub (Real.log (value r : ℝ)) L
      generalize (10:ℝ) ^ (-S) = U at *
      nlinarith
    obtain ⟨u, l', eu, hu, hup, hue⟩ := expSquare_step hS0 hS1 hr hp hl
    obtain ⟨R, m', eR, hR, hRp, hRe⟩ := ih (L := 2 * L) (δ := 2 * δ + 101 / 100 * 10 ^ (-S)) hu.toWide hup
      (by
        have e : Real.log (value u : ℝ) - 2 * L = (Real.log (value u) - 2 * Real.log (value r)) + 2 * (Real.log (value r) - L) := by ring
        rw [e]
        refine (abs_add_le _ _).trans ?_
        rw [abs_mul, abs_of_pos (by norm_num : (0:ℝ) < 2)]
        linarith)
      (by rw [abs_mul, abs_of_pos (by norm_num : (0:ℝ) < 2)]; linarith)
      (by linarith)
    refine ⟨R, m', ?_, hR, hRp, ?_⟩
    · obtain ⟨w1, w2, -⟩ := hr.weight_of_log hp hl
      rw [expSquare, fits_ok (by fits_tac), bind_ok]; simp only [eu, bind_ok]; exact eR
    · have e : 2 ^ n * (2 * L) = 2 * 2 ^ n * L := by ring
      rw [e] at hRe
      linarith

end PgNumeric
