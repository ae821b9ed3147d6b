import Verif.Proofs.LnWeight
/-!
# Termination of the Newton loop of the square root

Distances are measured in units of the working scale: `σ` is the root, `n` an iterate.
-/
set_option linter.unusedSectionVars false

namespace PgNumeric
open Spec Var

/-- One round of the loop between two iterates of the working scale. -/
def GridStep (σ : ℝ) (n n' : ℤ) : Prop := ∃ k : ℤ, |(k:ℝ) - σ ^ 2 / n| ≤ 1 / 2 + 1 / 10 ^ 10 ∧ n' = (n + k + 1) / 2

/-- The mean of a number and its quotient lies above the root. -/
theorem mean_ge {σ n : ℝ} (hn : 0 < n) : σ ≤ (n + σ ^ 2 / n) / 2 := by
  have : (n + σ ^ 2 / n) / 2 - σ = (n - σ) ^ 2 / (2 * n) := by field_simp; ring
  have : 0 ≤ (n - σ) ^ 2 / (2 * n) := by positivity
  linarith

/-- How far above. -/
theorem mean_le {σ n B : ℝ} (hσ : 10 ^ 8 ≤ σ) (hn : σ - 1 ≤ n) (hB : n ≤ σ + B) (hB0 : 0 ≤ B) :
    (n + σ ^ 2 / n) / 2 ≤ σ + B / 2 + 1 / 100 ∧ (n + σ ^ 2 / n) / 2 ≤ σ + B ^ 2 / (2 * σ) + 1 / 100 := by
  have hσ0 : 0 < σ := by norm_num at hσ; linarith
  have hn0 : 0 < n := by norm_num at hσ; linarith
  have e : (n + σ ^ 2 / n) / 2 = σ + (n - σ) ^ 2 / (2 * n) := by field_simp; ring
  rw [e]
  rcases le_or_gt σ n with h | h
  · have h1 : (n - σ) ^ 2 / (2 * n) ≤ B / 2 := by
      rw [div_le_iff₀ (by positivity)]
      nlinarith
    have h2 : (n - σ) ^ 2 / (2 * n) ≤ B ^ 2 / (2 * σ) := by
      apply div_le_div₀ (by positivity) _ (by positivity) (by linarith)
      apply pow_le_pow_left₀ (by linarith)
      linarith
    constructor <;> linarith
  · have h1 : (n - σ) ^ 2 / (2 * n) ≤ 1 / 100 := by
      rw [div_le_iff₀ (by positivity)]
      norm_num at hσ
      nlinarith
    have h2 : 0 ≤ B ^ 2 / (2 * σ) := by positivity
    constructor <;> linarith

theorem GridStep.near {σ : ℝ} {n n' : ℤ} (h : GridStep σ n n') : |(n':ℝ) - (n + σ ^ 2 / n) / 2| ≤ 76 / 100 := by
  obtain ⟨k, hk, rfl⟩ := h
  have h1 : 2 * ((n + k + 1) / 2) = n + k ∨ 2 * ((n + k + 1) / 2) = n + k + 1 := by omega
  have h2 : |2 * (((n + k + 1) / 2 : ℤ) : ℝ) - (n + k)| ≤ 1 := by
    rcases h1 with h1 | h1
    · have : (2:ℝ) * (((n + k + 1) / 2 : ℤ) : ℝ) = n + k := by exact_mod_cast h1
      rw [this]; simp
    · have : (2:ℝ) * (((n + k + 1) / 2 : ℤ) : ℝ) = n + k + 1 := by exact_mod_cast h1
      rw [this]; simp
  generalize (((n + k + 1) / 2 : ℤ) : ℝ) = m at *
  rw [abs_le] at *
  norm_num at hk
  constructor <;> linarith [hk.1, hk.2, h2.1, h2.2]

/-- Once next to the root, the iterates settle unless the root is close to a quarter between two grid points. -/
theorem GridStep.settle {σ : ℝ} (hσ : 10 ^ 8 ≤ σ) (hq : 1 / 10 ^ 8 < |Int.fract σ - 1 / 4|) :
    ∃ R : ℤ, (R = ⌊σ⌋ ∨ R = ⌊σ⌋ + 1) ∧ ∀ n n' : ℤ, n = ⌊σ⌋ ∨ n = ⌊σ⌋ + 1 → GridStep σ n n' → n' = R := by
  set N : ℤ := ⌊σ⌋ with hN
  set θ : ℝ := Int.fract σ with hθ
  have hs : σ = N + θ := by rw [hN, hθ]; exact (Int.floor_add_fract σ).symm
  have hθ0 : 0 ≤ θ := Int.fract_nonneg σ
  have hθ1 : θ < 1 := Int.fract_lt_one σ
  have hNp : (99999999:ℝ) ≤ N := by norm_num at hσ; linarith
  have key : ∀ n : ℤ, n = N ∨ n = N + 1 → ∃ δ : ℝ, 0 ≤ δ ∧ δ ≤ 11 / 10 ^ 9 ∧ σ ^ 2 / n = 2 * N + 2 * θ - n + δ := by
    intro n hn
    have hnp : (99999999:ℝ) ≤ (n:ℝ) := by
      rcases hn with rfl | rfl
      · exact hNp
      · push_cast; linarith
    refine ⟨(σ - n) ^ 2 / n, by positivity, ?_, ?_⟩
    · rw [div_le_iff₀ (by linarith)]
      have : (σ - n) ^ 2 ≤ 1 := by
        rw [sq_le_one_iff_abs_le_one, abs_le]
        rcases hn with rfl | rfl
        · constructor <;> linarith
        · push_cast; constructor <;> linarith
      linarith
    · rw [show 2 * (N:ℝ) + 2 * θ = 2 * σ by rw [hs]; ring]
      field_simp
      ring
  have hN1 : (99999999:ℤ) ≤ N := by exact_mod_cast hNp
  rcases lt_abs.1 hq with h | h
  · refine ⟨N + 1, .inr rfl, fun n n' hn hst => ?_⟩
    obtain ⟨δ, d0, d1, e⟩ := key n hn
    obtain ⟨k, hk, rfl⟩ := hst
    rw [e, abs_le] at hk
    norm_num at hk h d1
    have h1 : ((2 * N - n : ℤ) : ℝ) < k := by push_cast; linarith [hk.1]
    have h2 : (k : ℝ) < ((2 * N - n + 3 : ℤ) : ℝ) := by push_cast; linarith [hk.2]
    have h1' : 2 * N - n < k := by exact_mod_cast h1
    have h2' : k < 2 * N - n + 3 := by exact_mod_cast h2
    omega
  · refine ⟨N, .inl rfl, fun n n' hn hst => ?_⟩
    obtain ⟨δ, d0, d1, e⟩ := key n hn
    obtain ⟨k, hk, rfl⟩ := hst
    rw [e, abs_le] at hk
    norm_num at hk h d1
    have h1 : ((2 * N - n - 1 : ℤ) : ℝ) < k := by push_cast; linarith [hk.1]
    have h2 : (k : ℝ) < ((2 * N - n + 1 : ℤ) : ℝ) := by push_cast; linarith [hk.2]
    have h1' : 2 * N - n - 1 < k := by exact_mod_cast h1
    have h2' : k < 2 * N - n + 1 := by exact_mod_cast h2
    omega

/-- The loop returns (or, in a debug build, stops on an overflow of the division). -/
def Stops [Build] (a : Var) (L : Int) (fuel : Nat) (r : Var) : Prop :=
  (∃ u, sqrtLoop a L fuel r = .ok u) ∨ (Build.debug = true ∧ sqrtLoop a L fuel r = .error .overflow)

/-- What is known of an iterate on the grid. -/
structure GridInv (A : ℚ) (L : Int) (r : Var) (n : ℤ) : Prop where
  inv : SqrtInv A 100000 r
  val : value r = n * 10 ^ (-L)
  pos : 0 < n

theorem GridInv.ne {A : ℚ} {L : Int} {r : Var} {n : ℤ} (h : GridInv A L r n) : r.digits ≠ [] := by
  intro h0
  have h1 : value r = 0 := by unfold value; rw [h0]; cases r.sign <;> simp
  have h2 := h.val
  have h3 : (0:ℚ) < n := by exact_mod_cast h.pos
  have h4 := T_zpow_pos (-L)
  have : 0 < (n:ℚ) * 10 ^ (-L) := by positivity
  linarith

section
variable [Build] {a : Var} (ha : PosVar a) {L : Int} (hL0 : 0 ≤ L) (hL1 : L ≤ 16383)
  (hKL : value a * 10 ^ L < (10000:ℚ) ^ (100000:ℤ) / 10000) (hσ : 10 ^ 8 ≤ √(value a : ℝ) * 10 ^ L)
include ha hL0 hL1 hKL hσ

theorem sigma_sq {n : ℤ} (hn : 0 < n) :
    (√(value a : ℝ) * 10 ^ L) ^ 2 / n = (((value a / (n * 10 ^ (-L)) : ℚ)) : ℝ) * 10 ^ L := by
  have h0 : (0:ℝ) ≤ (value a : ℝ) := by exact_mod_cast ha.pos.le
  rw [mul_pow, Real.sq_sqrt h0]
  push_cast
  rw [zpow_neg]
  have : (n:ℝ) ≠ 0 := by exact_mod_cast hn.ne'
  have : (10:ℝ) ^ L ≠ 0 := by positivity
  field_simp

/-- Any round lands on the grid, at most 0.76 units from the exact mean. -/
theorem step_grid {r : Var} (hr : SqrtInv (value a) 100000 r) (hne : r.digits ≠ []) :
    (∃ r' n', sqrtStep a r L = .ok r' ∧ GridInv (value a) L r' n' ∧
      |(n':ℝ) - ((value r : ℝ) + value a / value r) / 2 * 10 ^ L| ≤ 76 / 100 ∧
      (cmpCommon r' r = 0 ↔ value r' = value r) ∧
      ∀ n : ℤ, value r = n * 10 ^ (-L) → GridStep (√(value a : ℝ) * 10 ^ L) n n') ∨
    (Build.debug = true ∧ sqrtStep a r L = .error .overflow) := by
  have hU := T_zpow_pos (-L)
  have hTT : (10:ℚ) ^ (-L) * 10 ^ L = 1 := by rw [← zpow_add₀ (by norm_num)]; simp
  have hTT' : (10:ℚ) ^ L * 10 ^ (-L) = 1 := by rw [mul_comm]; exact hTT
  obtain ⟨hrp, -⟩ := hr.pos hne
  rcases sqrtStep_spec ha (K := 100000) (by norm_num) (by norm_num) hL0 hL1 hKL hr hne with
    ⟨r', q, x, e, hq, hx, hv, hr', hst, -, hqs, hex⟩ | h
  swap
  · exact .inr h
  left
  obtain ⟨n', hn'⟩ : HasScale (value r') L := by rw [hv]; exact roundHalfAway_hasScale _ _
  obtain ⟨k, hk⟩ := hqs
  have hval : value r' = n' * 10 ^ (-L) := by rw [← hn', mul_assoc, hTT', mul_one]
  have hqv : q = k * 10 ^ (-L) := by rw [← hk, mul_assoc, hTT', mul_one]
  -- distance to the mean, in units
  have hdist : |(n':ℚ) - (value r + value a / value r) / 2 * 10 ^ L| ≤ 76 / 100 := by
    have h1 := roundHalfAway_err x L
    rw [← hv] at h1
    have h5 : |value r' - (value r + value a / value r) / 2| ≤ 76 / 100 * 10 ^ (-L) := by
      generalize (10:ℚ) ^ (-L) = U at *
      rw [abs_le] at *
      constructor <;> linarith [h1.1, h1.2, hx.1, hx.2, hq.1, hq.2]
    have h6 : (n':ℚ) - (value r + value a / value r) / 2 * 10 ^ L = (value r' - (value r + value a / value r) / 2) * 10 ^ L := by
      rw [← hn']; ring
    rw [h6, abs_mul, abs_of_pos (T_zpow_pos L)]
    calc _ ≤ 76 / 100 * (10:ℚ) ^ (-L) * 10 ^ L := mul_le_mul_of_nonneg_right h5 (T_zpow_pos L).le
      _ = _ := by rw [mul_assoc, hTT, mul_one]
  have hdR : |(n':ℝ) - ((value r : ℝ) + value a / value r) / 2 * 10 ^ L| ≤ 76 / 100 := by
    have := castR hdist
    push_cast at this
    exact this
  have hvR : (0:ℝ) < (value r : ℝ) := by exact_mod_cast hrp
  have haR : (0:ℝ) ≤ (value a : ℝ) := by exact_mod_cast ha.pos.le
  have hmean : √(value a : ℝ) * 10 ^ L ≤ ((value r : ℝ) + value a / value r) / 2 * 10 ^ L := by
    have := mean_ge (σ := √(value a : ℝ)) hvR
    rw [Real.sq_sqrt haR] at this
    exact mul_le_mul_of_nonneg_right this (by positivity)
  have hn1 : 0 < n' := by
    have : (0:ℝ) < n' := by
      have := (abs_le.1 hdR).1
      norm_num at hσ
      linarith
    exact_mod_cast this
  refine ⟨r', n', e, ⟨hr', hval, hn1⟩, hdR, ?_, ?_⟩
  · have hcmp : cmpCommon r' r = cmpSign (value r') (value r) :=
      cmpCommon_spec r' r hr'.digits hr.digits hr'.not_nan hr.not_nan
        (fun h => stripped_mag_pos hr'.digits hst h) (fun h => mag_pos_of_head hr.digits h hr.head _)
    rw [hcmp, cmpSign_eq_zero]
  · intro n hn
    have hn0 : 0 < n := by
      have : (0:ℚ) < n := by
        rw [hn] at hrp
        exact pos_of_mul_pos_left hrp hU.le
      exact_mod_cast this
    refine ⟨k, ?_, ?_⟩
    · rw [sigma_sq ha hL0 hL1 hKL hσ hn0, ← hn]
      have h1 : |(k:ℚ) - value a / value r * 10 ^ L| ≤ 1 / 2 + 1 / 10 ^ 10 := by
        rw [← hk, ← sub_mul, abs_mul, abs_of_pos (T_zpow_pos L)]
        calc _ ≤ (1 / 2 + 1 / 10 ^ 10) * (10:ℚ) ^ (-L) * 10 ^ L := mul_le_mul_of_nonneg_right hq (T_zpow_pos L).le
          _ = _ := by rw [mul_assoc, hTT, mul_one]
      have := castR h1
      push_cast at this ⊢
      exact this
    · have hxe := hex ⟨n, by rw [hn, mul_assoc, hTT, mul_one]⟩
      have hk0 : 0 ≤ k := by
        have h1 : -(1:ℚ) < k := by
          have h2 : 0 < value a / value r := div_pos ha.pos hrp
          have h3 := (abs_le.1 hq).1
          have h4 : -(10:ℚ) ^ (-L) < q := by
            generalize (10:ℚ) ^ (-L) = U at *
            linarith
          rw [hqv] at h4
          by_contra hc
          push Not at hc
          have := mul_le_mul_of_nonneg_right hc hU.le
          linarith
        have : (-1:ℤ) < k := by exact_mod_cast h1
        omega
      have hx0 : 0 ≤ x := by
        rw [hxe, hn, hqv]
        have h1 : (0:ℚ) ≤ k := by exact_mod_cast hk0
        have h2 : (0:ℚ) ≤ n := by exact_mod_cast hn0.le
        positivity
      have h1 : (n':ℚ) = ((⌊x * 10 ^ L + 1 / 2⌋ : ℤ) : ℚ) := by
        rw [← hn', hv, roundHalfAway_of_nonneg hx0, rmag, div_mul_cancel₀ _ (T_zpow_pos L).ne']
      have h2 : n' = ⌊x * 10 ^ L + 1 / 2⌋ := by exact_mod_cast h1
      have h3 : x * 10 ^ L + 1 / 2 = ((n + k + 1 : ℤ) : ℚ) / 2 := by
        rw [hxe, hn, hqv]
        push_cast
        linear_combination ((n:ℚ) + k) / 2 * hTT
      rw [h2, h3]
      exact Rat.floor_intCast_div_natCast (n + k + 1) 2

theorem stops_step {fuel : Nat} {r : Var} (hr : SqrtInv (value a) 100000 r) (hne : r.digits ≠ [])
    (h : ∀ r' n', GridInv (value a) L r' n' → |(n':ℝ) - ((value r : ℝ) + value a / value r) / 2 * 10 ^ L| ≤ 76 / 100 →
      value r' ≠ value r → (∀ n : ℤ, value r = n * 10 ^ (-L) → GridStep (√(value a : ℝ) * 10 ^ L) n n') → Stops a L fuel r') :
    Stops a L (fuel + 1) r := by
  rcases step_grid ha hL0 hL1 hKL hσ hr hne with ⟨r', n', e, h1, h2, h3, h4⟩ | ⟨hd, e⟩
  · have hun : sqrtLoop a L (fuel + 1) r = if cmpCommon r' r = 0 then .ok r' else sqrtLoop a L fuel r' := by
      rw [sqrtLoop, e]; rfl
    unfold Stops
    rw [hun]
    by_cases hc : cmpCommon r' r = 0
    · rw [if_pos hc]; exact .inl ⟨r', rfl⟩
    · rw [if_neg hc]
      exact h r' n' h1 h2 (fun h => hc (h3.2 h)) h4
  · right
    refine ⟨hd, ?_⟩
    unfold sqrtLoop
    rw [e]; rfl

/-- The same from an iterate on the grid. -/
theorem stops_grid {fuel : Nat} {r : Var} {n : ℤ} (hr : GridInv (value a) L r n)
    (h : ∀ r' n', GridInv (value a) L r' n' → n' ≠ n → GridStep (√(value a : ℝ) * 10 ^ L) n n' → Stops a L fuel r') :
    Stops a L (fuel + 1) r :=
  stops_step ha hL0 hL1 hKL hσ hr.inv hr.ne fun r' n' h1 _ h3 h4 =>
    h r' n' h1 (fun hnn => h3 (by rw [h1.val, hr.val, hnn])) (h4 n hr.val)

variable (hq : 1 / 10 ^ 8 < |Int.fract (√(value a : ℝ) * 10 ^ L) - 1 / 4|)
include hq

theorem stops_final {r : Var} {n : ℤ} (hr : GridInv (value a) L r n)
    (hn : n = ⌊√(value a : ℝ) * 10 ^ L⌋ ∨ n = ⌊√(value a : ℝ) * 10 ^ L⌋ + 1) (fuel : Nat) : Stops a L (fuel + 2) r := by
  obtain ⟨R, hR, hset⟩ := GridStep.settle hσ hq
  refine stops_grid ha hL0 hL1 hKL hσ hr fun r' n' h1 _ h2 => ?_
  have hn' := hset n n' hn h2
  refine stops_grid ha hL0 hL1 hKL hσ h1 fun r'' n'' _ h4 h5 => ?_
  exact absurd ((hset n' n'' (by rw [hn']; exact hR) h5).trans hn'.symm) h4

theorem stops_near {r : Var} {n : ℤ} (hr : GridInv (value a) L r n) {B : ℝ} (hB0 : 0 ≤ B)
    (h1 : √(value a : ℝ) * 10 ^ L - 1 ≤ n) (h2 : n ≤ √(value a : ℝ) * 10 ^ L + B)
    (hB : B ^ 2 ≤ 1 / 5 * (√(value a : ℝ) * 10 ^ L)) (fuel : Nat) : Stops a L (fuel + 3) r := by
  refine stops_grid ha hL0 hL1 hKL hσ hr fun r' n' g1 _ g2 => ?_
  refine stops_final ha hL0 hL1 hKL hσ hq g1 ?_ fuel
  have hn := abs_le.1 g2.near
  have hm := (mean_le hσ h1 h2 hB0).2
  have hpos : (0:ℝ) < n := by exact_mod_cast hr.pos
  have hge := mean_ge (σ := √(value a : ℝ) * 10 ^ L) hpos
  generalize √(value a : ℝ) * 10 ^ L = σ at *
  have hσ0 : 0 < σ := by norm_num at hσ; linarith
  have h3 : B ^ 2 / (2 * σ) ≤ 1 / 10 := by rw [div_le_iff₀ (by positivity)]; linarith
  have h4 := Int.floor_le σ
  have h5 := Int.lt_floor_add_one σ
  have h6 : ((⌊σ⌋ - 1 : ℤ) : ℝ) < n' := by push_cast; linarith
  have h7 : (n' : ℝ) < ((⌊σ⌋ + 2 : ℤ) : ℝ) := by push_cast; linarith
  have h6' : ⌊σ⌋ - 1 < n' := by exact_mod_cast h6
  have h7' : n' < ⌊σ⌋ + 2 := by exact_mod_cast h7
  omega

theorem stops_mid {r : Var} {n : ℤ} (hr : GridInv (value a) L r n) {B : ℝ} (hB0 : 0 ≤ B)
    (h1 : √(value a : ℝ) * 10 ^ L - 1 ≤ n) (h2 : n ≤ √(value a : ℝ) * 10 ^ L + B)
    (hB : B ^ 2 ≤ 4 * (√(value a : ℝ) * 10 ^ L)) (fuel : Nat) : Stops a L (fuel + 4) r := by
  refine stops_grid ha hL0 hL1 hKL hσ hr fun r' n' g1 _ g2 => ?_
  have hn := abs_le.1 g2.near
  have hm := (mean_le hσ h1 h2 hB0).2
  have hpos : (0:ℝ) < n := by exact_mod_cast hr.pos
  have hge := mean_ge (σ := √(value a : ℝ) * 10 ^ L) hpos
  have hσ0 : 0 < √(value a : ℝ) * 10 ^ L := by norm_num at hσ; linarith
  have h3 : B ^ 2 / (2 * (√(value a : ℝ) * 10 ^ L)) ≤ 2 := by rw [div_le_iff₀ (by positivity)]; linarith
  refine stops_near ha hL0 hL1 hKL hσ hq g1 (B := 3) (by norm_num) (by linarith) (by linarith) ?_ fuel
  norm_num at hσ
  linarith

/-- Quadratic convergence. -/
theorem stops_quad (m : Nat) : ∀ (j : Nat) {r : Var} {n : ℤ}, GridInv (value a) L r n →
    √(value a : ℝ) * 10 ^ L ≤ 2 * ((2:ℝ) ^ (2 ^ (j + m))) ^ 2 →
    √(value a : ℝ) * 10 ^ L - 1 ≤ n → n ≤ √(value a : ℝ) * 10 ^ L + √(value a : ℝ) * 10 ^ L / 2 ^ (2 ^ j) →
    ∀ fuel : Nat, Stops a L (fuel + (m + 4)) r := by
  have hσ0 : 0 < √(value a : ℝ) * 10 ^ L := by norm_num at hσ; linarith
  have hbase : ∀ (j : Nat) {r : Var} {n : ℤ}, GridInv (value a) L r n →
      √(value a : ℝ) * 10 ^ L ≤ 2 * ((2:ℝ) ^ (2 ^ j)) ^ 2 →
      √(value a : ℝ) * 10 ^ L - 1 ≤ n → n ≤ √(value a : ℝ) * 10 ^ L + √(value a : ℝ) * 10 ^ L / 2 ^ (2 ^ j) →
      ∀ fuel : Nat, Stops a L (fuel + 4) r := by
    intro j r n hr hm h1 h2 fuel
    refine stops_mid ha hL0 hL1 hKL hσ hq hr (by positivity) h1 h2 ?_ fuel
    generalize √(value a : ℝ) * 10 ^ L = σ at *
    rw [div_pow, div_le_iff₀ (by positivity)]
    nlinarith
  induction m with
  | zero => intro j r n hr hm h1 h2 fuel; exact hbase j hr hm h1 h2 fuel
  | succ m ih =>
    intro j r n hr hm h1 h2 fuel
    by_cases hc : √(value a : ℝ) * 10 ^ L ≤ 2 * ((2:ℝ) ^ (2 ^ j)) ^ 2
    · have := hbase j hr hc h1 h2 (fuel + (m + 1))
      rwa [show fuel + (m + 1 + 4) = fuel + (m + 1) + 4 by omega]
    push Not at hc
    rw [show fuel + (m + 1 + 4) = (fuel + (m + 4)) + 1 by omega]
    refine stops_grid ha hL0 hL1 hKL hσ hr fun r' n' g1 _ g2 => ?_
    have hn := abs_le.1 g2.near
    have hm' := (mean_le hσ h1 h2 (by positivity)).2
    have hpos : (0:ℝ) < n := by exact_mod_cast hr.pos
    have hge := mean_ge (σ := √(value a : ℝ) * 10 ^ L) hpos
    refine ih (j + 1) g1 (by rw [show j + 1 + m = j + (m + 1) by omega]; exact hm) (by linarith) ?_ fuel
    rw [pow_succ 2 j, pow_mul]
    have hP : (0:ℝ) < 2 ^ (2 ^ j) := by positivity
    generalize √(value a : ℝ) * 10 ^ L = σ at *
    generalize (2:ℝ) ^ (2 ^ j) = P at *
    have e1 : (σ / P) ^ 2 / (2 * σ) = σ / P ^ 2 / 2 := by field_simp
    have e2 : 2 < σ / P ^ 2 := by rw [lt_div_iff₀ (by positivity)]; exact hc
    rw [e1] at hm'
    linarith

/-- Linear convergence from far above. -/
theorem stops_halve {m : Nat} (hm : √(value a : ℝ) * 10 ^ L ≤ 2 * ((2:ℝ) ^ (2 ^ m)) ^ 2) (i : Nat) :
    ∀ {r : Var} {n : ℤ}, GridInv (value a) L r n → √(value a : ℝ) * 10 ^ L - 1 ≤ n →
    n ≤ √(value a : ℝ) * 10 ^ L + (2 ^ i * (√(value a : ℝ) * 10 ^ L / 8) + 2) →
    ∀ fuel : Nat, Stops a L (fuel + (i + (m + 4))) r := by
  have hσ0 : 0 < √(value a : ℝ) * 10 ^ L := by norm_num at hσ; linarith
  induction i with
  | zero =>
    intro r n hr h1 h2 fuel
    rw [zero_add]
    refine stops_quad ha hL0 hL1 hKL hσ hq m 0 hr (by rw [zero_add]; exact hm) h1 ?_ fuel
    norm_num at h2 hσ ⊢
    linarith
  | succ i ih =>
    intro r n hr h1 h2 fuel
    rw [show fuel + (i + 1 + (m + 4)) = (fuel + (i + (m + 4))) + 1 by omega]
    refine stops_grid ha hL0 hL1 hKL hσ hr fun r' n' g1 _ g2 => ?_
    have hn := abs_le.1 g2.near
    have hm' := (mean_le hσ h1 h2 (by positivity)).1
    have hpos : (0:ℝ) < n := by exact_mod_cast hr.pos
    have hge := mean_ge (σ := √(value a : ℝ) * 10 ^ L) hpos
    refine ih g1 (by linarith) ?_ fuel
    rw [pow_succ 2 i] at hm'
    linarith

/-- Any start within a factor of a million of the root. -/
theorem stops_start {m : Nat} (hm : √(value a : ℝ) * 10 ^ L ≤ 2 * ((2:ℝ) ^ (2 ^ m)) ^ 2) {r : Var}
    (hr : SqrtInv (value a) 100000 r) (hne : r.digits ≠ []) (h1 : (value r : ℝ) ≤ 10 ^ 6 * √(value a : ℝ))
    (h2 : √(value a : ℝ) ≤ 10 ^ 6 * value r) (fuel : Nat) : Stops a L (fuel + (29 + m)) r := by
  have hvR : (0:ℝ) < (value r : ℝ) := by exact_mod_cast (hr.pos hne).1
  have haR : (0:ℝ) < (value a : ℝ) := by exact_mod_cast ha.pos
  have hs := Real.sqrt_pos.2 haR
  have hss := Real.mul_self_sqrt haR.le
  have hT : (0:ℝ) < 10 ^ L := by positivity
  rw [show fuel + (29 + m) = (fuel + (24 + (m + 4))) + 1 by omega]
  refine stops_step ha hL0 hL1 hKL hσ hr hne fun r' n' g1 g2 _ _ => ?_
  have hmean : √(value a : ℝ) * 10 ^ L ≤ ((value r : ℝ) + value a / value r) / 2 * 10 ^ L := by
    have := mean_ge (σ := √(value a : ℝ)) hvR
    rw [Real.sq_sqrt haR.le] at this
    exact mul_le_mul_of_nonneg_right this hT.le
  have hquot : (value a : ℝ) / value r ≤ 10 ^ 6 * √(value a : ℝ) := by
    rw [div_le_iff₀ hvR]
    nlinarith
  have hup : ((value r : ℝ) + value a / value r) / 2 * 10 ^ L ≤ 10 ^ 6 * (√(value a : ℝ) * 10 ^ L) := by
    rw [← mul_assoc]
    exact mul_le_mul_of_nonneg_right (by linarith) hT.le
  have hg := abs_le.1 g2
  have hσ0 : 0 < √(value a : ℝ) * 10 ^ L := by norm_num at hσ; linarith
  refine stops_halve ha hL0 hL1 hKL hσ hq hm 24 g1 (by linarith) ?_ fuel
  generalize √(value a : ℝ) * 10 ^ L = σ at *
  norm_num at hup ⊢
  linarith

end

/-- The first guess is within a factor of a million of the root. -/
theorem sqrtGuess_ratio {a : Var} (ha : PosVar a) {d : Int} {ds : List Int} (hd : a.digits = d :: ds) :
    (value (sqrtGuess a.weight d) : ℝ) ≤ 10 ^ 6 * √(value a : ℝ) ∧ √(value a : ℝ) ≤ 10 ^ 6 * value (sqrtGuess a.weight d) := by
  have hdd := ha.digits
  rw [hd] at hdd
  have hd0 := (Digits.cons.1 hdd).1
  set g : Int := if d / 2 = 0 then 1 else d / 2 with hg
  have hg1 : 1 ≤ g := by rw [hg]; split <;> omega
  have hg2 : g < 10000 := by rw [hg]; split <;> omega
  have hval : value (sqrtGuess a.weight d) = g * 10000 ^ (a.weight.tdiv 2) := by
    simp [sqrtGuess, value, mag, hg]
  have htw := tdiv2_bounds a.weight
  set k := a.weight.tdiv 2 with hk
  have hlo : (10000:ℝ) ^ (2 * k - 1) ≤ (value a : ℝ) := by
    have h1 : (10000:ℚ) ^ (2 * k - 1) ≤ value a := (B_zpow_le_iff.2 (by omega)).trans ha.ge
    have := castR h1
    push_cast at this
    exact this
  have hhi : (value a : ℝ) ≤ (10000:ℝ) ^ (2 * k + 2) := by
    have h1 : value a ≤ (10000:ℚ) ^ (2 * k + 2) := ha.lt.le.trans (B_zpow_le_iff.2 (by omega))
    have := castR h1
    push_cast at this
    exact this
  have hp : (0:ℝ) < 10000 ^ k := by positivity
  have e1 : (10000:ℝ) ^ (2 * k - 1) = (10000 ^ k / 100) ^ 2 := by
    rw [div_pow, zpow_sub₀ (by norm_num), two_mul, zpow_add₀ (by norm_num)]; norm_num; ring
  have e2 : (10000:ℝ) ^ (2 * k + 2) = (10000 ^ k * 10000) ^ 2 := by
    rw [mul_pow, zpow_add₀ (by norm_num), two_mul, zpow_add₀ (by norm_num)]; norm_num; ring
  rw [e1] at hlo
  rw [e2] at hhi
  have h1 : (10000:ℝ) ^ k / 100 ≤ √(value a : ℝ) := Real.le_sqrt_of_sq_le hlo
  have h2 : √(value a : ℝ) ≤ 10000 ^ k * 10000 := Real.sqrt_le_iff.2 ⟨by positivity, hhi⟩
  have hgR : (1:ℝ) ≤ g := by exact_mod_cast hg1
  have hgR2 : (g:ℝ) < 10000 := by exact_mod_cast hg2
  rw [hval]
  push_cast
  norm_num
  constructor <;> nlinarith

/-- `sqrt_common` terminates unless the root lies within `10^-8` units of a quarter above a multiple of the working unit. -/
theorem sqrtCommon_stops [Build] {a : Var} (ha : PosVar a) {s : Int} (hs0 : 0 ≤ s) (hs1 : s ≤ 16375) {fuel : Nat} (hf : 60 ≤ fuel)
    (hσ : 10 ^ 8 ≤ √(value a : ℝ) * 10 ^ (s + 8)) (hq : 1 / 10 ^ 8 < |Int.fract (√(value a : ℝ) * 10 ^ (s + 8)) - 1 / 4|) :
    (∃ u, sqrtCommon fuel a s = .ok u) ∨ (Build.debug = true ∧ sqrtCommon fuel a s = .error .overflow) := by
  obtain ⟨d, ds, hd⟩ := List.exists_cons_of_ne_nil ha.ne
  obtain ⟨hi, hi2⟩ := sqrtGuess_inv ha hd
  obtain ⟨g1, g2⟩ := sqrtGuess_ratio ha hd
  have hw := ha.weight_le
  have hval : value a < 10000 ^ (33001:ℤ) := lt_of_lt_of_le ha.lt (B_zpow_le_iff.2 (by omega))
  have hKL : value a * 10 ^ (s + 8) < (10000:ℚ) ^ (100000:ℤ) / 10000 := by
    have e : (10000:ℚ) ^ (100000:ℤ) / 10000 = 10000 ^ (99999:ℤ) := by
      rw [show (100000:ℤ) = 99999 + 1 by norm_num, zpow_add₀ B_ne, zpow_one, mul_div_assoc, div_self B_ne, mul_one]
    rw [e]
    calc value a * 10 ^ (s + 8) < 10000 ^ (33001:ℤ) * 10 ^ (s + 8) := mul_lt_mul_of_pos_right hval (T_zpow_pos _)
      _ ≤ 10000 ^ (33001:ℤ) * 10000 ^ (5000 : ℤ) := by
          refine mul_le_mul_of_nonneg_left ?_ (B_zpow_pos _).le
          rw [B_eq_T]; exact T_zpow_le_iff.2 (by omega)
      _ = 10000 ^ (38001:ℤ) := by rw [← zpow_add₀ B_ne]; norm_num
      _ ≤ _ := B_zpow_le_iff.2 (by norm_num)
  have hm : √(value a : ℝ) * 10 ^ (s + 8) ≤ 2 * ((2:ℝ) ^ (2 ^ 18)) ^ 2 := by
    have h1 : √(value a : ℝ) ≤ (10:ℝ) ^ (66002:ℤ) := by
      refine Real.sqrt_le_iff.2 ⟨by positivity, ?_⟩
      have := castR hval.le
      push_cast at this
      refine this.trans (le_of_eq ?_)
      rw [show (10000:ℝ) = 10 ^ (4:ℤ) by norm_num, ← zpow_mul, ← zpow_natCast, ← zpow_mul]
      norm_num
    have h2 : √(value a : ℝ) * 10 ^ (s + 8) ≤ (10:ℝ) ^ (82385:ℤ) := by
      calc _ ≤ (10:ℝ) ^ (66002:ℤ) * 10 ^ (16383:ℤ) :=
            mul_le_mul h1 (zpow_le_zpow_right₀ (by norm_num) (by omega)) (by positivity) (by positivity)
        _ = _ := by rw [← zpow_add₀ (by norm_num)]; norm_num
    have h3 : (10:ℝ) ^ (82385:ℤ) ≤ (2 ^ 4) ^ (82385:ℕ) := by
      rw [show (82385:ℤ) = ((82385:ℕ) : ℤ) by rfl, zpow_natCast]
      exact pow_le_pow_left₀ (by norm_num) (by norm_num) _
    have h4 : ((2:ℝ) ^ 4) ^ (82385:ℕ) ≤ ((2:ℝ) ^ (2 ^ 18)) ^ 2 := by
      rw [← pow_mul, ← pow_mul]
      exact pow_le_pow_right₀ (by norm_num) (by norm_num)
    have h5 : (0:ℝ) ≤ ((2:ℝ) ^ (2 ^ 18)) ^ 2 := by positivity
    have h6 := h2.trans (h3.trans h4)
    generalize ((2:ℝ) ^ (2 ^ 18)) ^ 2 = P at *
    generalize √(value a : ℝ) * 10 ^ (s + 8) = Q at *
    clear h1 h2 h3 h4
    linarith
  have hun : sqrtCommon fuel a s = (do
      let r ← sqrtLoop a (s + 8) fuel (sqrtGuess a.weight d)
      roundCommon r s) := by
    unfold sqrtCommon
    rw [dassert_ok ha.sign, hd, bind_ok, fits_ok (by fits_tac), bind_ok]
  obtain ⟨f, rfl⟩ : ∃ f, fuel = f + (29 + 18) := ⟨fuel - 47, by omega⟩
  rw [hun]
  rcases stops_start ha (by omega) (by omega) hKL hσ hq hm hi hi2 g1 g2 f with ⟨u, eu⟩ | ⟨hdb, eu⟩
  · left
    rcases sqrtLoop_spec ha (K := 100000) (by norm_num) (by norm_num) (L := s + 8) (by omega) (by omega) hKL (f + (29 + 18)) hi hi2 with
      ⟨u', eu', hu⟩ | e | ⟨-, e⟩ | ⟨-, e⟩
    · obtain ⟨w, ew, -⟩ := roundCommon_spec u' s hu.digits hu.not_nan
        ⟨by have := hu.small.lo; omega, by have := hu.small.hi; omega⟩ ⟨by omega, by omega⟩
      exact ⟨w, by rw [eu']; exact ew⟩
    all_goals rw [eu] at e; cases e
  · exact .inr ⟨hdb, by rw [eu]; rfl⟩

end PgNumeric
