import Verif.Proofs.Canon
/-!
# Facts about the rounding functions of the specification
-/
namespace PgNumeric
open Spec

theorem roundHalfAway_err (x : ℚ) (s : Int) : |roundHalfAway x s - x| ≤ 10 ^ (-s) / 2 := by
  have key : ∀ m : ℚ, |((⌊m * 10 ^ s + 1 / 2⌋ : ℤ) : ℚ) / 10 ^ s - m| ≤ 10 ^ (-s) / 2 := by
    intro m
    have hT := T_zpow_pos s
    have h1 := Int.floor_le (m * 10 ^ s + 1 / 2)
    have h2 := Int.lt_floor_add_one (m * 10 ^ s + 1 / 2)
    generalize ((⌊m * 10 ^ s + 1 / 2⌋ : ℤ) : ℚ) = f at *
    have e : f / 10 ^ s - m = (f - m * 10 ^ s) * 10 ^ (-s) := by
      rw [zpow_neg]; field_simp
    rw [e, abs_mul, abs_of_pos (T_zpow_pos (-s)), div_eq_mul_one_div, mul_comm]
    refine mul_le_mul_of_nonneg_left ?_ (T_zpow_pos _).le
    rw [abs_le]; constructor <;> linarith
  unfold roundHalfAway
  split
  · have := key (-x)
    rw [← abs_neg] at this
    convert this using 2
    ring
  · exact key x

theorem truncTo_err (x : ℚ) (s : Int) : |truncTo x s - x| < 10 ^ (-s) ∧ |truncTo x s| ≤ |x| := by
  have key : ∀ m : ℚ, 0 ≤ m → |((⌊m * 10 ^ s⌋ : ℤ) : ℚ) / 10 ^ s - m| < 10 ^ (-s) ∧
      |((⌊m * 10 ^ s⌋ : ℤ) : ℚ) / 10 ^ s| ≤ |m| := by
    intro m hm
    have hT := T_zpow_pos s
    have h1 := Int.floor_le (m * 10 ^ s)
    have h2 := Int.lt_floor_add_one (m * 10 ^ s)
    have h3 : (0:ℚ) ≤ ((⌊m * 10 ^ s⌋ : ℤ) : ℚ) := by
      exact_mod_cast Int.floor_nonneg.2 (by positivity)
    generalize ((⌊m * 10 ^ s⌋ : ℤ) : ℚ) = f at *
    constructor
    · have e : f / 10 ^ s - m = (f - m * 10 ^ s) * 10 ^ (-s) := by
        rw [zpow_neg]; field_simp
      rw [e, abs_mul, abs_of_pos (T_zpow_pos (-s))]
      have : |f - m * 10 ^ s| < 1 := by rw [abs_lt]; constructor <;> linarith
      calc _ < 1 * (10:ℚ) ^ (-s) := mul_lt_mul_of_pos_right this (T_zpow_pos _)
        _ = _ := one_mul _
    · rw [abs_of_nonneg hm, abs_of_nonneg (by positivity), div_le_iff₀ hT]; exact h1
  unfold truncTo
  split
  · have := key (-x) (by linarith)
    refine ⟨?_, ?_⟩
    · have h := this.1
      rw [← abs_neg] at h
      convert h using 2
      ring
    · rw [neg_div, abs_neg, ← abs_neg x]; exact this.2
  · exact key x (by linarith)

/-- A perturbation that does not cross a rounding boundary does not change the rounded value. -/
theorem roundHalfAway_stable {x y : ℚ} {s : Int} {δ : ℚ} (hd : |x - y| ≤ δ)
    (h : ∀ n : ℤ, δ < |y - (n + 1 / 2) * 10 ^ (-s)|) : roundHalfAway x s = roundHalfAway y s := by
  have hT := T_zpow_pos s
  have hT' := T_zpow_pos (-s)
  have hTT : (10:ℚ) ^ s * 10 ^ (-s) = 1 := by rw [← zpow_add₀ (by norm_num)]; simp
  -- both lie strictly between the same two half-integers
  set k : ℤ := ⌊y * 10 ^ s + 1 / 2⌋ with hk
  have k1 := Int.floor_le (y * 10 ^ s + 1 / 2)
  have k2 := Int.lt_floor_add_one (y * 10 ^ s + 1 / 2)
  rw [← hk] at k1 k2
  have hlo : (k:ℚ) - 1 / 2 ≤ y * 10 ^ s := by linarith
  have hhi : y * 10 ^ s < k + 1 / 2 := by linarith
  have hy : y * 10 ^ s * 10 ^ (-s) = y := by rw [mul_assoc, hTT, mul_one]
  have l1 : ((k:ℚ) - 1 / 2) * 10 ^ (-s) ≤ y := by
    have := mul_le_mul_of_nonneg_right hlo hT'.le
    rwa [hy] at this
  have l2 : y < ((k:ℚ) + 1 / 2) * 10 ^ (-s) := by
    have := mul_lt_mul_of_pos_right hhi hT'
    rwa [hy] at this
  have g1 := h (k - 1)
  have g2 := h k
  push_cast at g1
  rw [show (k:ℚ) - 1 + 1 / 2 = k - 1 / 2 by ring, abs_of_nonneg (by linarith)] at g1
  rw [abs_of_neg (by linarith)] at g2
  rw [abs_le] at hd
  have m1 : ((k:ℚ) - 1 / 2) < x * 10 ^ s := by
    have : ((k:ℚ) - 1 / 2) * 10 ^ (-s) < x := by linarith
    have := mul_lt_mul_of_pos_right this hT
    rwa [mul_assoc, mul_comm ((10:ℚ) ^ (-s)), hTT, mul_one] at this
  have m2 : x * 10 ^ s < ((k:ℚ) + 1 / 2) := by
    have : x < ((k:ℚ) + 1 / 2) * 10 ^ (-s) := by linarith
    have := mul_lt_mul_of_pos_right this hT
    rwa [mul_assoc, mul_comm ((10:ℚ) ^ (-s)), hTT, mul_one] at this
  have n1 : ((k:ℚ) - 1 / 2) < y * 10 ^ s := by
    have : ((k:ℚ) - 1 / 2) * 10 ^ (-s) < y := by
      have : 0 ≤ δ := by linarith
      linarith
    have := mul_lt_mul_of_pos_right this hT
    rwa [mul_assoc, mul_comm ((10:ℚ) ^ (-s)), hTT, mul_one] at this
  -- any value strictly between rounds to k
  have key : ∀ z : ℚ, (k:ℚ) - 1 / 2 < z * 10 ^ s → z * 10 ^ s < k + 1 / 2 → roundHalfAway z s = k / 10 ^ s := by
    intro z z1 z2
    unfold roundHalfAway
    split
    · have : ⌊-z * 10 ^ s + 1 / 2⌋ = -k := by
        rw [Int.floor_eq_iff]; push_cast
        constructor <;> linarith
      rw [this]; push_cast; ring
    · have : ⌊z * 10 ^ s + 1 / 2⌋ = k := by
        rw [Int.floor_eq_iff]
        constructor <;> linarith
      rw [this]
  rw [key x m1 m2, key y n1 hhi]

end PgNumeric
