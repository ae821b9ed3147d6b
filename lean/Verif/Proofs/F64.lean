import Verif.Model.F64
import Mathlib.Tactic.Linarith
import Mathlib.Tactic.Positivity
import Mathlib.Tactic.FieldSimp
import Mathlib.Tactic.NormNum
import Mathlib.Tactic.Ring
import Mathlib.Algebra.Order.Field.Power
import Mathlib.Algebra.Order.Floor.Ring
/-!
# Accuracy of the double-precision operations
-/
namespace PgNumeric.F64

theorem nat_log2_le {n : ℕ} (h : n ≠ 0) : 2 ^ n.log2 ≤ n := Nat.log2_self_le h
theorem nat_lt_log2 {n : ℕ} : n < 2 ^ (n.log2 + 1) := Nat.lt_log2_self

theorem log2_spec {x : ℚ} (hx : 0 < x) : (2:ℚ) ^ log2 x ≤ x ∧ x < 2 ^ (log2 x + 1) := by
  unfold log2
  split
  · rename_i h
    have h1 : (1:ℤ) ≤ ⌊x⌋ := Int.le_floor.2 (by exact_mod_cast h)
    have hz : ⌊x⌋.toNat ≠ 0 := by omega
    have ht : ((⌊x⌋.toNat : ℕ) : ℤ) = ⌊x⌋ := Int.toNat_of_nonneg (by omega)
    have a := nat_log2_le hz
    have b := nat_lt_log2 (n := ⌊x⌋.toNat)
    generalize ⌊x⌋.toNat = n at *
    constructor
    · rw [zpow_natCast]
      have : ((2 ^ n.log2 : ℕ) : ℤ) ≤ ⌊x⌋ := by rw [← ht]; exact_mod_cast a
      calc (2:ℚ) ^ n.log2 = (((2 ^ n.log2 : ℕ) : ℤ) : ℚ) := by push_cast; rfl
        _ ≤ (⌊x⌋ : ℚ) := by exact_mod_cast this
        _ ≤ x := Int.floor_le x
    · have hc : ((n.log2 : ℤ) + 1) = ((n.log2 + 1 : ℕ) : ℤ) := by push_cast; rfl
      rw [hc, zpow_natCast]
      have : ⌊x⌋ < ((2 ^ (n.log2 + 1) : ℕ) : ℤ) := by rw [← ht]; exact_mod_cast b
      have := Int.floor_lt.1 this
      push_cast at this; exact this
  · rename_i h
    have hlt : x < 1 := not_le.1 h
    have hinv : 1 < x⁻¹ := (one_lt_inv₀ hx).2 hlt
    have h2 : (1:ℤ) < ⌈x⁻¹⌉ := Int.lt_ceil.2 (by exact_mod_cast hinv)
    have hz : ⌈x⁻¹⌉.toNat - 1 ≠ 0 := by omega
    have ht : ((⌈x⁻¹⌉.toNat - 1 : ℕ) : ℤ) = ⌈x⁻¹⌉ - 1 := by omega
    have a := nat_log2_le hz
    have b := nat_lt_log2 (n := ⌈x⁻¹⌉.toNat - 1)
    generalize ⌈x⁻¹⌉.toNat - 1 = n at *
    have hc : (((n.log2 : ℤ)) + 1) = ((n.log2 + 1 : ℕ) : ℤ) := by push_cast; rfl
    constructor
    · rw [zpow_neg, hc, zpow_natCast]
      have : ⌈x⁻¹⌉ ≤ ((2 ^ (n.log2 + 1) : ℕ) : ℤ) := by
        have : (n:ℤ) < ((2 ^ (n.log2 + 1) : ℕ) : ℤ) := by exact_mod_cast b
        omega
      have := Int.ceil_le.1 this
      push_cast at this
      exact inv_le_of_inv_le₀ hx this
    · rw [show -((n.log2 : ℤ) + 1) + 1 = -((n.log2 : ℕ) : ℤ) by push_cast; ring, zpow_neg, zpow_natCast]
      have : ((2 ^ n.log2 : ℕ) : ℤ) < ⌈x⁻¹⌉ := by
        have : ((2 ^ n.log2 : ℕ) : ℤ) ≤ (n:ℤ) := by exact_mod_cast a
        omega
      have := Int.lt_ceil.1 this
      push_cast at this
      exact (lt_inv_comm₀ (by positivity) hx).1 this

theorem roundEven_err (x : ℚ) : |(roundEven x : ℚ) - x| ≤ 1 / 2 := by
  unfold roundEven
  have h1 := Int.floor_le x
  have h2 := Int.lt_floor_add_one x
  rw [abs_le]
  simp only
  split
  · constructor <;> linarith
  · split
    · push_cast; constructor <;> linarith
    · split
      · constructor <;> linarith
      · push_cast; constructor <;> linarith

/-- The unit roundoff of double precision. -/
def u : ℚ := 1 / 9007199254740992

theorem rnd_err (x : ℚ) : |rnd x - x| ≤ u * |x| := by
  unfold rnd
  split
  · rename_i h; simp [h]
  · rename_i h
    have hx : 0 < |x| := abs_pos.2 h
    have hl := (log2_spec hx).1
    simp only
    generalize hL : log2 |x| = L at *
    have hp : (0:ℚ) < 2 ^ (L - 52) := zpow_pos (by norm_num) _
    have e : (roundEven (x / 2 ^ (L - 52)) : ℚ) * 2 ^ (L - 52) - x =
        ((roundEven (x / 2 ^ (L - 52)) : ℚ) - x / 2 ^ (L - 52)) * 2 ^ (L - 52) := by field_simp
    rw [e, abs_mul, abs_of_pos hp]
    have h1 := roundEven_err (x / 2 ^ (L - 52))
    have h2 : (2:ℚ) ^ (L - 52) = 2 * u * 2 ^ L := by
      rw [zpow_sub₀ (by norm_num)]; unfold u; norm_num; ring
    have h3 : (0:ℚ) ≤ u := by unfold u; norm_num
    calc _ ≤ 1 / 2 * (2:ℚ) ^ (L - 52) := mul_le_mul_of_nonneg_right h1 hp.le
      _ = u * 2 ^ L := by rw [h2]; ring
      _ ≤ u * |x| := mul_le_mul_of_nonneg_left hl h3

theorem u_small : u ≤ 12 / 10 ^ 17 := by unfold u; norm_num
theorem u_pos : 0 < u := by unfold u; norm_num

theorem toI32_nonneg {x : ℚ} (h : 0 ≤ x) (h1 : x ≤ 2147483647) : toI32 x = ⌊x⌋ := by
  unfold toI32
  rw [if_neg (not_lt.2 h)]
  have a : 0 ≤ ⌊x⌋ := Int.floor_nonneg.2 h
  have b : ⌊x⌋ ≤ 2147483647 := by
    have := Int.floor_le x
    exact_mod_cast (this.trans h1)
  omega

theorem toI32_neg {x : ℚ} (h : x < 0) (h1 : -2147483648 ≤ x) : toI32 x = ⌈x⌉ := by
  unfold toI32
  rw [if_pos h]
  have a : ⌈x⌉ ≤ 0 := Int.ceil_le.2 (by exact_mod_cast h.le)
  have b : -2147483648 ≤ ⌈x⌉ := by
    have := Int.le_ceil x
    exact_mod_cast (h1.trans this)
  omega

end PgNumeric.F64
