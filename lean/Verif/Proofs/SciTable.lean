import Verif.Model.Power
/-!
# The digit counts of `count_zeros`
-/
namespace PgNumeric
open Var

/-- The digit counts `(n, z)` of a base-10000 digit: `n + z` digits, the last `z` of them zeros. -/
structure CountOK (d : ℕ) (n z : Int) : Prop where
  z_nonneg : 0 ≤ z
  n_pos : 1 ≤ n
  total : n + z ≤ 4
  ge : 10 ^ (n + z - 1).toNat ≤ d
  lt : d < 10 ^ (n + z).toNat
  dvd : d % 10 ^ z.toNat = 0
  last : d / 10 ^ z.toNat % 10 ≠ 0

theorem countZeros_table : ∀ a b : Fin 100, 0 < 100 * a.val + b.val →
    let c := countZeros 4 ((100 * a.val + b.val : ℕ) : Int) 0 0
    0 ≤ c.2 ∧ 1 ≤ c.1 ∧ c.1 + c.2 ≤ 4 ∧ 10 ^ (c.1 + c.2 - 1).toNat ≤ 100 * a.val + b.val ∧
    100 * a.val + b.val < 10 ^ (c.1 + c.2).toNat ∧ (100 * a.val + b.val) % 10 ^ c.2.toNat = 0 ∧
    (100 * a.val + b.val) / 10 ^ c.2.toNat % 10 ≠ 0 := by
  decide +kernel

theorem countZeros_spec {d : ℕ} (h1 : 1 ≤ d) (h2 : d < 10000) :
    ∃ n z, countZeros 4 (d:Int) 0 0 = (n, z) ∧ CountOK d n z := by
  have h := countZeros_table ⟨d / 100, by omega⟩ ⟨d % 100, by omega⟩
  simp only [Nat.div_add_mod] at h
  obtain ⟨a1, a2, a3, a4, a5, a6, a7⟩ := h (by omega)
  exact ⟨_, _, rfl, a1, a2, a3, a4, a5, a6, a7⟩

end PgNumeric
