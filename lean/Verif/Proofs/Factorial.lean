import Mathlib.Data.Nat.Factorial.Basic
import Verif.Model.Factorial
import Verif.Proofs.Convert
/-!
# Factorial
-/
namespace PgNumeric
open Spec Var

/-- Multiplication at a scale covering the exact product is exact, for operands that need not be stripped. -/
theorem mul_exact_gen [Build] {a b : Var} {r : Int} (sma : Small a) (smb : Small b) (ha : Digits a.digits) (hb : Digits b.digits)
    (na : a.sign ≠ .nan) (nb : b.sign ≠ .nan) (hr0 : 0 ≤ r) (hr1 : r ≤ 16383)
    (hlen : a.ndigits + b.ndigits ≤ a.weight + b.weight + 4 + (r + 3) / 4)
    (hsc : HasScale (value a * value b) r) :
    ∃ u, mulCommon a b r = .ok u ∧ AddOK u r (value a * value b) := by
  obtain ⟨u, eu, hu⟩ := mulCommon_spec a b sma smb r (by omega) ha hb na nb hr0 (.inl hr1)
  refine ⟨u, eu, hu.digits, hu.not_nan, hu.stripped, hu.dscale, ?_⟩
  obtain ⟨x, hx, hex, -⟩ := hu.round
  rw [hx, hex hlen, rmag_eq_self_iff hsc]

/-- An integer-valued variable as `factorial` keeps it. -/
structure FactOK (u : Var) (n : ℤ) : Prop where
  digits : Digits u.digits
  not_nan : u.sign ≠ .nan
  dscale : u.dscale = 0
  value : value u = n
  weight : u.weight ≤ 32767 ∨ ∃ d ds, u.digits = d :: ds ∧ d ≠ 0
  weight_ge : -32767 ≤ u.weight
  len : u.ndigits ≤ u.weight + 1
  small : Small u

theorem FactOK.ofInt {x : Int} (hx : IntTy.i64.InRange x) :
    ∃ u, Convert.fromInt .i64 x = .ok u ∧ FactOK u x := by
  obtain ⟨u, e, h1, h2, h3, h4, h5, h6⟩ := Convert.fromInt_spec (Convert.types_ok (ty := .i64) (by simp [Convert.types])) hx
  exact ⟨u, e, h1, h2, h3, h4, .inl (by omega), by omega, Convert.fromInt_len e,
    ⟨by omega, by omega, by have := Convert.fromInt_len e; simp only [ndigits] at this; omega⟩⟩

theorem FactOK.mul [Build] {a b : Var} {m n : ℤ} (ha : FactOK a m) (hb : FactOK b n)
    (hl : |((m * n : ℤ) : ℚ)| < huge) :
    ∃ u, mulCommon a b 0 = .ok u ∧ FactOK u (m * n) := by
  have h1 := ha.len
  have h2 := hb.len
  have hsc : HasScale (Spec.value a * Spec.value b) 0 := by
    rw [ha.value, hb.value]; exact ⟨m * n, by push_cast; simp⟩
  obtain ⟨u, eu, hu⟩ := mul_exact_gen ha.small hb.small ha.digits hb.digits ha.not_nan hb.not_nan le_rfl (by norm_num)
    (by omega) hsc
  rw [ha.value, hb.value] at hu
  have hu' : AddOK u 0 ((m * n : ℤ) : ℚ) := by push_cast; exact hu
  have hi := hu'.intOK hl
  refine ⟨u, eu, hi.digits, hi.not_nan, hi.dscale, hi.value, hi.weight, hi.weight_ge, ?_,
    hu'.small (HasScale.int _ le_rfl) (by norm_num) hl⟩
  by_cases hne : u.digits = []
  · have := (hu'.stripped.2.2 hne).1
    simp [ndigits, hne, this]
  · have := stripped_len hu'.digits hu'.stripped hne (s := 0) (by rw [hu'.value]; exact HasScale.int _ le_rfl)
    omega

theorem factorialLoop_spec [Build] (k : Nat) (hk : k ≤ 40000) {r : Var} {m : ℤ} (hr : FactOK r m)
    (hl : |((m * ((k + 1).factorial : ℕ) : ℤ) : ℚ)| < huge) :
    ∃ u, factorialLoop k r = .ok u ∧ FactOK u (m * ((k + 1).factorial : ℕ)) := by
  induction k generalizing r m with
  | zero => exact ⟨r, rfl, by simpa using hr⟩
  | succ k ih =>
    obtain ⟨f, ef, hf⟩ := FactOK.ofInt (x := (k : Int) + 2) ⟨by simp only [IntTy.i64]; omega, by simp only [IntTy.i64]; omega⟩
    have hfe : m * (((k + 1 + 1).factorial : ℕ) : ℤ) = m * ((k : Int) + 2) * (((k + 1).factorial : ℕ) : ℤ) := by
      rw [Nat.factorial_succ (k + 1)]; push_cast; ring
    rw [hfe] at hl
    obtain ⟨p, ep, hp⟩ := hr.mul hf (by
      refine lt_of_le_of_lt ?_ hl
      rw [← Int.cast_abs, ← Int.cast_abs, Int.cast_le, abs_mul (m * _)]
      refine le_mul_of_one_le_right (abs_nonneg _) ?_
      rw [Nat.abs_cast]
      exact_mod_cast Nat.factorial_pos (k + 1))
    obtain ⟨u, eu, hu⟩ := ih (by omega) hp hl
    refine ⟨u, ?_, ?_⟩
    · unfold factorialLoop
      simp only [ef, bind_ok, ep, eu]
    · rw [hfe]; exact hu

/-! ## The bound -/

/-- Product of `n` consecutive numbers from `a` on, by halving. -/
def rangeProd : Nat → Nat → Nat → Nat
  | 0, a, n => if n = 0 then 1 else a
  | f + 1, a, n => rangeProd f a (n / 2) * rangeProd f (a + n / 2) (n - n / 2)

theorem rangeProd_eq (f a n : Nat) (h : n ≤ 2 ^ f) : rangeProd f a n = a.ascFactorial n := by
  induction f generalizing a n with
  | zero =>
    unfold rangeProd
    interval_cases n <;> simp [Nat.ascFactorial]
  | succ f ih =>
    unfold rangeProd
    have h2 : 2 ^ (f + 1) = 2 * 2 ^ f := by ring
    rw [ih _ _ (by omega), ih _ _ (by omega), Nat.ascFactorial_mul_ascFactorial]
    congr 1; omega

theorem factorial_eq_rangeProd (n f : Nat) (h : n ≤ 2 ^ f) : n.factorial = rangeProd f 1 n := by
  rw [rangeProd_eq f 1 n h, Nat.one_ascFactorial]

theorem rangeProd_32177 : rangeProd 15 1 32177 < 10 ^ 131072 := by decide +kernel
theorem rangeProd_32178 : 10 ^ 131072 ≤ rangeProd 15 1 32178 := by decide +kernel

/-- `32177!` is the largest factorial below `10^131072`. -/
theorem factorial_lt_limit_iff (n : ℕ) : ((n.factorial : ℕ) : ℚ) < limit ↔ n ≤ 32177 := by
  have e : limit = ((10 ^ 131072 : ℕ) : ℚ) := by unfold limit; exact (Nat.cast_pow 10 131072).symm
  rw [e, Nat.cast_lt]
  constructor
  · intro h
    by_contra hc
    have h1 : 32178 ≤ n := by omega
    have h2 := Nat.factorial_le h1
    rw [factorial_eq_rangeProd 32178 15 (by norm_num)] at h2
    exact absurd (lt_of_lt_of_le h (le_trans rangeProd_32178 h2)) (lt_irrefl _)
  · intro h
    have h2 := Nat.factorial_le h
    rw [factorial_eq_rangeProd 32177 15 (by norm_num)] at h2
    exact lt_of_le_of_lt h2 rangeProd_32177

theorem factorial_spec [Build] {n : Int} (h1 : 2 ≤ n) (h2 : n ≤ 32177) :
    ∃ u, Var.factorial n = .ok (some u) ∧ FactOK u (n.toNat.factorial : ℕ) := by
  obtain ⟨r, er, hr⟩ := FactOK.ofInt (x := n) ⟨by simp only [IntTy.i64]; omega, by simp only [IntTy.i64]; omega⟩
  have hfe : n * ((((n - 2).toNat + 1).factorial : ℕ) : ℤ) = ((n.toNat.factorial : ℕ) : ℤ) := by
    obtain ⟨k, hk⟩ : ∃ k : ℕ, n = k + 2 := ⟨(n - 2).toNat, by omega⟩
    subst hk
    have e1 : ((k : Int) + 2 - 2).toNat = k := by omega
    have e2 : ((k : Int) + 2).toNat = k + 1 + 1 := by omega
    rw [e1, e2, Nat.factorial_succ (k + 1)]; push_cast; ring
  obtain ⟨u, eu, hu⟩ := factorialLoop_spec (n - 2).toNat (by omega) hr (by
    rw [hfe, Int.cast_natCast, Nat.abs_cast]
    exact lt_huge ((factorial_lt_limit_iff _).2 (by omega)))
  refine ⟨u, ?_, ?_⟩
  · unfold Var.factorial
    rw [if_neg (by omega), if_neg (by omega)]
    simp only [er, bind_ok, eu, pure_ok]
  · rw [← hfe]; exact hu

end PgNumeric
