import Verif.Proofs.PowDec
import Verif.Proofs.ExpCommon
/-!
# The working precision of integer powers
-/
namespace PgNumeric
open Spec Var

/-- `c ≤ 10^(m/n)` from `c^n ≤ 10^m`. -/
theorem le_ten_rpow {c : ℝ} (hc : 0 ≤ c) {m n : ℕ} (hn : n ≠ 0) (h : c ^ n ≤ 10 ^ m) : c ≤ (10:ℝ) ^ ((m:ℝ) / n) := by
  have h1 : ((10:ℝ) ^ ((m:ℝ) / n)) ^ n = 10 ^ m := by
    rw [← Real.rpow_natCast, ← Real.rpow_mul (by norm_num), div_mul_cancel₀ _ (by exact_mod_cast hn), Real.rpow_natCast]
  rw [← pow_le_pow_iff_left₀ hc (by positivity) hn, h1]
  exact h

/-- The decimal logarithm of the leading part of a number. -/
theorem lead_rpow {d : ℕ} (hd : 1 ≤ d) (w : ℤ) (e : ℤ) :
    (10:ℝ) ^ ((e:ℝ) * (Real.logb 10 d + 4 * w)) = ((d:ℝ) * 10000 ^ w) ^ e := by
  have hd' : (0:ℝ) < d := by exact_mod_cast hd
  rw [mul_comm, Real.rpow_mul (by norm_num), Real.rpow_intCast, Real.rpow_add (by norm_num),
    Real.rpow_logb (by norm_num) (by norm_num) hd']
  congr 2
  rw [show (4 * (w:ℝ)) = (((4 * w : ℤ)) : ℝ) by push_cast; ring, Real.rpow_intCast, zpow_mul]
  norm_num

/-- `10^(ln k) ≥ k`. -/
theorem ten_rpow_log {k : ℕ} (hk : 1 ≤ k) : (k:ℝ) ≤ (10:ℝ) ^ Real.log k := by
  have hk' : (1:ℝ) ≤ k := by exact_mod_cast hk
  calc (k:ℝ) = Real.exp 1 ^ Real.log k := by rw [← Real.exp_mul, one_mul, Real.exp_log (by linarith)]
    _ ≤ (10:ℝ) ^ Real.log k := by
      refine Real.rpow_le_rpow (Real.exp_pos _).le ?_ (Real.log_nonneg hk')
      have := Real.exp_one_lt_d9
      linarith

/-- What the number of significant digits buys. -/
theorem sig_est {sig rs e : ℤ} {k : ℕ} (hk : 1 ≤ k) {lam : ℝ}
    (h : (rs:ℝ) + e * lam + Real.log k + 6 ≤ sig) :
    (k:ℝ) * 10 ^ (-sig) ≤ 1 / 10 ^ 6 * 10 ^ (-rs) * (10:ℝ) ^ (-(e * lam)) := by
  have h1 : (10:ℝ) ^ (-sig) ≤ 10 ^ (-(rs:ℝ) + -(e * lam) + -Real.log k + (-6:ℝ)) := by
    rw [← Real.rpow_intCast]
    refine Real.rpow_le_rpow_of_exponent_le (by norm_num) ?_
    push_cast
    linarith
  rw [Real.rpow_add (by norm_num), Real.rpow_add (by norm_num), Real.rpow_add (by norm_num)] at h1
  have h2 : (10:ℝ) ^ (-(rs:ℝ)) = 10 ^ (-rs) := by
    rw [← Real.rpow_intCast]; push_cast; rfl
  have h3 : (10:ℝ) ^ (-6:ℝ) = 1 / 10 ^ 6 := by
    rw [show (-6:ℝ) = ((-6:ℤ):ℝ) by norm_num, Real.rpow_intCast]; norm_num
  have h4 : (k:ℝ) * (10:ℝ) ^ (-Real.log k) ≤ 1 := by
    rw [Real.rpow_neg (by norm_num), ← div_eq_mul_inv, div_le_one (by positivity)]
    exact ten_rpow_log hk
  rw [h2, h3] at h1
  have hk0 : (0:ℝ) ≤ k := by positivity
  have hR : (0:ℝ) ≤ 10 ^ (-rs) := by positivity
  have hL : (0:ℝ) ≤ (10:ℝ) ^ (-(e * lam)) := by positivity
  calc (k:ℝ) * 10 ^ (-sig) ≤ k * (10 ^ (-rs) * (10:ℝ) ^ (-(e * lam)) * (10:ℝ) ^ (-Real.log k) * (1 / 10 ^ 6)) :=
        mul_le_mul_of_nonneg_left h1 hk0
    _ = (k * (10:ℝ) ^ (-Real.log k)) * (1 / 10 ^ 6 * 10 ^ (-rs) * (10:ℝ) ^ (-(e * lam))) := by ring
    _ ≤ 1 * (1 / 10 ^ 6 * 10 ^ (-rs) * (10:ℝ) ^ (-(e * lam))) := mul_le_mul_of_nonneg_right h4 (by positivity)
    _ = _ := one_mul _

/-- The value of `powSig`. -/
theorem powSig_val [Build] {lm : Libm} (hl : LibmOK lm) {f : ℚ} (hf : |f| ≤ 400000) {rs : Int} (hr0 : 0 ≤ rs)
    (hr1 : rs ≤ 1000) {m : ℕ} (h1 : 1 ≤ m) (h2 : m ≤ 2 ^ 31) (hlow : -(rs:ℚ) - 2 < f) (hhigh : f ≤ 393204) :
    ∃ sig, powSig lm f rs m = .ok sig ∧ 8 ≤ sig ∧ sig ≤ 394300 ∧ (rs:ℝ) + f + Real.log m + (6 + 9 / 10) ≤ sig ∧
      Real.log m + 6 ≤ sig := by
  have b2 : |F64.toI32 (lm.ln m)| ≤ 32 ∧ (Real.log m : ℝ) - 1 / 10 ^ 10 - 1 ≤ F64.toI32 (lm.ln m) ∧ 0 ≤ F64.toI32 (lm.ln m) := by
    have h := hl.ln m h1 h2
    obtain ⟨h3, h4⟩ := ln_small h1 h2
    have h5 : |(lm.ln m : ℝ)| ≤ 32 := by
      rw [abs_le] at h ⊢
      constructor <;> norm_num at * <;> linarith [h.1, h.2]
    have h6 : |lm.ln m| ≤ 32 := by exact_mod_cast h5
    have h7 := (toI32_near (x := lm.ln m) (h6.trans (by norm_num))).1
    have h7r : (lm.ln m : ℝ) - 1 < F64.toI32 (lm.ln m) := by exact_mod_cast h7
    refine ⟨toI32_bounds (by norm_num) (by norm_num) (by exact_mod_cast h6), ?_, ?_⟩
    · rw [abs_le] at h; linarith [h.1]
    · rcases lt_or_ge (lm.ln m) 0 with hn | hn
      · have hs : -1 < lm.ln m := by
          have : (-1:ℝ) < lm.ln m := by
            rw [abs_le] at h; have := h.1; norm_num at this ⊢; linarith
          exact_mod_cast this
        rw [F64.toI32_neg hn (by linarith)]
        have : -1 < ⌈lm.ln m⌉ := by rw [Int.lt_ceil]; push_cast; exact hs
        omega
      · rw [F64.toI32_nonneg hn (by rw [abs_le] at h6; linarith [h6.2])]
        exact Int.floor_nonneg.2 hn
  obtain ⟨b2, b3, b4⟩ := b2
  have b1 := toI32_near (x := f) (hf.trans (by norm_num))
  have c1 : -rs - 1 ≤ F64.toI32 f := by
    have hrq : (0:ℚ) ≤ rs := by exact_mod_cast hr0
    rcases lt_or_ge f 0 with hn | hn
    · rw [abs_le] at hf
      rw [F64.toI32_neg hn (by linarith [hf.1])]
      have : -rs - 2 < ⌈f⌉ := by rw [Int.lt_ceil]; push_cast; exact hlow
      omega
    · rw [abs_le] at hf
      rw [F64.toI32_nonneg hn (by linarith [hf.2])]
      have := Int.floor_nonneg.2 hn
      omega
  have c2 : F64.toI32 f ≤ 393204 := by
    have := b1.2.1
    rcases lt_or_ge f 0 with hn | hn
    · rw [abs_le] at hf
      rw [F64.toI32_neg hn (by linarith [hf.1])]
      rw [Int.ceil_le]; push_cast; linarith
    · rw [abs_le] at hf
      rw [F64.toI32_nonneg hn (by linarith [hf.2])]
      have : (⌊f⌋:ℚ) ≤ 393204 := (Int.floor_le f).trans hhigh
      exact_mod_cast this
  have b1r : (f : ℝ) - 1 < F64.toI32 f := by exact_mod_cast b1.1
  rw [abs_le] at b2
  unfold powSig
  rw [if_neg (by omega)]
  rw [show ((m : ℤ) : ℚ) = (m : ℚ) by norm_num]
  rw [fits_ok (by fits_tac), bind_ok, i32_ok (by omega) (by omega)]
  simp only [bind_ok]
  rw [i32_ok (by omega) (by omega)]
  refine ⟨_, rfl, by omega, by omega, ?_, ?_⟩
  · push_cast
    norm_num at b3 ⊢
    linarith
  · have : (-(rs:ℝ) - 1) ≤ F64.toI32 f := by exact_mod_cast c1
    push_cast
    norm_num at b3 ⊢
    linarith

/-- The relative error of the loop. -/
theorem sig_rel {sig : ℤ} {k : ℕ} (hk : 1 ≤ k) (h : Real.log k + 6 ≤ sig) :
    (1 + 11 * (10:ℚ) ^ (-sig)) ^ k ≤ 1 + 2 * k * (11 * 10 ^ (-sig)) ∧ 2 * k * (11 * (10:ℚ) ^ (-sig)) ≤ 22 / 10 ^ 6 := by
  have h1 := sig_est (sig := sig) (rs := 0) (e := 0) (lam := 0) hk (by push_cast; linarith)
  have h2 : (k:ℚ) * 10 ^ (-sig) ≤ 1 / 10 ^ 6 := by
    have h3 : (((k:ℚ) * 10 ^ (-sig) : ℚ) : ℝ) ≤ ((1 / 10 ^ 6 : ℚ) : ℝ) := by
      push_cast
      norm_num at h1 ⊢
      exact h1
    exact_mod_cast h3
  have h4 : 2 * k * (11 * (10:ℚ) ^ (-sig)) ≤ 22 / 10 ^ 6 := by
    generalize (10:ℚ) ^ (-sig) = T at *
    norm_num at h2 ⊢
    linarith
  have := T_zpow_pos (-sig)
  exact ⟨pow_one_add_le (by positivity) k (h4.trans (by norm_num)), h4⟩

theorem sig_estQ {sig rs e : ℤ} {k : ℕ} (hk : 1 ≤ k) {d : ℕ} (hd : 1 ≤ d) {w : ℤ}
    (h : (rs:ℝ) + e * (Real.logb 10 d + 4 * w) + Real.log k + 6 ≤ sig) :
    (k:ℚ) * 10 ^ (-sig) ≤ 1 / 10 ^ 6 * 10 ^ (-rs) * ((d:ℚ) * 10000 ^ w) ^ (-e) := by
  have h1 := sig_est hk h
  rw [show -((e:ℝ) * (Real.logb 10 d + 4 * w)) = ((-e : ℤ) : ℝ) * (Real.logb 10 d + 4 * w) by push_cast; ring, lead_rpow hd] at h1
  have h2 : (((k:ℚ) * 10 ^ (-sig) : ℚ) : ℝ) ≤ ((1 / 10 ^ 6 * 10 ^ (-rs) * ((d:ℚ) * 10000 ^ w) ^ (-e) : ℚ) : ℝ) := by
    push_cast
    exact h1
  exact_mod_cast h2

theorem lead_geQ {t e : ℤ} {d : ℕ} (hd : 1 ≤ d) {w : ℤ} (h : (t:ℝ) ≤ e * (Real.logb 10 d + 4 * w)) :
    (10:ℚ) ^ t ≤ ((d:ℚ) * 10000 ^ w) ^ e := by
  have h1 : (10:ℝ) ^ (t:ℝ) ≤ (10:ℝ) ^ ((e:ℝ) * (Real.logb 10 d + 4 * w)) := Real.rpow_le_rpow_of_exponent_le (by norm_num) h
  rw [lead_rpow hd, Real.rpow_intCast] at h1
  have h2 : (((10:ℚ) ^ t : ℚ) : ℝ) ≤ ((((d:ℚ) * 10000 ^ w) ^ e : ℚ) : ℝ) := by
    push_cast
    exact h1
  exact_mod_cast h2

theorem lead_leQ {s e : ℤ} {d : ℕ} (hd : 1 ≤ d) {w : ℤ} {c : ℕ} {m n : ℕ} (hc : 0 < c) (hn : n ≠ 0) (hcn : c ^ n ≤ 10 ^ m)
    (h : (e:ℝ) * (Real.logb 10 d + 4 * w) ≤ -s - (m:ℝ) / n) :
    ((d:ℚ) * 10000 ^ w) ^ e ≤ 1 / c * 10 ^ (-s) := by
  have h1 : (10:ℝ) ^ ((e:ℝ) * (Real.logb 10 d + 4 * w)) ≤ (10:ℝ) ^ (-(s:ℝ) - (m:ℝ) / n) := Real.rpow_le_rpow_of_exponent_le (by norm_num) h
  rw [lead_rpow hd, Real.rpow_sub (by norm_num)] at h1
  have hcr : (0:ℝ) < c := by exact_mod_cast hc
  have h3 := le_ten_rpow (c := c) (m := m) (n := n) hcr.le hn (by exact_mod_cast hcn)
  have h4 : (10:ℝ) ^ (-(s:ℝ)) = 10 ^ (-s) := by rw [← Real.rpow_intCast]; push_cast; rfl
  rw [h4] at h1
  have h5 : ((d:ℝ) * 10000 ^ w) ^ e ≤ 1 / c * 10 ^ (-s) := by
    refine h1.trans ?_
    rw [div_mul_eq_mul_div, one_mul]
    exact div_le_div_of_nonneg_left (by positivity) hcr h3
  have h2 : ((((d:ℚ) * 10000 ^ w) ^ e : ℚ) : ℝ) ≤ ((1 / c * 10 ^ (-s) : ℚ) : ℝ) := by
    push_cast
    exact h5
  exact_mod_cast h2

end PgNumeric
