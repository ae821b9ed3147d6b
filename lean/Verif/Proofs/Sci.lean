import Mathlib.Analysis.Complex.ExponentialBounds
import Verif.Proofs.Power
import Verif.Proofs.SciTable
import Verif.Proofs.Text
import Verif.SpecSci
/-!
# Scientific notation
-/
namespace PgNumeric
open Spec Var

namespace F64

theorem roundEven_int (n : ℤ) : roundEven (n:ℚ) = n := by
  unfold roundEven
  simp

/-- Integers below `2^53` are exact. -/
theorem rnd_int {n : ℤ} (h : |n| < 2 ^ 53) : rnd (n:ℚ) = n := by
  unfold rnd
  by_cases h0 : (n:ℚ) = 0
  · rw [if_pos h0, h0]
  rw [if_neg h0]
  simp only
  have hx : (0:ℚ) < |(n:ℚ)| := abs_pos.2 h0
  obtain ⟨h1, -⟩ := log2_spec hx
  generalize log2 |(n:ℚ)| = L at *
  have hL : L - 52 ≤ 0 := by
    have h2 : |(n:ℚ)| < 2 ^ (53:ℤ) := by
      have : ((|n| : ℤ) : ℚ) < ((2 ^ 53 : ℤ) : ℚ) := Int.cast_lt.2 h
      rw [Int.cast_abs] at this
      refine lt_of_lt_of_le this (le_of_eq ?_)
      norm_num
    have h3 := lt_of_le_of_lt h1 h2
    have := (zpow_lt_zpow_iff_right₀ (by norm_num : (1:ℚ) < 2)).1 h3
    omega
  obtain ⟨k, hk⟩ := Int.eq_ofNat_of_zero_le (a := -(L - 52)) (by omega)
  have e1 : (n:ℚ) / 2 ^ (L - 52) = ((n * 2 ^ k : ℤ) : ℚ) := by
    rw [div_eq_mul_inv, ← zpow_neg, hk]; push_cast; rw [zpow_natCast]
  rw [e1, roundEven_int]
  have e2 : (2:ℚ) ^ (L - 52) = (2 ^ k)⁻¹ := by
    rw [← zpow_natCast, ← hk, ← zpow_neg, neg_neg]
  rw [e2]; push_cast; field_simp

end F64

/-- The decimal exponent of a digit as the code computes it. -/
theorem toI32_log10 {lm : Libm} (hl : LibmOK lm) {d j : ℕ} (h1 : 10 ^ j ≤ d) (h2 : d < 10 ^ (j + 1)) (hj : j < 4) :
    F64.toI32 (lm.log10 d) = j := by
  by_cases he : d = 10 ^ j
  · rw [he, hl.log10_pow j hj]
    rw [F64.toI32_nonneg (by positivity) (by
      have : (j:ℚ) ≤ 4 := by exact_mod_cast hj.le
      linarith)]
    simp
  have h1' : 10 ^ j + 1 ≤ d := by omega
  have hd4 : d < 10000 := lt_of_lt_of_le h2 (by
    calc 10 ^ (j + 1) ≤ 10 ^ 4 := Nat.pow_le_pow_right (by norm_num) (by omega)
      _ = 10000 := by norm_num)
  have hd1 : 1 ≤ d := le_trans Nat.one_le_two_pow (le_trans (Nat.pow_le_pow_left (by norm_num) j) h1)
  have herr := hl.log10_nat hd1 hd4
  have hlog10 : (0:ℝ) < Real.log 10 := Real.log_pos (by norm_num)
  have hlog3 : Real.log 10 ≤ 3 := by
    rw [Real.log_le_iff_le_exp (by norm_num)]
    have : (2.7:ℝ) ≤ Real.exp 1 := by linarith [Real.exp_one_gt_d9]
    calc (10:ℝ) ≤ 2.7 ^ 3 := by norm_num
      _ ≤ (Real.exp 1) ^ 3 := pow_le_pow_left₀ (by norm_num) this 3
      _ = Real.exp 3 := by rw [← Real.exp_nat_mul]; norm_num
  have hp : (0:ℝ) < 10 ^ j := by positivity
  have hp3 : (10:ℝ) ^ j ≤ 1000 := by
    calc (10:ℝ) ^ j ≤ 10 ^ 3 := pow_le_pow_right₀ (by norm_num) (by omega)
      _ = 1000 := by norm_num
  have hdpos : (0:ℝ) < d := by exact_mod_cast hd1
  -- lower bound
  have hlo : (j:ℝ) + 1 / 10 ^ 9 ≤ Real.logb 10 d := by
    have a : ((10:ℝ) ^ j + 1) ≤ d := by exact_mod_cast h1'
    have b : Real.log (10 ^ j) + 1 / 1001 ≤ Real.log d := by
      have c : Real.log ((d:ℝ) / 10 ^ j) = Real.log d - Real.log (10 ^ j) := Real.log_div hdpos.ne' hp.ne'
      have e : 1 - ((d:ℝ) / 10 ^ j)⁻¹ ≤ Real.log ((d:ℝ) / 10 ^ j) := Real.one_sub_inv_le_log_of_pos (by positivity)
      have f : ((d:ℝ) / 10 ^ j)⁻¹ ≤ 1 - 1 / 1001 := by
        rw [inv_div, div_le_iff₀ hdpos]
        nlinarith
      linarith
    rw [Real.logb, le_div_iff₀ hlog10]
    rw [Real.log_pow] at b
    nlinarith
  have hhi : Real.logb 10 d ≤ (j:ℝ) + 1 - 1 / 10 ^ 9 := by
    have a : (d:ℝ) + 1 ≤ 10 ^ (j + 1) := by exact_mod_cast h2
    have hp' : (0:ℝ) < 10 ^ (j + 1) := by positivity
    have hp4 : (10:ℝ) ^ (j + 1) ≤ 10000 := by rw [pow_succ]; linarith
    have b : Real.log d ≤ Real.log (10 ^ (j + 1)) - 1 / 10000 := by
      have c : Real.log ((d:ℝ) / 10 ^ (j + 1)) = Real.log d - Real.log (10 ^ (j + 1)) := Real.log_div hdpos.ne' hp'.ne'
      have e : Real.log ((d:ℝ) / 10 ^ (j + 1)) ≤ (d:ℝ) / 10 ^ (j + 1) - 1 := Real.log_le_sub_one_of_pos (by positivity)
      have f : (d:ℝ) / 10 ^ (j + 1) ≤ 1 - 1 / 10000 := by
        rw [div_le_iff₀ hp']
        nlinarith
      linarith
    rw [Real.logb, div_le_iff₀ hlog10]
    rw [Real.log_pow] at b
    push_cast at b
    nlinarith
  rw [abs_le] at herr
  have g1 : (j:ℝ) ≤ (lm.log10 d : ℝ) := by linarith [herr.1]
  have g2 : (lm.log10 d : ℝ) < (j:ℝ) + 1 := by linarith [herr.2]
  have g1' : (j:ℚ) ≤ lm.log10 d := by exact_mod_cast g1
  have g2' : lm.log10 d < (j:ℚ) + 1 := by exact_mod_cast g2
  have j4 : (j:ℚ) ≤ 4 := by exact_mod_cast hj.le
  have j0 : (0:ℚ) ≤ j := by positivity
  rw [F64.toI32_nonneg (by linarith) (by linarith), Int.floor_eq_iff]
  push_cast
  exact ⟨g1', g2'⟩

/-! ## The exponent and the number of digits -/

theorem list_nat {d : Int} (h : 0 ≤ d ∧ d < 10000) (h0 : d ≠ 0) : ∃ k : ℕ, d = k ∧ 1 ≤ k ∧ k < 10000 :=
  ⟨d.toNat, by omega, by omega, by omega⟩

/-- Exponent `E`, number of fraction digits `p` and integer significand `m` that the code selects. -/
theorem sci_select [Build] {lm : Libm} (hl : LibmOK lm) {v : Var} (hd : Digits v.digits) (hs : Stripped v)
    (hne : v.digits ≠ []) (hsm : Small v) :
    ∃ m p : ℕ, selectSciScale v = .ok p ∧ |value v| = m * 10 ^ (sciExponent lm v - p) ∧ 10 ^ p ≤ m ∧ m < 10 ^ (p + 1) ∧
      m % 10 ≠ 0 ∧ p ≤ 4 * v.digits.length := by
  obtain ⟨d0, ds, hv⟩ := List.exists_cons_of_ne_nil hne
  have hh : d0 ≠ 0 := by have := hs.1; rw [hv] at this; simpa using this
  have hd' := hd
  rw [hv] at hd'
  obtain ⟨k, rfl, hk1, hk2⟩ := list_nat (Digits.cons.1 hd').1 hh
  -- the last digit
  obtain ⟨r, hr, hrl⟩ : ∃ r : Int, v.digits.getLast hne = r ∧ r ≠ 0 := by
    refine ⟨_, rfl, ?_⟩
    have := hs.2.1
    rw [List.getLast?_eq_getLast_of_ne_nil hne] at this
    simpa using this
  obtain ⟨q, rfl, hq1, hq2⟩ := list_nat (hr ▸ hd _ (List.getLast_mem hne)) hrl
  obtain ⟨n, z, hc, hcok⟩ := countZeros_spec hk1 hk2
  obtain ⟨n', z', hc', hcok'⟩ := countZeros_spec hq1 hq2
  have hz0 := hcok.z_nonneg
  have hz0' := hcok'.z_nonneg
  have hn1 := hcok.n_pos
  have hn1' := hcok'.n_pos
  have ht := hcok.total
  have ht' := hcok'.total
  obtain ⟨Z, hZ⟩ := Int.eq_ofNat_of_zero_le hz0'
  obtain ⟨j, hj⟩ := Int.eq_ofNat_of_zero_le (a := n + z - 1) (by omega)
  have hlen : 0 < v.digits.length := List.length_pos_iff.2 hne
  -- exponent
  have hE : sciExponent lm v = 4 * v.weight + j := by
    unfold sciExponent
    rw [hv]
    simp only [DEC_DIGITS]
    have e1 := hcok.ge
    have e2 := hcok.lt
    rw [show n + z = ((j + 1 : ℕ) : Int) by push_cast; omega] at e2
    rw [hj] at e1
    rw [Int.toNat_natCast] at e1 e2
    have := toI32_log10 hl e1 e2 (by omega)
    rw [show (((k:ℕ):ℤ):ℚ) = (k:ℚ) by push_cast; rfl, this]; ring
  -- the digits as an integer
  have hD0 := dval_nonneg hd
  obtain ⟨D, hD⟩ := Int.eq_ofNat_of_zero_le hD0
  have hlast : dval v.digits % 10000 = q := by
    rw [dval_mod_last hne, hr]; omega
  have hDq : D % 10000 = q := by omega
  have hZ3 : Z ≤ 3 := by omega
  have hdvd : D % 10 ^ Z = 0 := by
    have h1 := hcok'.dvd
    rw [hZ, Int.toNat_natCast] at h1
    have h2 : 10 ^ Z ∣ 10000 := by
      rw [show (10000:ℕ) = 10 ^ 4 by norm_num]; exact pow_dvd_pow 10 (by omega)
    rw [← Nat.mod_mod_of_dvd D h2, hDq, h1]
  have hlast10 : D / 10 ^ Z % 10 ≠ 0 := by
    have h1 := hcok'.last
    rw [hZ, Int.toNat_natCast] at h1
    have h3 : D = 10000 * (D / 10000) + q := by omega
    obtain ⟨c, hc⟩ : ∃ c, (10000:ℕ) = 10 ^ Z * (10 * c) := by
      obtain ⟨c, hc⟩ : (10 ^ (Z + 1)) ∣ 10 ^ 4 := pow_dvd_pow 10 (by omega)
      exact ⟨c, by rw [← mul_assoc, ← pow_succ, ← hc]; norm_num⟩
    have h4 : D / 10 ^ Z = 10 * (c * (D / 10000)) + q / 10 ^ Z := by
      conv_lhs => rw [h3]
      rw [show 10000 * (D / 10000) + q = q + 10 ^ Z * (10 * c * (D / 10000)) by
        rw [← mul_assoc, ← hc]; ring]
      rw [Nat.add_mul_div_left _ _ (by positivity)]; ring
    rw [h4]; omega
  obtain ⟨m, hm⟩ : ∃ m, D = 10 ^ Z * m := Nat.dvd_of_mod_eq_zero hdvd
  have hmdiv : D / 10 ^ Z = m := by rw [hm]; exact Nat.mul_div_cancel_left _ (by positivity)
  rw [hmdiv] at hlast10
  obtain ⟨p, hp⟩ := Int.eq_ofNat_of_zero_le (a := (j:Int) + 4 * (v.digits.length - 1 : ℕ) - Z) (by
    by_cases h1 : v.digits.length = 1
    · -- one digit: the same digit at both ends
      have : ds = [] := by
        rw [hv] at h1; simpa using h1
      subst this
      have hkq : k = q := by
        have : v.digits.getLast hne = (k:Int) := by simp [hv]
        rw [hr] at this; exact_mod_cast this.symm
      subst hkq
      rw [hc] at hc'
      cases hc'
      omega
    · omega)
  have hval : |value v| = m * 10 ^ (sciExponent lm v - p) := by
    rw [abs_value _ hd, mag_eq_dval, hD, hE, hm, B_eq_T]
    push_cast
    rw [← zpow_natCast (10:ℚ) Z, mul_comm ((10:ℚ) ^ ((Z:ℕ):ℤ)) (m:ℚ), mul_assoc, ← zpow_add₀ (by norm_num)]
    congr 2
    omega
  have hge : (k:ℚ) * 10000 ^ v.weight ≤ |value v| := by
    rw [abs_value _ hd, hv, mag_cons]
    have := mag_nonneg (Digits.cons.1 hd').2 (v.weight - 1)
    push_cast; linarith
  have hlt : |value v| < ((k:ℚ) + 1) * 10000 ^ v.weight := by
    rw [abs_value _ hd, hv, mag_cons]
    have := mag_lt (Digits.cons.1 hd').2 (v.weight - 1)
    rw [show v.weight - 1 + 1 = v.weight by ring] at this
    push_cast; linarith
  have hTp := T_zpow_pos (sciExponent lm v - p)
  have hpow : ∀ i : ℕ, ((10 ^ i : ℕ) : ℚ) * 10000 ^ v.weight = 10 ^ ((p:ℤ) + i - j) * 10 ^ (sciExponent lm v - p) := by
    intro i
    rw [← zpow_add₀ (by norm_num), hE, B_eq_T]
    push_cast
    rw [← zpow_natCast, ← zpow_add₀ (by norm_num)]
    congr 1; ring
  refine ⟨m, p, ?_, hval, ?_, ?_, hlast10, by omega⟩
  · -- the scale
    unfold selectSciScale
    have hi : v.digits.findIdx? (· ≠ 0) = some 0 := by
      rw [hv]; simp [List.findIdx?_cons]; omega
    rw [hi]
    have hri : v.digits.length - 1 - v.digits.reverse.findIdx (· ≠ 0) = v.digits.length - 1 := by
      have : v.digits.reverse.findIdx (· ≠ 0) = 0 := by
        have : v.digits.reverse = (q:Int) :: v.digits.dropLast.reverse := by
          conv_lhs => rw [← List.dropLast_append_getLast hne, hr]
          simp
        rw [this, List.findIdx_cons]
        have hq0 : ¬ q = 0 := by omega
        simp [hq0]
      omega
    simp only [hri]
    rw [getM_ok hlen, getM_ok (by omega : v.digits.length - 1 < v.digits.length)]
    simp only [bind_ok]
    rw [dassert_ok (by omega)]
    simp only [bind_ok]
    have g0 : v.digits[0] = (k:Int) := by simp [hv]
    have g1 : v.digits[v.digits.length - 1] = (q:Int) := by
      rw [← List.getLast_eq_getElem hne, hr]
    rw [g0, g1, hc, hc']
    simp only
    by_cases h1 : v.digits.length = 1
    · rw [if_pos (by omega)]
      have : ds = [] := by
        rw [hv] at h1; simpa using h1
      subst this
      have hkq : k = q := by
        have : v.digits.getLast hne = (k:Int) := by simp [hv]
        rw [hr] at this; exact_mod_cast this.symm
      subst hkq
      rw [hc] at hc'
      cases hc'
      simp only [pure_ok]
      congr 1; omega
    · rw [if_neg (by omega)]
      have hsl := hsm.len
      rw [fits_ok (by fits_tac), bind_ok]
      simp only [DEC_DIGITS, pure_ok]
      congr 1
      push_cast
      omega
  · have e1 := hcok.ge
    rw [hj, Int.toNat_natCast] at e1
    have h1 : ((10 ^ j : ℕ) : ℚ) * 10000 ^ v.weight ≤ (m:ℚ) * 10 ^ (sciExponent lm v - p) := by
      rw [← hval]
      refine le_trans (mul_le_mul_of_nonneg_right ?_ (B_zpow_pos _).le) hge
      exact_mod_cast e1
    rw [hpow j, show (p:ℤ) + j - j = p by ring, zpow_natCast] at h1
    have := le_of_mul_le_mul_right h1 hTp
    exact_mod_cast this
  · have e2 := hcok.lt
    rw [show n + z = ((j + 1 : ℕ) : Int) by push_cast; omega, Int.toNat_natCast] at e2
    have h1 : (m:ℚ) * 10 ^ (sciExponent lm v - p) < ((10 ^ (j + 1) : ℕ) : ℚ) * 10000 ^ v.weight := by
      rw [← hval]
      refine lt_of_lt_of_le hlt (mul_le_mul_of_nonneg_right ?_ (B_zpow_pos _).le)
      exact_mod_cast e2
    rw [hpow (j + 1), show (p:ℤ) + ((j + 1 : ℕ) : ℤ) - j = ((p + 1 : ℕ) : ℤ) by push_cast; ring, zpow_natCast] at h1
    have := lt_of_mul_lt_mul_right h1 hTp.le
    exact_mod_cast this

/-! ## Powers of ten -/

/-- Rounding a number close to one with `s` decimals. -/
theorem roundHalfAway_near {x y : ℚ} {s : Int} (hy : HasScale y s) (h : |x - y| < 10 ^ (-s) / 2) : roundHalfAway x s = y := by
  obtain ⟨n, hn⟩ := hy
  obtain ⟨m, hm⟩ := roundHalfAway_hasScale x s
  have hT := T_zpow_pos s
  have hTT : (10:ℚ) ^ s * 10 ^ (-s) = 1 := by rw [← zpow_add₀ (by norm_num)]; simp
  have h1 := roundHalfAway_err x s
  have h2 := abs_sub_le (roundHalfAway x s) x y
  have h3 : |roundHalfAway x s - y| < 10 ^ (-s) := by linarith
  have h4 : |(m:ℚ) - n| < 1 := by
    rw [← hm, ← hn, ← sub_mul, abs_mul, abs_of_pos hT]
    calc _ < 10 ^ (-s) * 10 ^ s := mul_lt_mul_of_pos_right h3 hT
      _ = 1 := by rw [mul_comm]; exact hTT
  have h5 : m = n := by
    have : |m - n| < 1 := by exact_mod_cast h4
    rw [abs_lt] at this; omega
  rw [h5, ← hn] at hm
  exact mul_right_cancel₀ hT.ne' hm

theorem ten_powOK : PowOK ten 10 :=
  ⟨by intro d hd; simp [ten] at hd; subst hd; norm_num, by simp [ten], by simp [Stripped, ten],
    by simp [value, mag, ten], by norm_num, by simp [ten], by simp [ten]⟩

theorem ten_digit (j : Fin 4) : (1:Int) ≤ 10 ^ j.val ∧ (10:Int) ^ j.val ≤ 1000 := by
  revert j; decide

/-- The representation of a power of ten. -/
theorem tenPow_repr {v : Var} {k : ℕ} (h : PowOK v (10 ^ k)) (hw : v.weight ≤ 32767) :
    v.weight = ((k / 4 : ℕ) : Int) ∧ v.digits = [10 ^ (k % 4)] ∧ v.sign = .pos := by
  have hj := ten_digit ⟨k % 4, by omega⟩
  simp only at hj
  have hval : value (⟨(k / 4 : ℕ), 0, .pos, [10 ^ (k % 4)]⟩ : Var) = (10:ℚ) ^ k := by
    simp only [value, mag, add_zero]
    push_cast
    rw [B_eq_T, ← zpow_natCast, ← zpow_add₀ (by norm_num), ← zpow_natCast]
    congr 1
    have := Nat.div_add_mod k 4
    push_cast
    omega
  have hwk : ((k / 4 : ℕ) : Int) ≤ 32767 := by
    have h1 := h.abs_lt
    rw [show |(((10 ^ k : ℤ)) : ℚ)| = 10 ^ (k:ℤ) by push_cast; rw [abs_of_pos (by positivity), zpow_natCast], B_eq_T,
      T_zpow_lt_iff] at h1
    omega
  have hc : Canonical { v with dscale := 0 } := by
    refine ⟨h.not_nan, h.digits, h.stripped, hw, le_rfl, by norm_num, ?_⟩
    have : value { v with dscale := 0 } = ((10 ^ k : ℤ) : ℚ) := h.value
    rw [this]; exact HasScale.int _ le_rfl
  have hc2 : Canonical (⟨(k / 4 : ℕ), 0, .pos, [10 ^ (k % 4)]⟩ : Var) := by
    refine ⟨by simp, ?_, ?_, hwk, le_rfl, by norm_num, ?_⟩
    · intro d hd
      simp only [List.mem_singleton] at hd
      rw [hd]; exact ⟨by omega, by omega⟩
    · simp only [Stripped, List.head?_cons, ne_eq, Option.some.injEq, List.getLast?_singleton]
      refine ⟨by omega, by omega, by simp⟩
    · rw [hval]
      have := HasScale.int (10 ^ k) (s := 0) le_rfl
      push_cast at this; exact this
  have := hc.unique hc2 (by
    rw [hval]
    have : value { v with dscale := 0 } = ((10 ^ k : ℤ) : ℚ) := h.value
    rw [this]; push_cast; rfl) rfl
  simp only [Var.mk.injEq] at this
  exact ⟨this.1, this.2.2.2, this.2.2.1⟩

theorem fast_ten_table (d e : Bool) : ∀ j : Fin 4,
    (match @fastLoop ⟨d, e⟩ [10 ^ j.val] (F64.div 1 (fapprox 3 (((10 ^ j.val : Int)) : ℚ) [])) (if j.val = 0 then 6 else 7)
      (0 :: ([1] ++ List.replicate ((if j.val = 0 then 6 else 7) - [(1:Int)].length) 0)) 1 with
    | .ok qs => (match @signedCarry ⟨d, e⟩ qs with
      | .ok (ds, c) => decide (c = 0 ∧ ds.length ≤ 100 ∧ ∀ x ∈ ds, 0 ≤ x ∧ x < 10000)
      | .error _ => false)
    | .error _ => false) = true := by
  cases d <;> cases e <;> decide +kernel

/-- `1 / 10^k` by the floating-point assisted division. -/
theorem divFast_ten [Build] {v : Var} {k : ℕ} (h : PowOK v (10 ^ k)) (hw : v.weight ≤ 32767) (hk : k ≤ 16383) :
    ∃ u, divFastCommon one v k true = .ok (some u) ∧ AddOK u k (10 ^ (-(k:ℤ))) := by
  obtain ⟨hvw, hvd, hvs⟩ := tenPow_repr h hw
  have hw0 := h.weight_nonneg
  rcases divFast_spec one v k true one_powOK.digits h.digits one_powOK.not_nan h.not_nan h.digits_ne h.stripped.1
    one_powOK.stripped.1 (by omega) (by omega) (by simp [one]) (by rw [abs_le]; omega) (by simp [one]) with
    ⟨u, x, eu, hx, hu⟩ | ⟨-, ee⟩
  · refine ⟨u, eu, ?_⟩
    rw [if_pos rfl] at hu
    have : roundHalfAway x k = 10 ^ (-(k:ℤ)) := by
      rw [one_powOK.value, h.value] at hx
      have e1 : ((1:ℤ):ℚ) / ((10 ^ k : ℤ) : ℚ) = 10 ^ (-(k:ℤ)) := by
        push_cast; rw [one_div, zpow_neg, zpow_natCast]
      rw [e1] at hx
      refine roundHalfAway_near ⟨1, ?_⟩ (lt_of_le_of_lt hx ?_)
      · rw [← zpow_add₀ (by norm_num)]; simp
      · have := T_zpow_pos (-(k:ℤ)); linarith
    rw [this] at hu
    exact hu
  · exfalso
    have hj := ten_digit ⟨k % 4, by omega⟩
    simp only at hj
    unfold divFastCommon at ee
    rw [dassert_ok one_powOK.not_nan, dassert_ok h.not_nan, hvd] at ee
    simp only [bind_ok] at ee
    rw [if_neg (by omega), if_neg (by simp [ndigits, one])] at ee
    rw [i32_ok (by simp only [one]; omega) (by simp only [one]; omega)] at ee
    simp only [bind_ok] at ee
    have hN : fastDigits (one.weight - v.weight + 1) k one.ndigits = ((if k % 4 = 0 then 6 else 7 : ℕ) : Int) := by
      unfold fastDigits
      simp only [DEC_DIGITS, DIV_GUARD_DIGITS, one, ndigits, List.length_singleton, hvw]
      push_cast
      split <;> omega
    rw [hN, Int.toNat_natCast] at ee
    have ht := fast_ten_table Build.debug Build.bigEndianVarlen ⟨k % 4, by omega⟩
    simp only at ht
    change (match fastLoop [10 ^ (k % 4)] (F64.div 1 (fapprox 3 (((10 ^ (k % 4) : Int)) : ℚ) [])) (if k % 4 = 0 then 6 else 7)
      (0 :: (one.digits ++ List.replicate ((if k % 4 = 0 then 6 else 7) - one.digits.length) 0)) 1 with
    | .ok qs => (match signedCarry qs with
      | .ok (ds, c) => decide (c = 0 ∧ ds.length ≤ 100 ∧ ∀ x ∈ ds, 0 ≤ x ∧ x < 10000)
      | .error _ => false)
    | .error _ => false) = true at ht
    generalize fastLoop _ _ _ _ _ = o at ht ee
    match o, ht, ee with
    | .error _, ht, _ => cases ht
    | .ok qs, ht, ee =>
      simp only [bind_ok] at ee ht
      generalize signedCarry qs = o2 at ht ee
      match o2, ht, ee with
      | .error _, ht, _ => cases ht
      | .ok (ds, c), ht, ee =>
        simp only [decide_eq_true_eq] at ht
        simp only [bind_ok] at ee
        rw [dassert_ok ht.1] at ee
        simp only [bind_ok, if_true] at ee
        obtain ⟨r, er, -⟩ := roundCommon_spec ⟨one.weight - v.weight + 1, 0, if one.sign = v.sign then Sign.pos else Sign.neg, ds⟩
          k (fun x hx => ht.2.2 x hx) (by simp only; split <;> simp) ⟨by simp only [one]; omega, by simp only [one]; omega⟩
          ⟨by omega, by omega⟩
        have hi7 : (((if k % 4 = 0 then 6 else 7 : ℕ)) : Int) ≤ 7 := by split <;> omega
        rw [fits_ok (by simp only [one]; fits_tac), er] at ee
        simp only [bind_ok] at ee
        rw [round_stripM er ⟨by simp only [one]; omega, by simp only [one]; omega⟩ (by simp only; omega)] at ee
        cases ee

/-- `power_int` of ten and `-k`: exact down to `10^-1001`, zero below. -/
theorem powerInt_ten_neg [Build] {lm : Libm} (hl : LibmOK lm) {k : ℕ} (hk1 : 2 ≤ k) (hk : k ≤ 16383) :
    (k ≤ 1001 → ∃ u, powerInt lm ten (-k) k = .ok (some u) ∧ AddOK u k (10 ^ (-(k:ℤ)))) ∧
    (1001 < k → powerInt lm ten (-k) k = .ok (some ⟨0, k, .pos, []⟩)) := by
  have hlog : powLog lm 10 [] 0 (-k) = ((-k : ℤ) : ℚ) := by
    rw [powLog_eq]
    have h1 := hl.log10_pow 1 (by norm_num)
    norm_num at h1
    have e1 : F64.add 1 0 = 1 := by decide +kernel
    rw [show (((10:ℤ)) : ℚ) = 10 by norm_num, h1, show ((0 * 4 : ℤ) : ℚ) = 0 by norm_num, e1]
    unfold F64.mul
    rw [mul_one]
    exact F64.rnd_int (by rw [abs_neg, abs_of_nonneg (by omega)]; omega)
  have hadd : F64.add ((-k : ℤ) : ℚ) 1 = ((-k + 1 : ℤ) : ℚ) := by
    unfold F64.add
    rw [show (((-k : ℤ)) : ℚ) + 1 = ((-k + 1 : ℤ) : ℚ) by push_cast; ring]
    exact F64.rnd_int (by rw [abs_lt]; constructor <;> omega)
  have hstart : powerInt lm ten (-k) k = (if ((-k + 1 : ℤ) : ℚ) < ((-k : ℤ) : ℚ) ∨
        ((-k + 1 : ℤ) : ℚ) < ((-NUMERIC_MAX_DISPLAY_SCALE : Int) : ℚ) then do
        let z ← zeroScaled k
        pure (some z)
      else do
        let m ← i32 |(-k : ℤ)|
        let sig ← powSig lm ((-k : ℤ) : ℚ) k m
        match ← powLoop sig 32 m (decide ((-k : ℤ) < 0)) ten (if m % 2 ≠ 0 then ten else one) with
        | none => pure none
        | some (r, true) => do
          let q ← divFastCommon one r k true
          let q ← expect DIVIDE_BY_ZERO_MSG q
          pure (some q)
        | some (r, false) => do
          let r ← roundCommon r k
          pure (some r)) := by
    unfold powerInt
    rw [dassert_ok ten_powOK.not_nan]
    simp only [bind_ok]
    rw [if_neg (by omega), if_neg (by omega), if_neg (by omega), if_neg (by omega)]
    have hd : ten.digits = [10] := rfl
    have hw : ten.weight = 0 := rfl
    rw [hd]
    simp only
    rw [fits_ok (by rw [hw]; fits_tac), bind_ok]
    have hc : ¬ (((-k : ℤ) : ℚ) > 393204) := by
      have : ((-k : ℤ) : ℚ) ≤ 0 := by
        have : (-k : ℤ) ≤ 0 := by omega
        exact_mod_cast this
      intro h
      linarith
    rw [hw, hlog, hadd, if_neg hc]
    rfl
  rw [hstart]
  constructor
  · intro h1001
    rw [if_neg (by
      rintro (h | h)
      · have := Int.cast_lt.1 h; omega
      · have := Int.cast_lt.1 h; simp only [NUMERIC_MAX_DISPLAY_SCALE] at this; omega)]
    have hka : |(-((k:ℕ):ℤ))| = k := by rw [abs_neg]; exact abs_of_nonneg (by omega)
    rw [hka, i32_ok (by omega) (by omega)]
    simp only [bind_ok]
    obtain ⟨sig, es, hsig⟩ := powSig_spec hl (f := ((-k : ℤ) : ℚ)) (by
      have : |(-k : ℤ)| ≤ 400000 := by rw [hka]; omega
      exact_mod_cast this) (rscale := k) (by omega) (by omega) (m := k) (by omega) (by omega)
    simp only [es, bind_ok]
    have hneg : (decide (-((k:ℕ):ℤ) < 0)) = true := by simp; omega
    rw [hneg]
    have hr : ∃ r, PowOK (if ((k:ℕ):ℤ) % 2 ≠ 0 then ten else one) r ∧ r * (10 ^ 2) ^ (k / 2) = 10 ^ k ∧
        (if ((k:ℕ):ℤ) % 2 ≠ 0 then ten else one).weight ≤ 32767 := by
      by_cases ho : k % 2 = 1
      · rw [if_pos (by omega)]
        refine ⟨10, ten_powOK, ?_, by simp [ten]⟩
        rw [← pow_mul, ← pow_succ']
        congr 1; omega
      · rw [if_neg (by omega)]
        refine ⟨1, one_powOK, ?_, by simp [one]⟩
        rw [one_mul, ← pow_mul]
        congr 1; omega
    obtain ⟨r, hr, hrn, hrw⟩ := hr
    have hloop := powLoop_spec hsig true 32 k ten _ 10 r (by omega) ten_powOK hr (by simp [ten]) hrw
    rw [hrn] at hloop
    rcases hloop with ⟨v, ev, hv, hvw⟩ | ⟨hlim, ev⟩
    · simp only [ev, bind_ok]
      obtain ⟨u, eu, hu⟩ := divFast_ten hv hvw (by omega)
      simp only [eu, bind_ok, expect, pure_ok]
      exact ⟨u, rfl, hu⟩
    · exfalso
      unfold limit at hlim
      push_cast at hlim
      rw [abs_of_pos (by positivity)] at hlim
      have := (pow_le_pow_iff_right₀ (by norm_num : (1:ℚ) < 10)).1 hlim
      omega
  · intro h1001
    rw [if_pos (by
      right
      apply Int.cast_lt.2
      simp only [NUMERIC_MAX_DISPLAY_SCALE]; omega), zeroScaled_ok (by omega) (by omega)]
    rfl

/-- The exact significand: `write_sci` for an exponent down to -1001. -/
theorem sci_denom [Build] {lm : Libm} (hl : LibmOK lm) {E : ℤ} (h1 : -1001 ≤ E) (h2 : E < 131072) :
    ∃ u, powerInt lm ten E (if E < 0 then -E else 0) = .ok (some u) ∧ AddOK u (if E < 0 then -E else 0) (10 ^ E) := by
  by_cases h0 : E < 0
  · rw [if_pos h0]
    by_cases h : E = -1
    · subst h
      unfold powerInt
      rw [dassert_ok ten_powOK.not_nan]
      simp only [bind_ok]
      rw [if_neg (by norm_num), if_neg (by norm_num), if_pos (by norm_num)]
      obtain ⟨v, ev, hv⟩ := divCommon_spec one ten one_small (ten_powOK.small (by simp [ten])) 1 (by norm_num) true one_powOK.digits ten_powOK.digits one_powOK.not_nan
        ten_powOK.not_nan ten_powOK.digits_ne ten_powOK.stripped.1 (by norm_num) (.inl (by norm_num))
      rw [if_pos rfl, one_powOK.value, ten_powOK.value] at hv
      have : roundHalfAway (((1:ℤ):ℚ) / ((10:ℤ):ℚ)) 1 = 10 ^ (-1:ℤ) := by
        rw [rmag_eq_self_iff ⟨1, by norm_num⟩]; norm_num
      rw [this] at hv
      rw [show -(-1:ℤ) = 1 by norm_num]
      simp only [ev, bind_ok, expect, pure_ok]
      exact ⟨v, rfl, hv⟩
    · obtain ⟨k, hk⟩ := Int.eq_ofNat_of_zero_le (a := -E) (by omega)
      have hE : E = -(k:ℤ) := by omega
      rw [hE, neg_neg]
      exact (powerInt_ten_neg hl (by omega) (by omega)).1 (by omega)
  · rw [if_neg h0]
    obtain ⟨k, hk⟩ := Int.eq_ofNat_of_zero_le (a := E) (by omega)
    subst hk
    rcases powerInt_nonneg hl ten_powOK (by simp [ten]) (k := k) (by omega) (s := 0) le_rfl (by norm_num) with
      ⟨v, ev, hv⟩ | ⟨hlim, -⟩
    · refine ⟨v, ev, ?_⟩
      rw [zpow_natCast]; push_cast at hv; exact hv
    · exfalso
      unfold limit at hlim
      push_cast at hlim
      rw [abs_of_pos (by positivity)] at hlim
      have := (pow_le_pow_iff_right₀ (by norm_num : (1:ℚ) < 10)).1 hlim
      omega

theorem expText_eq (e : ℤ) : expText e = exponentText e := by
  unfold expText exponentText
  congr 1
  unfold Text.pad
  rw [Text.dec_eq]
  by_cases h : e.natAbs < 10
  · rw [if_pos h, Text.natText_rec, if_pos h]; rfl
  · rw [if_neg h]
    have : 2 ≤ (natText e.natAbs).length := by
      rw [Text.natText_rec, if_neg h]
      have := (Text.natText_dec (e.natAbs / 10)).2.1
      have := List.length_pos_iff.2 this
      simp; omega
    have : 2 - (natText e.natAbs).length = 0 := by omega
    rw [this]; rfl

/-- `{:e}` of a non-zero number. -/
theorem sci_spec [Build] {lm : Libm} (hl : LibmOK lm) {v : Var} (hv : Canonical v) (hne : v.digits ≠ []) (c : ℕ) :
    ∃ m p : ℕ, selectSciScale v = .ok p ∧ |value v| = m * 10 ^ (sciExponent lm v - p) ∧ 10 ^ p ≤ m ∧ m < 10 ^ (p + 1) ∧
      m % 10 ≠ 0 ∧
      (-1001 ≤ sciExponent lm v → writeSci lm v p c = .ok (sciText (decide (value v < 0)) m p (sciExponent lm v) c)) ∧
      (sciExponent lm v < -1001 → writeSci lm v p c = .error (.panic DIVIDE_BY_ZERO_MSG)) := by
  obtain ⟨m, p, hsel, hval, hm1, hm2, hm10, hpl⟩ := sci_select hl hv.digits hv.stripped hne hv.small
  have hpb : p ≤ 200000 := by
    have h1 := stripped_len hv.digits hv.stripped hne hv.scale
    have h2 := hv.weight_le
    have h3 := hv.dscale_le
    have h4 := hv.dscale_nonneg
    simp only [ndigits] at h1
    omega
  refine ⟨m, p, hsel, hval, hm1, hm2, hm10, ?_, ?_⟩
  all_goals
    have hTE := T_zpow_pos (sciExponent lm v)
    have hge : (10:ℚ) ^ sciExponent lm v ≤ |value v| := by
      rw [hval]
      have h1 : ((10 ^ p : ℕ) : ℚ) ≤ m := by exact_mod_cast hm1
      calc (10:ℚ) ^ sciExponent lm v = ((10 ^ p : ℕ) : ℚ) * 10 ^ (sciExponent lm v - p) := by
            push_cast; rw [← zpow_natCast, ← zpow_add₀ (by norm_num)]; congr 1; ring
        _ ≤ _ := mul_le_mul_of_nonneg_right h1 (T_zpow_pos _).le
    have hlt : sciExponent lm v < 131072 := by
      have := lt_of_le_of_lt hge hv.abs_lt
      unfold limit at this
      rw [show (10:ℚ) ^ (131072:ℕ) = 10 ^ (131072:ℤ) by rw [← zpow_natCast]; rfl, T_zpow_lt_iff] at this
      exact this
    have hlow : -16383 ≤ sciExponent lm v := by
      have h1 : |value v| < 10 ^ (sciExponent lm v + 1) := by
        rw [hval]
        have h1 : (m:ℚ) < ((10 ^ (p + 1) : ℕ) : ℚ) := by exact_mod_cast hm2
        calc _ < ((10 ^ (p + 1) : ℕ) : ℚ) * 10 ^ (sciExponent lm v - p) := mul_lt_mul_of_pos_right h1 (T_zpow_pos _)
          _ = _ := by push_cast; rw [← zpow_natCast, ← zpow_add₀ (by norm_num)]; congr 1; push_cast; ring
      obtain ⟨n, hn⟩ := hv.scale.abs
      have hT := T_zpow_pos v.dscale
      have hpos : 0 < |value v| := lt_of_lt_of_le hTE hge
      have hn1 : (1:ℚ) ≤ n := by
        have : (0:ℚ) < n := by rw [← hn]; positivity
        have : 0 < n := by exact_mod_cast this
        exact_mod_cast this
      have h2 : (10:ℚ) ^ (-v.dscale) ≤ |value v| := by
        rw [zpow_neg, inv_le_iff_one_le_mul₀ hT, hn]; exact hn1
      have h3 := lt_of_le_of_lt h2 h1
      rw [T_zpow_lt_iff] at h3
      have := hv.dscale_le
      omega
    have hsw := hv.small.lo
    have hsw2 := hv.small.hi
    have hun : writeSci lm v p c = (do
        let denom ← powerInt lm ten (sciExponent lm v) (if sciExponent lm v < 0 then -sciExponent lm v else 0)
        let denom ← expect "attempt to multiply with overflow" denom
        let q ← divCommon v denom p true
        let q ← expect DIVIDE_BY_ZERO_MSG q
        let s ← Text.write q
        pure (s ++ c :: expText (sciExponent lm v))) := by
      unfold writeSci
      rw [if_neg hv.not_nan, fits_ok (by fits_tac), bind_ok]
      simp only [if_neg (show ¬ ((p:ℤ) < 0) by omega)]
  · intro hE
    obtain ⟨u, eu, hu⟩ := sci_denom hl hE hlt
    generalize sciExponent lm v = E at *
    have hune : u.digits ≠ [] := fun h => by
      have := (stripped_zero_iff hu.digits hu.stripped).2 h
      rw [hu.value] at this; linarith
    have husm : Small u := by
      refine hu.small ?_ (by split <;> omega) ?_
      · split
        · exact ⟨1, by rw [← zpow_add₀ (by norm_num)]; simp⟩
        · refine ⟨10 ^ E.toNat, ?_⟩
          push_cast
          rw [mul_one, ← zpow_natCast, Int.toNat_of_nonneg (by omega)]
      · rw [abs_of_pos hTE]
        refine lt_huge_of_zpow (k := 40000) ?_ (by norm_num)
        rw [B_eq_T, T_zpow_lt_iff]; omega
    obtain ⟨q, eq, hq⟩ := divCommon_spec v u hv.small husm p (by omega) true hv.digits hu.digits hv.not_nan hu.not_nan hune hu.stripped.1 (by omega)
      (.inr hne)
    rw [if_pos rfl, hu.value] at hq
    have habs : |value v / 10 ^ E| * 10 ^ p = m := by
      rw [abs_div, hval, abs_of_pos hTE, ← zpow_natCast (10:ℚ) p, sub_eq_add_neg, zpow_add₀ (by norm_num), zpow_neg]
      field_simp
    have hsc := Text.hasScale_of_abs habs
    rw [rmag_eq_self_iff hsc] at hq
    have hqsm : Small q := by
      refine hq.small hsc (by omega) (lt_huge_of_zpow (k := 1) ?_ (by norm_num))
      have h1 : (m:ℚ) < 10 ^ (p + 1) := by exact_mod_cast hm2
      rw [← habs, pow_succ, mul_comm] at h1
      have := lt_of_mul_lt_mul_left h1 (by positivity)
      rw [zpow_one]; linarith
    have hw := Text.write_spec' hq hq.value hq.dscale habs hqsm (by omega)
    rw [hun]
    simp only [eu, bind_ok, expect, pure_ok, eq, hw]
    unfold sciText
    rw [expText_eq]
    have : decide (value v / 10 ^ E < 0) = decide (value v < 0) := by
      congr 1; rw [div_lt_iff₀ hTE, zero_mul]
    rw [this]
  · intro hE
    obtain ⟨k, hk⟩ := Int.eq_ofNat_of_zero_le (a := -sciExponent lm v) (by omega)
    have hEk : sciExponent lm v = -(k:ℤ) := by omega
    rw [hun, if_pos (by omega), hEk, neg_neg, (powerInt_ten_neg hl (by omega) (by omega)).2 (by omega)]
    simp only [bind_ok, expect, pure_ok]
    have : divCommon v ⟨0, k, .pos, []⟩ p true = .ok none := by
      unfold divCommon
      rw [dassert_ok hv.not_nan, dassert_ok (by simp)]
      rfl
    simp only [this, bind_ok]
    rfl

end PgNumeric
