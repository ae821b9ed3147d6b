import Verif.Proofs.Ln
import Verif.Proofs.Sci
/-!
# The estimate of the decimal weight of a logarithm
-/
namespace PgNumeric
open Spec Var

theorem castR {a b : ℚ} (h : a ≤ b) : (a:ℝ) ≤ (b:ℝ) := by exact_mod_cast h

theorem log_ten_bounds : (2302 / 1000 : ℝ) ≤ Real.log 10 ∧ Real.log 10 ≤ 2303 / 1000 ∧
    |(F64.LN_10 : ℝ) - Real.log 10| ≤ 1 / 10 ^ 4 := by
  have h : 3 * Real.log 10 = 10 * Real.log 2 - Real.log (1024 / 1000) := by
    rw [Real.log_div (by norm_num) (by norm_num), show (1024:ℝ) = 2 ^ 10 by norm_num, show (1000:ℝ) = 10 ^ 3 by norm_num,
      Real.log_pow, Real.log_pow]
    push_cast; ring
  have h1 := Real.log_le_sub_one_of_pos (show (0:ℝ) < 1024 / 1000 by norm_num)
  have h2 := Real.one_sub_inv_le_log_of_pos (show (0:ℝ) < 1024 / 1000 by norm_num)
  have h3 := Real.log_two_gt_d9
  have h4 := Real.log_two_lt_d9
  have e : (F64.LN_10 : ℝ) = 2592480341699211 / 1125899906842624 := by unfold F64.LN_10; push_cast; rfl
  norm_num at h1 h2
  refine ⟨by linarith, by linarith, ?_⟩
  rw [e, abs_le]
  constructor <;> norm_num <;> linarith

/-- The decimal exponent of a positive number by truncation is within one of its logarithm. -/
theorem toI32_log10_near {lm : Libm} (hl : LibmOK lm) {t : ℚ} (h0 : 1 / 10 ^ 250 ≤ t) (h1 : t ≤ 10 ^ 250) :
    (10:ℝ) ^ (F64.toI32 (lm.log10 t)) ≤ 1001 / 100 * (t:ℝ) ∧ (t:ℝ) ≤ 11 * (10:ℝ) ^ (F64.toI32 (lm.log10 t)) := by
  have ht : (0:ℝ) < (t:ℝ) := by
    have : (0:ℚ) < t := lt_of_lt_of_le (by positivity) h0
    exact_mod_cast this
  have herr := abs_le.1 (hl.log10 t h0 h1)
  obtain ⟨b1, b2, -⟩ := log_ten_bounds
  have hL : (0:ℝ) < Real.log 10 := by linarith
  have hlb : Real.logb 10 t * Real.log 10 = Real.log t := by rw [Real.logb]; field_simp
  have hbig : |Real.log (t:ℝ)| ≤ 250 * Real.log 10 := by
    have e : Real.log ((10:ℝ) ^ 250) = 250 * Real.log 10 := by rw [Real.log_pow]; push_cast; ring
    have h0' : (1 / 10 ^ 250 : ℝ) ≤ t := by have := castR h0; push_cast at this; exact this
    have h1' : (t:ℝ) ≤ 10 ^ 250 := by exact_mod_cast h1
    have g1 := Real.log_le_log (by positivity) h0'
    have g2 := Real.log_le_log ht h1'
    rw [one_div, Real.log_inv] at g1
    rw [e] at g1 g2
    rw [abs_le]; constructor <;> linarith
  have hlb2 : |Real.logb 10 (t:ℝ)| ≤ 250 := by
    rw [Real.logb, abs_div, abs_of_pos hL, div_le_iff₀ hL]; exact hbig
  rw [abs_le] at hlb2
  generalize lm.log10 t = l at *
  have hl1 : (l:ℝ) ≤ 251 := by have : (1:ℝ) / 10 ^ 10 ≤ 1 := by norm_num
                               linarith [herr.2]
  have hl2 : -251 ≤ (l:ℝ) := by have : (1:ℝ) / 10 ^ 10 ≤ 1 := by norm_num
                                linarith [herr.1]
  have hl1' : l ≤ 251 := by exact_mod_cast hl1
  have hl2' : -251 ≤ l := by exact_mod_cast hl2
  have hw : |((F64.toI32 l : ℤ) : ℝ) - l| ≤ 1 := by
    have : |((F64.toI32 l : ℤ) : ℚ) - l| ≤ 1 := by
      by_cases hneg : l < 0
      · rw [F64.toI32_neg hneg (by linarith), abs_le]
        have a := Int.le_ceil l
        have b := Int.ceil_lt_add_one l
        constructor <;> linarith
      · push Not at hneg
        rw [F64.toI32_nonneg hneg (by linarith), abs_le]
        have a := Int.floor_le l
        have b := Int.lt_floor_add_one l
        constructor <;> linarith
    exact_mod_cast this
  generalize F64.toI32 l = w at *
  rw [abs_le] at hw
  have h11 := log_eleven (le_refl (11 / 10 : ℝ))
  have h11' : Real.log 11 = Real.log 10 + Real.log (11 / 10) := by
    rw [← Real.log_mul (by norm_num) (by norm_num)]; norm_num
  have h1001 : 9 / 10000 ≤ Real.log (1001 / 1000) := by
    have := Real.one_sub_inv_le_log_of_pos (show (0:ℝ) < 1001 / 1000 by norm_num)
    norm_num at this ⊢; linarith
  have h1001' : Real.log (1001 / 100) = Real.log 10 + Real.log (1001 / 1000) := by
    rw [← Real.log_mul (by norm_num) (by norm_num)]; norm_num
  have hp : (0:ℝ) < 10 ^ w := by positivity
  constructor
  · rw [← Real.log_le_log_iff hp (by positivity), Real.log_mul (by norm_num) ht.ne', Real.log_zpow, ← hlb, h1001']
    norm_num at herr
    nlinarith [herr.1, herr.2, hw.1, hw.2]
  · rw [← Real.log_le_log_iff ht (by positivity), Real.log_mul (by norm_num) hp.ne', Real.log_zpow, ← hlb, h11']
    nlinarith

/-- The estimate of a logarithm from the leading digits. -/
theorem lnVar_near {lm : Libm} (hl : LibmOK lm) {D : ℕ} (hD1 : 1 ≤ D) (hD2 : D < 10 ^ 8) {p : ℤ} {X : ℝ}
    (hX0 : 95 / 1000 ≤ |X|) (hX : |X - (Real.log D + p * Real.log 10)| ≤ 1 / 10 ^ 4) :
    |((F64.add (lm.ln (D:ℚ)) (F64.mul (p:ℚ) F64.LN_10) : ℚ) : ℝ) - X| ≤ 2 / 100 * |X| := by
  obtain ⟨b1, b2, b3⟩ := log_ten_bounds
  have ha := hl.ln D hD1 (by omega)
  have hDr : (1:ℝ) ≤ D := by exact_mod_cast hD1
  have hlD0 : 0 ≤ Real.log D := Real.log_nonneg hDr
  have hlD1 : Real.log D ≤ 8 * Real.log 10 := by
    have : (D:ℝ) ≤ 10 ^ 8 := by exact_mod_cast hD2.le
    have := Real.log_le_log (by linarith) this
    rw [Real.log_pow] at this
    exact_mod_cast this
  have hm := F64.rnd_err ((p:ℚ) * F64.LN_10)
  have ht := F64.rnd_err (lm.ln (D:ℚ) + F64.mul (p:ℚ) F64.LN_10)
  change |F64.mul (p:ℚ) F64.LN_10 - _| ≤ _ at hm
  change |F64.add (lm.ln (D:ℚ)) (F64.mul (p:ℚ) F64.LN_10) - _| ≤ _ at ht
  generalize F64.add (lm.ln (D:ℚ)) (F64.mul (p:ℚ) F64.LN_10) = t at *
  generalize F64.mul (p:ℚ) F64.LN_10 = m at *
  have hu := F64.u_small
  have hm' : |(m:ℝ) - p * F64.LN_10| ≤ 12 / 10 ^ 17 * |(p:ℝ) * F64.LN_10| := by
    have : |m - (p:ℚ) * F64.LN_10| ≤ 12 / 10 ^ 17 * |(p:ℚ) * F64.LN_10| :=
      hm.trans (mul_le_mul_of_nonneg_right hu (abs_nonneg _))
    have := castR this; push_cast at this; exact this
  have ht' : |(t:ℝ) - (lm.ln (D:ℚ) + m)| ≤ 12 / 10 ^ 17 * |(lm.ln (D:ℚ) : ℝ) + m| := by
    have : |t - (lm.ln (D:ℚ) + m)| ≤ 12 / 10 ^ 17 * |lm.ln (D:ℚ) + m| :=
      ht.trans (mul_le_mul_of_nonneg_right hu (abs_nonneg _))
    have := castR this; push_cast at this; exact this
  generalize (lm.ln (D:ℚ) : ℝ) = a at *
  generalize Real.log (D:ℝ) = L at *
  generalize (F64.LN_10 : ℝ) = N at *
  generalize Real.log 10 = T at *
  have hpT : |(p:ℝ)| * T ≤ |X| + 19 := by
    have h1 : |(p:ℝ) * T| ≤ |X| + 19 := by
      have h2 := abs_le.1 hX
      rcases abs_cases X with ⟨h3, h4⟩ | ⟨h3, h4⟩ <;> rcases abs_cases ((p:ℝ) * T) with ⟨h5, h6⟩ | ⟨h5, h6⟩ <;>
        norm_num at h2 <;> linarith [h2.1, h2.2]
    rwa [abs_mul, abs_of_pos (by linarith : 0 < T)] at h1
  have hp : |(p:ℝ)| ≤ |X| / 2 + 10 := by
    have := abs_nonneg (p:ℝ)
    nlinarith
  have hpN : |(p:ℝ) * N - p * T| ≤ |(p:ℝ)| / 10 ^ 4 := by
    rw [← mul_sub, abs_mul]
    calc |(p:ℝ)| * |N - T| ≤ |(p:ℝ)| * (1 / 10 ^ 4) := mul_le_mul_of_nonneg_left b3 (abs_nonneg _)
      _ = _ := by ring
  have hpNb : |(p:ℝ) * N| ≤ 2 * |X| + 40 := by
    have := abs_sub_abs_le_abs_sub ((p:ℝ) * N) (p * T)
    have h2 : |(p:ℝ) * T| = |(p:ℝ)| * T := by rw [abs_mul, abs_of_pos (by linarith : 0 < T)]
    have h3 := abs_nonneg (p:ℝ)
    have h4 : |(p:ℝ)| / 10 ^ 4 ≤ |(p:ℝ)| := div_le_self h3 (by norm_num)
    linarith [abs_nonneg X]
  have hmX : |(m:ℝ) - p * N| ≤ 1 / 10 ^ 14 * (|X| + 1) := by
    refine hm'.trans ?_
    nlinarith [abs_nonneg X]
  have hamb : |a + m| ≤ 3 * |X| + 70 := by
    have e1 := abs_le.1 hmX
    have e2 := abs_le.1 hpNb
    have e3 := abs_le.1 ha
    have := abs_nonneg X
    norm_num at e1 e3
    rw [abs_le]; constructor <;> linarith
  have htX : |(t:ℝ) - (a + m)| ≤ 1 / 10 ^ 13 * (|X| + 1) := by
    refine ht'.trans ?_
    nlinarith [abs_nonneg X]
  have k1 := abs_le.1 htX
  have k2 := abs_le.1 hmX
  have k3 := abs_le.1 hpN
  have k4 := abs_le.1 ha
  have k5 := abs_le.1 hX
  norm_num at k1 k2 k3 k4 k5
  rw [abs_le]
  constructor <;> linarith

theorem log_canon_le {u : Var} (hp : PosVar u) : |Real.log (value u)| ≤ 320000 := by
  obtain ⟨b1, b2, -⟩ := log_ten_bounds
  have hx : (0:ℝ) < (value u : ℝ) := by exact_mod_cast hp.pos
  have h1 : ((10000:ℝ)) ^ u.weight ≤ value u := by have := castR hp.ge; push_cast at this; exact this
  have h2 : (value u : ℝ) ≤ 10000 ^ (u.weight + 1) := by have := castR hp.lt.le; push_cast at this; exact this
  have g1 := Real.log_le_log (by positivity) h1
  have g2 := Real.log_le_log hx h2
  have e4 : Real.log 10000 = 4 * Real.log 10 := by
    rw [show (10000:ℝ) = 10 ^ 4 by norm_num, Real.log_pow]; push_cast; ring
  rw [Real.log_zpow, e4] at g1 g2
  have w1 : (-4097:ℝ) ≤ u.weight := by exact_mod_cast hp.weight_ge
  have w2 : (u.weight:ℝ) ≤ 33000 := by exact_mod_cast hp.weight_le
  push_cast at g2
  rw [abs_le]
  constructor <;> nlinarith

/-- The estimate is within a factor 12 of the logarithm, and zero for the argument one. -/
theorem estimate_pos [Build] {lm : Libm} (hl : LibmOK lm) {u : Var} (hu : PosVar u) :
    ∃ w, estimateLnDweight lm u = .ok w ∧ (value u = 1 → w = 0) ∧
      (value u ≠ 1 → (10:ℝ) ^ w ≤ 1025 / 100 * |Real.log (value u)| ∧ |Real.log (value u)| ≤ 12 * (10:ℝ) ^ w) := by
  have hp := hu
  have hx := hu.pos
  have h9d : Digits zeroPointNine.digits := by unfold Digits; decide
  have h11d : Digits onePointOne.digits := by unfold Digits; decide
  have c9 : cmpCommon u zeroPointNine ≥ 0 ↔ 9 / 10 ≤ value u := by
    rw [hp.cmp h9d (by decide) (fun hne => mag_pos_of_head h9d hne (by decide) _), zeroPointNine_value]
    unfold cmpSign
    split_ifs with h1 h2
    · constructor
      · intro h; norm_num at h
      · intro h; linarith
    · simp [h2]
    · simp; exact not_lt.1 h1
  have c11 : cmpCommon u onePointOne ≤ 0 ↔ value u ≤ 11 / 10 := by
    rw [hp.cmp h11d (by decide) (fun hne => mag_pos_of_head h11d hne (by decide) _), onePointOne_value]
    unfold cmpSign
    split_ifs with h1 h2
    · simp [h1.le]
    · simp [h2]
    · constructor
      · intro h; norm_num at h
      · intro h; exact absurd (le_antisymm h (not_lt.1 h1)) h2
  have hX : (0:ℝ) < (value u : ℝ) := by exact_mod_cast hx
  unfold estimateLnDweight
  rw [dassert_ok hu.not_nan]
  simp only [bind_ok]
  by_cases hnear : 9 / 10 ≤ value u ∧ value u ≤ 11 / 10
  · rw [if_pos ⟨c9.2 hnear.1, c11.2 hnear.2⟩]
    obtain ⟨v, ev, hv⟩ := subCommon_spec u one hu.small one_small hu.digits one_canonical.digits hu.not_nan one_canonical.not_nan
      (fun hs => by rw [hu.sign] at hs; cases hs) ⟨hu.dscale_nonneg, hu.dscale_le⟩ ⟨by simp [one], by simp [one]⟩
    rw [one_value] at hv
    simp only [ev, bind_ok]
    cases hvd : v.digits with
    | nil =>
      have h0 := (stripped_zero_iff hv.digits hv.stripped).2 hvd
      rw [hv.value] at h0
      exact ⟨0, rfl, fun _ => rfl, fun h => absurd (by linarith) h⟩
    | cons d ds =>
      simp only
      have hh : d ≠ 0 := by have := hv.stripped.1; rw [hvd] at this; simpa using this
      have hdd := hv.digits
      rw [hvd] at hdd
      obtain ⟨k, rfl, hk1, hk2⟩ := list_nat (Digits.cons.1 hdd).1 hh
      have habs : |value u - 1| = mag ((k:ℤ) :: ds) v.weight := by
        rw [← hv.value, abs_value _ hv.digits, hvd]
      have hne1 : value u ≠ 1 := by
        intro h
        rw [h] at habs
        have := mag_ge_of_head hdd hh v.weight
        rw [← habs] at this
        simp at this
        linarith [B_zpow_pos v.weight]
      obtain ⟨j, hj4, hj1, hj2⟩ : ∃ j : ℕ, j < 4 ∧ 10 ^ j ≤ k ∧ k < 10 ^ (j + 1) := by
        by_cases h1 : k < 10
        · exact ⟨0, by omega, by omega, by omega⟩
        by_cases h2 : k < 100
        · exact ⟨1, by omega, by omega, by omega⟩
        by_cases h3 : k < 1000
        · exact ⟨2, by omega, by omega, by omega⟩
        · exact ⟨3, by omega, by omega, by omega⟩
      have hw1 : -4096 ≤ v.weight := stripped_weight_ge hv.digits hv.stripped (s := max u.dscale one.dscale)
        (by rw [hv.value]; exact (hu.scale.mono (le_max_left _ _)).sub (one_value ▸ one_canonical.scale.mono (le_max_right _ _)))
        (by have := hu.dscale_le; simp [one]; omega)
      have hw2 : v.weight < 0 := by
        have h1 := mag_ge_of_head hdd hh v.weight
        rw [← habs] at h1
        have h2 : |value u - 1| < 1 := by rw [abs_lt]; constructor <;> linarith [hnear.1, hnear.2]
        have h3 := lt_of_le_of_lt h1 h2
        rw [show (1:ℚ) = 10000 ^ (0:ℤ) by norm_num, B_zpow_lt_iff] at h3
        exact h3
      have ht : F64.toI32 (lm.log10 (((k:ℤ)) : ℚ)) = j := by
        have := toI32_log10 hl hj1 hj2 hj4
        push_cast; exact this
      rw [ht, i32_ok (by simp only [DEC_DIGITS]; omega) (by simp only [DEC_DIGITS]; omega)]
      refine ⟨_, by rw [fits_ok (by fits_tac), bind_ok], fun h => absurd h hne1, fun _ => ?_⟩
      simp only [DEC_DIGITS]
      -- |x - 1| in [10^w, 10^(w+1))
      have hpw : (10:ℚ) ^ (v.weight * 4 + (j:ℤ)) = 10 ^ j * 10000 ^ v.weight := by
        rw [B_eq_T, zpow_add₀ (by norm_num), zpow_natCast, mul_comm v.weight 4, mul_comm]
      have hlo : (10:ℚ) ^ (v.weight * 4 + (j:ℤ)) ≤ |value u - 1| := by
        rw [hpw, habs, mag_cons]
        have h1 := mag_nonneg (Digits.cons.1 hdd).2 (v.weight - 1)
        have h2 : (10:ℚ) ^ j ≤ ((k:ℤ):ℚ) := by exact_mod_cast hj1
        have := mul_le_mul_of_nonneg_right h2 (B_zpow_pos v.weight).le
        linarith
      have hhi : |value u - 1| ≤ 10 * (10:ℚ) ^ (v.weight * 4 + (j:ℤ)) := by
        rw [hpw, habs, mag_cons]
        have h1 := mag_lt (Digits.cons.1 hdd).2 (v.weight - 1)
        rw [show v.weight - 1 + 1 = v.weight by ring] at h1
        have h2 : ((k:ℤ):ℚ) + 1 ≤ 10 ^ (j + 1) := by exact_mod_cast hj2
        have := mul_le_mul_of_nonneg_right h2 (B_zpow_pos v.weight).le
        rw [pow_succ] at this
        linarith
      have hlo' : (10:ℝ) ^ (v.weight * 4 + (j:ℤ)) ≤ |(value u:ℝ) - 1| := by have := castR hlo; push_cast at this; exact this
      have hhi' : |(value u:ℝ) - 1| ≤ 10 * (10:ℝ) ^ (v.weight * 4 + (j:ℤ)) := by have := castR hhi; push_cast at this; exact this
      have n1 : (9 / 10 : ℝ) ≤ value u := by
        have := hnear.1
        rw [← Rat.cast_le (K := ℝ)] at this
        push_cast at this; exact this
      have n2 : (value u : ℝ) ≤ 11 / 10 := by
        have := hnear.2
        rw [← Rat.cast_le (K := ℝ)] at this
        push_cast at this; exact this
      have l1 := Real.log_le_sub_one_of_pos hX
      have l2 := Real.one_sub_inv_le_log_of_pos hX
      have l3 : ((value u : ℝ) - 1) * (10 / 11) ≤ 1 - (value u:ℝ)⁻¹ ∨ (value u : ℝ) < 1 := by
        by_cases h : (value u : ℝ) < 1
        · exact .inr h
        · left
          push Not at h
          rw [show 1 - (value u:ℝ)⁻¹ = ((value u:ℝ) - 1) / value u by field_simp, le_div_iff₀ hX]
          nlinarith
      have l4 : ((value u : ℝ) - 1) * (10 / 9) ≤ 1 - (value u:ℝ)⁻¹ ∨ 1 ≤ (value u : ℝ) := by
        by_cases h : 1 ≤ (value u : ℝ)
        · exact .inr h
        · left
          push Not at h
          rw [show 1 - (value u:ℝ)⁻¹ = ((value u:ℝ) - 1) / value u by field_simp, le_div_iff₀ hX]
          nlinarith
      generalize (10:ℝ) ^ (v.weight * 4 + (j:ℤ)) = W at *
      have b1 : |(value u:ℝ) - 1| ≤ 12 / 10 * |Real.log (value u)| ∧ |Real.log (value u)| ≤ 12 / 10 * |(value u:ℝ) - 1| := by
        by_cases h : (value u : ℝ) < 1
        · have l4' := l4.resolve_right (by linarith)
          rw [abs_of_neg (by linarith : (value u:ℝ) - 1 < 0), abs_of_neg (by linarith : Real.log (value u:ℝ) < 0)]
          constructor <;> linarith
        · have l3' := l3.resolve_right h
          push Not at h
          rw [abs_of_nonneg (by linarith : 0 ≤ (value u:ℝ) - 1), abs_of_nonneg (by linarith : 0 ≤ Real.log (value u:ℝ))]
          constructor <;> linarith
      have := abs_nonneg (Real.log (value u:ℝ))
      constructor <;> linarith [b1.1, b1.2]
  · rw [if_neg (by rw [c9, c11]; exact hnear)]
    have hne1 : value u ≠ 1 := by
      intro h; rw [h] at hnear; norm_num at hnear
    have hX95 : 95 / 1000 ≤ |Real.log (value u)| := by
      by_cases h : 9 / 10 ≤ value u
      · have h2 : 11 / 10 ≤ value u := by
          by_contra h3; push Not at h3; exact hnear ⟨h, h3.le⟩
        have : (11 / 10 : ℝ) ≤ value u := by
          rw [← Rat.cast_le (K := ℝ)] at h2
          push_cast at h2; exact h2
        exact (log_eleven this).trans (le_abs_self _)
      · push Not at h
        have : (value u : ℝ) ≤ 9 / 10 := by
          have h2 := h.le
          rw [← Rat.cast_le (K := ℝ)] at h2
          push_cast at h2; exact h2
        exact (log_nine hX this).trans (neg_le_abs _)
    have hbig := log_canon_le hp
    have key : ∀ (D : ℕ) (p : ℤ), 1 ≤ D → D < 10 ^ 8 →
        |Real.log (value u) - (Real.log D + p * Real.log 10)| ≤ 1 / 10 ^ 4 →
        (10:ℝ) ^ (F64.toI32 (lm.log10 |F64.add (lm.ln (D:ℚ)) (F64.mul (p:ℚ) F64.LN_10)|)) ≤ 1025 / 100 * |Real.log (value u)| ∧
        |Real.log (value u)| ≤ 12 * (10:ℝ) ^ (F64.toI32 (lm.log10 |F64.add (lm.ln (D:ℚ)) (F64.mul (p:ℚ) F64.LN_10)|)) := by
      intro D p h1 h2 h3
      have h := lnVar_near hl h1 h2 hX95 h3
      generalize F64.add (lm.ln (D:ℚ)) (F64.mul (p:ℚ) F64.LN_10) = t at *
      generalize Real.log (value u : ℝ) = L at *
      have e1 := abs_sub_abs_le_abs_sub (t:ℝ) L
      have e2 := abs_sub_abs_le_abs_sub L (t:ℝ)
      rw [abs_sub_comm L] at e2
      have e3 : ((|t| : ℚ) : ℝ) = |(t:ℝ)| := by push_cast; rfl
      have r1 : 1 / 10 ^ 250 ≤ |t| := by
        have : (1 / 100 : ℝ) ≤ ((|t| : ℚ) : ℝ) := by rw [e3]; linarith
        have h4 : (1 / 100 : ℚ) ≤ |t| := by
          rw [← Rat.cast_le (K := ℝ)]; push_cast; push_cast at this; exact this
        exact le_trans (by norm_num) h4
      have r2 : |t| ≤ 10 ^ 250 := by
        have : ((|t| : ℚ) : ℝ) ≤ 1000000 := by rw [e3]; linarith
        have h4 : |t| ≤ (1000000 : ℚ) := by
          rw [← Rat.cast_le (K := ℝ)]; push_cast; push_cast at this; exact this
        exact h4.trans (by norm_num)
      obtain ⟨q1, q2⟩ := toI32_log10_near hl r1 r2
      rw [e3] at q1 q2
      generalize (10:ℝ) ^ (F64.toI32 (lm.log10 |t|)) = W at *
      constructor <;> linarith
    obtain ⟨d, ds, hud⟩ := List.exists_cons_of_ne_nil hp.ne
    have hh : d ≠ 0 := by have := hp.head; rw [hud] at this; simpa using this
    have hdd := hu.digits
    rw [hud] at hdd
    obtain ⟨k, rfl, hk1, hk2⟩ := list_nat (Digits.cons.1 hdd).1 hh
    have hval := hp.value_eq
    rw [hud] at hval ⊢
    have hsw := hu.small.lo
    have hsw2 := hu.small.hi
    have e4 : Real.log 10000 = 4 * Real.log 10 := by
      rw [show (10000:ℝ) = 10 ^ 4 by norm_num, Real.log_pow]; push_cast; ring
    cases ds with
    | nil =>
      simp only
      have h := key k (u.weight * DEC_DIGITS) hk1 (by omega) (by
        rw [hval]
        simp only [mag, add_zero]
        push_cast
        rw [Real.log_mul (by positivity) (by positivity), Real.log_zpow, e4]
        rw [show Real.log k + u.weight * (4 * Real.log 10) - (Real.log k + u.weight * 4 * Real.log 10) = 0 by ring]
        norm_num)
      refine ⟨_, by rw [fits_ok (by fits_tac), bind_ok]; rfl, fun h => absurd h hne1, fun _ => ?_⟩
      push_cast at h ⊢
      exact h
    | cons d2 ds2 =>
      simp only
      have hd2 := (Digits.cons.1 (Digits.cons.1 hdd).2).1
      obtain ⟨k2, rfl⟩ : ∃ k2 : ℕ, d2 = k2 := ⟨d2.toNat, by omega⟩
      have h := key (k * 10000 + k2) (u.weight * DEC_DIGITS - DEC_DIGITS) (by omega) (by omega) (by
        have hm0 := mag_nonneg (Digits.cons.1 (Digits.cons.1 hdd).2).2 (u.weight - 1 - 1)
        have hm1 := mag_lt (Digits.cons.1 (Digits.cons.1 hdd).2).2 (u.weight - 1 - 1)
        rw [show u.weight - 1 - 1 + 1 = u.weight - 1 by ring] at hm1
        have hB := B_zpow_pos (u.weight - 1)
        have hBB : (10000:ℚ) ^ u.weight = 10000 * 10000 ^ (u.weight - 1) := by
          rw [← zpow_one_add₀ B_ne]; congr 1; ring
        rw [mag_cons, mag_cons, hBB] at hval
        generalize mag ds2 (u.weight - 1 - 1) = r at *
        have hD : (10000:ℝ) ≤ ((k * 10000 + k2 : ℕ) : ℝ) := by
          have : 10000 ≤ k * 10000 + k2 := by omega
          exact_mod_cast this
        have hq : (value u : ℝ) = ((k * 10000 + k2 : ℕ) : ℝ) * 10000 ^ (u.weight - 1) + r := by
          rw [hval]; push_cast; ring
        have hr0 : (0:ℝ) ≤ r := by exact_mod_cast hm0
        have hr1 : (r:ℝ) ≤ 10000 ^ (u.weight - 1) := by have := castR hm1.le; push_cast at this; exact this
        have hBr : (0:ℝ) < 10000 ^ (u.weight - 1) := by positivity
        have hpow : Real.log ((10000:ℝ) ^ (u.weight - 1)) = ((u.weight * DEC_DIGITS - DEC_DIGITS : ℤ) : ℝ) * Real.log 10 := by
          rw [Real.log_zpow, e4]; simp only [DEC_DIGITS]; push_cast; ring
        generalize ((k * 10000 + k2 : ℕ) : ℝ) = D at *
        rw [← hpow, ← Real.log_mul (by linarith) hBr.ne', ← Real.log_div hX.ne' (by positivity)]
        generalize (10000:ℝ) ^ (u.weight - 1) = B at *
        rw [hq]
        have hz : (D * B + r) / (D * B) = 1 + r / (D * B) := by field_simp
        have hz2 : 0 ≤ r / (D * B) := by positivity
        have hz3 : (r:ℝ) / (D * B) ≤ 1 / 10 ^ 4 := by
          rw [div_le_iff₀ (by positivity)]
          have := mul_le_mul_of_nonneg_right hD hBr.le
          norm_num
          linarith
        rw [hz, abs_of_nonneg (Real.log_nonneg (by linarith))]
        have := Real.log_le_sub_one_of_pos (show (0:ℝ) < 1 + r / (D * B) by linarith)
        linarith)
      refine ⟨_, by rw [fits_ok (by fits_tac), bind_ok]; rfl, fun h => absurd h hne1, fun _ => ?_⟩
      simp only [NBASE]
      push_cast at h ⊢
      exact h

theorem estimate_spec [Build] {lm : Libm} (hl : LibmOK lm) {u : Var} (hu : Canonical u) (hx : 0 < value u) :
    ∃ w, estimateLnDweight lm u = .ok w ∧ (value u = 1 → w = 0) ∧
      (value u ≠ 1 → (10:ℝ) ^ w ≤ 1025 / 100 * |Real.log (value u)| ∧ |Real.log (value u)| ≤ 12 * (10:ℝ) ^ w) :=
  estimate_pos hl (PosVar.of_canonical hu hx)

end PgNumeric
