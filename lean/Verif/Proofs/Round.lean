import Mathlib.Tactic.LinearCombination
import Verif.Proofs.Strip
/-! `round_common` and `trunc_common` against the rational specification. -/
namespace PgNumeric
open Spec Var

theorem mag_shift (ds : List Int) (w k : Int) : mag ds w * 10000 ^ k = mag ds (w + k) := by
  rw [mag_eq_dval, mag_eq_dval, mul_assoc, ← zpow_add₀ B_ne]
  congr 2; ring

theorem mag_int (ds : List Int) : mag ds ((ds.length : Int) - 1) = dval ds := by
  rw [mag_eq_dval]
  have : ((ds.length : Int) - 1 + 1 - ds.length) = 0 := by ring
  rw [this]; simp

theorem carryUp_spec [Build] (ds : List Int) (c : Int) (h : Digits ds) (hc : c = 0 ∨ c = 1) :
    ∃ ds' c', carryUp ds c = .ok (ds', c') ∧ Digits ds' ∧ (c' = 0 ∨ c' = 1) ∧ ds'.length = ds.length ∧
      dval ds' + c' * 10000 ^ ds.length = dval ds + c := by
  induction ds with
  | nil => exact ⟨[], c, rfl, Digits.nil, hc, rfl, by simp⟩
  | cons d ds ih =>
    rw [Digits.cons] at h
    obtain ⟨ds', c', e, hd, hc', hl, hv⟩ := ih h.2
    unfold carryUp
    rw [e]
    simp only [bind_ok]
    rcases hc' with rfl | rfl
    · refine ⟨d :: ds', 0, by simp, Digits.cons.2 ⟨h.1, hd⟩, .inl rfl, by simp [hl], ?_⟩
      rw [dval_cons, dval_cons, hl]; linarith
    · rw [i32_ok (by omega) (by omega)]
      simp only [bind_ok, NBASE]
      by_cases hB : 1 + d ≥ 10000
      · refine ⟨(1 + d - 10000) :: ds', 1, by simp [hB], Digits.cons.2 ⟨by omega, hd⟩, .inr rfl, by simp [hl], ?_⟩
        rw [dval_cons, dval_cons, hl, List.length_cons, pow_succ]; linarith
      · refine ⟨(1 + d) :: ds', 0, by simp [hB], Digits.cons.2 ⟨by omega, hd⟩, .inl rfl, by simp [hl], ?_⟩
        rw [dval_cons, dval_cons, hl]; linarith

theorem roundDigit_spec [Build] (d p : Int) (hd : 0 ≤ d ∧ d < 10000) (hp : p = 10 ∨ p = 100 ∨ p = 1000) :
    ∃ d' c, roundDigit d p = .ok (d', c) ∧ (0 ≤ d' ∧ d' < 10000) ∧ (c = 0 ∨ c = 1) ∧
      d' + c * 10000 = p * (d / p) + (if d % p ≥ p / 2 then p else 0) := by
  have h1 : p * (d / p) + d % p = d := Int.mul_ediv_add_emod d p
  have h2 : 0 ≤ d % p := Int.emod_nonneg _ (by omega)
  have h3 : d % p < p := Int.emod_lt_of_pos _ (by omega)
  unfold roundDigit
  simp only [NBASE]
  by_cases he : d % p ≥ p / 2
  · simp only [he, if_true]
    rw [i16_ok (by omega) (by omega)]
    simp only [bind_ok]
    by_cases hB : p + (d - d % p) ≥ 10000
    · exact ⟨p + (d - d % p) - 10000, 1, by simp [hB], by rcases hp with rfl | rfl | rfl <;> omega, .inr rfl, by omega⟩
    · refine ⟨p + (d - d % p), 0, by simp [hB], by omega, .inl rfl, by omega⟩
  · simp only [he, if_false]
    have : 0 ≤ p * (d / p) := mul_nonneg (by omega) (Int.ediv_nonneg hd.1 (by omega))
    exact ⟨d - d % p, 0, rfl, by omega, .inl rfl, by omega⟩

theorem floor_half (P : ℤ) (f : ℚ) (h0 : 0 ≤ f) (h1 : f < 1) :
    ⌊(P : ℚ) + f + 1 / 2⌋ = P + (if (1:ℚ) / 2 ≤ f then 1 else 0) := by
  rw [Int.floor_eq_iff]
  split <;> push_cast <;> constructor <;> linarith

theorem roundPower_cases {k : Int} (h0 : 0 < k) (h4 : k < 4) :
    (k = 1 ∧ roundPower k = 1000) ∨ (k = 2 ∧ roundPower k = 100) ∨ (k = 3 ∧ roundPower k = 10) := by
  have : k = 1 ∨ k = 2 ∨ k = 3 := by omega
  rcases this with rfl | rfl | rfl <;> simp [roundPower]

theorem roundPower_pow {k : Int} (h0 : 0 < k) (h4 : k < 4) : ((roundPower k : Int) : ℚ) = 10 ^ (4 - k) := by
  rcases roundPower_cases h0 h4 with ⟨rfl, h⟩ | ⟨rfl, h⟩ | ⟨rfl, h⟩ <;> rw [h] <;> norm_num

theorem value_mk_pos (w s : Int) (ds : List Int) : value ⟨w, s, .pos, ds⟩ = mag ds w := rfl

/-- Splitting a digit string at index `n`. -/
theorem mag_split (ds : List Int) (w : Int) (n : Nat) (hn : n ≤ ds.length) :
    mag ds w = mag (ds.take n) w + mag (ds.drop n) (w - n) := by
  conv_lhs => rw [← List.take_append_drop n ds]
  rw [mag_append, List.length_take, min_eq_left hn]

/-- The magnitude part of `roundHalfAway`. -/
def rmag (m : ℚ) (s : Int) : ℚ := ((⌊m * 10 ^ s + 1 / 2⌋ : ℤ) : ℚ) / 10 ^ s
/-- The magnitude part of `truncTo`. -/
def tmag (m : ℚ) (s : Int) : ℚ := ((⌊m * 10 ^ s⌋ : ℤ) : ℚ) / 10 ^ s

theorem rmag_zero (s : Int) : rmag 0 s = 0 := by
  unfold rmag
  have : ⌊(0:ℚ) * 10 ^ s + 1 / 2⌋ = 0 := by
    rw [zero_mul, Int.floor_eq_iff]; norm_num
  rw [this]; simp

theorem tmag_zero (s : Int) : tmag 0 s = 0 := by unfold tmag; simp

theorem roundHalfAway_of_nonneg {m : ℚ} (h : 0 ≤ m) (s : Int) : roundHalfAway m s = rmag m s := by
  unfold roundHalfAway rmag; rw [if_neg (not_lt.2 h)]

theorem roundHalfAway_neg (m : ℚ) (s : Int) : roundHalfAway (-m) s = - roundHalfAway m s := by
  rcases lt_trichotomy m 0 with h | rfl | h
  · unfold roundHalfAway
    rw [if_neg (by linarith), if_pos h, neg_div, neg_neg]
  · rw [neg_zero, roundHalfAway_of_nonneg le_rfl, rmag_zero, neg_zero]
  · unfold roundHalfAway
    rw [if_pos (by linarith), if_neg (by linarith), neg_div, neg_neg]

theorem truncTo_of_nonneg {m : ℚ} (h : 0 ≤ m) (s : Int) : truncTo m s = tmag m s := by
  unfold truncTo tmag; rw [if_neg (not_lt.2 h)]

theorem truncTo_neg (m : ℚ) (s : Int) : truncTo (-m) s = - truncTo m s := by
  rcases lt_trichotomy m 0 with h | rfl | h
  · unfold truncTo
    rw [if_neg (by linarith), if_pos h, neg_div, neg_neg]
  · rw [neg_zero, truncTo_of_nonneg le_rfl, tmag_zero, neg_zero]
  · unfold truncTo
    rw [if_pos (by linarith), if_neg (by linarith), neg_div, neg_neg]

/-- Rounding a signed value follows from rounding its magnitude. -/
theorem value_round_of_mag {v u : Var} {s : Int} (h : Digits v.digits)
    (hs : u.sign = v.sign ∨ (mag u.digits u.weight = 0 ∧ u.sign = .pos))
    (hm : mag u.digits u.weight = rmag (mag v.digits v.weight) s) :
    value u = roundHalfAway (value v) s := by
  have hp := mag_nonneg h v.weight
  unfold value
  rcases hs with hs | ⟨h0, hs⟩
  · rw [hs]
    cases v.sign <;> simp only
    · rw [hm, roundHalfAway_of_nonneg hp]
    · rw [hm, roundHalfAway_neg, roundHalfAway_of_nonneg hp]
    · rw [hm, roundHalfAway_of_nonneg hp]
  · rw [hs]
    rw [h0] at hm
    cases v.sign <;> simp only
    · rw [h0, roundHalfAway_of_nonneg hp, hm]
    · rw [h0, roundHalfAway_neg, roundHalfAway_of_nonneg hp, ← hm, neg_zero]
    · rw [h0, roundHalfAway_of_nonneg hp, hm]

theorem value_trunc_of_mag {v u : Var} {s : Int} (h : Digits v.digits)
    (hs : u.sign = v.sign ∨ (mag u.digits u.weight = 0 ∧ u.sign = .pos))
    (hm : mag u.digits u.weight = tmag (mag v.digits v.weight) s) :
    value u = truncTo (value v) s := by
  have hp := mag_nonneg h v.weight
  unfold value
  rcases hs with hs | ⟨h0, hs⟩
  · rw [hs]
    cases v.sign <;> simp only
    · rw [hm, truncTo_of_nonneg hp]
    · rw [hm, truncTo_neg, truncTo_of_nonneg hp]
    · rw [hm, truncTo_of_nonneg hp]
  · rw [hs]
    rw [h0] at hm
    cases v.sign <;> simp only
    · rw [h0, truncTo_of_nonneg hp, hm]
    · rw [h0, truncTo_neg, truncTo_of_nonneg hp, ← hm, neg_zero]
    · rw [h0, truncTo_of_nonneg hp, hm]

/-- If every digit is kept, rounding and truncating change nothing. -/
theorem mag_mul_int {ds : List Int} {w s : Int} (h : 4 * (ds.length : Int) ≤ (w + 1) * 4 + s) :
    ∃ n : ℤ, mag ds w * 10 ^ s = n := by
  rw [mag_eq_dval, B_eq_T, mul_assoc, ← zpow_add₀ (by norm_num : (10:ℚ) ≠ 0)]
  obtain ⟨k, hk⟩ := Int.eq_ofNat_of_zero_le (a := 4 * (w + 1 - (ds.length : Int)) + s) (by linarith)
  rw [hk]
  refine ⟨dval ds * 10 ^ k, ?_⟩
  push_cast
  rw [zpow_natCast]

theorem rmag_of_int {m : ℚ} {s : Int} (h : ∃ n : ℤ, m * 10 ^ s = n) : rmag m s = m := by
  obtain ⟨n, hn⟩ := h
  unfold rmag
  have : ⌊m * 10 ^ s + 1 / 2⌋ = n := by
    rw [hn, Int.floor_eq_iff]; constructor <;> linarith
  rw [this, ← hn, mul_div_assoc, div_self (T_zpow_pos s).ne', mul_one]

theorem tmag_of_int {m : ℚ} {s : Int} (h : ∃ n : ℤ, m * 10 ^ s = n) : tmag m s = m := by
  obtain ⟨n, hn⟩ := h
  unfold tmag
  have : ⌊m * 10 ^ s⌋ = n := by rw [hn]; simp
  rw [this, ← hn, mul_div_assoc, div_self (T_zpow_pos s).ne', mul_one]

/-- `10^s` in terms of the number of decimal digits wanted. -/
theorem T_di (w s : Int) (n k : Int) (h : (w + 1) * 4 + s = 4 * n - k) :
    (10:ℚ) ^ s = 10000 ^ (n - 1 - w) / 10 ^ k := by
  rw [B_eq_T, ← zpow_sub₀ (by norm_num : (10:ℚ) ≠ 0)]
  congr 1; linarith

theorem mag_carry {ds' : List Int} {c : Int} (w : Int) {P : Int} 
    (hv : dval ds' + c * 10000 ^ ds'.length = P) (hc : c = 0 ∨ c = 1) (s : Int) (sg : Sign) :
    mag (if c > 0 then (⟨w + 1, s, sg, c :: ds'⟩ : Var) else ⟨w, s, sg, ds'⟩).digits
      (if c > 0 then (⟨w + 1, s, sg, c :: ds'⟩ : Var) else ⟨w, s, sg, ds'⟩).weight
    = P * 10000 ^ (w + 1 - ds'.length) := by
  rcases hc with rfl | rfl
  · simp only [gt_iff_lt, lt_self_iff_false, if_false]
    rw [mag_eq_dval, ← hv]; simp
  · simp only [gt_iff_lt, zero_lt_one, if_true]
    rw [mag_eq_dval, dval_cons, ← hv, List.length_cons]
    push_cast
    rw [add_comm]
    congr 2
    ring

theorem roundCommon_spec [Build] (v : Var) (s : Int) (h : Digits v.digits) (hn : v.sign ≠ .nan)
    (hw : -300000000 ≤ v.weight ∧ v.weight ≤ 300000000) (hs : -300000000 ≤ s ∧ s ≤ 300000000) :
    ∃ u, roundCommon v s = .ok u ∧ Digits u.digits ∧ u.sign ≠ .nan ∧ u.dscale = s ∧
      value u = roundHalfAway (value v) s := by
  unfold roundCommon
  rw [dassert_ok hn, bind_ok]
  kill_fits
  simp only [bind_ok, DEC_DIGITS, ndigits, HALF_NBASE, pure_ok]
  by_cases hdi : (v.weight + 1) * 4 + s < 0
  · rw [if_pos hdi]
    refine ⟨_, rfl, Digits.nil, by simp, rfl, ?_⟩
    refine value_round_of_mag h (.inr ⟨rfl, rfl⟩) ?_
    rw [mag_nil]
    symm
    unfold rmag
    have hlt := mag_lt h v.weight
    have h0 := mag_nonneg h v.weight
    have : ⌊mag v.digits v.weight * 10 ^ s + 1 / 2⌋ = 0 := by
      rw [Int.floor_eq_iff]
      have hT := T_zpow_pos s
      constructor
      · push_cast; positivity
      · have : mag v.digits v.weight * 10 ^ s < 10000 ^ (v.weight + 1) * 10 ^ s :=
          mul_lt_mul_of_pos_right hlt hT
        rw [B_eq_T, ← zpow_add₀ (by norm_num : (10:ℚ) ≠ 0)] at this
        have h2 : (10:ℚ) ^ (4 * (v.weight + 1) + s) ≤ 10 ^ (-1 : Int) := T_zpow_le_iff.2 (by linarith)
        have h3 : (10:ℚ) ^ (-1 : Int) = 1/10 := by norm_num
        rw [h3] at h2
        have h4 := lt_of_lt_of_le this h2
        rw [Int.cast_zero]
        linarith
    rw [this]; simp
  · rw [if_neg hdi]
    simp only [not_lt] at hdi
    generalize hD : (v.weight + 1) * 4 + s = di at *
    set nd : Int := (di + 4 - 1) / 4 with hnd
    have hnd0 : 0 ≤ nd := by omega
    obtain ⟨n, hn'⟩ := Int.eq_ofNat_of_zero_le hnd0
    by_cases hcut : nd < v.digits.length ∨ (nd = v.digits.length ∧ di % 4 > 0)
    · rw [if_pos hcut]
      rw [hn'] at hcut ⊢
      simp only [Int.toNat_natCast]
      by_cases hk : di % 4 = 0
      · rw [if_pos hk]
        have hlt : n < v.digits.length := by omega
        rw [getM_ok hlt]
        simp only [bind_ok]
        have hdig := Digits.get h hlt
        obtain ⟨ds', c', e, hd', hc', hl, hv⟩ := carryUp_spec (v.digits.take n)
          (if v.digits[n] ≥ 5000 then 1 else 0) (h.take n) (by split <;> simp)
        rw [e]
        simp only [bind_ok]
        have hlen : ds'.length = n := by rw [hl, List.length_take]; omega
        rw [show (v.digits.take n).length = ds'.length from hl.symm] at hv
        have key : ∀ u, u = (if c' > 0 then (⟨v.weight + 1, s, v.sign, c' :: ds'⟩ : Var) else ⟨v.weight, s, v.sign, ds'⟩) →
            Digits u.digits ∧ u.sign ≠ .nan ∧ u.dscale = s ∧ value u = roundHalfAway (value v) s := by
          intro u hu
          refine ⟨?_, ?_, ?_, ?_⟩
          · rw [hu]; split
            · exact Digits.cons.2 ⟨by omega, hd'⟩
            · exact hd'
          · rw [hu]; split <;> exact hn
          · rw [hu]; split <;> rfl
          · refine value_round_of_mag h (.inl (by rw [hu]; split <;> rfl)) ?_
            rw [hu, mag_carry v.weight hv hc' s v.sign]
            unfold rmag
            have hT := T_di v.weight s n 0 (by omega)
            rw [zpow_zero, div_one] at hT
            rw [hT, mag_shift, show v.weight + ((n:Int) - 1 - v.weight) = (n:Int) - 1 by ring,
              mag_split _ _ n hlt.le, show ((n:Int) - 1 - n) = -1 by ring]
            have e1 : mag (v.digits.take n) ((n:Int) - 1) = dval (v.digits.take n) := by
              have := mag_int (v.digits.take n)
              rwa [List.length_take, min_eq_left hlt.le] at this
            have hf0 := mag_nonneg (h.drop n) (-1)
            have hf1 := mag_lt (h.drop n) (-1)
            rw [show ((-1:Int) + 1) = 0 by ring, zpow_zero] at hf1
            rw [e1, floor_half _ _ hf0 hf1, hlen]
            have hiff : ((1:ℚ) / 2 ≤ mag (v.digits.drop n) (-1)) ↔ v.digits[n] ≥ 5000 := by
              rw [List.drop_eq_getElem_cons hlt, mag_cons]
              have g0 := mag_nonneg (h.drop (n+1)) (-1 - 1)
              have g1 := mag_lt (h.drop (n+1)) (-1 - 1)
              have : (10000:ℚ) ^ (-1 - 1 + 1 : Int) = 1 / 10000 := by norm_num
              rw [this] at g1
              have : (10000:ℚ) ^ (-1 : Int) = 1 / 10000 := by norm_num
              rw [this]
              generalize mag (v.digits.drop (n+1)) (-1 - 1) = g at g0 g1 ⊢
              generalize hx : v.digits[n] = x at *
              constructor
              · intro hh
                by_contra hc
                have : (x : ℚ) ≤ 4999 := by exact_mod_cast (by omega : x ≤ 4999)
                linarith
              · intro hh
                have : (5000 : ℚ) ≤ (x : ℚ) := by exact_mod_cast hh
                linarith
            simp only [hiff]
            rw [show ((n:Int) - 1 - v.weight) = -(v.weight + 1 - n) by ring, zpow_neg, div_inv_eq_mul]
        by_cases hc : c' > 0
        · rw [if_pos hc] at key ⊢; exact ⟨_, rfl, key _ rfl⟩
        · rw [if_neg hc] at key ⊢; exact ⟨_, rfl, key _ rfl⟩
      · rw [if_neg hk]
        have hk0 : 0 < di % 4 := by omega
        have hk4 : di % 4 < 4 := by omega
        have hn1 : 1 ≤ n := by omega
        have hlt : n - 1 < v.digits.length := by omega
        rw [getM_ok hlt]
        simp only [bind_ok]
        have hdig := Digits.get h hlt
        have hpp : roundPower (di % 4) = 10 ∨ roundPower (di % 4) = 100 ∨ roundPower (di % 4) = 1000 := by
          rcases roundPower_cases hk0 hk4 with ⟨-, hh⟩ | ⟨-, hh⟩ | ⟨-, hh⟩ <;> simp [hh]
        obtain ⟨d', c, e, hd', hc, hv'⟩ := roundDigit_spec v.digits[n-1] _ hdig hpp
        rw [e]
        simp only [bind_ok]
        obtain ⟨ds', c', e, hds', hc', hl, hv⟩ := carryUp_spec (v.digits.take (n-1)) c (h.take _) hc
        rw [e]
        simp only [bind_ok]
        have hlen : ds'.length = n - 1 := by rw [hl, List.length_take]; omega
        rw [show (v.digits.take (n-1)).length = ds'.length from hl.symm] at hv
        have hv2 : dval (ds' ++ [d']) + c' * 10000 ^ (ds' ++ [d']).length =
            dval (v.digits.take (n-1)) * 10000 + (roundPower (di % 4) * (v.digits[n-1] / roundPower (di % 4)) +
              (if v.digits[n-1] % roundPower (di % 4) ≥ roundPower (di % 4) / 2 then roundPower (di % 4) else 0)) := by
          rw [dval_append, List.length_append]
          simp only [List.length_cons, List.length_nil, zero_add, dval_cons, dval_nil, pow_zero, mul_one,
            add_zero, pow_succ]
          rw [← hv']
          have := congrArg (· * 10000) hv
          simp only [add_mul] at this
          linarith
        have key : ∀ u, u = (if c' > 0 then (⟨v.weight + 1, s, v.sign, c' :: (ds' ++ [d'])⟩ : Var) else ⟨v.weight, s, v.sign, ds' ++ [d']⟩) →
            Digits u.digits ∧ u.sign ≠ .nan ∧ u.dscale = s ∧ value u = roundHalfAway (value v) s := by
          intro u hu
          have hD2 : Digits (ds' ++ [d']) := Digits.append.2 ⟨hds', Digits.cons.2 ⟨hd', Digits.nil⟩⟩
          refine ⟨?_, ?_, ?_, ?_⟩
          · rw [hu]; split
            · exact Digits.cons.2 ⟨by omega, hD2⟩
            · exact hD2
          · rw [hu]; split <;> exact hn
          · rw [hu]; split <;> rfl
          · refine value_round_of_mag h (.inl (by rw [hu]; split <;> rfl)) ?_
            rw [hu, mag_carry v.weight hv2 hc' s v.sign]
            unfold rmag
            have hT := T_di v.weight s n (4 - di % 4) (by omega)
            rw [← roundPower_pow hk0 hk4] at hT
            set p := roundPower (di % 4) with hp
            have hp0 : (0:ℚ) < p := by exact_mod_cast (by omega : (0:Int) < p)
            have h1 : p * (v.digits[n-1] / p) + v.digits[n-1] % p = v.digits[n-1] := Int.mul_ediv_add_emod _ p
            have h2 : 0 ≤ v.digits[n-1] % p := Int.emod_nonneg _ (by omega)
            have h3 : v.digits[n-1] % p < p := Int.emod_lt_of_pos _ (by omega)
            have hpB : p * (10000 / p) = 10000 := by rcases hpp with hh | hh | hh <;> rw [hh] <;> norm_num
            have e2 : mag v.digits ((n:Int) - 1) = dval (v.digits.take (n-1)) * 10000 + v.digits[n-1] + mag (v.digits.drop n) (-1) := by
              rw [mag_split _ _ (n-1) hlt.le]
              have e1 := mag_int (v.digits.take (n-1))
              rw [List.length_take, min_eq_left hlt.le] at e1
              have e3 : mag (v.digits.take (n-1)) ((n:Int) - 1) = dval (v.digits.take (n-1)) * 10000 := by
                rw [← e1, show (10000:ℚ) = 10000 ^ (1:Int) by norm_num, mag_shift]
                congr 1; omega
              rw [e3, show ((n:Int) - 1 - ((n-1 : Nat) : Int)) = 0 by omega, List.drop_eq_getElem_cons hlt, mag_cons,
                show n - 1 + 1 = n by omega]
              simp; ring
            have hf0 := mag_nonneg (h.drop n) (-1)
            have hf1 := mag_lt (h.drop n) (-1)
            rw [show ((-1:Int) + 1) = 0 by ring, zpow_zero] at hf1
            set g := mag (v.digits.drop n) (-1) with hg
            have hX : mag v.digits v.weight * 10 ^ s =
                ((dval (v.digits.take (n-1)) * (10000 / p) + v.digits[n-1] / p : ℤ) : ℚ) +
                  (((v.digits[n-1] % p : ℤ) : ℚ) + g) / p := by
              rw [hT, ← mul_div_assoc, mag_shift, show v.weight + ((n:Int) - 1 - v.weight) = (n:Int) - 1 by ring, e2]
              rw [div_eq_iff hp0.ne', add_mul, div_mul_cancel₀ _ hp0.ne']
              have h1' : (p:ℚ) * ((v.digits[n-1] / p : ℤ) : ℚ) + ((v.digits[n-1] % p : ℤ) : ℚ) = v.digits[n-1] := by
                exact_mod_cast h1
              have hpB' : (p:ℚ) * ((10000 / p : ℤ) : ℚ) = 10000 := by exact_mod_cast hpB
              push_cast
              linear_combination (-(dval (v.digits.take (n-1)) : ℚ)) * hpB' - h1'
            have h2' : (0:ℚ) ≤ ((v.digits[n-1] % p : ℤ) : ℚ) := by exact_mod_cast h2
            have h3' : ((v.digits[n-1] % p : ℤ) : ℚ) + 1 ≤ p := by exact_mod_cast h3
            rw [hX, floor_half _ _ (by positivity) (by rw [div_lt_one hp0]; linarith)]
            have hiff : ((1:ℚ) / 2 ≤ (((v.digits[n-1] % p : ℤ) : ℚ) + g) / p) ↔ v.digits[n-1] % p ≥ p / 2 := by
              rw [le_div_iff₀ hp0]
              have hp2 : p = 2 * (p / 2) := by rcases hpp with hh | hh | hh <;> rw [hh] <;> norm_num
              have hp2' : (p:ℚ) = 2 * ((p / 2 : ℤ) : ℚ) := by exact_mod_cast hp2
              constructor
              · intro hh
                by_contra hc
                have : ((v.digits[n-1] % p : ℤ) : ℚ) + 1 ≤ ((p / 2 : ℤ) : ℚ) := by
                  exact_mod_cast (by omega : v.digits[n-1] % p + 1 ≤ p / 2)
                linarith
              · intro hh
                have : ((p / 2 : ℤ) : ℚ) ≤ ((v.digits[n-1] % p : ℤ) : ℚ) := by exact_mod_cast hh
                linarith
            simp only [hiff]
            have hl2 : ((ds' ++ [d']).length : Int) = n := by simp [hlen]; omega
            rw [hl2, hT, show ((n:Int) - 1 - v.weight) = -(v.weight + 1 - n) by ring, zpow_neg]
            have hB := B_zpow_pos (v.weight + 1 - n)
            rw [div_div_eq_mul_div, div_inv_eq_mul]
            congr 1
            have hpB' : (p:ℚ) * ((10000 / p : ℤ) : ℚ) = 10000 := by exact_mod_cast hpB
            push_cast
            split
            · linear_combination (-(dval (v.digits.take (n-1)) : ℚ)) * hpB'
            · linear_combination (-(dval (v.digits.take (n-1)) : ℚ)) * hpB'
        by_cases hc : c' > 0
        · rw [if_pos hc] at key ⊢; exact ⟨_, rfl, key _ rfl⟩
        · rw [if_neg hc] at key ⊢; exact ⟨_, rfl, key _ rfl⟩
    · rw [if_neg hcut]
      refine ⟨_, rfl, h, hn, rfl, ?_⟩
      refine value_round_of_mag h (.inl rfl) ?_
      exact (rmag_of_int (mag_mul_int (ds := v.digits) (w := v.weight) (s := s) (by omega))).symm

theorem carryUp_length [Build] {ds : List Int} {c : Int} {ds' : List Int} {c' : Int} (e : carryUp ds c = .ok (ds', c')) :
    ds'.length = ds.length := by
  induction ds generalizing ds' c' with
  | nil => cases e; rfl
  | cons d ds ih =>
    unfold carryUp at e
    cases h : carryUp ds c with
    | error f => rw [h] at e; cases e
    | ok p =>
      rw [h] at e
      simp only [bind_ok] at e
      have := ih (ds' := p.1) (c' := p.2) h
      split at e
      · cases h2 : i32 (p.2 + d) with
        | error f => rw [h2] at e; cases e
        | ok q =>
          rw [h2] at e
          simp only [bind_ok] at e
          split at e <;> cases e <;> simp [this]
      · cases e; simp [this]

/-- A rounded variable has at most one digit more, and its leading digit moves up by at most one place or the variable is
cleared. -/
theorem roundCommon_shape [Build] (v : Var) (s : Int) {u : Var} (hu : roundCommon v s = .ok u) :
    u.digits.length ≤ v.digits.length + 1 ∧ (u.weight = v.weight ∨ u.weight = 0 ∨ u.weight = v.weight + 1) := by
  unfold roundCommon at hu
  simp only [bind, Except.bind] at hu
  split at hu
  · cases hu
  split at hu
  · cases hu
  simp only [pure, Except.pure, ndigits] at hu
  generalize hD : (v.weight + 1) * DEC_DIGITS + s = di at hu
  split at hu
  · cases hu; simp
  · split at hu
    · have take_len : ∀ k : Nat, (v.digits.take k).length ≤ v.digits.length := by intro k; simp
      split at hu
      · split at hu
        · cases hu
        · split at hu
          · cases hu
          · rename_i q hq
            have hl := carryUp_length (ds' := q.1) (c' := q.2) hq
            have := take_len ((di + DEC_DIGITS - 1) / DEC_DIGITS).toNat
            split at hu <;> cases hu <;> refine ⟨by simp only [List.length_cons]; omega, by simp⟩
      · split at hu
        · cases hu
        · rename_i d hd
          split at hu
          · cases hu
          · split at hu
            · cases hu
            · rename_i q hq
              have hl := carryUp_length (ds' := q.1) (c' := q.2) hq
              have := take_len (((di + DEC_DIGITS - 1) / DEC_DIGITS).toNat - 1)
              have h2 : (((di + DEC_DIGITS - 1) / DEC_DIGITS).toNat - 1) < v.digits.length := by
                unfold getM at hd
                split at hd
                · rename_i x hx
                  exact (List.getElem?_eq_some_iff.1 hx).1
                · cases hd
              rw [List.length_take] at hl
              split at hu <;> cases hu <;>
                refine ⟨by simp only [List.length_cons, List.length_append, List.length_nil]; omega, by simp⟩
    · cases hu; simp

/-- Stripping a rounded variable stays within `i32`. -/
theorem round_stripM [Build] {v : Var} {s : Int} {u : Var} (hu : roundCommon v s = .ok u)
    (hw : -300000000 ≤ v.weight ∧ v.weight ≤ 300000000) (hl : (v.digits.length : Int) ≤ 1000000000) :
    stripM u = .ok (strip u) := by
  obtain ⟨h1, h2⟩ := roundCommon_shape v s hu
  exact stripM_ok (by omega) (by omega)

theorem truncCommon_spec [Build] (v : Var) (s : Int) (h : Digits v.digits) (hn : v.sign ≠ .nan)
    (hw : -300000000 ≤ v.weight ∧ v.weight ≤ 300000000) (hs : -300000000 ≤ s ∧ s ≤ 300000000) :
    ∃ u, truncCommon v s = .ok u ∧ Digits u.digits ∧ u.sign ≠ .nan ∧ u.dscale = s ∧
      value u = truncTo (value v) s ∧ (u.digits = [] → u.weight = 0 ∧ u.sign = .pos ∨ u = { v with dscale := s }) ∧
      u.digits.length ≤ v.digits.length ∧ (u.weight = v.weight ∨ u.digits = []) ∧
      (u.digits ≠ [] → u.sign = v.sign) ∧
      (s % 4 = 0 → v.digits.head? ≠ some 0 → u.digits.head? ≠ some 0) := by
  unfold truncCommon
  rw [dassert_ok hn, bind_ok]
  kill_fits
  simp only [bind_ok, DEC_DIGITS, ndigits, pure_ok]
  by_cases hdi : (v.weight + 1) * 4 + s ≤ 0
  · rw [if_pos hdi]
    refine ⟨_, rfl, Digits.nil, by simp, rfl, ?_, fun _ => .inl ⟨rfl, rfl⟩, by simp, .inr rfl, by simp, by simp⟩
    refine value_trunc_of_mag h (.inr ⟨rfl, rfl⟩) ?_
    rw [mag_nil]
    symm
    unfold tmag
    have hlt := mag_lt h v.weight
    have h0 := mag_nonneg h v.weight
    have : ⌊mag v.digits v.weight * 10 ^ s⌋ = 0 := by
      rw [Int.floor_eq_iff]
      have hT := T_zpow_pos s
      constructor
      · push_cast; positivity
      · have : mag v.digits v.weight * 10 ^ s < 10000 ^ (v.weight + 1) * 10 ^ s :=
          mul_lt_mul_of_pos_right hlt hT
        rw [B_eq_T, ← zpow_add₀ (by norm_num : (10:ℚ) ≠ 0)] at this
        have h2 : (10:ℚ) ^ (4 * (v.weight + 1) + s) ≤ 10 ^ (0 : Int) := T_zpow_le_iff.2 (by linarith)
        rw [zpow_zero] at h2
        have h4 := lt_of_lt_of_le this h2
        rw [Int.cast_zero]
        linarith
    rw [this]; simp
  · rw [if_neg hdi]
    simp only [not_le] at hdi
    generalize hD : (v.weight + 1) * 4 + s = di at *
    set nd : Int := (di + 4 - 1) / 4 with hnd
    have hnd0 : 0 ≤ nd := by omega
    obtain ⟨n, hn'⟩ := Int.eq_ofNat_of_zero_le hnd0
    by_cases hcut : nd ≤ v.digits.length
    · rw [if_pos hcut]
      rw [hn'] at hcut ⊢
      simp only [Int.toNat_natCast]
      have hn1 : 1 ≤ n := by omega
      have hle : n ≤ v.digits.length := by omega
      by_cases hk : di % 4 > 0
      · rw [if_pos hk]
        have hk4 : di % 4 < 4 := by omega
        have hlt : n - 1 < v.digits.length := by omega
        rw [getM_ok hlt]
        simp only [bind_ok]
        have hdig := h.get hlt
        have hpp : roundPower (di % 4) = 10 ∨ roundPower (di % 4) = 100 ∨ roundPower (di % 4) = 1000 := by
          rcases roundPower_cases hk hk4 with ⟨-, hh⟩ | ⟨-, hh⟩ | ⟨-, hh⟩ <;> simp [hh]
        have hT := T_di v.weight s n (4 - di % 4) (by omega)
        rw [← roundPower_pow hk hk4] at hT
        set p := roundPower (di % 4) with hp
        have hp0 : (0:ℚ) < p := by exact_mod_cast (by omega : (0:Int) < p)
        have h1 : p * (v.digits[n-1] / p) + v.digits[n-1] % p = v.digits[n-1] := Int.mul_ediv_add_emod _ p
        have h2 : 0 ≤ v.digits[n-1] % p := Int.emod_nonneg _ (by omega)
        have h3 : v.digits[n-1] % p < p := Int.emod_lt_of_pos _ (by omega)
        have h5 : 0 ≤ p * (v.digits[n-1] / p) := mul_nonneg (by omega) (Int.ediv_nonneg hdig.1 (by omega))
        have hpB : p * (10000 / p) = 10000 := by rcases hpp with hh | hh | hh <;> rw [hh] <;> norm_num
        refine ⟨_, rfl, ?_, hn, rfl, ?_, ?_, ?_, .inl rfl, fun _ => rfl, ?_⟩
        · exact Digits.append.2 ⟨h.take _, Digits.cons.2 ⟨by omega, Digits.nil⟩⟩
        · refine value_trunc_of_mag h (.inl rfl) ?_
          unfold tmag
          have e2 : mag v.digits ((n:Int) - 1) = dval (v.digits.take (n-1)) * 10000 + v.digits[n-1] + mag (v.digits.drop n) (-1) := by
            rw [mag_split _ _ (n-1) hlt.le]
            have e1 := mag_int (v.digits.take (n-1))
            rw [List.length_take, min_eq_left hlt.le] at e1
            have e3 : mag (v.digits.take (n-1)) ((n:Int) - 1) = dval (v.digits.take (n-1)) * 10000 := by
              rw [← e1, show (10000:ℚ) = 10000 ^ (1:Int) by norm_num, mag_shift]
              congr 1; omega
            rw [e3, show ((n:Int) - 1 - ((n-1 : Nat) : Int)) = 0 by omega, List.drop_eq_getElem_cons hlt, mag_cons,
              show n - 1 + 1 = n by omega]
            simp; ring
          have hf0 := mag_nonneg (h.drop n) (-1)
          have hf1 := mag_lt (h.drop n) (-1)
          rw [show ((-1:Int) + 1) = 0 by ring, zpow_zero] at hf1
          set g := mag (v.digits.drop n) (-1) with hg
          have h1' : (p:ℚ) * ((v.digits[n-1] / p : ℤ) : ℚ) + ((v.digits[n-1] % p : ℤ) : ℚ) = v.digits[n-1] := by
            exact_mod_cast h1
          have hpB' : (p:ℚ) * ((10000 / p : ℤ) : ℚ) = 10000 := by exact_mod_cast hpB
          have hX : mag v.digits v.weight * 10 ^ s =
              ((dval (v.digits.take (n-1)) * (10000 / p) + v.digits[n-1] / p : ℤ) : ℚ) +
                (((v.digits[n-1] % p : ℤ) : ℚ) + g) / p := by
            rw [hT, ← mul_div_assoc, mag_shift, show v.weight + ((n:Int) - 1 - v.weight) = (n:Int) - 1 by ring, e2]
            rw [div_eq_iff hp0.ne', add_mul, div_mul_cancel₀ _ hp0.ne']
            push_cast
            linear_combination (-(dval (v.digits.take (n-1)) : ℚ)) * hpB' - h1'
          have h2' : (0:ℚ) ≤ ((v.digits[n-1] % p : ℤ) : ℚ) := by exact_mod_cast h2
          have h3' : ((v.digits[n-1] % p : ℤ) : ℚ) + 1 ≤ p := by exact_mod_cast h3
          have hfl : ⌊mag v.digits v.weight * 10 ^ s⌋ = dval (v.digits.take (n-1)) * (10000 / p) + v.digits[n-1] / p := by
            rw [hX, Int.floor_eq_iff]
            have : (((v.digits[n-1] % p : ℤ) : ℚ) + g) / p < 1 := by rw [div_lt_one hp0]; linarith
            have : 0 ≤ (((v.digits[n-1] % p : ℤ) : ℚ) + g) / p := by positivity
            constructor <;> linarith
          rw [hfl, mag_eq_dval, dval_append]
          have hl2 : ((v.digits.take (n-1) ++ [v.digits[n-1] - v.digits[n-1] % p]).length : Int) = n := by
            simp; omega
          rw [hl2, hT, show ((n:Int) - 1 - v.weight) = -(v.weight + 1 - n) by ring, zpow_neg]
          have hB := B_zpow_pos (v.weight + 1 - n)
          rw [div_div_eq_mul_div, div_inv_eq_mul]
          congr 1
          simp only [List.length_cons, List.length_nil, zero_add, dval_cons, dval_nil, pow_zero, mul_one,
            add_zero, pow_one]
          push_cast
          linear_combination (-(dval (v.digits.take (n-1)) : ℚ)) * hpB' - h1'
        · intro hh; simp at hh
        · simp; omega
        · intro h4; omega
      · rw [if_neg hk]
        refine ⟨_, rfl, h.take _, hn, rfl, ?_, ?_, ?_, .inl rfl, fun _ => rfl, ?_⟩
        · refine value_trunc_of_mag h (.inl rfl) ?_
          unfold tmag
          have hT := T_di v.weight s n 0 (by omega)
          rw [zpow_zero, div_one] at hT
          rw [hT, mag_shift, show v.weight + ((n:Int) - 1 - v.weight) = (n:Int) - 1 by ring,
            mag_split _ _ n hle, show ((n:Int) - 1 - n) = -1 by ring]
          have e1 : mag (v.digits.take n) ((n:Int) - 1) = dval (v.digits.take n) := by
            have := mag_int (v.digits.take n)
            rwa [List.length_take, min_eq_left hle] at this
          have hf0 := mag_nonneg (h.drop n) (-1)
          have hf1 := mag_lt (h.drop n) (-1)
          rw [show ((-1:Int) + 1) = 0 by ring, zpow_zero] at hf1
          have hfl : ⌊mag (v.digits.take n) ((n:Int) - 1) + mag (v.digits.drop n) (-1)⌋ = dval (v.digits.take n) := by
            rw [e1, Int.floor_eq_iff]; constructor <;> linarith
          rw [hfl, mag_eq_dval, List.length_take, min_eq_left hle,
            show ((n:Int) - 1 - v.weight) = -(v.weight + 1 - n) by ring, zpow_neg, div_inv_eq_mul]
        · intro hh
          simp at hh
          have := List.length_eq_zero_iff.2 (hh.resolve_left (by omega))
          omega
        · simp
        · intro _ hh
          cases hv : v.digits with
          | nil => simp
          | cons d ds =>
            rw [hv] at hh
            obtain ⟨m, rfl⟩ := Nat.exists_eq_add_of_le' hn1
            simpa using hh
    · rw [if_neg hcut]
      refine ⟨_, rfl, h, hn, rfl, ?_, fun _ => .inr rfl, le_rfl, .inl rfl, fun _ => rfl, fun _ hh => hh⟩
      refine value_trunc_of_mag h (.inl rfl) ?_
      exact (tmag_of_int (mag_mul_int (ds := v.digits) (w := v.weight) (s := s) (by omega))).symm

/-- Stripping a truncated variable stays within `i32`. -/
theorem trunc_stripM [Build] {v : Var} {s : Int} {u : Var} (hu : truncCommon v s = .ok u)
    (hw : -300000000 ≤ v.weight ∧ v.weight ≤ 300000000) (hl : (v.digits.length : Int) ≤ 1000000000) :
    stripM u = .ok (strip u) := by
  have h : u.digits.length ≤ v.digits.length ∧ (u.weight = v.weight ∨ u.weight = 0) := by
    unfold truncCommon at hu
    simp only [bind, Except.bind, pure, Except.pure, ndigits] at hu
    split at hu
    · cases hu
    split at hu
    · cases hu
    split at hu
    · cases hu; simp
    split at hu
    · split at hu
      · split at hu
        · cases hu
        · rename_i d hd
          have h2 : (((v.weight + 1) * DEC_DIGITS + s + DEC_DIGITS - 1) / DEC_DIGITS).toNat - 1 < v.digits.length := by
            unfold getM at hd
            split at hd
            · rename_i x hx
              exact (List.getElem?_eq_some_iff.1 hx).1
            · cases hd
          cases hu
          refine ⟨?_, by simp⟩
          simp only [List.length_cons, List.length_append, List.length_nil, List.length_take]
          omega
      · cases hu; simp
    · cases hu; simp
  exact stripM_ok (by omega) (by omega)

theorem roundHalfAway_hasScale (x : ℚ) (s : Int) : HasScale (roundHalfAway x s) s := by
  unfold HasScale roundHalfAway
  have := (T_zpow_pos s).ne'
  split
  · exact ⟨-⌊(-x) * 10 ^ s + 1 / 2⌋, by push_cast; field_simp⟩
  · exact ⟨⌊x * 10 ^ s + 1 / 2⌋, by field_simp⟩

theorem truncTo_hasScale (x : ℚ) (s : Int) : HasScale (truncTo x s) s := by
  unfold HasScale truncTo
  have := (T_zpow_pos s).ne'
  split
  · exact ⟨-⌊(-x) * 10 ^ s⌋, by push_cast; field_simp⟩
  · exact ⟨⌊x * 10 ^ s⌋, by field_simp⟩

theorem Spec.HasScale.mono {x : ℚ} {s t : Int} (h : HasScale x s) (hst : s ≤ t) : HasScale x t := by
  obtain ⟨n, hn⟩ := h
  obtain ⟨k, hk⟩ := Int.eq_ofNat_of_zero_le (a := t - s) (by omega)
  refine ⟨n * 10 ^ k, ?_⟩
  have : t = s + k := by omega
  rw [this, zpow_add₀ (by norm_num : (10:ℚ) ≠ 0), ← mul_assoc, hn, zpow_natCast]
  push_cast; rfl

end PgNumeric
