import Verif.Proofs.UntrustedInt
import Verif.Proofs.UntrustedSum
/-! Truncation and rounding with digits that are not in 0..9999. -/
namespace PgNumeric
open Spec Var Untrusted

theorem magCut_append (xs ys : List Int) (w s : Int) : magCut (xs ++ ys) w s = magCut xs w s + magCut ys (w - xs.length) s := by
  induction xs generalizing w with
  | nil => simp [magCut]
  | cons d ds ih =>
    simp only [List.cons_append, magCut, ih, List.length_cons]
    rw [show w - 1 - (ds.length : Int) = w - ((ds.length + 1 : Nat) : Int) by push_cast; ring]
    ring

theorem magCut_none {ds : List Int} {w s : Int} (h : (w + 1) * 4 + s ≤ 0) : magCut ds w s = 0 := by
  induction ds generalizing w with
  | nil => rfl
  | cons d ds ih =>
    simp only [magCut]
    rw [ih (by omega)]
    unfold cutDigit
    rw [if_neg (by omega), if_pos (by omega)]
    simp

theorem magCut_all {ds : List Int} {w s : Int} (h : 4 * (ds.length : Int) ≤ (w + 1) * 4 + s) : magCut ds w s = mag ds w := by
  induction ds generalizing w with
  | nil => rfl
  | cons d ds ih =>
    rw [List.length_cons] at h
    push_cast at h
    simp only [magCut, mag]
    rw [ih (by omega)]
    unfold cutDigit
    rw [if_pos (by omega)]

theorem magHalf_none {ds : List Int} {w s : Int} (h : (w + 1) * 4 + s < 0) : magHalf ds w s = 0 := by
  induction ds generalizing w with
  | nil => rfl
  | cons d ds ih =>
    simp only [magHalf]
    rw [if_neg (by omega), ih (by omega)]

theorem magHalf_append {xs ys : List Int} {w s : Int} (h : 4 * (xs.length : Int) ≤ (w + 1) * 4 + s) :
    magHalf (xs ++ ys) w s = magHalf ys (w - xs.length) s := by
  induction xs generalizing w with
  | nil => simp
  | cons d ds ih =>
    rw [List.length_cons] at h
    push_cast at h
    simp only [List.cons_append, magHalf, List.length_cons]
    rw [if_neg (by omega), ih (by omega), show w - 1 - (ds.length : Int) = w - ((ds.length + 1 : Nat) : Int) by push_cast; ring]

theorem magHalf_all {ds : List Int} {w s : Int} (h : 4 * (ds.length : Int) ≤ (w + 1) * 4 + s) : magHalf ds w s = 0 := by
  have := magHalf_append (ys := []) h
  rw [List.append_nil] at this
  rw [this]; rfl

/-- What rounding and truncation leave. -/
structure Kept (v r : Var) (s : Int) : Prop where
  digits : Digits15 r.digits
  sign : r.digits = [] ∨ r.sign = v.sign
  not_nan : r.sign ≠ .nan
  dscale : r.dscale = s
  room : (r.digits.length : Int) ≤ r.weight + 502
  weight_ge : -502 ≤ r.weight
  weight_le : r.weight ≤ max v.weight 0 + 1

theorem split_here {ds : List Int} {n : Nat} (h : n < ds.length) : ds = ds.take n ++ ds[n] :: ds.drop (n + 1) := by
  rw [← List.drop_eq_getElem_cons h, List.take_append_drop]

theorem trunc15 [Build] {v : Var} {s : Int} (hd : Digits15 v.digits) (hn : v.sign ≠ .nan) (hw : -300000000 ≤ v.weight ∧ v.weight ≤ 300000000)
    (hs : -1000 ≤ s ∧ s ≤ 1000) :
    ∃ r, truncCommon v s = .ok r ∧ Kept v r s ∧ r.weight ≤ max v.weight 0 ∧ mag r.digits r.weight = magCut v.digits v.weight s := by
  unfold truncCommon
  rw [dassert_ok hn]
  simp only [bind_ok, DEC_DIGITS]
  rw [fits_ok (by fits_tac)]
  simp only [bind_ok]
  by_cases h0 : (v.weight + 1) * 4 + s ≤ 0
  · rw [if_pos h0]
    exact ⟨_, rfl, ⟨fun _ h => by simp at h, .inl rfl, by simp, rfl, by simp, by simp, by simp only; omega⟩, by simp only; omega, by rw [magCut_none h0]; rfl⟩
  · rw [if_neg h0]
    obtain ⟨k, hk⟩ : ∃ k : ℕ, ((v.weight + 1) * 4 + s + 4 - 1) / 4 = (k : Int) + 1 := ⟨(((v.weight + 1) * 4 + s + 4 - 1) / 4 - 1).toNat, by omega⟩
    have hk2 : ((v.weight + 1) * 4 + s + 4 - 1) / 4 = ((k + 1 : ℕ) : Int) := by rw [hk]; push_cast; rfl
    simp only [hk2, ndigits, Int.toNat_natCast, Nat.add_sub_cancel]
    by_cases h1 : ((k + 1 : ℕ) : Int) ≤ v.digits.length
    · rw [if_pos h1]
      have h1' : k < v.digits.length := by omega
      have hlt : (v.digits.take k).length = k := by rw [List.length_take]; omega
      have hlt1 : (v.digits.take (k + 1)).length = k + 1 := by rw [List.length_take]; omega
      have hdk := hd _ (List.getElem_mem h1')
      by_cases h2 : ((v.weight + 1) * 4 + s) % 4 > 0
      · rw [if_pos h2]
        simp only [getM_ok h1', bind_ok]
        generalize hdi : ((v.weight + 1) * 4 + s) % 4 = di at h2
        have hpw : roundPower di = 10 ^ (4 - di).toNat := by
          have : di = 1 ∨ di = 2 ∨ di = 3 := by omega
          rcases this with rfl | rfl | rfl <;> rfl
        have hpp : 0 < roundPower di := by rw [hpw]; positivity
        have e0 : 0 ≤ v.digits[k] % roundPower di := Int.emod_nonneg _ (by omega)
        have e1 : v.digits[k] % roundPower di ≤ v.digits[k] := by
          have h3 := Int.mul_ediv_add_emod v.digits[k] (roundPower di)
          have : 0 ≤ roundPower di * (v.digits[k] / roundPower di) := mul_nonneg hpp.le (Int.ediv_nonneg hdk.1 hpp.le)
          omega
        refine ⟨_, rfl, ⟨?_, .inr rfl, hn, rfl, ?_, ?_, ?_⟩, ?_, ?_⟩
        · intro d hm
          rcases List.mem_append.1 hm with hm | hm
          · exact hd d (List.mem_of_mem_take hm)
          · rw [List.mem_singleton] at hm; omega
        · simp only [List.length_append, hlt, List.length_singleton]; push_cast; omega
        · simp only; omega
        · simp only; omega
        · simp only; omega
        · simp only
          conv_rhs => rw [split_here h1']
          rw [magCut_append, hlt, magCut_all (by rw [hlt]; omega), mag_append, hlt]
          simp only [magCut, mag]
          rw [magCut_none (by omega)]
          unfold cutDigit
          rw [show -4 * (v.weight - k) - s = 4 - di by omega, if_neg (by omega), if_neg (by omega), hpw]
      · rw [if_neg h2]
        refine ⟨_, rfl, ⟨fun d hm => hd d (List.mem_of_mem_take hm), .inr rfl, hn, rfl, ?_, ?_, ?_⟩, ?_, ?_⟩
        · simp only [hlt1]; push_cast; omega
        · simp only; omega
        · simp only; omega
        · simp only; omega
        · simp only
          conv_rhs => rw [← List.take_append_drop (k + 1) v.digits]
          rw [magCut_append, hlt1, magCut_all (by rw [hlt1]; push_cast; omega), magCut_none (by push_cast; omega), add_zero]
    · rw [if_neg h1]
      refine ⟨_, rfl, ⟨hd, .inr rfl, hn, rfl, ?_, ?_, ?_⟩, ?_, ?_⟩
      · simp only; omega
      · simp only; omega
      · simp only; omega
      · simp only; omega
      · simp only
        rw [magCut_all (by omega)]

theorem roundDigit15 [Build] (d p : Int) (hd : 0 ≤ d ∧ d ≤ 31767) (hp : p = 10 ∨ p = 100 ∨ p = 1000) :
    ∃ d' c, roundDigit d p = .ok (d', c) ∧ (0 ≤ d' ∧ d' ≤ 31767) ∧ (c = 0 ∨ c = 1) ∧
      d' + c * 10000 = d - d % p + (if p ≤ 2 * (d % p) then p else 0) := by
  have h1 : p * (d / p) + d % p = d := Int.mul_ediv_add_emod d p
  have h2 : 0 ≤ d % p := Int.emod_nonneg _ (by omega)
  have h3 : d % p < p := Int.emod_lt_of_pos _ (by omega)
  have h4 : 0 ≤ p * (d / p) := mul_nonneg (by omega) (Int.ediv_nonneg hd.1 (by omega))
  unfold roundDigit
  simp only [NBASE]
  by_cases he : d % p ≥ p / 2
  · have he' : p ≤ 2 * (d % p) := by omega
    simp only [he, if_true]
    rw [i16_ok (by omega) (by omega), if_pos he']
    simp only [bind_ok]
    by_cases hB : p + (d - d % p) ≥ 10000
    · exact ⟨p + (d - d % p) - 10000, 1, by simp [hB], by omega, .inr rfl, by omega⟩
    · exact ⟨p + (d - d % p), 0, by simp [hB], by omega, .inl rfl, by omega⟩
  · have he' : ¬ p ≤ 2 * (d % p) := by omega
    simp only [he, if_false]
    rw [if_neg he']
    exact ⟨d - d % p, 0, rfl, by omega, .inl rfl, by omega⟩

theorem unit_pow {w s : Int} {k : ℕ} {m : ℕ} (h : (4 * (w + 1 - k) + m : Int) = -s) : ((10:ℚ) ^ m) * (10000:ℚ) ^ (w + 1 - (k:Int)) = 10 ^ (-s) := by
  rw [← h, show (10000:ℚ) = 10 ^ (4:ℤ) by norm_num, ← zpow_mul, ← zpow_natCast, ← zpow_add₀ (by norm_num)]
  congr 1; ring

theorem roundTo15 [Build] {v : Var} {s : Int} (hd : ∀ d ∈ v.digits, 0 ≤ d ∧ d ≤ 31767) (hn : v.sign ≠ .nan)
    (hw : -300000000 ≤ v.weight ∧ v.weight ≤ 300000000) (hs : -1000 ≤ s ∧ s ≤ 1000) :
    ∃ r, roundCommon v s = .ok r ∧ Kept v r s ∧ mag r.digits r.weight = magCut v.digits v.weight s + magHalf v.digits v.weight s := by
  have hd15 : Digits15 v.digits := fun d hm => ⟨(hd d hm).1, by have := (hd d hm).2; omega⟩
  unfold roundCommon
  rw [dassert_ok hn]
  simp only [bind_ok, DEC_DIGITS]
  rw [fits_ok (by fits_tac)]
  simp only [bind_ok]
  by_cases h0 : (v.weight + 1) * 4 + s < 0
  · rw [if_pos h0]
    exact ⟨_, rfl, ⟨fun _ h => by simp at h, .inl rfl, by simp, rfl, by simp, by simp, by simp only; omega⟩,
      by rw [magCut_none h0.le, magHalf_none h0]; simp [mag]⟩
  · rw [if_neg h0]
    obtain ⟨n, hk⟩ : ∃ n : ℕ, ((v.weight + 1) * 4 + s + 4 - 1) / 4 = (n : Int) := ⟨(((v.weight + 1) * 4 + s + 4 - 1) / 4).toNat, by omega⟩
    simp only [hk, ndigits, Int.toNat_natCast]
    generalize hdi : ((v.weight + 1) * 4 + s) % 4 = di
    have hdi0 : 0 ≤ di ∧ di < 4 := by omega
    by_cases h1 : (n : Int) < v.digits.length ∨ ((n : Int) = v.digits.length ∧ di > 0)
    · rw [if_pos h1]
      by_cases h2 : di = 0
      · have h1' : n < v.digits.length := by omega
        rw [if_pos h2]
        simp only [getM_ok h1', bind_ok]
        have htk : Digits15 (v.digits.take n) := fun d h => hd15 d (List.mem_of_mem_take h)
        have hcc : (if v.digits[n] ≥ HALF_NBASE then (1:Int) else 0) = 0 ∨ (if v.digits[n] ≥ HALF_NBASE then (1:Int) else 0) = 1 := by
          split <;> simp
        obtain ⟨ds', c', e, hd', hc', hl, hv⟩ := carryUp15 (v.digits.take n) _ htk hcc
        rw [e]
        simp only [bind_ok]
        have hlt : (v.digits.take n).length = n := by rw [List.length_take]; omega
        rw [hlt] at hl hv
        -- the goal on the right-hand side
        have hcut : magCut v.digits v.weight s = mag (v.digits.take n) v.weight := by
          conv_lhs => rw [← List.take_append_drop n v.digits]
          rw [magCut_append, hlt, magCut_all (by rw [hlt]; omega), magCut_none (by omega), add_zero]
        have hhalf : magHalf v.digits v.weight s = ((if v.digits[n] ≥ HALF_NBASE then (1:Int) else 0 : Int) : ℚ) * (10000:ℚ) ^ (v.weight + 1 - n) := by
          conv_lhs => rw [split_here h1']
          rw [magHalf_append (by rw [hlt]; omega), hlt]
          simp only [magHalf]
          have h4 : cutDigit v.digits[n] 4 = 0 := rfl
          rw [show -4 * (v.weight - n) - s = 4 by omega, if_pos (by omega), h4, sub_zero, show (10:Int) ^ Int.toNat 4 = 10000 from rfl]
          have hu := unit_pow (w := v.weight) (s := s) (k := n) (m := 0) (by omega)
          rw [pow_zero, one_mul] at hu
          rw [hu]
          by_cases h5 : v.digits[n] ≥ 5000
          · rw [if_pos (by omega), if_pos h5]; simp
          · rw [if_neg (by omega), if_neg h5]; simp
        have hsum : magCut v.digits v.weight s + magHalf v.digits v.weight s = ((dval ds' + c' * 10000 ^ n : Int) : ℚ) * (10000:ℚ) ^ (v.weight + 1 - n) := by
          rw [hcut, hhalf, mag_eq_dval, hlt, hv]
          push_cast; ring
        rw [hsum]
        rcases hc' with rfl | rfl
        · rw [if_neg (by omega)]
          refine ⟨_, rfl, ⟨hd', .inr rfl, hn, rfl, by simp only [hl]; omega, by simp only; omega, by simp only; omega⟩, ?_⟩
          simp only
          rw [mag_eq_dval, hl]; push_cast; ring
        · rw [if_pos (by omega)]
          refine ⟨_, rfl, ⟨Digits15.cons.2 ⟨by omega, hd'⟩, .inr rfl, hn, rfl, by simp only [List.length_cons, hl]; push_cast; omega, by simp only; omega, by simp only; omega⟩, ?_⟩
          simp only
          rw [mag_eq_dval, List.length_cons, hl, dval_cons, hl, show v.weight + 1 + 1 - ((n + 1 : ℕ) : Int) = v.weight + 1 - n by push_cast; ring]
          push_cast; ring
      · rw [if_neg h2]
        obtain ⟨k, rfl⟩ : ∃ k, n = k + 1 := ⟨n - 1, by omega⟩
        have h1' : k < v.digits.length := by omega
        simp only [Nat.add_sub_cancel, getM_ok h1', bind_ok]
        have hpw : roundPower di = 10 ^ (4 - di).toNat := by
          have : di = 1 ∨ di = 2 ∨ di = 3 := by omega
          rcases this with rfl | rfl | rfl <;> rfl
        have hpc : roundPower di = 10 ∨ roundPower di = 100 ∨ roundPower di = 1000 := by
          have : di = 1 ∨ di = 2 ∨ di = 3 := by omega
          rcases this with rfl | rfl | rfl <;> simp [roundPower]
        obtain ⟨d', c, ed, hd1, hc, hdv⟩ := roundDigit15 v.digits[k] (roundPower di) (hd _ (List.getElem_mem h1')) hpc
        simp only [ed, bind_ok]
        have htk : Digits15 (v.digits.take k) := fun d h => hd15 d (List.mem_of_mem_take h)
        obtain ⟨ds', c', e, hd', hc', hl, hv⟩ := carryUp15 (v.digits.take k) c htk hc
        simp only [e, bind_ok, pure_ok]
        have hlt : (v.digits.take k).length = k := by rw [List.length_take]; omega
        rw [hlt] at hl hv
        have hcut : magCut v.digits v.weight s = ((dval (v.digits.take k) * 10000 + (v.digits[k] - v.digits[k] % roundPower di) : Int) : ℚ) * (10000:ℚ) ^ (v.weight + 1 - ((k + 1 : ℕ) : Int)) := by
          conv_lhs => rw [split_here h1']
          rw [magCut_append, hlt, magCut_all (by rw [hlt]; push_cast at hk; omega), mag_eq_dval, hlt]
          simp only [magCut]
          rw [magCut_none (by push_cast at hk; omega)]
          unfold cutDigit
          rw [show -4 * (v.weight - k) - s = 4 - di by push_cast at hk; omega, if_neg (by omega), if_neg (by omega), ← hpw,
            show v.weight + 1 - (k : Int) = (v.weight + 1 - ((k + 1 : ℕ) : Int)) + 1 by push_cast; ring, zpow_add_one₀ B_ne,
            show v.weight - (k : Int) = v.weight + 1 - ((k + 1 : ℕ) : Int) by push_cast; ring]
          push_cast; ring
        have hhalf : magHalf v.digits v.weight s = ((if roundPower di ≤ 2 * (v.digits[k] % roundPower di) then roundPower di else 0 : Int) : ℚ) * (10000:ℚ) ^ (v.weight + 1 - ((k + 1 : ℕ) : Int)) := by
          conv_lhs => rw [split_here h1']
          rw [magHalf_append (by rw [hlt]; push_cast at hk; omega), hlt]
          simp only [magHalf]
          rw [show -4 * (v.weight - k) - s = 4 - di by push_cast at hk; omega, if_pos (by omega)]
          have h4 : cutDigit v.digits[k] (4 - di) = v.digits[k] - v.digits[k] % roundPower di := by
            unfold cutDigit
            rw [if_neg (by omega), if_neg (by omega), ← hpw]
          rw [h4, ← hpw]
          have hu := unit_pow (w := v.weight) (s := s) (k := k + 1) (m := (4 - di).toNat) (by push_cast at hk ⊢; omega)
          have hq : ((roundPower di : Int) : ℚ) = 10 ^ (4 - di).toNat := by rw [hpw]; push_cast; rfl
          rw [sub_sub_cancel]
          by_cases h5 : roundPower di ≤ 2 * (v.digits[k] % roundPower di)
          · rw [if_pos h5, if_pos h5, hq, hu]
          · rw [if_neg h5, if_neg h5]; simp
        have hsum : magCut v.digits v.weight s + magHalf v.digits v.weight s =
            ((dval (ds' ++ [d']) + c' * 10000 ^ (k + 1) : Int) : ℚ) * (10000:ℚ) ^ (v.weight + 1 - ((k + 1 : ℕ) : Int)) := by
          rw [hcut, hhalf, ← add_mul, ← Int.cast_add]
          congr 2
          have e1 : dval (ds' ++ [d']) = dval ds' * 10000 + d' := by rw [dval_append]; simp [dval]
          rw [e1, add_assoc, ← hdv, pow_succ]
          linear_combination (-10000) * hv
        rw [hsum]
        have hlen : (ds' ++ [d']).length = k + 1 := by rw [List.length_append, hl]; rfl
        have hdd : Digits15 (ds' ++ [d']) := by
          intro x hm
          rcases List.mem_append.1 hm with hm | hm
          · exact hd' x hm
          · rw [List.mem_singleton] at hm; omega
        rcases hc' with rfl | rfl
        · rw [if_neg (by omega)]
          refine ⟨_, rfl, ⟨hdd, .inr rfl, hn, rfl, by simp only [hlen]; omega, by simp only; omega, by simp only; omega⟩, ?_⟩
          simp only
          rw [mag_eq_dval, hlen]; push_cast; ring
        · rw [if_pos (by omega)]
          refine ⟨_, rfl, ⟨Digits15.cons.2 ⟨by omega, hdd⟩, .inr rfl, hn, rfl, by simp only [List.length_cons, hlen]; push_cast at hk ⊢; omega, by simp only; omega, by simp only; omega⟩, ?_⟩
          simp only
          rw [mag_eq_dval, List.length_cons, hlen, dval_cons, hlen, show v.weight + 1 + 1 - ((k + 1 + 1 : ℕ) : Int) = v.weight + 1 - ((k + 1 : ℕ) : Int) by push_cast; ring]
          push_cast; ring
    · rw [if_neg h1]
      have hall : 4 * (v.digits.length : Int) ≤ (v.weight + 1) * 4 + s := by omega
      refine ⟨_, rfl, ⟨hd15, .inr rfl, hn, rfl, ?_, ?_, ?_⟩, ?_⟩
      · simp only; omega
      · simp only; omega
      · simp only; omega
      · simp only
        rw [magCut_all hall, magHalf_all hall, add_zero]

theorem strip_room' {v : Var} {c : Int} (h : (v.digits.length : Int) ≤ v.weight + c) (h0 : 0 ≤ c) : ((strip v).digits.length : Int) ≤ (strip v).weight + c := by
  unfold strip
  simp only [stripLead_eq]
  split
  · simpa using h0
  · have h1 := stripTrail_length_le (v.digits.drop (v.digits.takeWhile (· = 0)).length)
    rw [List.length_drop] at h1
    have h2 : (v.digits.takeWhile (· = 0)).length ≤ v.digits.length := (List.takeWhile_sublist _).length_le
    simp only
    omega

theorem finish_kept [Build] {r : Var} (hd : Digits15 r.digits) (hn : r.sign ≠ .nan) (h0 : 0 ≤ r.dscale) (h1 : r.dscale ≤ 1000)
    (hr : (r.digits.length : Int) ≤ r.weight + 502) (hw : -502 ≤ r.weight) (hw' : r.weight ≤ 32767) :
    Num.finish r = .ok (some (Bin.encode (strip r))) ∧ Num.finishNoOverflow r = .ok (Bin.encode (strip r)) ∧ Storable16 (strip r) := by
  have hsn := strip_sign hn
  have est : stripM r = .ok (strip r) := stripM_ok (by omega) (by omega)
  have hbuf : Bin.intoBuf (strip r) = .ok (Bin.encode (strip r)) := by
    unfold Bin.intoBuf
    rw [if_neg (fun hh => hsn hh.1)]
    rfl
  refine ⟨?_, ?_, ?_⟩
  · unfold Num.finish Var.makeResult
    rw [dassert_ok hn, bind_ok, dassert_ok (by omega), bind_ok, if_neg (by simp only [NUMERIC_WEIGHT_MAX, NUMERIC_WEIGHT_MIN, NUMERIC_DSCALE_MAX]; omega), est]
    simp only [bind_ok, pure_ok, hbuf]
  · unfold Num.finishNoOverflow Var.makeResultNoOverflow
    rw [dassert_ok hn, bind_ok, est]
    simp only [bind_ok, hbuf]
  · have hroom := strip_room' hr (by norm_num)
    have hlen := strip_length_le r
    have hwt : (strip r).weight ≤ 32767 := by
      unfold strip
      simp only
      split
      · simp
      · have := stripLead_weight_le r.digits r.weight
        simp only; omega
    exact ⟨hsn, fun d hm => by have := hd d (Convert.strip_sub hm); omega, by omega, hwt, by simpa using h0, by rw [strip_dscale]; omega, by omega, fun _ => by omega⟩

end PgNumeric
