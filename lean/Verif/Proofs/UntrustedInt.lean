import Verif.Proofs.Convert
import Verif.Proofs.Data
import Mathlib.Algebra.BigOperators.Ring.List
/-! The conversions to integers, with digits in 0..32767. -/
namespace PgNumeric
open Spec Var

/-- Digits that are no proper digits in base 10000, but not negative. -/
def Digits15 (ds : List Int) : Prop := ∀ d ∈ ds, 0 ≤ d ∧ d ≤ 32767

theorem Digits15.cons {d : Int} {ds : List Int} : Digits15 (d :: ds) ↔ (0 ≤ d ∧ d ≤ 32767) ∧ Digits15 ds := by
  unfold Digits15; simp

theorem carryUp15 [Build] (ds : List Int) (c : Int) (h : Digits15 ds) (hc : c = 0 ∨ c = 1) :
    ∃ ds' c', carryUp ds c = .ok (ds', c') ∧ Digits15 ds' ∧ (c' = 0 ∨ c' = 1) ∧ ds'.length = ds.length ∧
      dval ds' + c' * 10000 ^ ds.length = dval ds + c := by
  induction ds with
  | nil => exact ⟨[], c, rfl, fun _ hd => by simp at hd, hc, rfl, by simp⟩
  | cons d ds ih =>
    rw [Digits15.cons] at h
    obtain ⟨ds', c', e, hd, hc', hl, hv⟩ := ih h.2
    unfold carryUp
    rw [e]
    simp only [bind_ok]
    rcases hc' with rfl | rfl
    · refine ⟨d :: ds', 0, by simp, Digits15.cons.2 ⟨h.1, hd⟩, .inl rfl, by simp [hl], ?_⟩
      rw [dval_cons, dval_cons, hl]; linarith
    · rw [i32_ok (by omega) (by omega)]
      simp only [bind_ok, NBASE]
      by_cases hB : 1 + d ≥ 10000
      · refine ⟨(1 + d - 10000) :: ds', 1, by simp [hB], Digits15.cons.2 ⟨by omega, hd⟩, .inr rfl, by simp [hl], ?_⟩
        rw [dval_cons, dval_cons, hl, List.length_cons, pow_succ]; linarith
      · refine ⟨(1 + d) :: ds', 0, by simp [hB], Digits15.cons.2 ⟨by omega, hd⟩, .inl rfl, by simp [hl], ?_⟩
        rw [dval_cons, dval_cons, hl]; linarith

namespace Convert

theorem get15 {ds : List Int} (h : Digits15 ds) (i : Nat) : 0 ≤ (ds[i]?).getD 0 := by
  rcases lt_or_ge i ds.length with hi | hi
  · rw [List.getElem?_eq_getElem hi]; exact (h _ (List.getElem_mem hi)).1
  · rw [List.getElem?_eq_none hi]; simp

theorem pre15_nonneg {ds : List Int} (h : Digits15 ds) (i : Nat) : 0 ≤ pre ds i := by
  induction i with
  | zero => simp [pre]
  | succ i ih =>
    unfold pre
    have := get15 h i
    omega

theorem pre15_le_succ {ds : List Int} (h : Digits15 ds) (i : Nat) : pre ds i * 10000 ≤ pre ds (i + 1) := by
  conv_rhs => unfold pre
  have := get15 h i
  omega

theorem pre15_mono {ds : List Int} (h : Digits15 ds) (i k : Nat) : pre ds i ≤ pre ds (i + k) := by
  induction k with
  | zero => simp
  | succ k ih =>
    have h1 := pre15_le_succ h (i + k)
    have h2 := pre15_nonneg h (i + k)
    rw [← Nat.add_assoc]
    omega

theorem accLoop15 {ty : IntTy} (h : ty.OK) {σ : Int} (hσ : σ = 1 ∨ σ = -1) {ds : List Int} (hd : Digits15 ds)
    (k i : Nat) (hr : ty.InRange (σ * pre ds i)) :
    accLoop ty (fun a d => a + σ * d) ds k i (σ * pre ds i) =
      .ok (if ty.InRange (σ * pre ds (i + k)) then .ok (σ * pre ds (i + k)) else .error .overflow) := by
  induction k generalizing i with
  | zero =>
    unfold accLoop
    simp only [Nat.add_zero, if_pos hr]; rfl
  | succ k ih =>
    have hstep : σ * pre ds i * 10000 = σ * (pre ds i * 10000) := by ring
    have h0 := pre15_nonneg hd i
    have e1 : i + (k + 1) = i + 1 + k := by omega
    have hm := pre15_mono hd (i + 1) k
    have hs := pre15_le_succ hd i
    unfold accLoop
    rw [e1]
    simp only [NBASE, hstep]
    by_cases h1 : ty.InRange (σ * (pre ds i * 10000))
    · rw [if_neg (not_not.2 h1)]
      by_cases hi : i < ds.length
      · rw [if_pos hi]
        simp only [getM_ok hi, bind_ok]
        have hp : σ * (pre ds i * 10000) + σ * ds[i] = σ * pre ds (i + 1) := by
          conv_rhs => unfold pre
          rw [List.getElem?_eq_getElem hi]; simp; ring
        simp only [hp]
        by_cases h2 : ty.InRange (σ * pre ds (i + 1))
        · rw [if_neg (not_not.2 h2)]
          exact ih (i + 1) h2
        · rw [if_pos h2, if_neg]
          · rfl
          · exact fun hc => h2 (InRange_scale h hσ (pre15_nonneg hd _) hm hc)
      · rw [if_neg hi]
        have hp : σ * (pre ds i * 10000) = σ * pre ds (i + 1) := by
          conv_rhs => unfold pre
          rw [List.getElem?_eq_none (by omega)]; simp
        rw [hp]
        rw [hp] at h1
        exact ih (i + 1) h1
    · rw [if_pos h1, if_neg]
      · rfl
      · exact fun hc => h1 (InRange_scale h hσ (by omega) (by omega) hc)

/-- What the conversions make of the digits: the digits in front of the decimal point, and 1 if the next digit is at least 5000. -/
def front (ds : List Int) (w : Int) : Int :=
  if w < -1 then 0 else pre ds (w + 1).toNat + if 5000 ≤ (ds[(w + 1).toNat]?).getD 0 then 1 else 0

theorem round15 [Build] {v : Var} (hd : Digits15 v.digits) (hn : v.sign ≠ .nan) (hw : -300000000 ≤ v.weight ∧ v.weight ≤ 300000000) :
    ∃ r, roundCommon v 0 = .ok r ∧ Digits15 r.digits ∧ (r.digits = [] ∨ r.sign = v.sign) ∧ (r.digits.length : Int) ≤ r.weight + 1 ∧
      mag r.digits r.weight = front v.digits v.weight := by
  unfold roundCommon
  rw [dassert_ok hn]
  simp only [bind_ok, DEC_DIGITS]
  rw [fits_ok (by fits_tac)]
  simp only [bind_ok, add_zero]
  by_cases h0 : v.weight < -1
  · rw [if_pos (by omega)]
    exact ⟨_, rfl, fun _ h => by simp at h, .inl rfl, by simp, by simp [front, h0, mag]⟩
  · rw [if_neg (by omega)]
    obtain ⟨k, hk⟩ : ∃ k : ℕ, v.weight + 1 = k := ⟨(v.weight + 1).toNat, by omega⟩
    have e1 : ((v.weight + 1) * 4 + 4 - 1) / 4 = (k : Int) := by omega
    have e2 : (v.weight + 1) * 4 % 4 = 0 := by omega
    have e3 : (v.weight + 1).toNat = k := by omega
    simp only [e1, e2, ndigits]
    have hfr : front v.digits v.weight = pre v.digits k + if 5000 ≤ (v.digits[k]?).getD 0 then 1 else 0 := by
      unfold front; rw [if_neg h0, e3]
    by_cases h1 : k < v.digits.length
    · rw [if_pos (by left; omega)]
      simp only [Int.toNat_natCast, getM_ok h1, bind_ok, if_true]
      have htk : Digits15 (v.digits.take k) := fun d h => hd d (List.mem_of_mem_take h)
      have hcc : (if v.digits[k] ≥ HALF_NBASE then (1:Int) else 0) = 0 ∨ (if v.digits[k] ≥ HALF_NBASE then (1:Int) else 0) = 1 := by
        split <;> simp
      obtain ⟨ds', c', e, hd', hc', hl, hv⟩ := carryUp15 (v.digits.take k) _ htk hcc
      rw [e]
      simp only [bind_ok]
      have hlen : (v.digits.take k).length = k := by rw [List.length_take]; omega
      rw [hlen] at hl hv
      have hfv : (if v.digits[k] ≥ HALF_NBASE then (1:Int) else 0) = if 5000 ≤ (v.digits[k]?).getD 0 then 1 else 0 := by
        rw [List.getElem?_eq_getElem h1]; rfl
      rw [hfv, ← pre_take k (by omega), ← hfr] at hv
      rcases hc' with rfl | rfl
      · rw [if_neg (by omega)]
        refine ⟨_, rfl, hd', .inr rfl, by simp only; omega, ?_⟩
        have : v.weight = (ds'.length : Int) - 1 := by omega
        simp only
        rw [← hv, this, mag_int]; push_cast; ring
      · rw [if_pos (by omega)]
        refine ⟨_, rfl, Digits15.cons.2 ⟨by omega, hd'⟩, .inr rfl, by simp only [List.length_cons]; push_cast; omega, ?_⟩
        have : v.weight + 1 = ((((1:Int) :: ds').length : Nat) : Int) - 1 := by rw [List.length_cons]; push_cast; omega
        simp only
        rw [← hv, this, mag_int, dval_cons, hl]; push_cast; ring
    · rw [if_neg (by omega)]
      refine ⟨_, rfl, hd, .inr rfl, by simp only; omega, ?_⟩
      rw [hfr, List.getElem?_eq_none (by omega)]
      simp only [Option.getD_none]
      rw [if_neg (by omega), add_zero]
      obtain ⟨j, hj⟩ := Nat.exists_eq_add_of_le (not_lt.1 h1)
      rw [hj, pre_beyond, mag_eq_dval, show v.weight + 1 - v.digits.length = (j:Int) by omega, zpow_natCast]
      push_cast; rfl

theorem strip_sub {v : Var} {d : Int} (h : d ∈ (strip v).digits) : d ∈ v.digits := by
  unfold strip at h
  simp only [stripLead_eq, stripTrail_eq] at h
  split at h
  · simp at h
  · exact List.mem_of_mem_drop (List.mem_of_mem_take h)

theorem strip_room {v : Var} (h : (v.digits.length : Int) ≤ v.weight + 1) : ((strip v).digits.length : Int) ≤ (strip v).weight + 1 := by
  unfold strip
  simp only [stripLead_eq]
  split
  · simp
  · have h1 := stripTrail_length_le (v.digits.drop (v.digits.takeWhile (· = 0)).length)
    rw [List.length_drop] at h1
    have h2 : (v.digits.takeWhile (· = 0)).length ≤ v.digits.length := (List.takeWhile_sublist _).length_le
    simp only
    omega

theorem strip_same_sign {v : Var} (h : (strip v).digits ≠ []) : (strip v).sign = v.sign := by
  unfold strip at *
  simp only at *
  split
  · rename_i he
    rw [if_pos he] at h
    simp at h
  · rfl

theorem strip_same_mag (v : Var) : mag (strip v).digits (strip v).weight = mag v.digits v.weight := by
  have h1 := stripLead_mag v.digits v.weight
  have h2 := stripTrail_mag (stripLead v.digits v.weight).1 (stripLead v.digits v.weight).2
  unfold strip
  simp only
  split
  · rename_i he
    rw [← h1, ← h2, he]; rfl
  · rw [← h1, ← h2]

/-- The rounded, stripped variable that the conversions read off. -/
theorem rounded15 [Build] {v : Var} (hd : Digits15 v.digits) (hn : v.sign ≠ .nan) (hs : Small v) :
    ∃ r, roundCommon v 0 = .ok r ∧ stripM r = .ok (strip r) ∧ Digits15 (strip r).digits ∧ 0 ≤ front v.digits v.weight ∧
      ((strip r).digits = [] → front v.digits v.weight = 0) ∧
      ((strip r).digits ≠ [] → 0 ≤ (strip r).weight ∧ ((strip r).digits.length : Int) ≤ (strip r).weight + 1 ∧
        pre (strip r).digits ((strip r).weight.toNat + 1) = front v.digits v.weight ∧ 0 < front v.digits v.weight ∧ (strip r).sign = v.sign) := by
  have a1 := hs.lo
  have a2 := hs.hi
  have a3 := hs.len
  obtain ⟨r, er, rd, rs, rl, rv⟩ := round15 hd hn (by omega)
  have est := round_stripM er (by omega) (by omega)
  have hd' : Digits15 (strip r).digits := fun d h => rd d (strip_sub h)
  have hf : 0 ≤ front v.digits v.weight := by
    unfold front
    split
    · simp
    · have := pre15_nonneg hd (v.weight + 1).toNat
      split <;> omega
  refine ⟨r, er, est, hd', hf, ?_, ?_⟩
  · intro he
    have := strip_same_mag r
    rw [he, rv] at this
    simp only [mag] at this
    exact_mod_cast this.symm
  · intro hne
    have hl := strip_room rl
    have hpos : 0 < (strip r).digits.length := List.length_pos_of_ne_nil hne
    have hw : 0 ≤ (strip r).weight := by omega
    have hp : pre (strip r).digits ((strip r).weight.toNat + 1) = front v.digits v.weight := by
      have := pre_eq_mag (ds := (strip r).digits) (w := (strip r).weight.toNat) (by omega)
      rw [Int.toNat_of_nonneg hw, strip_same_mag, rv] at this
      exact_mod_cast this
    refine ⟨hw, hl, hp, ?_, ?_⟩
    · obtain ⟨d, ds, e⟩ := List.exists_cons_of_ne_nil hne
      have h1 := pre15_mono hd' 1 (strip r).weight.toNat
      rw [Nat.add_comm 1, hp, e, pre_one] at h1
      have h2 := (strip_stripped r).1
      have h3 := (Digits15.cons.1 (e ▸ hd')).1
      have h4 : d ≠ 0 := by
        rintro rfl
        have := strip_stripped r
        unfold Stripped at this
        simp [e] at this
      omega
    · rw [strip_same_sign hne]
      rcases rs with h | h
      · exact absurd (by have := strip_length_le r; rw [h] at this; simpa using this) hne
      · exact h

/-- The number read off. -/
def frontSigned (v : Var) : Int := if v.sign = .neg then -front v.digits v.weight else front v.digits v.weight

/-- The types that are converted to directly have all 16-bit numbers that are not negative. -/
structure Wide15 (ty : IntTy) : Prop where
  ok : ty.OK
  lo : ty.signed = true → ty.lo ≤ -32767
  hi : 32767 ≤ ty.hi

theorem intoSigned15 [Build] {ty : IntTy} (h : Wide15 ty) (hs : ty.signed = true) {v : Var} (hd : Digits15 v.digits) (hn : v.sign ≠ .nan)
    (hsm : Small v) : intoSigned ty v = .ok (if ty.InRange (frontSigned v) then .ok (frontSigned v) else .error .overflow) := by
  obtain ⟨r, er, est, hd, hf, h0, h1⟩ := rounded15 hd hn hsm
  have hlo := h.lo hs
  have hhi := h.hi
  have hsym := h.ok.signed hs
  unfold intoSigned frontSigned
  rw [if_neg hn]
  simp only [er, est, bind_ok]
  generalize front v.digits v.weight = n at *
  by_cases hne : (strip r).digits = []
  · have := h0 hne
    subst this
    rw [if_pos (by rw [hne]; rfl)]
    simp only [neg_zero, ite_self]
    rw [if_pos ⟨h.ok.lo, h.ok.hi⟩]; rfl
  · obtain ⟨hw, hl, hp, hn0, hsg⟩ := h1 hne
    have hpos : 0 < (strip r).digits.length := List.length_pos_of_ne_nil hne
    rw [if_neg (by omega), dassert_ok hw, dassert_ok hl]
    obtain ⟨d, ds, e⟩ := List.exists_cons_of_ne_nil hne
    have hd0 := (Digits15.cons.1 (e ▸ hd)).1
    have hg : getM (strip r).digits 0 = .ok d := by rw [e]; rfl
    have hcast : castT ty d = .ok d := by
      unfold castT
      rw [dassert_ok (by omega : d ≤ ty.hi), dassert_ok (by have := h.ok.lo; omega : d ≥ ty.lo)]
      rfl
    have hneg : negT ty d = .ok (-d) := by
      unfold negT; rw [if_pos (by unfold IntTy.InRange; omega)]; rfl
    simp only [bind_ok, hg, hcast, hneg]
    have hpd : pre (strip r).digits 1 = d := by rw [e, pre_one]
    have hacc := accLoop15 h.ok (σ := -1) (.inr rfl) hd (strip r).weight.toNat 1
      (by rw [hpd]; unfold IntTy.InRange; omega)
    have hop : (fun a d : Int => a + -1 * d) = (· - ·) := by funext a d; ring
    rw [hop, hpd, Nat.add_comm 1, hp] at hacc
    have e1 : -1 * d = -d := by ring
    have e2 : -1 * n = -n := by ring
    rw [e1, e2] at hacc
    simp only [hacc, bind_ok, hsg]
    by_cases hneg' : v.sign = .neg
    · simp only [hneg', decide_true, if_true]
      by_cases hr : ty.InRange (-n)
      · rw [if_pos hr]; rfl
      · rw [if_neg hr]; rfl
    · simp only [hneg', decide_false, if_false]
      by_cases hr : ty.InRange (-n)
      · rw [if_pos hr]
        unfold signedEnd
        simp only [Bool.false_eq_true, if_false]
        by_cases hmin : -n = ty.lo
        · rw [if_pos hmin, if_neg (by unfold IntTy.InRange; omega)]; rfl
        · have hr' : ty.InRange n := by unfold IntTy.InRange at *; omega
          rw [if_neg hmin, if_pos hr']
          unfold negT
          rw [neg_neg, if_pos hr']; rfl
      · rw [if_neg hr, if_neg (by unfold IntTy.InRange at *; omega)]; rfl

theorem intoUnsigned15 [Build] {ty : IntTy} (h : Wide15 ty) (hs : ty.signed = false) {v : Var} (hd : Digits15 v.digits) (hn : v.sign ≠ .nan)
    (hsm : Small v) : intoUnsigned ty v = .ok (if ty.InRange (frontSigned v) then .ok (frontSigned v) else .error .overflow) := by
  obtain ⟨r, er, est, hd, hf, h0, h1⟩ := rounded15 hd hn hsm
  have hlo := h.ok.unsigned hs
  have hhi := h.hi
  unfold intoUnsigned frontSigned
  rw [if_neg hn]
  simp only [er, est, bind_ok]
  generalize front v.digits v.weight = n at *
  by_cases hne : (strip r).digits = []
  · have := h0 hne
    subst this
    rw [if_pos (by rw [hne]; rfl)]
    simp only [neg_zero, ite_self]
    rw [if_pos ⟨h.ok.lo, h.ok.hi⟩]; rfl
  · obtain ⟨hw, hl, hp, hn0, hsg⟩ := h1 hne
    have hpos : 0 < (strip r).digits.length := List.length_pos_of_ne_nil hne
    rw [if_neg (by omega), hsg]
    by_cases hneg' : v.sign = .neg
    · simp only [if_pos hneg']
      rw [if_neg (by unfold IntTy.InRange; omega)]; rfl
    · simp only [if_neg hneg']
      rw [dassert_ok hw, dassert_ok hl]
      obtain ⟨d, ds, e⟩ := List.exists_cons_of_ne_nil hne
      have hd0 := (Digits15.cons.1 (e ▸ hd)).1
      have hg : getM (strip r).digits 0 = .ok d := by rw [e]; rfl
      simp only [bind_ok, hg]
      have hpd : pre (strip r).digits 1 = d := by rw [e, pre_one]
      have hacc := accLoop15 h.ok (σ := 1) (.inl rfl) hd (strip r).weight.toNat 1
        (by rw [hpd]; unfold IntTy.InRange; omega)
      have hop : (fun a d : Int => a + 1 * d) = (· + ·) := by funext a d; ring
      rw [hop, hpd, Nat.add_comm 1, hp, one_mul, one_mul] at hacc
      rw [hacc]

theorem types15 {ty : IntTy} (h : ty ∈ types) : ty = .i8 ∨ ty = .u8 ∨ Wide15 ty := by
  rcases types_cases h with h' | h' | h'
  · exact .inl h'
  · exact .inr (.inl h')
  · by_cases h8 : ty = .i8
    · exact .inl h8
    by_cases h9 : ty = .u8
    · exact .inr (.inl h9)
    refine .inr (.inr ⟨h'.ok, ?_, ?_⟩) <;>
    · simp only [types, List.mem_cons, List.not_mem_nil, or_false] at h
      rcases h with rfl | rfl | rfl | rfl | rfl | rfl | rfl | rfl | rfl | rfl <;> first | exact absurd rfl h8 | exact absurd rfl h9 | decide

theorem toInt15 [Build] {ty : IntTy} (ht : ty ∈ types) {a : Bin} {v : Var} (ev : a.asVar = .ok v) (hd : Digits15 v.digits) (hn : v.sign ≠ .nan)
    (hsm : Small v) : toInt ty a = .ok (if ty.InRange (frontSigned v) then .ok (frontSigned v) else .error .overflow) := by
  unfold toInt
  simp only [ev, bind_ok]
  by_cases h1 : ty = .i8
  · subst h1
    rw [if_pos rfl]
    simp only [intoSigned15 ⟨i16_wide.ok, by decide, by decide⟩ rfl hd hn hsm, bind_ok]
    rw [narrow_spec (by decide) (by decide)]; rfl
  · rw [if_neg h1]
    by_cases h2 : ty = .u8
    · subst h2
      rw [if_pos rfl]
      simp only [intoUnsigned15 ⟨u16_wide.ok, by decide, by decide⟩ rfl hd hn hsm, bind_ok]
      rw [narrow_spec (by decide) (by decide)]; rfl
    · rw [if_neg h2]
      rcases types15 ht with h | h | h
      · exact absurd h h1
      · exact absurd h h2
      · by_cases hs : ty.signed = true
        · rw [if_pos hs, intoSigned15 h hs hd hn hsm]
        · rw [if_neg hs, intoUnsigned15 h (by simpa using hs) hd hn hsm]

theorem pre_sum (ds : List Int) (k : Nat) : pre ds k = ((List.range k).map fun i => ds.getD i 0 * 10000 ^ (k - 1 - i)).sum := by
  induction k with
  | zero => simp [pre]
  | succ k ih =>
    unfold pre
    rw [ih, List.range_succ, List.map_append, List.sum_append, ← List.sum_map_mul_right]
    congr 1
    · congr 1
      apply List.map_congr_left
      intro i hi
      rw [List.mem_range] at hi
      rw [mul_assoc, ← pow_succ, show k - 1 - i + 1 = k + 1 - 1 - i by omega]
    · simp [List.getD_eq_getElem?_getD]

end Convert
end PgNumeric
