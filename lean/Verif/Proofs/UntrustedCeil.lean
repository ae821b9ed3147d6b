import Verif.Model.UntrustedCeil
import Verif.Proofs.UntrustedRound
/-! `ceil` and `floor` with digits that are not in 0..9999. -/
namespace PgNumeric
open Spec Var Untrusted

theorem trunc_zero [Build] {v : Var} (hn : v.sign ≠ .nan) (hw : -300000000 ≤ v.weight ∧ v.weight ≤ 300000000) :
    truncCommon v 0 = .ok (if v.weight < 0 then ⟨0, 0, .pos, []⟩ else ⟨v.weight, 0, v.sign, v.digits.take (v.weight + 1).toNat⟩) := by
  unfold truncCommon
  rw [dassert_ok hn]
  simp only [bind_ok, DEC_DIGITS]
  rw [fits_ok (by fits_tac)]
  simp only [bind_ok, add_zero]
  by_cases h0 : v.weight < 0
  · rw [if_pos (by omega), if_pos h0]; rfl
  · rw [if_neg (by omega), if_neg h0]
    have e1 : ((v.weight + 1) * 4 + 4 - 1) / 4 = v.weight + 1 := by omega
    have e2 : (v.weight + 1) * 4 % 4 = 0 := by omega
    simp only [e1, e2, ndigits, gt_iff_lt, lt_self_iff_false, if_false]
    by_cases h1 : v.weight + 1 ≤ v.digits.length
    · rw [if_pos h1]; rfl
    · rw [if_neg h1, List.take_of_length_le (by omega)]; rfl

theorem mag32_append (xs ys : List Int) (w : Int) : mag32768 (xs ++ ys) w = mag32768 xs w + mag32768 ys (w - xs.length) := by
  induction xs generalizing w with
  | nil => simp [mag32768]
  | cons d ds ih =>
    simp only [List.cons_append, mag32768, ih, List.length_cons]
    rw [show w - 1 - (ds.length : Int) = w - ((ds.length + 1 : Nat) : Int) by push_cast; ring]
    ring

/-- There are digits behind the decimal point that the comparison sees. -/
def HasRest (ds : List Int) (w : Int) : Prop := if w < 0 then ds ≠ [] else ∃ d ∈ ds.drop (w + 1).toNat, d ≠ 0

theorem cmp_trunc [Build] {v : Var} (hd : Untrusted.Digits15 v.digits) (hn : v.sign ≠ .nan) {r : Var}
    (hr : r = if v.weight < 0 then ⟨0, 0, .pos, []⟩ else ⟨v.weight, 0, v.sign, v.digits.take (v.weight + 1).toNat⟩) :
    ∃ c, Untrusted.cmpCommon v r = .ok c ∧ (c ≠ 0 ↔ HasRest v.digits v.weight) := by
  have hrd : Untrusted.Digits15 r.digits := by
    rw [hr]
    split
    · exact fun d hm => by simp at hm
    · exact fun d hm => hd d (List.mem_of_mem_take hm)
  rw [Untrusted.cmpCommon_ok hd hrd]
  refine ⟨_, rfl, ?_⟩
  unfold Var.cmpCommon HasRest
  simp only [ndigits]
  by_cases hw : v.weight < 0
  · rw [if_pos hw] at hr
    simp only [hr, List.length_nil, if_pos hw]
    by_cases h0 : v.digits = []
    · simp [h0]
    · have : ((v.digits.length : Nat) : Int) ≠ 0 := by simpa using h0
      rw [if_neg this]
      simp only [ne_eq, h0, not_false_eq_true, iff_true]
      simp only [Nat.cast_zero, if_true]
      split <;> simp
  · rw [if_neg hw] at hr
    rw [if_neg hw]
    by_cases h0 : v.digits = []
    · simp [h0, hr]
    · have hpos := List.length_pos_of_ne_nil h0
      have hne : ((v.digits.length : Nat) : Int) ≠ 0 := by omega
      have hrl : ((r.digits.length : Nat) : Int) ≠ 0 := by
        rw [hr]; simp only [List.length_take]; omega
      have hrs : r.sign = v.sign := by rw [hr]
      have hrw : r.weight = v.weight := by rw [hr]
      have hdrop : Untrusted.Digits15 (v.digits.drop (v.weight + 1).toNat) := fun d hm => hd d (List.mem_of_mem_drop hm)
      have hsum : mag32768 v.digits v.weight = mag32768 r.digits v.weight + mag32768 (v.digits.drop (v.weight + 1).toNat) (v.weight - r.digits.length) := by
        conv_lhs => rw [← List.take_append_drop (v.weight + 1).toNat v.digits]
        rw [mag32_append, hr]
      have hrest : (∃ d ∈ v.digits.drop (v.weight + 1).toNat, d ≠ 0) ↔ 0 < mag32768 (v.digits.drop (v.weight + 1).toNat) (v.weight - r.digits.length) := by
        rw [mag32_pos_iff hdrop]; simp
      have hnn := mag32_nonneg hdrop (v.weight - r.digits.length)
      rw [if_neg hne, if_neg hrl, hrs, hrest]
      have ha : Var.cmpAbs v r = cmpSign (mag32768 v.digits v.weight) (mag32768 r.digits v.weight) := by rw [abs32 v r hd hrd, hrw]
      have hb : Var.cmpAbs r v = cmpSign (mag32768 r.digits v.weight) (mag32768 v.digits v.weight) := by rw [abs32 r v hrd hd, hrw]
      have fin : (cmpSign (mag32768 v.digits v.weight) (mag32768 r.digits v.weight) ≠ 0 ↔ 0 < mag32768 (v.digits.drop (v.weight + 1).toNat) (v.weight - r.digits.length)) ∧
          (cmpSign (mag32768 r.digits v.weight) (mag32768 v.digits v.weight) ≠ 0 ↔ 0 < mag32768 (v.digits.drop (v.weight + 1).toNat) (v.weight - r.digits.length)) := by
        rw [hsum]
        rcases hnn.lt_or_eq with h | h
        · unfold cmpSign
          constructor
          · rw [iff_true_right h]
            split_ifs <;> first | (exfalso; linarith) | norm_num
          · rw [iff_true_right h]
            split_ifs <;> first | (exfalso; linarith) | norm_num
        · rw [← h]; simp [cmpSign]
      cases hs : v.sign with
      | nan => exact absurd hs hn
      | pos => simp only [if_true, reduceCtorEq, if_false]; rw [ha]; exact fin.1
      | neg => simp only [reduceCtorEq, if_false]; rw [hb]; exact fin.2

/-- A result of weight `w` at most 32767 is stored, one above is not. -/
theorem finish_bump [Build] {r u : Var} (hu : Near u (lo16 r one) (hi16 r one) 0) (hr : (r.digits.length : Int) ≤ r.weight + 1) (hw0 : 0 ≤ r.weight) (hw : r.weight ≤ 32767) :
    (∃ v, Num.finish u = .ok (some (Bin.encode v)) ∧ Storable16 v ∧ v.dscale = 0 ∧ value v = value u) ∨ r.weight = 32767 ∧ Num.finish u = .ok none := by
  have h1 : lo16 r one = -1 := by unfold lo16; simp only [one, List.length_singleton]; push_cast; omega
  have h2 : hi16 r one = r.weight + 1 := by unfold hi16; simp only [one]; omega
  rw [h1, h2] at hu
  obtain ⟨o, ho, hn, hs⟩ := finish16 hu le_rfl (by omega) (by omega) (by omega)
  cases o with
  | none =>
    have := hn rfl
    exact .inr ⟨by omega, ho⟩
  | some b =>
    obtain ⟨v, rfl, h3, h4, h5⟩ := hs b rfl
    exact .inl ⟨v, ho, h3, h4, h5⟩

end PgNumeric
