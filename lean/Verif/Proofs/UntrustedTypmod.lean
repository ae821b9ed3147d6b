import Verif.Proofs.UntrustedRound
import Verif.Proofs.Typmod
/-! Type modifiers applied to numbers with digits that are not in 0..9999. -/
namespace PgNumeric
open Spec Var Untrusted

theorem scan_lead (ds : List Int) (w m : Int) :
    typmodScan ds ((w + 1) * 4) m = true ↔ ∃ d, (stripLead ds w).1.head? = some d ∧ m < 4 * (stripLead ds w).2 + placesOf d := by
  induction ds generalizing w with
  | nil => simp [typmodScan, stripLead]
  | cons d ds ih =>
    unfold typmodScan stripLead
    by_cases hd : d = 0
    · rw [if_neg (by simpa using hd), if_pos hd, ← ih (w - 1)]
      rw [show (w + 1) * 4 - DEC_DIGITS = (w - 1 + 1) * 4 by simp only [DEC_DIGITS]; ring]
    · rw [if_pos hd, if_neg hd]
      simp only [List.head?_cons, Option.some.injEq, decide_eq_true_eq]
      unfold placesOf
      constructor
      · intro h
        refine ⟨d, rfl, ?_⟩
        split_ifs at * <;> omega
      · rintro ⟨x, rfl, h⟩
        split_ifs at * <;> omega

theorem strip_head (v : Var) : (strip v).digits.head? = (stripLead v.digits v.weight).1.head? := by
  have h := stripTrail_head _ (stripLead_head v.digits v.weight)
  unfold strip
  simp only
  split
  · rename_i he
    rw [← h, he]
  · exact h

theorem strip_weight {v : Var} (h : (strip v).digits ≠ []) : (strip v).weight = (stripLead v.digits v.weight).2 := by
  unfold strip at *
  simp only at *
  split
  · rename_i he
    rw [if_pos he] at h
    simp at h
  · rfl

theorem placesOf_le (d : Int) : 1 ≤ placesOf d ∧ placesOf d ≤ 4 := by unfold placesOf; split_ifs <;> omega

/-- The overflow flag, read off the result. -/
theorem scan_strip (v : Var) (m : Int) :
    (decide ((v.weight + 1) * DEC_DIGITS > m) && typmodScan v.digits ((v.weight + 1) * DEC_DIGITS) m) = true ↔
      ∃ d, (strip v).digits.head? = some d ∧ m < 4 * (strip v).weight + placesOf d := by
  simp only [DEC_DIGITS, Bool.and_eq_true, decide_eq_true_eq]
  rw [scan_lead]
  have hw := stripLead_weight_le v.digits v.weight
  constructor
  · rintro ⟨-, d, h1, h2⟩
    have h3 : (strip v).digits.head? = some d := by rw [strip_head, h1]
    exact ⟨d, h3, by rw [strip_weight (fun hh => by simp [hh] at h3)]; exact h2⟩
  · rintro ⟨d, h1, h2⟩
    rw [strip_weight (fun hh => by simp [hh] at h1)] at h2
    have := placesOf_le d
    exact ⟨by omega, d, by rw [← strip_head, h1], h2⟩

end PgNumeric
