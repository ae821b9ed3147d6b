import Verif.Props.UntrustedCmp
import Verif.Proofs.UntrustedCmp
/-!
# Negating numbers from arbitrary bytes
-/
namespace PgNumeric.Untrusted
open PgNumeric Spec Props

/-- What the bytes of a stored number say. -/
theorem encode_says [Build] {v : Var} (hst : Storable16 v) :
    Complete (Bin.encode v).asBytes ∧ kindAt (Bin.encode v).asBytes ≠ 3 ∧ (negAt (Bin.encode v).asBytes ↔ v.sign = .neg) ∧
    weightAt (Bin.encode v).asBytes = v.weight ∧ (scaleAt (Bin.encode v).asBytes : ℤ) = v.dscale ∧ digitsAt (Bin.encode v).asBytes = v.digits := by
  obtain ⟨hcr, hvr, -⟩ := untrusted_encode_complete hst
  have hcov := complete_covered hcr
  rw [asVar_ok hcov (fun _ => hcr.1)] at hvr
  by_cases h3r : kindAt (Bin.encode v).asBytes = 3
  · exfalso
    rw [if_pos h3r] at hvr
    obtain hvr : Var.nan = v := by simpa using hvr
    exact hst.not_nan (by rw [← hvr]; rfl)
  · rw [if_neg h3r] at hvr
    have hvr : varAt (Bin.encode v).asBytes = v := by simpa using hvr
    have f1 := congrArg Var.sign hvr
    have f2 := congrArg Var.weight hvr
    have f3 := congrArg Var.dscale hvr
    have f4 := congrArg Var.digits hvr
    refine ⟨hcr, h3r, ?_, f2, f3, f4⟩
    generalize (Bin.encode v).asBytes = cs at *
    unfold varAt at f1
    simp only at f1
    rw [← f1]
    by_cases hx : negAt cs <;> simp [hx]

theorem ofInt_wrap (n : Int) : BitVec.ofInt 16 (wrap16 n) = BitVec.ofInt 16 n := by
  apply BitVec.eq_of_toInt_eq
  rw [BitVec.toInt_ofInt, BitVec.toInt_ofInt]
  unfold wrap16
  simp only [Int.bmod]
  omega

theorem wrap16_range (n : Int) : -32768 ≤ wrap16 n ∧ wrap16 n ≤ 32767 := by unfold wrap16; omega

theorem wrap16_id {n : Int} (h1 : -32768 ≤ n) (h2 : n ≤ 32767) : wrap16 n = n := by unfold wrap16; omega

/-- The weight is stored in 16 bits. -/
theorem encode_wrap [Build] (v : Var) : Bin.encode v = Bin.encode { v with weight := wrap16 v.weight } := by
  unfold Bin.encode
  simp only [ofInt_wrap]

theorem stripTrail_core {core : List Int} (m : ℕ) (hl : core.getLast? ≠ some 0) : Var.stripTrail (core ++ List.replicate m 0) = core := by
  rw [stripTrail_loose, List.reverse_append, List.reverse_replicate]
  have h1 : (List.replicate m (0:Int) ++ core.reverse).takeWhile (· = 0) = List.replicate m 0 := by
    rw [List.takeWhile_append_of_pos (by simp)]
    cases hc : core.reverse with
    | nil => simp
    | cons d l =>
      have : core.getLast? = some d := by
        rw [← List.head?_reverse, hc]; rfl
      have hd : d ≠ 0 := by rintro rfl; exact hl this
      simp [hd]
  rw [h1]
  simp

theorem stripLead_core {core tail : List Int} (k : ℕ) (hne : core ≠ []) (hh : core.head? ≠ some 0) (w : Int) :
    Var.stripLead (List.replicate k 0 ++ core ++ tail) w = (core ++ tail, w - k) := by
  rw [stripLead_loose, List.append_assoc]
  obtain ⟨d, l, rfl⟩ := List.exists_cons_of_ne_nil hne
  have hd : d ≠ 0 := by rintro rfl; exact hh rfl
  rw [List.dropWhile_append_of_pos (by simp), List.takeWhile_append_of_pos (by simp)]
  simp [hd]

theorem mag32_append (k : ℕ) : ∀ (l : List Int) (w : Int), mag32768 (List.replicate k 0 ++ l) w = mag32768 l (w - k) := by
  induction k with
  | zero => intro l w; simp
  | succ k ih =>
    intro l w
    rw [List.replicate_succ, List.cons_append]
    show ((0:ℤ):ℚ) * 32768 ^ w + mag32768 (List.replicate k 0 ++ l) (w - 1) = _
    rw [ih]
    push_cast
    rw [zero_mul, zero_add]
    congr 1
    omega

theorem mag32_zeros (m : ℕ) (w : Int) : mag32768 (List.replicate m 0) w = 0 := by
  have := mag32_append m [] w
  rw [List.append_nil] at this
  rw [this]; rfl

theorem mag32_tail (m : ℕ) : ∀ (l : List Int) (w : Int), mag32768 (l ++ List.replicate m 0) w = mag32768 l w
  | [], w => by rw [List.nil_append, mag32_zeros]; rfl
  | d :: l, w => by
    show (d:ℚ) * 32768 ^ w + mag32768 (l ++ List.replicate m 0) (w - 1) = (d:ℚ) * 32768 ^ w + mag32768 l (w - 1)
    rw [mag32_tail m l]

/-- Every list is zeros, a core without zeros at its ends, and zeros; or zeros only. -/
theorem core_exists (ds : List Int) : (∀ d ∈ ds, d = 0) ∨ ∃ k core m, ds = List.replicate k 0 ++ core ++ List.replicate m 0 ∧ core ≠ [] ∧
    core.head? ≠ some 0 ∧ core.getLast? ≠ some 0 := by
  induction ds with
  | nil => left; simp
  | cons d ds ih =>
    rcases ih with h | ⟨k, core, m, rfl, h1, h2, h3⟩
    · by_cases hd : d = 0
      · left; simpa [hd] using h
      · right
        refine ⟨0, [d], ds.length, ?_, by simp, by simpa using hd, by simpa using hd⟩
        simp [List.eq_replicate_iff]
        exact h
    · right
      by_cases hd : d = 0
      · exact ⟨k + 1, core, m, by simp [hd, List.replicate_succ], h1, h2, h3⟩
      · refine ⟨0, d :: (List.replicate k 0 ++ core), m, by simp, by simp, by simpa using hd, ?_⟩
        rw [List.getLast?_cons, List.getLast?_append]
        obtain ⟨x, hx⟩ : ∃ x, core.getLast? = some x := ⟨core.getLast h1, List.getLast?_eq_some_getLast h1⟩
        rw [hx] at h3 ⊢
        simpa using h3

end PgNumeric.Untrusted
