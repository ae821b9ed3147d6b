import Verif.Proofs.ToFloat
/-!
# A function meeting the contract of `strtod`

`StrtodOK` is satisfiable: reading the text exactly and rounding once meets it.
-/
namespace PgNumeric.Spec
open Text

/-- The number a plain decimal text denotes, rounded to a double. -/
def exactStrtod (s : Str) : Option Convert.Float :=
  let neg := s.head? = some 45
  let body := if s.head? = some 45 then s.tail else s
  let i := body.takeWhile (· ≠ 46)
  let f := (body.dropWhile (· ≠ 46)).tail
  some (F64.double.round neg (numVal (i ++ f) / 10 ^ f.length))

theorem takeWhile_dec {a b : Str} (h : DecDigits a) : (a ++ b).takeWhile (· ≠ 46) = a ++ b.takeWhile (· ≠ 46) ∧
    (a ++ b).dropWhile (· ≠ 46) = b.dropWhile (· ≠ 46) := by
  induction a with
  | nil => simp
  | cons c a ih =>
    obtain ⟨h1, h2⟩ := ih fun d hd => h d (List.mem_cons_of_mem _ hd)
    have h3 : c ≠ 46 := by
      have := h c (by simp)
      omega
    constructor
    · rw [List.cons_append, List.takeWhile_cons_of_pos (by simpa using h3), h1]; rfl
    · rw [List.cons_append, List.dropWhile_cons_of_pos (by simpa using h3), h2]

theorem exactStrtod_ok : StrtodOK exactStrtod := by
  intro neg N s
  refine ⟨_, rfl, .inl ?_⟩
  obtain ⟨d1, d2, d3⟩ := natText_dec (N / 10 ^ s)
  obtain ⟨d4, d5⟩ := fixedText_dec s N
  have hb : (if (decimalText neg N s).head? = some 45 then (decimalText neg N s).tail else decimalText neg N s) =
      natText (N / 10 ^ s) ++ (if s = 0 then [] else 46 :: fixedText s N) ∧ decide ((decimalText neg N s).head? = some 45) = neg := by
    obtain ⟨c, t, e⟩ := List.exists_cons_of_ne_nil d2
    unfold decimalText
    cases neg
    · have : c ≠ 45 := by
        have := d1 c (by rw [e]; simp)
        omega
      simp [e, this]
    · simp
  rw [hb.1, hb.2]
  obtain ⟨t1, t2⟩ := takeWhile_dec (b := if s = 0 then [] else 46 :: fixedText s N) d1
  rw [t1, t2]
  by_cases hs : s = 0
  · subst hs
    simp only [if_pos, List.takeWhile_nil, List.dropWhile_nil, List.append_nil, List.tail_nil, List.length_nil, pow_zero, Nat.div_one, div_one]
    rw [(natText_dec N).2.2]
  · simp only [if_neg hs]
    rw [List.takeWhile_cons_of_neg (by simp), List.dropWhile_cons_of_neg (by simp), List.append_nil, List.tail_cons,
      Parse.numVal_append, d3, d5, fixedText_length, Nat.div_add_mod']

end PgNumeric.Spec
