import Verif.Proofs.StoredText
import Verif.Props.StoredArith
import Verif.Props.Convert
/-!
# Text and integer conversions of numerics in any stored form (C59)
-/
namespace PgNumeric.Props
open PgNumeric Spec Var Num

theorem numVal_zeros (k : ℕ) (t : Str) : numVal (List.replicate k 48 ++ t) = numVal t := by
  induction k with
  | zero => rfl
  | succ k ih =>
    rw [List.replicate_succ, List.cons_append]
    show numVal (48 :: _) = _
    rw [← ih]
    simp [numVal]

/-- A decimal text with zeros in front is read as the same number. -/
theorem fromStr_zeros [Build] {x : ℚ} {s N k : ℕ} (hN : |x| * 10 ^ s = N) (hs : s ≤ 16383) (hk : k + (natText (N / 10 ^ s)).length ≤ 131072) :
    ∃ r, Parse.fromStr ((if x < 0 then [45] else []) ++ List.replicate k 48 ++ decimalText false N s) = .ok (.ok r) ∧ Holds r x s := by
  obtain ⟨sgn, point, e, h1, h2, h3, h4, h5, h6, h7⟩ := Text.decimalText_numeral false N s
  have hdec : DecDigits (List.replicate k 48 ++ natText (N / 10 ^ s)) := by
    intro c hc
    rcases List.mem_append.1 hc with h | h
    · rw [List.eq_of_mem_replicate h]; norm_num
    · exact h2 c h
  have hsg : sgn = [] ∨ sgn = [43] := by cases h1 <;> simp
  have hnum : Numeral ((if x < 0 then [45] else []) ++ List.replicate k 48 ++ decimalText false N s) (decide (x < 0))
      (List.replicate k 48 ++ natText (N / 10 ^ s)) (fixedText s N) 0 := by
    refine ⟨if x < 0 then [45] else [], if s = 0 then [] else [46], [], ?_, hdec, h3, ?_, ?_, .inl ⟨rfl, rfl⟩, ?_⟩
    · by_cases h : x < 0
      · simp only [h, if_true, decide_true]; exact .minus
      · simp only [h, if_false, decide_false]; exact .none
    · intro hc
      have hne := (Text.natText_dec (N / 10 ^ s)).2.1
      exact hne (List.append_eq_nil_iff.1 (List.append_eq_nil_iff.1 hc).1).2
    · by_cases h : s = 0
      · right; simp [h, fixedText]
      · left; simp [h]
    · unfold decimalText
      by_cases h : s = 0
      · simp [h, fixedText]
      · simp [h]
  have hlen : ((if x < 0 then [45] else []) ++ List.replicate k 48 ++ decimalText false N s).length ≤ 200000 := by
    unfold decimalText
    simp only [List.length_append, List.length_replicate]
    have l1 : (if x < 0 then [45] else ([] : Str)).length ≤ 1 := by split <;> simp
    have l2 : (if s = 0 then [] else 46 :: fixedText s N).length ≤ s + 1 := by split <;> simp [Text.fixedText_length]
    have l3 : (if (false = true) then [45] else ([] : Str)).length = 0 := by simp
    omega
  obtain ⟨r, er, hr⟩ := (Parse.fromStr_numeral (w₁ := []) (w₂ := []) (by simp [White]) (by simp [White]) hnum (by omega)).1
    ⟨by simp, by rw [Text.fixedText_length]; omega, by rw [List.length_append, List.length_replicate]; omega⟩
  rw [List.nil_append, List.append_nil] at er
  refine ⟨r, er, ?_⟩
  have hval : numeralValue (decide (x < 0)) (List.replicate k 48 ++ natText (N / 10 ^ s)) (fixedText s N) 0 =
      numeralValue (decide (x < 0)) (natText (N / 10 ^ s)) (fixedText s N) 0 := by
    unfold numeralValue; rw [List.append_assoc, numVal_zeros]
  rw [hval, Text.decimalText_value, Text.fixedText_length] at hr
  have e1 : (if (decide (x < 0)) = true then -1 else 1) * ((N : ℚ) / 10 ^ s) = x := by
    rw [← hN]
    by_cases h : x < 0
    · simp only [h, decide_true, if_true, abs_of_neg h]; field_simp
    · simp only [h, decide_false, Bool.false_eq_true, if_false, abs_of_nonneg (not_lt.1 h)]; field_simp
  rw [e1] at hr
  have e2 : max (0:ℤ) ((s : ℤ) - 0) = s := by omega
  rw [e2] at hr
  exact hr

/-- C59: the text of any stored form is the exact decimal expansion, except that zeros may stand in front of it, and only if the first group of
the form is zero or the number is; parsing the text gives the canonical form of the number, with its scale. -/
theorem C59_display [Build] {b : Bin} {x : ℚ} {s : ℕ} (h : Stored b x s) :
    ∃ N k : ℕ, |x| * 10 ^ s = N ∧ (k ≠ 0 → firstGroup b = some 0 ∨ x = 0) ∧
      Num.toString b = .ok ((if x < 0 then [45] else []) ++ List.replicate k 48 ++ decimalText false N s) ∧
      ∃ r, Parse.fromStr ((if x < 0 then [45] else []) ++ List.replicate k 48 ++ decimalText false N s) = .ok (.ok r) ∧ Holds r x s := by
  obtain ⟨v, hv, rfl, hs, -, -, ev, hg⟩ := stored_first h
  obtain ⟨t, N, ht, hN⟩ := exists_nat (hs ▸ hv.scale) (by omega)
  obtain rfl : t = s := by exact_mod_cast ht.symm
  have hlen := Text.extra_len hv hN
  refine ⟨N, Text.extra v (N / 10 ^ t), hN, ?_, ?_, fromStr_zeros hN (by have := hv.dscale_le; omega) hlen⟩
  · intro hk
    by_cases hz : value v = 0
    · exact .inr hz
    · left
      unfold Text.extra at hk
      split at hk
      · rename_i hh
        rw [← hg]
        cases hd : v.digits with
        | nil => exact absurd (hv.value_zero_iff.2 hd) hz
        | cons d l => rw [hd] at hh; simpa using hh.1
      · exact absurd rfl hk
  · unfold Num.toString
    rw [ev, bind_ok, Text.write_loose hv hs hN]
    unfold decimalText
    simp

/-- C59: `normalize` of any stored form: the shortest expansion, with the same zeros in front. -/
theorem C59_normalize [Build] {b : Bin} {x : ℚ} {s : ℕ} (h : Stored b x s) :
    ∃ m N k : ℕ, |x| * 10 ^ m = N ∧ (∀ j : ℕ, HasScale x j → m ≤ j) ∧ (k ≠ 0 → firstGroup b = some 0 ∨ x = 0) ∧
      Num.normalize b = .ok ((if x < 0 then [45] else []) ++ List.replicate k 48 ++ decimalText false N m) := by
  obtain ⟨v, hv, rfl, hs, -, -, ev, hg⟩ := stored_first h
  obtain ⟨t, N, ht, hN⟩ := exists_nat (hs ▸ hv.scale) (by omega)
  obtain rfl : t = s := by exact_mod_cast ht.symm
  have hp : 46 ∉ (if value v < 0 then [45] else []) ++ (List.replicate (Text.extra v (N / 10 ^ t)) 48 ++ natText (N / 10 ^ t)) := by
    intro hc
    rcases List.mem_append.1 hc with h | h
    · split at h <;> simp at h
    · rcases List.mem_append.1 h with h | h
      · have := List.eq_of_mem_replicate h; omega
      · exact Text.no_point (Text.natText_dec _).1 h
  obtain ⟨k, hk, h1, h2, h3⟩ := Text.normalize_text hv.not_nan hp (Text.write_loose hv hs hN)
  obtain ⟨e1, e2, e3⟩ := Text.normalize_parts hN hk h1 h2
  refine ⟨t - k, N / 10 ^ k, Text.extra v (N / 10 ^ t), e1, ?_, ?_, ?_⟩
  · intro j hj
    rcases e2 with h0 | hmin
    · omega
    · by_contra hlt
      push Not at hlt
      apply hmin
      obtain ⟨j', N'', hj', hN''⟩ := exists_nat hj (by omega)
      obtain rfl : j = j' := by exact_mod_cast hj'
      refine ⟨N'' * 10 ^ (t - k - j - 1), ?_⟩
      have : ((N / 10 ^ k : ℕ) : ℚ) = ((10 * (N'' * 10 ^ (t - k - j - 1)) : ℕ) : ℚ) := by
        rw [← e1]
        push_cast
        rw [← hN'']
        have : (10:ℚ) ^ (t - k) = 10 ^ j * 10 * 10 ^ (t - k - j - 1) := by
          rw [← pow_succ, ← pow_add]; congr 1; omega
        rw [this]; ring
      exact_mod_cast this
  · intro hk
    by_cases hz : value v = 0
    · exact .inr hz
    · left
      unfold Text.extra at hk
      split at hk
      · rename_i hh
        rw [← hg]
        cases hd : v.digits with
        | nil => exact absurd (hv.value_zero_iff.2 hd) hz
        | cons d l => rw [hd] at hh; simpa using hh.1
      · exact absurd rfl hk
  · unfold Num.normalize
    rw [ev, bind_ok, h3]
    unfold decimalText
    rw [← e3]
    simp

/-- C59: the conversions to the integer types depend only on the value: the nearest integer, ties away from zero, or `overflow`. -/
theorem C59_to_int [Build] {ty : IntTy} (ht : ty ∈ Convert.types) {a : Bin} {x : ℚ} {s : Int} (ha : Stored a x s) :
    ∃ n : ℤ, roundHalfAway x 0 = n ∧
      (ty.lo ≤ n ∧ n ≤ ty.hi → Convert.toInt ty a = .ok (.ok n)) ∧
      (¬ (ty.lo ≤ n ∧ n ≤ ty.hi) → Convert.toInt ty a = .ok (.error .overflow)) := by
  obtain ⟨v, hv, rfl, -, -, -, ev, -⟩ := Bin.stored_var ha
  obtain ⟨n, hn⟩ := roundHalfAway_hasScale (value v) 0
  have hn : roundHalfAway (value v) 0 = n := by simpa using hn
  refine ⟨n, hn, fun h => ?_, fun h => ?_⟩
  · rw [Convert.toInt_readable ht ev hv.readable hn, if_pos (show ty.InRange n from h)]
  · rw [Convert.toInt_readable ht ev hv.readable hn, if_neg (show ¬ ty.InRange n from h)]

/-- Non-vacuity, and the zeros do appear: -1.5 with a zero first group prints as "-00001.5", is read back as -1.5 and converts to -2. -/
example [Build] : Num.toString paddedForm = .ok (str "-00001.5") ∧ Convert.toInt .i32 paddedForm = .ok (.ok (-2)) := by
  constructor
  · rename_i inst
    obtain ⟨d, e⟩ := inst
    cases d <;> cases e <;> decide +kernel
  · obtain ⟨n, hn, h1, -⟩ := C59_to_int (ty := .i32) (by decide) paddedForm_stored
    have : roundHalfAway (-3 / 2 : ℚ) 0 = -2 := by norm_num [roundHalfAway, rmag, Int.floor_eq_iff]
    rw [this] at hn
    obtain rfl : n = -2 := by exact_mod_cast hn.symm
    exact h1 (by decide)

end PgNumeric.Props
