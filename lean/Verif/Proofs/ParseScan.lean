import Verif.SpecText
import Mathlib.Data.List.TakeWhile
import Verif.Proofs.Exists
/-!
# The scanner of src/parse.rs against the grammar
-/
namespace PgNumeric
open Spec

namespace Parse

theorem isDig_iff (c : Nat) : isDig c = true ↔ 48 ≤ c ∧ c ≤ 57 := by simp [isDig]
theorem isWs_iff (c : Nat) : isWs c = true ↔ c = 32 ∨ c = 9 ∨ c = 10 ∨ c = 12 ∨ c = 13 := by
  simp [isWs, or_assoc]

/-- The first byte, if any, is not a digit. -/
def NoDig (s : Str) : Prop := ∀ c ∈ s.head?, ¬ (48 ≤ c ∧ c ≤ 57)

theorem takeWhile_digits {ds rest : Str} (h : DecDigits ds) (hr : NoDig rest) :
    (ds ++ rest).takeWhile isDig = ds := by
  induction ds with
  | nil =>
    cases rest with
    | nil => rfl
    | cons c r =>
      have : isDig c = false := by
        rw [Bool.eq_false_iff, Ne, isDig_iff]; exact hr c rfl
      simp [this]
  | cons d ds ih =>
    have hd : isDig d = true := (isDig_iff d).2 (h d (by simp))
    rw [List.cons_append, List.takeWhile_cons, if_pos hd, ih (fun c hc => h c (by simp [hc]))]

theorem eatDigits_append {ds rest : Str} (h : DecDigits ds) (hr : NoDig rest) : eatDigits (ds ++ rest) = (ds, rest) := by
  unfold eatDigits
  rw [takeWhile_digits h hr]
  simp

theorem eatDigits_spec (s : Str) : ∃ a b, eatDigits s = (a, b) ∧ s = a ++ b ∧ DecDigits a ∧ NoDig b := by
  have e : s.takeWhile isDig = s.take (s.takeWhile isDig).length := by
    rw [List.prefix_iff_eq_take.1 (List.takeWhile_prefix isDig)]
    simp
  refine ⟨_, _, rfl, (List.take_append_drop _ _).symm, ?_, ?_⟩
  · rw [← e]
    intro c hc
    exact (isDig_iff c).1 (List.mem_takeWhile_imp hc)
  · have : ∀ s : Str, NoDig (s.drop (s.takeWhile isDig).length) := by
      intro s
      induction s with
      | nil => intro c hc; simp at hc
      | cons d s ih =>
        by_cases hd : isDig d = true
        · rw [List.takeWhile_cons, if_pos hd]; simpa using ih
        · rw [List.takeWhile_cons, if_neg hd]
          intro c hc
          simp at hc; subst hc
          rwa [isDig_iff] at hd
    exact this s

theorem extractSign_append {sgn rest : Str} {neg : Bool} (h : SignOf sgn neg) (hr : ∀ c ∈ rest.head?, c ≠ 43 ∧ c ≠ 45) :
    extractSign (sgn ++ rest) = (neg, rest) := by
  cases h with
  | none =>
    cases rest with
    | nil => rfl
    | cons c r =>
      have := hr c rfl
      simp only [List.nil_append]
      unfold extractSign
      split <;> simp_all
  | plus => rfl
  | minus => rfl

theorem extractSign_spec (s : Str) : ∃ sgn neg rest, extractSign s = (neg, rest) ∧ SignOf sgn neg ∧ s = sgn ++ rest := by
  unfold extractSign
  split
  · exact ⟨[43], _, _, rfl, .plus, rfl⟩
  · exact ⟨[45], _, _, rfl, .minus, rfl⟩
  · exact ⟨[], _, _, rfl, .none, rfl⟩

theorem numVal_foldl (s : Str) (n : ℕ) : s.foldl (fun n c => 10 * n + (c - 48)) n = n * 10 ^ s.length + numVal s := by
  unfold numVal
  induction s generalizing n with
  | nil => simp
  | cons c s ih =>
    rw [List.foldl_cons, ih, List.foldl_cons, ih (10 * 0 + (c - 48))]
    rw [List.length_cons]; ring

theorem numVal_append (a b : Str) : numVal (a ++ b) = numVal a * 10 ^ b.length + numVal b := by
  conv_lhs => unfold numVal
  rw [List.foldl_append, numVal_foldl]; rfl

theorem numVal_cons (c : Nat) (s : Str) : numVal (c :: s) = (c - 48) * 10 ^ s.length + numVal s := by
  conv_lhs => unfold numVal
  rw [List.foldl_cons, numVal_foldl]; simp

theorem numVal_lt {s : Str} (h : DecDigits s) : numVal s < 10 ^ s.length := by
  induction s with
  | nil => simp [numVal]
  | cons c s ih =>
    have h1 := ih (fun c hc => h c (by simp [hc]))
    have h2 := h c (by simp)
    rw [numVal_cons, List.length_cons, pow_succ]
    have : c - 48 ≤ 9 := by omega
    have := Nat.mul_le_mul_right (10 ^ s.length) this
    omega

theorem numVal_ge {c : Nat} {s : Str} (h : 48 < c) : 10 ^ s.length ≤ numVal (c :: s) := by
  rw [numVal_cons]
  have : 1 ≤ c - 48 := by omega
  have := Nat.mul_le_mul_right (10 ^ s.length) this
  omega

theorem numVal_dropWhile (s : Str) : numVal (s.dropWhile (· == 48)) = numVal s := by
  induction s with
  | nil => rfl
  | cons c s ih =>
    rw [List.dropWhile_cons]
    split
    · rename_i h
      simp at h; subst h
      rw [ih, numVal_cons]; simp
    · rfl

theorem foldl_int {s : Str} (h : DecDigits s) (r : ℕ) :
    s.foldl (fun (r : Int) (n : Nat) => r * 10 + ((n : Int) - 48)) (r : Int) =
      ((s.foldl (fun n c => 10 * n + (c - 48)) r : ℕ) : Int) := by
  induction s generalizing r with
  | nil => rfl
  | cons c s ih =>
    have h2 := h c (by simp)
    rw [List.foldl_cons, List.foldl_cons, ← ih (fun c hc => h c (by simp [hc]))]
    congr 1
    push_cast [Nat.cast_sub h2.1]; ring

theorem DecDigits.dropWhile {s : Str} (h : DecDigits s) : DecDigits (s.dropWhile (· == 48)) :=
  fun c hc => h c (List.dropWhile_suffix _ |>.subset hc)

/-- The exponent limit of the code. -/
abbrev LIM : ℤ := exponentLimit

/-- An exponent field is read exactly, or rejected because it is out of range. -/
theorem extractExponent_ok {sgn ds rest : Str} {neg : Bool} (hs : SignOf sgn neg) (hd : DecDigits ds) (hne : ds ≠ [])
    (hr : NoDig rest) :
    extractExponent (sgn ++ (ds ++ rest)) =
      if LIM ≤ (numVal ds : ℤ) then .error .overflow
      else .ok (if neg then -(numVal ds : ℤ) else numVal ds, rest) := by
  obtain ⟨c, ds', rfl⟩ := List.exists_cons_of_ne_nil hne
  have hc := hd c (by simp)
  unfold extractExponent
  rw [extractSign_append hs (by intro x hx; simp at hx; subst hx; omega)]
  simp only []
  rw [eatDigits_append hd hr]
  simp only [hne, if_false]
  set t := (c :: ds').dropWhile (· == 48) with ht
  have hv : numVal t = numVal (c :: ds') := numVal_dropWhile _
  have htd : DecDigits t := DecDigits.dropWhile hd
  have hthead : ∀ x s, t = x :: s → 48 < x := by
    intro x s hx
    have h1 := htd x (by rw [hx]; simp)
    have h2 : (x == 48) = false := by
      have := List.head?_dropWhile_not (· == 48) (c :: ds')
      rw [← ht, hx] at this
      simpa using this
    simp at h2; omega
  have hf := foldl_int htd 0
  rw [Nat.cast_zero] at hf
  have hf' : t.foldl (fun (r : Int) (n : Nat) => r * 10 + ((n : Int) - 48)) 0 = ((numVal (c :: ds') : ℕ) : Int) := by
    rw [hf, ← hv]; rfl
  simp only [hf']
  by_cases hlen : t.length > 10
  · rw [if_pos hlen, if_pos]
    cases htt : t with
    | nil => rw [htt] at hlen; simp at hlen
    | cons x s =>
      have h3 := numVal_ge (s := s) (hthead x s htt)
      rw [← htt, hv] at h3
      rw [htt] at hlen
      simp only [List.length_cons] at hlen
      have : (10:ℕ) ^ 10 ≤ 10 ^ s.length := Nat.pow_le_pow_right (by norm_num) (by omega)
      have : (10:ℕ)^10 ≤ numVal (c :: ds') := le_trans this h3
      simp only [LIM, exponentLimit]
      have h4 : ((10:ℕ) ^ 10 : ℤ) ≤ (numVal (c :: ds') : ℤ) := by exact_mod_cast this
      norm_num at h4
      omega
  · rw [if_neg hlen]
    have e : (2147483647 / 2 : Int) = 1073741823 := by decide
    rw [e]
    simp only [LIM, exponentLimit]
    cases neg
    · simp only [Bool.false_eq_true, if_false]
      by_cases hl : (1073741823:ℤ) ≤ (numVal (c :: ds') : ℤ)
      · rw [if_pos (.inl hl), if_pos hl]
      · rw [if_neg (by omega), if_neg hl]
    · simp only [if_true]
      by_cases hl : (1073741823:ℤ) ≤ (numVal (c :: ds') : ℤ)
      · rw [if_pos (.inr (by omega)), if_pos hl]
      · rw [if_neg (by omega), if_neg hl]

/-- What an exponent scan says about its input. -/
theorem extractExponent_spec (s : Str) :
    extractExponent s = .error .invalid ∨
    ∃ sgn ds rest neg, s = sgn ++ (ds ++ rest) ∧ SignOf sgn neg ∧ DecDigits ds ∧ ds ≠ [] ∧ NoDig rest := by
  obtain ⟨sgn, neg, r, e1, h1, rfl⟩ := extractSign_spec s
  obtain ⟨ds, rest, e2, rfl, h2, h3⟩ := eatDigits_spec r
  by_cases hne : ds = []
  · left
    unfold extractExponent
    rw [e1]; simp only []
    rw [e2]; simp [hne]
  · exact .inr ⟨sgn, ds, rest, neg, rfl, h1, h2, hne, h3⟩

/-- The text after a numeral: nothing, or a byte that cannot extend it. -/
def Stop (s : Str) : Prop := ∀ c ∈ s.head?, ¬ (48 ≤ c ∧ c ≤ 57) ∧ c ≠ 46 ∧ c ≠ 101 ∧ c ≠ 69

theorem Stop.noDig {s : Str} (h : Stop s) : NoDig s := fun c hc => (h c hc).1

theorem White.stop {s : Str} (h : White s) : Stop s := by
  intro c hc
  have := h c (List.mem_of_mem_head? hc)
  omega

theorem noDig_point (s : Str) : NoDig (46 :: s) := by intro c hc; simp at hc; omega
theorem noDig_e {c : Nat} (h : c = 101 ∨ c = 69) (s : Str) : NoDig (c :: s) := by intro x hx; simp at hx; omega

theorem exp_abs {ds : Str} {neg : Bool} : |(if neg then -(numVal ds : ℤ) else (numVal ds : ℤ))| = numVal ds := by
  cases neg <;> simp

/-- A numeral is split into its parts, or rejected because of its exponent. -/
theorem parseDecimal_ok' {body rest int frac : Str} {neg : Bool} {exp : ℤ} (h : Numeral body neg int frac exp) (hnr : NoDig rest)
    (hr0 : |exp| < LIM → Stop rest) :
    parseDecimal (body ++ rest) = if LIM ≤ |exp| then .error .overflow else .ok (⟨neg, int, frac, exp⟩, rest) := by
  obtain ⟨sgn, point, e, hs, hi, hf, hne, hp, he, rfl⟩ := h
  have hsign : extractSign (sgn ++ (int ++ (point ++ (frac ++ (e ++ rest))))) = (neg, int ++ (point ++ (frac ++ (e ++ rest)))) := by
    apply extractSign_append hs
    intro c hc
    cases int with
    | cons d l => simp at hc; subst hc; have := hi d (by simp); omega
    | nil =>
      rcases hp with rfl | ⟨rfl, rfl⟩
      · simp at hc; omega
      · simp at hne
  have hsne : int ++ (point ++ (frac ++ (e ++ rest))) ≠ [] := by
    intro h
    simp only [List.append_eq_nil_iff] at h
    rcases hp with rfl | ⟨rfl, rfl⟩
    · simp at h
    · simp_all
  unfold parseDecimal
  rw [show sgn ++ int ++ point ++ frac ++ e ++ rest = sgn ++ (int ++ (point ++ (frac ++ (e ++ rest)))) by simp, hsign]
  simp only [hsne, if_false]
  rcases hp with rfl | ⟨rfl, rfl⟩
  · -- with a point
    rw [show [46] ++ (frac ++ (e ++ rest)) = 46 :: (frac ++ (e ++ rest)) by rfl, eatDigits_append hi (noDig_point _)]
    simp only []
    rw [if_neg (by omega), if_pos trivial]
    have hnn : ¬ (int = [] ∧ frac = []) := by
      rintro ⟨rfl, rfl⟩; simp at hne
    rcases he with ⟨rfl, rfl⟩ | ⟨c, sg2, ds, neg2, hc, hs2, hd2, hd2n, rfl, rfl⟩
    · rw [List.nil_append, eatDigits_append hf hnr]
      simp only [hnn, if_false, abs_zero]
      rw [if_neg (by simp)]
      cases rest with
      | nil => rfl
      | cons c r =>
        have := hr0 (by simp) c rfl
        simp only []
        rw [if_neg (by omega)]
    · rw [List.cons_append, eatDigits_append hf (noDig_e hc _)]
      simp only [hnn, if_false, hc, if_true]
      rw [List.append_assoc, extractExponent_ok hs2 hd2 hd2n hnr, exp_abs]
      by_cases hl : LIM ≤ (numVal ds : ℤ) <;> simp only [hl, if_true, if_false]
  · -- no point
    rw [List.append_nil] at hne
    rw [show ([] ++ ([] ++ (e ++ rest)) : Str) = e ++ rest from rfl]
    rcases he with ⟨rfl, rfl⟩ | ⟨c, sg2, ds, neg2, hc, hs2, hd2, hd2n, rfl, rfl⟩
    · rw [List.nil_append, eatDigits_append hi hnr]
      rw [abs_zero, if_neg (c := LIM ≤ 0) (by simp)]
      cases rest with
      | nil => simp [hne]
      | cons c r =>
        have := hr0 (by simp) c rfl
        dsimp only
        rw [if_neg (by omega), if_neg (by omega), if_neg hne]
    · rw [List.cons_append, eatDigits_append hi (noDig_e hc _)]
      simp only [hne, if_false, hc, if_true]
      rw [List.append_assoc, extractExponent_ok hs2 hd2 hd2n hnr, exp_abs]
      by_cases hl : LIM ≤ (numVal ds : ℤ) <;> simp only [hl, if_true, if_false]

theorem parseDecimal_ok {body rest int frac : Str} {neg : Bool} {exp : ℤ} (h : Numeral body neg int frac exp) (hr : Stop rest) :
    parseDecimal (body ++ rest) = if LIM ≤ |exp| then .error .overflow else .ok (⟨neg, int, frac, exp⟩, rest) :=
  parseDecimal_ok' h hr.noDig (fun _ => hr)

/-- An exponent beyond the limit is an overflow, whatever follows. -/
theorem parseDecimal_huge {body rest int frac : Str} {neg : Bool} {exp : ℤ} (h : Numeral body neg int frac exp) (hl : LIM ≤ |exp|) :
    parseDecimal (body ++ rest) = .error .overflow := by
  obtain ⟨d, rest', e1, rfl, hd, hnd⟩ := eatDigits_spec rest
  obtain ⟨sgn, point, e, hs, hi, hf, hne, hp, he, rfl⟩ := h
  rcases he with ⟨rfl, rfl⟩ | ⟨c, sg2, ds, neg2, hc, hs2, hd2, hd2n, rfl, rfl⟩
  · simp [LIM, exponentLimit] at hl
  · rw [exp_abs] at hl
    have hn : Numeral (sgn ++ int ++ point ++ frac ++ (c :: (sg2 ++ ds)) ++ d) neg int frac (if neg2 then -(numVal (ds ++ d) : ℤ) else numVal (ds ++ d)) := by
      refine ⟨sgn, point, c :: (sg2 ++ (ds ++ d)), hs, hi, hf, hne, hp, .inr ⟨c, sg2, ds ++ d, neg2, hc, hs2, ?_, by simp [hd2n], rfl, rfl⟩, by simp⟩
      intro x hx
      rcases List.mem_append.1 hx with h | h
      exacts [hd2 x h, hd x h]
    have hge : LIM ≤ |(if neg2 then -(numVal (ds ++ d) : ℤ) else (numVal (ds ++ d) : ℤ))| := by
      rw [exp_abs, numVal_append]
      have : numVal ds * 1 ≤ numVal ds * 10 ^ d.length := Nat.mul_le_mul_left _ (Nat.one_le_pow _ _ (by norm_num))
      push_cast
      have : (numVal ds : ℤ) ≤ numVal ds * 10 ^ d.length := by exact_mod_cast (by omega : numVal ds ≤ numVal ds * 10 ^ d.length)
      linarith [Int.natCast_nonneg (numVal d)]
    have := parseDecimal_ok' hn hnd (fun h => absurd hge (not_le.2 h))
    rw [if_pos hge] at this
    rw [← this]; simp

/-- Converse: whatever the scanner accepts, or rejects as an overflow, starts with a numeral. -/
theorem parseDecimal_spec (s : Str) :
    parseDecimal s = .error .invalid ∨
    ∃ body rest neg int frac exp, s = body ++ rest ∧ Numeral body neg int frac exp ∧
      parseDecimal s = if LIM ≤ |exp| then .error .overflow else .ok (⟨neg, int, frac, exp⟩, rest) := by
  obtain ⟨sgn, neg, r, e1, h1, rfl⟩ := extractSign_spec s
  by_cases hr : r = []
  · left; unfold parseDecimal; rw [e1]; simp [hr]
  obtain ⟨int, r2, e2, rfl, hi, hnd⟩ := eatDigits_spec r
  unfold parseDecimal
  rw [e1]
  simp only [hr, if_false]
  rw [e2]
  simp only []
  cases r2 with
  | nil =>
    simp only []
    by_cases hin : int = []
    · left; simp [hin]
    · right
      refine ⟨sgn ++ int, [], neg, int, [], 0, by simp, ⟨sgn, [], [], h1, hi, by simp [DecDigits], by simpa using hin, .inr ⟨rfl, rfl⟩, .inl ⟨rfl, rfl⟩, by simp⟩, ?_⟩
      rw [if_neg hin, if_neg (by simp)]
  | cons c r3 =>
    simp only []
    by_cases hc : c = 101 ∨ c = 69
    · rw [if_pos hc]
      by_cases hin : int = []
      · left; simp [hin]
      · rw [if_neg hin]
        rcases extractExponent_spec r3 with he | ⟨sg2, ds, rest, neg2, rfl, hs2, hd2, hd2n, hrest⟩
        · left; rw [he]
        · right
          refine ⟨sgn ++ int ++ (c :: (sg2 ++ ds)), rest, neg, int, [], if neg2 then -(numVal ds : ℤ) else numVal ds, by simp,
            ⟨sgn, [], _, h1, hi, by simp [DecDigits], by simpa using hin, .inr ⟨rfl, rfl⟩,
              .inr ⟨c, sg2, ds, neg2, hc, hs2, hd2, hd2n, rfl, rfl⟩, by simp⟩, ?_⟩
          rw [extractExponent_ok hs2 hd2 hd2n hrest, exp_abs]
          by_cases hl : LIM ≤ (numVal ds : ℤ) <;> simp only [hl, if_true, if_false]
    · rw [if_neg hc]
      by_cases hp : c = 46
      · subst hp
        rw [if_pos rfl]
        obtain ⟨frac, r4, e3, rfl, hf, hnd2⟩ := eatDigits_spec r3
        rw [e3]
        simp only []
        by_cases hin : int = [] ∧ frac = []
        · left; rw [if_pos hin]
        · rw [if_neg hin]
          have hne : int ++ frac ≠ [] := by
            intro h; rw [List.append_eq_nil_iff] at h; exact hin h
          cases r4 with
          | nil =>
            right
            refine ⟨sgn ++ int ++ [46] ++ frac, [], neg, int, frac, 0, by simp,
              ⟨sgn, [46], [], h1, hi, hf, hne, .inl rfl, .inl ⟨rfl, rfl⟩, by simp⟩, ?_⟩
            rw [if_neg (by simp)]
          | cons c2 r5 =>
            simp only []
            by_cases hc2 : c2 = 101 ∨ c2 = 69
            · rw [if_pos hc2]
              rcases extractExponent_spec r5 with he | ⟨sg2, ds, rest, neg2, rfl, hs2, hd2, hd2n, hrest⟩
              · left; rw [he]
              · right
                refine ⟨sgn ++ int ++ [46] ++ frac ++ (c2 :: (sg2 ++ ds)), rest, neg, int, frac,
                  if neg2 then -(numVal ds : ℤ) else numVal ds, by simp,
                  ⟨sgn, [46], _, h1, hi, hf, hne, .inl rfl,
                    .inr ⟨c2, sg2, ds, neg2, hc2, hs2, hd2, hd2n, rfl, rfl⟩, by simp⟩, ?_⟩
                rw [extractExponent_ok hs2 hd2 hd2n hrest, exp_abs]
                by_cases hl : LIM ≤ (numVal ds : ℤ) <;> simp only [hl, if_true, if_false]
            · rw [if_neg hc2]
              right
              refine ⟨sgn ++ int ++ [46] ++ frac, c2 :: r5, neg, int, frac, 0, by simp,
                ⟨sgn, [46], [], h1, hi, hf, hne, .inl rfl, .inl ⟨rfl, rfl⟩, by simp⟩, ?_⟩
              rw [if_neg (by simp)]
      · rw [if_neg hp]
        by_cases hin : int = []
        · left; rw [if_pos hin]
        · right
          refine ⟨sgn ++ int, c :: r3, neg, int, [], 0, by simp, ⟨sgn, [], [], h1, hi, by simp [DecDigits], by simpa using hin, .inr ⟨rfl, rfl⟩, .inl ⟨rfl, rfl⟩, by simp⟩, ?_⟩
          rw [if_neg hin, if_neg (by simp)]

end Parse
end PgNumeric
