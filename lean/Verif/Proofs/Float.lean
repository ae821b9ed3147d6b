import Verif.Model.Float
import Verif.Proofs.Convert
import Verif.Proofs.Text
/-!
# Floats: what `%.*g` prints is a numeral denoting the number rounded to `P` significant digits
-/
namespace PgNumeric
open Spec Text
namespace Convert

theorem trimZeros_spec (s : Str) : ∃ k, s = trimZeros s ++ List.replicate k 48 ∧ k ≤ s.length := by
  unfold trimZeros
  generalize hr : s.reverse = r
  have hs : s = r.reverse := by rw [← hr, List.reverse_reverse]
  subst hs
  clear hr
  induction r with
  | nil => exact ⟨0, by simp, by simp⟩
  | cons c r ih =>
    rw [List.dropWhile_cons]
    by_cases h : c = 48
    · subst h
      simp only [decide_true, if_true]
      obtain ⟨k, hk, hl⟩ := ih
      refine ⟨k + 1, ?_, by simp at *; omega⟩
      rw [List.reverse_cons, List.replicate_succ', ← List.append_assoc, ← hk]
    · simp only [h, decide_false]
      exact ⟨0, by simp, by simp⟩

theorem numVal_replicate (k : ℕ) : numVal (List.replicate k 48) = 0 := by
  induction k with
  | zero => simp [numVal]
  | succ k ih =>
    rw [List.replicate_succ', Parse.numVal_append, ih, numVal_single]; simp

theorem numVal_trim (a s : Str) : ∃ k, numVal (a ++ s) = numVal (a ++ trimZeros s) * 10 ^ k ∧
    (s.length = (trimZeros s).length + k) := by
  obtain ⟨k, hk, _⟩ := trimZeros_spec s
  refine ⟨k, ?_, ?_⟩
  · conv_lhs => rw [hk]
    rw [← List.append_assoc, Parse.numVal_append, numVal_replicate]; simp
  · conv_lhs => rw [hk]
    simp

theorem trim_dec {s : Str} (h : DecDigits s) : DecDigits (trimZeros s) := by
  obtain ⟨k, hk, _⟩ := trimZeros_spec s
  intro c hc
  exact h c (by rw [hk]; exact List.mem_append_left _ hc)

theorem roundHalfEven_cases (t : ℚ) : roundHalfEven t = ⌊t⌋ ∨ roundHalfEven t = ⌊t⌋ + 1 := by
  unfold roundHalfEven; split_ifs <;> simp

theorem roundHalfEven_near (t : ℚ) : |(roundHalfEven t : ℚ) - t| ≤ 1 / 2 := by
  have h1 := Int.floor_le t
  have h2 := Int.lt_floor_add_one t
  unfold roundHalfEven
  split_ifs <;> rw [abs_le] <;> push_cast <;> constructor <;> linarith

theorem roundHalfEven_int (n : ℤ) : roundHalfEven (n : ℚ) = n := by
  unfold roundHalfEven
  simp

theorem roundHalfEven_mono_bounds {t : ℚ} {a b : ℤ} (ha : (a:ℚ) ≤ t) (hb : t < b) :
    a ≤ roundHalfEven t ∧ roundHalfEven t ≤ b := by
  have h1 : a ≤ ⌊t⌋ := Int.le_floor.2 ha
  have h2 : ⌊t⌋ < b := Int.floor_lt.2 hb
  rcases roundHalfEven_cases t with h | h <;> omega

theorem log_scaled {q : ℚ} (hq : 0 < q) (P : ℕ) (_hP : 0 < P) :
    (10:ℚ) ^ (P - 1 : ℤ) ≤ q * 10 ^ ((P : ℤ) - 1 - Int.log 10 q) ∧ q * 10 ^ ((P : ℤ) - 1 - Int.log 10 q) < 10 ^ (P : ℤ) := by
  have h1 := Int.zpow_log_le_self (b := 10) (by norm_num) hq
  have h2 := Int.lt_zpow_succ_log_self (b := 10) (by norm_num) q
  push_cast at h1 h2
  have ten : (10:ℚ) ≠ 0 := by norm_num
  have hp := T_zpow_pos ((P : ℤ) - 1 - Int.log 10 q)
  constructor
  · calc (10:ℚ) ^ (P - 1 : ℤ) = 10 ^ Int.log 10 q * 10 ^ ((P : ℤ) - 1 - Int.log 10 q) := by
          rw [← zpow_add₀ ten]; congr 1; ring
      _ ≤ _ := mul_le_mul_of_nonneg_right h1 hp.le
  · calc q * 10 ^ ((P : ℤ) - 1 - Int.log 10 q) < 10 ^ (Int.log 10 q + 1) * 10 ^ ((P : ℤ) - 1 - Int.log 10 q) :=
          mul_lt_mul_of_pos_right h2 hp
      _ = _ := by rw [← zpow_add₀ ten]; congr 1; ring

/-- The digits and exponent printed by `%.*g`. -/
theorem sigDigits_spec {q : ℚ} (hq : 0 < q) (P : ℕ) (hP : 0 < P) :
    10 ^ (P - 1) ≤ (sigDigits P q).1 ∧ (sigDigits P q).1 < 10 ^ P ∧
    (sigDigits P q).2 ≤ Int.log 10 q + 1 ∧ Int.log 10 q ≤ (sigDigits P q).2 ∧
    |sigRound P q - q| ≤ 1 / 2 * 10 ^ (Int.log 10 q - P + 1) := by
  obtain ⟨h1, h2⟩ := log_scaled hq P hP
  have e1 : (10:ℚ) ^ (P - 1 : ℤ) = ((10 ^ (P - 1) : ℤ) : ℚ) := by
    push_cast
    rw [← zpow_natCast]; congr 1; omega
  have e2 : (10:ℚ) ^ (P : ℤ) = ((10 ^ P : ℤ) : ℚ) := by push_cast; rw [← zpow_natCast]
  rw [e1] at h1
  rw [e2] at h2
  obtain ⟨b1, b2⟩ := roundHalfEven_mono_bounds h1 h2
  have near := roundHalfEven_near (q * 10 ^ ((P : ℤ) - 1 - Int.log 10 q))
  have hne : q ≠ 0 := hq.ne'
  have hP1 : (10:ℕ) ^ P = 10 ^ (P - 1) * 10 := by rw [← pow_succ]; congr 1; omega
  have hpos : (0:ℤ) < 10 ^ (P - 1) := by positivity
  set R := roundHalfEven (q * 10 ^ ((P : ℤ) - 1 - Int.log 10 q)) with hR
  have ten : (10:ℚ) ≠ 0 := by norm_num
  have hTn : ((R.toNat : ℕ) : ℚ) = R := by
    have : ((R.toNat : ℕ) : ℤ) = R := Int.toNat_of_nonneg (by omega)
    exact_mod_cast this
  have hval : sigRound P q = (R : ℚ) * 10 ^ (Int.log 10 q - P + 1) := by
    unfold sigRound sigDigits
    rw [if_neg hne]
    simp only
    rw [← hR]
    split
    · rename_i h
      have : (R : ℚ) = 10 ^ P := by rw [← hTn, h]; push_cast; rfl
      rw [this]
      simp only
      push_cast
      rw [← zpow_natCast, ← zpow_natCast, ← zpow_add₀ ten, ← zpow_add₀ ten]
      congr 1
      omega
    · rw [hTn]
  have herr : |sigRound P q - q| ≤ 1 / 2 * 10 ^ (Int.log 10 q - P + 1) := by
    have hp := T_zpow_pos (Int.log 10 q - P + 1)
    have : sigRound P q - q = (R - q * 10 ^ ((P : ℤ) - 1 - Int.log 10 q)) * 10 ^ (Int.log 10 q - P + 1) := by
      rw [hval, sub_mul, mul_assoc q, ← zpow_add₀ ten]
      have : (P : ℤ) - 1 - Int.log 10 q + (Int.log 10 q - P + 1) = 0 := by ring
      rw [this]; simp
    rw [this, abs_mul, abs_of_pos hp]
    exact mul_le_mul_of_nonneg_right near hp.le
  refine ⟨?_, ?_, ?_, ?_, herr⟩ <;> unfold sigDigits <;> rw [if_neg hne] <;> simp only [← hR] <;> split
  · simp only; exact le_rfl
  · simp only; zify; rw [Int.toNat_of_nonneg (by omega)]; exact b1
  · simp only; rw [hP1]; have : 0 < 10 ^ (P - 1) := by positivity
    omega
  · rename_i h
    simp only
    have : (R.toNat : ℤ) ≤ 10 ^ P := by rw [Int.toNat_of_nonneg (by omega)]; exact b2
    have : R.toNat ≤ 10 ^ P := by exact_mod_cast this
    omega
  · simp only; omega
  · simp only; omega
  · simp only; omega
  · simp only; omega

theorem numeral_frac {neg : Bool} {int fr e : Str} {exp : ℤ} (hi : DecDigits int) (hne : int ≠ []) (hf : DecDigits fr)
    (he : Exponent e exp) :
    Numeral ((if neg then [45] else []) ++ (int ++ fracText fr ++ e)) neg int (trimZeros fr) exp := by
  refine ⟨if neg then [45] else [], if trimZeros fr = [] then [] else [46], e, ?_, hi, trim_dec hf, by simp [hne], ?_, he, ?_⟩
  · cases neg
    · exact SignOf.none
    · exact SignOf.minus
  · by_cases h : trimZeros fr = []
    · right; rw [if_pos h]; exact ⟨rfl, h⟩
    · left; rw [if_neg h]
  · unfold fracText
    by_cases h : trimZeros fr = []
    · simp [h]
    · simp [h]

theorem trim_value (neg : Bool) (m D : ℕ) (exp : ℤ) :
    numeralValue neg (natText (m / 10 ^ D)) (trimZeros (fixedText D m)) exp =
      (if neg then -1 else 1) * ((m : ℚ) * 10 ^ (exp - D)) := by
  obtain ⟨k, h1, h2⟩ := numVal_trim (natText (m / 10 ^ D)) (fixedText D m)
  rw [fixedText_length] at h2
  rw [Parse.numVal_append, (natText_dec _).2.2, (fixedText_dec _ _).2, fixedText_length, Nat.div_add_mod'] at h1
  unfold numeralValue
  rw [mul_assoc]
  congr 1
  have : (m : ℚ) = (numVal (natText (m / 10 ^ D) ++ trimZeros (fixedText D m)) : ℚ) * 10 ^ k := by exact_mod_cast h1
  rw [this, mul_assoc, ← zpow_natCast, ← zpow_add₀ (by norm_num)]
  congr 2
  omega

/-- Everything about what is printed: a numeral that denotes the rounded number, short, with small exponent. -/
theorem printfG_spec {P : ℕ} (hP : 0 < P) (hP2 : P ≤ 17) (neg : Bool) {q : ℚ} (hq : q = 0 ∨ (10 ^ (-400 : ℤ) ≤ q ∧ q < 10 ^ (400 : ℤ))) :
    ∃ int frac exp, Numeral (printfG P neg q) neg int frac exp ∧
      numeralValue neg int frac exp = (if neg then -1 else 1) * sigRound P q ∧
      int.length ≤ 17 ∧ frac.length ≤ 21 ∧ |exp| ≤ 400 := by
  have hX : -400 ≤ (sigDigits P q).2 ∧ (sigDigits P q).2 ≤ 400 := by
    rcases hq with rfl | ⟨h1, h2⟩
    · simp [sigDigits]
    · have hq0 : 0 < q := lt_of_lt_of_le (T_zpow_pos _) h1
      obtain ⟨-, -, a, b, -⟩ := sigDigits_spec hq0 P hP
      have c1 : -400 ≤ Int.log 10 q := (Int.zpow_le_iff_le_log (by norm_num) hq0).1 (by exact_mod_cast h1)
      have c2 : Int.log 10 q < 400 := (Int.lt_zpow_iff_log_lt (by norm_num) hq0).1 (by exact_mod_cast h2)
      omega
  have hm : (sigDigits P q).1 < 10 ^ P := by
    rcases hq with rfl | ⟨h1, h2⟩
    · simp [sigDigits]
    · have hq0 : 0 < q := lt_of_lt_of_le (T_zpow_pos _) h1
      exact (sigDigits_spec hq0 P hP).2.1
  have hval : ((sigDigits P q).1 : ℚ) * 10 ^ ((sigDigits P q).2 - P + 1) = sigRound P q := rfl
  unfold printfG
  generalize hsd : sigDigits P q = mX at *
  obtain ⟨m, X⟩ := mX
  simp only at hX hm hval ⊢
  have hnt : ∀ D : ℕ, (natText (m / 10 ^ D)).length ≤ 17 := by
    intro D
    refine natText_length_le (by norm_num) ?_
    exact lt_of_le_of_lt (Nat.div_le_self _ _) (lt_of_lt_of_le hm (Nat.pow_le_pow_right (by norm_num) hP2))
  have htl : ∀ D : ℕ, (trimZeros (fixedText D m)).length ≤ D := by
    intro D
    obtain ⟨k, _, h2⟩ := numVal_trim [] (fixedText D m)
    rw [fixedText_length] at h2; omega
  by_cases hst : -4 ≤ X ∧ X < P
  · rw [if_pos hst]
    have h := numeral_frac (neg := neg) (e := []) (exp := 0) (natText_dec (m / 10 ^ ((P : ℤ) - 1 - X).toNat)).1
      (natText_dec (m / 10 ^ ((P : ℤ) - 1 - X).toNat)).2.1 (fixedText_dec ((P : ℤ) - 1 - X).toNat m).1 (.inl ⟨rfl, rfl⟩)
    rw [List.append_nil] at h
    refine ⟨_, _, _, h, ?_, hnt _, ?_, by simp⟩
    · rw [trim_value, ← hval]
      congr 3
      rw [Int.toNat_of_nonneg (by omega)]; ring
    · have := htl ((P : ℤ) - 1 - X).toNat
      omega
  · rw [if_neg hst]
    have hexp : Exponent ([101, if X < 0 then 45 else 43] ++ (if X.natAbs < 10 then [48] else []) ++ natText X.natAbs) X := by
      right
      refine ⟨101, [if X < 0 then 45 else 43], (if X.natAbs < 10 then [48] else []) ++ natText X.natAbs, decide (X < 0), .inl rfl, ?_, ?_, ?_, ?_, ?_⟩
      · by_cases h : X < 0
        · simp only [h, if_true, decide_true]; exact SignOf.minus
        · simp only [h, if_false, decide_false]; exact SignOf.plus
      · intro c hc
        rcases List.mem_append.1 hc with h | h
        · split at h <;> simp at h; omega
        · exact (natText_dec _).1 c h
      · simp [(natText_dec X.natAbs).2.1]
      · simp
      · have hv : numVal ((if X.natAbs < 10 then [48] else []) ++ natText X.natAbs) = X.natAbs := by
          rw [Parse.numVal_append, (natText_dec _).2.2]
          split <;> simp [numVal]
        rw [hv]
        by_cases h : X < 0
        · simp only [h, decide_true, if_true]; omega
        · simp only [h, decide_false, Bool.false_eq_true, if_false]; omega
    have h := numeral_frac (neg := neg) (natText_dec (m / 10 ^ (P - 1))).1
      (natText_dec (m / 10 ^ (P - 1))).2.1 (fixedText_dec (P - 1) m).1 hexp
    refine ⟨natText (m / 10 ^ (P - 1)), trimZeros (fixedText (P - 1) m), X, ?_, ?_, hnt _, ?_, ?_⟩
    · have e : ∀ a b c d f g: Str, a ++ (b ++ c ++ (d ++ f ++ g)) = a ++ (b ++ c ++ d ++ f ++ g) := by intros; simp
      rw [e] at h
      exact h
    · rw [trim_value, ← hval]
      congr 3
      omega
    · have := htl (P - 1); omega
    · rw [abs_le]; omega

theorem fracText_length (s : Str) : (fracText s).length ≤ s.length + 1 := by
  obtain ⟨k, hk, _⟩ := trimZeros_spec s
  have : s.length = (trimZeros s).length + k := by conv_lhs => rw [hk]; simp
  unfold fracText
  split <;> simp <;> omega

theorem printfG_length {P : ℕ} (hP : 0 < P) (hP2 : P ≤ 17) (neg : Bool) {q : ℚ} (hq : q = 0 ∨ (10 ^ (-400 : ℤ) ≤ q ∧ q < 10 ^ (400 : ℤ))) :
    (printfG P neg q).length ≤ 45 := by
  have hX : -400 ≤ (sigDigits P q).2 ∧ (sigDigits P q).2 ≤ 400 := by
    rcases hq with rfl | ⟨h1, h2⟩
    · simp [sigDigits]
    · have hq0 : 0 < q := lt_of_lt_of_le (T_zpow_pos _) h1
      obtain ⟨-, -, a, b, -⟩ := sigDigits_spec hq0 P hP
      have c1 : -400 ≤ Int.log 10 q := (Int.zpow_le_iff_le_log (by norm_num) hq0).1 (by exact_mod_cast h1)
      have c2 : Int.log 10 q < 400 := (Int.lt_zpow_iff_log_lt (by norm_num) hq0).1 (by exact_mod_cast h2)
      omega
  have hm : (sigDigits P q).1 < 10 ^ P := by
    rcases hq with rfl | ⟨h1, h2⟩
    · simp [sigDigits]
    · have hq0 : 0 < q := lt_of_lt_of_le (T_zpow_pos _) h1
      exact (sigDigits_spec hq0 P hP).2.1
  unfold printfG
  generalize hsd : sigDigits P q = mX at *
  obtain ⟨m, X⟩ := mX
  simp only at hX hm ⊢
  have hnt : ∀ D : ℕ, (natText (m / 10 ^ D)).length ≤ 17 := by
    intro D
    refine natText_length_le (by norm_num) ?_
    exact lt_of_le_of_lt (Nat.div_le_self _ _) (lt_of_lt_of_le hm (Nat.pow_le_pow_right (by norm_num) hP2))
  have hft : ∀ D : ℕ, (fracText (fixedText D m)).length ≤ D + 1 := by
    intro D
    have := fracText_length (fixedText D m)
    rwa [fixedText_length] at this
  have hx : (natText X.natAbs).length ≤ 3 := natText_length_le (by norm_num) (by norm_num; omega)
  by_cases hst : -4 ≤ X ∧ X < P
  · rw [if_pos hst]
    have := hnt ((P : ℤ) - 1 - X).toNat
    have := hft ((P : ℤ) - 1 - X).toNat
    simp only [List.length_append]
    split <;> simp <;> omega
  · rw [if_neg hst]
    have := hnt (P - 1)
    have := hft (P - 1)
    simp only [List.length_append]
    have h1 : (if X.natAbs < 10 then [48] else [] : Str).length ≤ 1 := by split <;> simp
    have h2 : (if neg = true then [45] else [] : Str).length ≤ 1 := by split <;> simp
    simp only [List.length_cons, List.length_nil]
    omega

theorem ofFloat_fin [Build] {P : ℕ} (hP : 0 < P) (hP2 : P ≤ 17) (neg : Bool) {q : ℚ}
    (hq : q = 0 ∨ (10 ^ (-400 : ℤ) ≤ q ∧ q < 10 ^ (400 : ℤ))) :
    ∃ r s, ofFloat P (.fin neg q) = .ok (.ok r) ∧ Parse.fromStr (printfG P neg q) = .ok (.ok r) ∧
      Holds r ((if neg then -1 else 1) * sigRound P q) s := by
  obtain ⟨int, frac, exp, hn, hv, h1, h2, h3⟩ := printfG_spec hP hP2 neg hq
  have hlen := printfG_length hP hP2 neg hq
  obtain ⟨r, e, hr⟩ := (Parse.fromStr_numeral (w₁ := []) (w₂ := []) (by simp [White]) (by simp [White]) hn (by omega)).1
    (by
      rw [abs_le] at h3
      refine ⟨?_, by omega, by omega⟩
      simp only [Parse.LIM, exponentLimit]
      rw [abs_lt]; omega)
  rw [List.nil_append, List.append_nil] at e
  rw [hv] at hr
  exact ⟨r, _, by unfold ofFloat; simp only [e, bind_ok, pure_ok], e, hr⟩

end Convert
end PgNumeric
