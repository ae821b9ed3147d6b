import Verif.Props.Laws
import Verif.Proofs.Text
/-!
# Parsing, printing, normalisation and serialisation (C01-C05, C23, C41)

The grammar is `Verif/SpecText.lean`: `Literal s neg int frac exp` says that the byte string `s` is a numeral with
white space around it, `numeralValue` is the rational it denotes, `decimalText neg n s` is the decimal expansion.
Strings are shorter than 512 MiB (`2^29` bytes), where the code's `usize as i32` conversions are exact.
-/
namespace PgNumeric.Props
open PgNumeric Spec

/-! ## C01 -/

/-- C01: parsing never faults, and the four kinds of outcome are decided by the grammar. -/
theorem C01_grammar [Build] {s : Str} (hlen : s.length < 2 ^ 29) :
    (Parse.fromStr s = .ok (.error .empty) ↔ White s) ∧
    (Parse.fromStr s = .ok (.error .invalid) ↔
      ¬ White s ∧ ¬ NaNLiteral s ∧ (∀ neg int frac exp, ¬ Literal s neg int frac exp) ∧ ¬ HugeExponent s) ∧
    (((∃ r, Parse.fromStr s = .ok (.ok r)) ∨ Parse.fromStr s = .ok (.error .overflow)) ↔
      NaNLiteral s ∨ (∃ neg int frac exp, Literal s neg int frac exp) ∨ HugeExponent s) := by
  norm_num at hlen
  have hlit : ∀ neg int frac exp, Literal s neg int frac exp →
      (∃ r, Parse.fromStr s = .ok (.ok r)) ∨ Parse.fromStr s = .ok (.error .overflow) := by
    rintro neg int frac exp ⟨w₁, body, w₂, h1, h2, hb, rfl⟩
    have hbl : body.length < 536870912 := by simp at hlen; omega
    have := Parse.fromStr_numeral h1 h2 hb hbl
    by_cases hr : Parse.InRange int frac exp
    · obtain ⟨r, hr, -⟩ := this.1 hr; exact .inl ⟨r, hr⟩
    · exact .inr (this.2 hr)
  by_cases h1 : White s
  · have e := Parse.fromStr_empty h1
    refine ⟨by simp [e, h1], by simp [e, h1], ?_⟩
    constructor
    · rintro (⟨r, hr⟩ | hr) <;> rw [e] at hr <;> cases hr
    · rintro (h | ⟨neg, int, frac, exp, h⟩ | h)
      · rw [Parse.fromStr_nan h] at e; cases e
      · exact hlit _ _ _ _ h
      · rw [Parse.fromStr_huge h] at e; cases e
  by_cases h2 : NaNLiteral s
  · have e := Parse.fromStr_nan h2
    exact ⟨by simp [e, h1], by simp [e, h2], by simp [e, h2]⟩
  by_cases h4 : HugeExponent s
  · have e := Parse.fromStr_huge h4
    exact ⟨by simp [e, h1], by simp [e, h4], by simp [e, h4]⟩
  by_cases h3 : ∃ neg int frac exp, Literal s neg int frac exp
  · obtain ⟨neg, int, frac, exp, h3⟩ := h3
    have := hlit _ _ _ _ h3
    refine ⟨?_, ?_, ?_⟩
    · rcases this with ⟨r, e⟩ | e <;> simp [e, h1]
    · rcases this with ⟨r, e⟩ | e <;> simp only [e] <;> constructor
      · intro h; cases h
      · intro h; exact absurd h3 (h.2.2.1 _ _ _ _)
      · intro h; cases h
      · intro h; exact absurd h3 (h.2.2.1 _ _ _ _)
    · exact ⟨fun _ => .inr (.inl ⟨neg, int, frac, exp, h3⟩), fun _ => this⟩
  · push Not at h3
    have e := Parse.fromStr_other hlen h1 h2 h3 h4
    refine ⟨by simp [e, h1], by simp [e, h1, h2, h3, h4], by simp [e, h2, h3, h4]⟩

/-- C01: an accepted text is either NaN or a number, never anything else. -/
theorem C01_total [Build] {s : Str} (hlen : s.length < 2 ^ 29) : ∃ r, Parse.fromStr s = .ok r := by
  obtain ⟨h1, h2, h3⟩ := C01_grammar hlen
  by_cases a : White s
  · exact ⟨_, h1.2 a⟩
  by_cases b : NaNLiteral s ∨ (∃ neg int frac exp, Literal s neg int frac exp) ∨ HugeExponent s
  · rcases h3.2 b with ⟨r, h⟩ | h
    exacts [⟨_, h⟩, ⟨_, h⟩]
  · push Not at b
    exact ⟨_, h2.2 ⟨a, b.1, b.2.1, b.2.2⟩⟩

/-- C01: a NaN literal parses to a NaN. -/
theorem C01_nan [Build] {s : Str} (h : NaNLiteral s) : ∃ r, Parse.fromStr s = .ok (.ok r) ∧ IsNaN r :=
  ⟨_, Parse.fromStr_nan h, nan_isNaN⟩

/-- The grammar is inhabited: `" -1.25e+3\n"` is a literal, `"nAn"` a NaN literal, `"1.2.3"` is neither. -/
example : Literal (str " -1.25e+3\n") true (str "1") (str "25") 3 :=
  ⟨str " ", str "-1.25e+3", str "\n", by decide, by decide,
    ⟨str "-", str ".", str "e+3", .minus, by decide, by decide, by decide, .inl (by decide),
      .inr ⟨101, str "+", str "3", false, .inl rfl, .plus, by decide, by decide, by decide, by decide⟩, by decide⟩, by decide⟩

example : NaNLiteral (str "nAn ") := ⟨[], str "nAn", str " ", by decide, by decide, ⟨110, 65, 110, by decide, by decide, by decide, by decide⟩, by decide⟩

/-! ## C02, C03 -/

/-- C02: a literal that is accepted yields exactly the number it denotes, at the scale it is written with. -/
theorem C02_parse_exact [Build] {s : Str} {neg : Bool} {int frac : Str} {exp : ℤ} {r : Bin} (hlen : s.length < 2 ^ 29)
    (h : Literal s neg int frac exp) (hr : Parse.fromStr s = .ok (.ok r)) :
    Holds r (numeralValue neg int frac exp) (max 0 (frac.length - exp)) := by
  obtain ⟨w₁, body, w₂, h1, h2, hb, rfl⟩ := h
  have hbl : body.length < 536870912 := by simp at hlen; omega
  have := Parse.fromStr_numeral h1 h2 hb hbl
  by_cases hi : Parse.InRange int frac exp
  · obtain ⟨r', e, h⟩ := this.1 hi
    rw [hr] at e; cases e; exact h
  · rw [this.2 hi] at hr; cases hr

/-- C03: a literal is rejected exactly when its exponent reaches the exponent limit, or it asks for more than 16383
decimal places, or its first written digit lies beyond the 131072nd place before the point; the error is `overflow`. -/
theorem C03_parse_range [Build] {s : Str} {neg : Bool} {int frac : Str} {exp : ℤ} (hlen : s.length < 2 ^ 29)
    (h : Literal s neg int frac exp) :
    ((∃ r, Parse.fromStr s = .ok (.ok r)) ↔
      |exp| < exponentLimit ∧ (frac.length : ℤ) - exp ≤ 16383 ∧ (int.length : ℤ) + exp ≤ 131072) ∧
    (Parse.fromStr s = .ok (.error .overflow) ↔
      ¬ (|exp| < exponentLimit ∧ (frac.length : ℤ) - exp ≤ 16383 ∧ (int.length : ℤ) + exp ≤ 131072)) := by
  obtain ⟨w₁, body, w₂, h1, h2, hb, rfl⟩ := h
  have hbl : body.length < 536870912 := by simp at hlen; omega
  have := Parse.fromStr_numeral h1 h2 hb hbl
  by_cases hi : Parse.InRange int frac exp
  · obtain ⟨r', e, h⟩ := this.1 hi
    have hi' := hi
    unfold Parse.InRange at hi'
    refine ⟨⟨fun _ => hi', fun _ => ⟨r', e⟩⟩, ⟨fun h => ?_, fun h => absurd hi' h⟩⟩
    rw [e] at h; cases h
  · have e := this.2 hi
    have hi' := hi
    unfold Parse.InRange at hi'
    refine ⟨?_, by simp only [e, true_iff]; exact hi'⟩
    constructor
    · rintro ⟨r, hr⟩; rw [e] at hr; cases hr
    · intro h; exact absurd h hi

/-- C03: so a literal whose first digit is not zero is accepted whenever its value and scale fit. -/
theorem C03_fits_accepted [Build] {s : Str} {neg : Bool} {int frac : Str} {exp : ℤ} (hlen : s.length < 2 ^ 29)
    (h : Literal s neg int frac exp) (hfirst : (int ++ frac).head? ≠ some 48)
    (hv : |numeralValue neg int frac exp| < limit) (hs : (frac.length : ℤ) - exp ≤ 16383) :
    ∃ r, Parse.fromStr s = .ok (.ok r) := by
  rw [(C03_parse_range hlen h).1]
  obtain ⟨w₁, body, w₂, h1, h2, hb, rfl⟩ := h
  have hbl := Parse.numeral_parts_len hb
  obtain ⟨sgn, point, e, hsg, hi, hf, hne, hp, he, rfl⟩ := hb
  have hint : (int.length : ℤ) + exp ≤ 131072 := by
    obtain ⟨c, r, hcr⟩ := List.exists_cons_of_ne_nil hne
    have hc : 48 ≤ c := by
      have : c ∈ int ++ frac := by rw [hcr]; simp
      rcases List.mem_append.1 this with h | h
      exacts [(hi c h).1, (hf c h).1]
    have hc' : 48 < c := by
      rw [hcr] at hfirst; simp at hfirst; omega
    have hge := Parse.numVal_ge (s := r) hc'
    rw [← hcr] at hge
    have hrl : (int ++ frac).length = r.length + 1 := by rw [hcr]; simp
    rw [List.length_append] at hrl
    have habs : |numeralValue neg int frac exp| = (numVal (int ++ frac) : ℚ) * 10 ^ (exp - frac.length) := by
      unfold numeralValue
      rw [abs_mul, abs_mul, abs_of_pos (T_zpow_pos _), Nat.abs_cast]
      cases neg <;> simp
    rw [habs] at hv
    have hge' : (10:ℚ) ^ r.length ≤ (numVal (int ++ frac) : ℚ) := by exact_mod_cast hge
    have hlt : (10:ℚ) ^ ((r.length : ℤ) + (exp - frac.length)) < 10 ^ (131072 : ℤ) := by
      rw [zpow_add₀ (by norm_num), zpow_natCast]
      refine lt_of_le_of_lt (mul_le_mul_of_nonneg_right hge' (T_zpow_pos _).le) ?_
      refine lt_of_lt_of_eq hv ?_
      unfold limit
      exact (zpow_natCast 10 131072).symm
    have := (zpow_lt_zpow_iff_right₀ (by norm_num : (1:ℚ) < 10)).1 hlt
    omega
  refine ⟨?_, hs, hint⟩
  simp at hlen hbl
  rw [abs_lt]
  simp only [exponentLimit]
  omega

/-- C03: the converse fails for zeros: `0e200000` denotes 0 but is rejected, because the position of the written
digit is checked before leading zeros are stripped. -/
theorem C03_zero_rejected [Build] : numeralValue false (str "0") [] 200000 = 0 ∧
    Parse.fromStr (str "0e200000") = .ok (.error .overflow) := by
  constructor
  · unfold numeralValue
    have : numVal (str "0" ++ []) = 0 := by decide
    rw [this]; simp
  · have hl : Literal (str "0e200000") false (str "0") [] 200000 :=
      ⟨[], str "0e200000", [], by decide, by decide,
        ⟨[], [], str "e200000", .none, by decide, by decide, by decide, .inr ⟨rfl, rfl⟩,
          .inr ⟨101, [], str "200000", false, .inl rfl, .none, by decide, by decide, by decide, by decide⟩, by decide⟩, by decide⟩
    rw [(C03_parse_range (by decide) hl).2]
    intro h
    have h3 := h.2.2
    have : (str "0").length = 1 := by decide
    rw [this] at h3
    norm_num at h3

/-- An accepted, exactly parsed case: `-1.25e+3` is -1250 at scale 0. -/
example [Build] : ∃ r, Parse.fromStr (str "-1.25e+3") = .ok (.ok r) ∧ Holds r (-1250) 0 := by
  have hl : Literal (str "-1.25e+3") true (str "1") (str "25") 3 :=
    ⟨[], str "-1.25e+3", [], by decide, by decide,
      ⟨str "-", str ".", str "e+3", .minus, by decide, by decide, by decide, .inl (by decide),
        .inr ⟨101, str "+", str "3", false, .inl rfl, .plus, by decide, by decide, by decide, by decide⟩, by decide⟩, by decide⟩
  have hi : (str "1").length = 1 := by decide
  have hf : (str "25").length = 2 := by decide
  obtain ⟨r, hr⟩ := (C03_parse_range (by decide) hl).1.2 ⟨by decide, by rw [hf]; norm_num, by rw [hi]; norm_num⟩
  refine ⟨r, hr, cast (C02_parse_exact (by decide) hl hr) ?_ ?_⟩
  · unfold numeralValue
    have : numVal (str "1" ++ str "25") = 125 := by decide
    rw [this, hf]; norm_num
  · rw [hf]; norm_num

/-! ## C05, C04 -/

/-- The integer `|x| * 10^s` of a number at scale `s`. -/
theorem exists_nat {x : ℚ} {s : ℤ} (h : HasScale x s) (h0 : 0 ≤ s) : ∃ (t N : ℕ), s = t ∧ |x| * 10 ^ t = N := by
  obtain ⟨t, rfl⟩ := Int.eq_ofNat_of_zero_le h0
  obtain ⟨n, hn⟩ := h
  refine ⟨t, n.natAbs, rfl, ?_⟩
  rw [zpow_natCast] at hn
  have : |x| * 10 ^ t = |x * 10 ^ t| := by rw [abs_mul, abs_of_pos (by positivity : (0:ℚ) < 10 ^ t)]
  rw [this, hn, Nat.cast_natAbs, Int.cast_abs]

/-- C05: `to_string` writes the exact decimal expansion with exactly `scale` fraction digits. -/
theorem C05_display [Build] {b : Bin} {x : ℚ} {s : ℕ} (h : Holds b x s) :
    ∃ N : ℕ, |x| * 10 ^ s = N ∧ Num.toString b = .ok (decimalText (decide (x < 0)) N s) := by
  obtain ⟨hs, h0, -, -⟩ := h.bounds
  obtain ⟨t, N, ht, hN⟩ := exists_nat hs h0
  obtain rfl : s = t := by exact_mod_cast ht
  obtain ⟨v, hv, hx, hd, -, -, e⟩ := h.exists_var
  refine ⟨N, hN, ?_⟩
  unfold Num.toString
  rw [e]
  exact Text.write_spec hv hx hd hN

/-- C05: the text of NaN. -/
theorem C05_display_nan [Build] {b : Bin} (h : IsNaN b) : Num.toString b = .ok (str "NaN") := by
  unfold Num.toString
  rw [h.facts.2.2]; rfl

/-- C05: what `decimalText` means, independently: it is a numeral without exponent whose integer part has no
superfluous leading zero and whose fraction has `s` digits, denoting `± N / 10^s`. -/
theorem C05_text_meaning (neg : Bool) (N s : ℕ) :
    ∃ int frac, Numeral (decimalText neg N s) neg int frac 0 ∧ frac.length = s ∧ int ≠ [] ∧
      (int = str "0" ∨ int.head? ≠ some 48) ∧ numeralValue neg int frac 0 = (if neg then -1 else 1) * (N / 10 ^ s) := by
  refine ⟨_, _, Text.decimalText_numeral neg N s, Text.fixedText_length _ _, (Text.natText_dec _).2.1, ?_, Text.decimalText_value _ _ _⟩
  generalize N / 10 ^ s = n
  induction n using Nat.strong_induction_on with
  | _ n ih =>
    rw [Text.natText_rec]
    split
    · rcases Nat.eq_zero_or_pos n with rfl | h
      · left; rfl
      · right; simp; omega
    · rename_i h10
      right
      have hne := (Text.natText_dec (n / 10)).2.1
      rw [List.head?_append_of_ne_nil _ hne]
      rcases ih (n / 10) (by omega) with h | h
      · have := (Text.natText_dec (n / 10)).2.2
        rw [h] at this
        have e : numVal (str "0") = 0 := by decide
        omega
      · exact h

/-- C04: printing and parsing back is the identity on the bytes. -/
theorem C04_display_parse [Build] {b : Bin} {x : ℚ} {s : ℤ} (h : Holds b x s) :
    ∃ t, Num.toString b = .ok t ∧ Parse.fromStr t = .ok (.ok b) := by
  obtain ⟨hs, h0, h1, hl⟩ := h.bounds
  obtain ⟨s, rfl⟩ := Int.eq_ofNat_of_zero_le h0
  obtain ⟨N, hN, e⟩ := C05_display h
  obtain ⟨r, e2, hr⟩ := Text.fromStr_decimalText hN (by simp at h1; omega) hl
  exact ⟨_, e, by rw [e2, hr.unique h]⟩

theorem C04_display_parse_nan [Build] {b : Bin} (h : IsNaN b) :
    ∃ t r, Num.toString b = .ok t ∧ Parse.fromStr t = .ok (.ok r) ∧ IsNaN r :=
  ⟨_, _, C05_display_nan h, Parse.fromStr_nan ⟨[], str "NaN", [], by decide, by decide,
    ⟨78, 97, 78, by decide, by decide, by decide, by decide⟩, by decide⟩, nan_isNaN⟩

example [Build] : ∃ b, Holds b (-5/4) 3 ∧ Num.toString b = .ok (str "-1.250") := by
  obtain ⟨b, hb⟩ := witness (x := -5/4) (s := 3) (-1250) (by norm_num) (by norm_num) (by norm_num) (by norm_num [abs_lt])
  refine ⟨b, hb, ?_⟩
  obtain ⟨N, hN, e⟩ := C05_display (s := 3) hb
  have : N = 1250 := by
    have : (N : ℚ) = 1250 := by rw [← hN]; norm_num [abs_of_neg]
    exact_mod_cast this
  subst this
  rw [e]
  have h1 : natText 1 = str "1" := by
    rw [Text.natText_rec, if_pos (by norm_num)]; rfl
  have : decide ((-5/4 : ℚ) < 0) = true := by norm_num
  rw [this]
  unfold decimalText
  norm_num [h1]
  decide

/-! ## C23 -/

/-- C23: `normalize` writes the expansion with the least possible number of fraction digits: no trailing zero
after the point and no trailing point. -/
theorem C23_normalize [Build] {b : Bin} {x : ℚ} {s : ℤ} (h : Holds b x s) :
    ∃ m N : ℕ, |x| * 10 ^ m = N ∧ (∀ k : ℕ, HasScale x k → m ≤ k) ∧
      Num.normalize b = .ok (decimalText (decide (x < 0)) N m) := by
  obtain ⟨hs, h0, -, -⟩ := h.bounds
  obtain ⟨t, N, rfl, hN⟩ := exists_nat hs h0
  obtain ⟨v, hv, hx, hd, -, -, e⟩ := h.exists_var
  obtain ⟨m, N', -, hN', hmin, e'⟩ := Text.normalize_spec hv hx hd hN
  refine ⟨m, N', hN', ?_, ?_⟩
  · intro k hk
    rcases hmin with rfl | hmin
    · omega
    · by_contra hlt
      push Not at hlt
      apply hmin
      obtain ⟨k', N'', hk', hN''⟩ := exists_nat hk (by omega)
      obtain rfl : k = k' := by exact_mod_cast hk'
      refine ⟨N'' * 10 ^ (m - k - 1), ?_⟩
      have : (N' : ℚ) = ((10 * (N'' * 10 ^ (m - k - 1)) : ℕ) : ℚ) := by
        rw [← hN']
        push_cast
        rw [← hN'']
        have : (10:ℚ) ^ m = 10 ^ k * 10 * 10 ^ (m - k - 1) := by
          rw [← pow_succ, ← pow_add]; congr 1; omega
        rw [this]; ring
      exact_mod_cast this
  · unfold Num.normalize
    rw [e]; exact e'

theorem C23_normalize_nan [Build] {b : Bin} (h : IsNaN b) : Num.normalize b = .ok (str "NaN") := by
  unfold Num.normalize
  rw [h.facts.2.2]; rfl

/-- C23: two numerics have the same normal text exactly when they compare equal. -/
theorem C23_normalize_iff_eq [Build] {a b : Bin} (ha : Valid a) (hb : Valid b) :
    ∃ ta tb, Num.normalize a = .ok ta ∧ Num.normalize b = .ok tb ∧ (ta = tb ↔ Num.eq a b = .ok true) := by
  have back : ∀ {c : Bin} {x : ℚ} {s : ℤ}, Holds c x s → ∃ (t : Str) (r : Bin) (m : ℕ), Num.normalize c = .ok t ∧
      Parse.fromStr t = .ok (.ok r) ∧ Holds r x m := by
    intro c x s h
    obtain ⟨hs, h0, h1, hl⟩ := h.bounds
    obtain ⟨m, N, hN, hmin, e⟩ := C23_normalize h
    obtain ⟨s, rfl⟩ := Int.eq_ofNat_of_zero_le h0
    have hm := hmin s hs
    simp at h1
    obtain ⟨r, e2, hr⟩ := Text.fromStr_decimalText hN (by omega) hl
    exact ⟨_, r, m, e, e2, hr⟩
  have hnanp : Parse.fromStr (str "NaN") = .ok (.ok Bin.nan) := Parse.fromStr_nan ⟨[], str "NaN", [], by decide, by decide,
    ⟨78, 97, 78, by decide, by decide, by decide, by decide⟩, by decide⟩
  rcases ha with ha | ⟨x, s, ha⟩ <;> rcases hb with hb | ⟨y, t, hb⟩
  · refine ⟨_, _, C23_normalize_nan ha, C23_normalize_nan hb, ?_⟩
    rw [(C21_cmp_is_value_order (.inl ⟨ha, rfl⟩) (.inl ⟨hb, rfl⟩)).2.2.1]; simp
  · obtain ⟨tb, r, m, e, e2, hr⟩ := back hb
    refine ⟨_, _, C23_normalize_nan ha, e, ?_⟩
    rw [(C21_cmp_is_value_order (.inl ⟨ha, rfl⟩) (.inr ⟨_, _, hb, rfl⟩)).2.2.1]
    simp only [WithTop.top_ne_coe, decide_false, Except.ok.injEq, Bool.false_eq_true, iff_false]
    rintro rfl
    rw [hnanp] at e2; cases e2
    exact (C24_nan_accessors nan_isNaN).2.2.2.2 _ _ hr
  · obtain ⟨ta, r, m, e, e2, hr⟩ := back ha
    refine ⟨_, _, e, C23_normalize_nan hb, ?_⟩
    rw [(C21_cmp_is_value_order (.inr ⟨_, _, ha, rfl⟩) (.inl ⟨hb, rfl⟩)).2.2.1]
    simp only [WithTop.coe_ne_top, decide_false, Except.ok.injEq, Bool.false_eq_true, iff_false]
    rintro rfl
    rw [hnanp] at e2; cases e2
    exact (C24_nan_accessors nan_isNaN).2.2.2.2 _ _ hr
  · rw [(C21_cmp_is_value_order (.inr ⟨_, _, ha, rfl⟩) (.inr ⟨_, _, hb, rfl⟩)).2.2.1]
    obtain ⟨ta, r, m, e, e2, hr⟩ := back ha
    obtain ⟨tb, r', m', e', e2', hr'⟩ := back hb
    refine ⟨ta, tb, e, e', ?_⟩
    simp only [WithTop.coe_inj, Except.ok.injEq, decide_eq_true_eq]
    constructor
    · rintro rfl
      rw [e2] at e2'; cases e2'
      exact (hr.inj hr').1
    · rintro rfl
      obtain ⟨m1, N1, hN1, hm1, e1⟩ := C23_normalize ha
      obtain ⟨m2, N2, hN2, hm2, e3⟩ := C23_normalize hb
      have h12 : m1 ≤ m2 := hm1 m2 (by
        obtain ⟨k, hk⟩ : HasScale |x| m2 := ⟨N2, by rw [zpow_natCast, hN2]; simp⟩
        rcases abs_choice x with h | h
        · rw [h] at hk; exact ⟨k, hk⟩
        · rw [h] at hk; exact ⟨-k, by push_cast; rw [← hk]; ring⟩)
      have h21 : m2 ≤ m1 := hm2 m1 (by
        obtain ⟨k, hk⟩ : HasScale |x| m1 := ⟨N1, by rw [zpow_natCast, hN1]; simp⟩
        rcases abs_choice x with h | h
        · rw [h] at hk; exact ⟨k, hk⟩
        · rw [h] at hk; exact ⟨-k, by push_cast; rw [← hk]; ring⟩)
      obtain rfl : m1 = m2 := le_antisymm h12 h21
      have : N1 = N2 := by
        have : (N1 : ℚ) = N2 := by rw [← hN1, ← hN2]
        exact_mod_cast this
      subst this
      rw [e] at e1; rw [e'] at e3
      cases e1; cases e3; rfl

/-! ## C41 -/

/-- C41: serialising and deserialising, as text or as bytes, gives back the same bytes. -/
theorem C41_serde [Build] {b : Bin} {x : ℚ} {s : ℤ} (h : Holds b x s) (humanReadable : Bool) :
    ∃ d, Num.serialize humanReadable b = .ok d ∧ Num.deserialize d = .ok (some b) := by
  cases humanReadable
  · refine ⟨.inr b.asBytes, rfl, ?_⟩
    unfold Num.deserialize
    simp only [Bin.fromBytes_asBytes]
    rw [(C42_copies (a := b)).1 x s h |>.1]; rfl
  · obtain ⟨t, e, e2⟩ := C04_display_parse h
    refine ⟨.inl t, ?_, ?_⟩
    · unfold Num.serialize
      simp only [if_true, e]; rfl
    · unfold Num.deserialize
      simp only [e2]; rfl

theorem C41_serde_nan [Build] {b : Bin} (h : IsNaN b) (humanReadable : Bool) :
    ∃ d r, Num.serialize humanReadable b = .ok d ∧ Num.deserialize d = .ok (some r) ∧ IsNaN r := by
  cases humanReadable
  · refine ⟨.inr b.asBytes, Bin.nan, rfl, ?_, nan_isNaN⟩
    unfold Num.deserialize
    simp only [Bin.fromBytes_asBytes]
    rw [(C42_copies (a := b)).2 h |>.1]; rfl
  · obtain ⟨t, r, e, e2, hr⟩ := C04_display_parse_nan h
    refine ⟨.inl t, r, ?_, ?_, hr⟩
    · unfold Num.serialize
      simp only [if_true, e]; rfl
    · unfold Num.deserialize
      simp only [e2]; rfl

end PgNumeric.Props
