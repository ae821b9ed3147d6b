import Verif.Proofs.UntrustedText
/-!
# C77: printing numbers from arbitrary bytes
-/
namespace PgNumeric.Props
open PgNumeric Spec Untrusted

theorem untrusted_display [Build] {bs : List (BitVec 8)} {a : Bin} (hn : bs.length < 4294967288) (h : Untrusted.deserialize bs = .ok a)
    (hg : Build.debug = true → ¬ NegativeInFront bs) :
    Untrusted.display a = .ok (open Classical in if kindAt bs = 3 then str "NaN" else chars (varAt bs)) := by
  obtain ⟨p1, p2⟩ := untrusted_facts hn h
  unfold Untrusted.display
  rw [p1, bind_ok]
  rcases p2 with ⟨h3, hx⟩ | ⟨h3, hx, hst, hv⟩
  · obtain ⟨-, -, c3, -⟩ := C74_content hn h
    obtain rfl := c3 h3
    rw [Bin.asVar_nan, bind_ok, if_pos h3]
    rfl
  · rw [hv, bind_ok, if_neg h3]
    refine write_ok hst (fun hd i hi => ?_)
    by_contra hneg
    exact hg hd ⟨h3, i, hi, not_le.1 hneg⟩

/-- C77: a release build prints any number read from bytes, a debug build any number without a negative digit in front of the point: the same text. -/
theorem C77_release (e : Bool) {bs : List (BitVec 8)} {a : Bin} (hn : bs.length < 4294967288) (h : @Untrusted.deserialize (rel e) bs = .ok a) :
    ∃ s, @Untrusted.display (rel e) a = .ok s :=
  ⟨_, @untrusted_display (rel e) bs a hn h (fun hd => by cases hd)⟩

/-- C77: with a negative digit in front of the decimal point a debug build stops at the debug assertion; otherwise it prints what a release build prints. -/
theorem C77_debug (e : Bool) {bs : List (BitVec 8)} {a : Bin} (hn : bs.length < 4294967288) (h : @Untrusted.deserialize (dbg e) bs = .ok a) :
    (@NegativeInFront (dbg e) bs → @Untrusted.display (dbg e) a = .error .assert) ∧
    (¬ @NegativeInFront (dbg e) bs → @Untrusted.display (dbg e) a = @Untrusted.display (rel e) a) := by
  have h' : @Untrusted.deserialize (rel e) bs = .ok a := by rw [← C74_builds_agree e ((C74_debug_returns e bs).1 ⟨a, h⟩)]; exact h
  constructor
  · rintro ⟨h3, i, hi, hneg⟩
    obtain ⟨p1, p2⟩ := @untrusted_facts (dbg e) bs a hn h
    obtain ⟨-, -, hst, hv⟩ := p2.resolve_left (fun hh => h3 hh.1)
    unfold Untrusted.display
    rw [p1, bind_ok, hv, bind_ok]
    exact write_stop e hst ⟨i, hi, hneg⟩
  · intro hg
    rw [@untrusted_display (dbg e) bs a hn h (fun _ => hg), @untrusted_display (rel e) bs a hn h' (fun hd => by cases hd)]
    rfl

/-- C77: whatever the bytes are, the text is `NaN`, or made of digits, minus signs and at most one decimal point. -/
theorem C77_characters [Build] {bs : List (BitVec 8)} {a : Bin} {s : Str} (hn : bs.length < 4294967288) (h : Untrusted.deserialize bs = .ok a)
    (hs : Untrusted.display a = .ok s) :
    (kindAt bs = 3 → s = str "NaN") ∧
    (kindAt bs ≠ 3 → ∃ front back, s = front ++ back ∧ (∀ c ∈ front, c = 45 ∨ (48 ≤ c ∧ c ≤ 57)) ∧
      (scaleAt bs = 0 → back = []) ∧ (scaleAt bs ≠ 0 → ∃ frac, back = 46 :: frac ∧ ∀ c ∈ frac, c = 45 ∨ (48 ≤ c ∧ c ≤ 57))) := by
  have hg : Build.debug = true → ¬ NegativeInFront bs := by
    rename_i inst
    obtain ⟨d, e⟩ := inst
    cases d with
    | false => intro hd; cases hd
    | true =>
      intro _ hng
      have := (C77_debug e hn h).1 hng
      have hs' : @Untrusted.display (dbg e) a = .ok s := hs
      rw [this] at hs'
      cases hs'
  rw [untrusted_display hn h hg] at hs
  constructor
  · intro h3
    rw [if_pos h3] at hs
    exact (Except.ok.inj hs).symm
  · intro h3
    rw [if_neg h3] at hs
    obtain rfl := Except.ok.inj hs
    refine ⟨_, _, rfl, ?_, ?_, ?_⟩
    · apply append_minus
      · intro c hc
        split at hc
        · left; simpa [str] using hc
        · cases hc
      · split
        · intro c hc
          right
          have : c = 48 := by simpa [str] using hc
          omega
        · exact intChars_minus _ _ _
    · intro h0
      have e : (varAt bs).dscale = scaleAt bs := rfl
      rw [if_neg (by rw [e, h0]; simp)]
    · intro h0
      have e : (varAt bs).dscale = scaleAt bs := rfl
      rw [if_pos (by rw [e]; omega)]
      exact ⟨_, rfl, fracLoop_minus _ _ _ _ _⟩

/-- C77: without negative digits the text is a decimal numeral without an exponent, with the sign of the number, at least one digit in front of the point, and at least
as many digits behind it as the scale: the parser reads it (C01), whatever the other digits are. -/
theorem C77_numeral [Build] {bs : List (BitVec 8)} {a : Bin} (hn : bs.length < 4294967288) (h : Untrusted.deserialize bs = .ok a) (h3 : kindAt bs ≠ 3)
    (hd : ∀ d ∈ digitsAt bs, 0 ≤ d) :
    ∃ s int frac, Untrusted.display a = .ok s ∧ Numeral s (open Classical in decide (negAt bs)) int frac 0 ∧ int ≠ [] ∧ scaleAt bs ≤ frac.length := by
  have hg : Build.debug = true → ¬ NegativeInFront bs := by
    rintro - ⟨-, i, -, hneg⟩
    rw [← digitAt_nat] at hneg
    exact absurd (nonneg_at hd i) (not_le.2 hneg)
  rw [untrusted_display hn h hg, if_neg h3]
  have e : (varAt bs).dscale = scaleAt bs := rfl
  have eds : (varAt bs).digits = digitsAt bs := rfl
  have hint : DecDigits (if (varAt bs).weight < 0 then str "0" else intChars (digitsAt bs) ((varAt bs).weight + 1).toNat 0) ∧
      (if (varAt bs).weight < 0 then str "0" else intChars (digitsAt bs) ((varAt bs).weight + 1).toNat 0) ≠ [] := by
    split
    · exact ⟨fun c hc => by have : c = 48 := by simpa [str] using hc
                            omega, by simp [str]⟩
    · exact ⟨(intChars_dec hd _ _).1, (intChars_dec hd _ _).2 (by omega)⟩
  have hsg : SignOf (if (varAt bs).sign = .neg then str "-" else []) (open Classical in decide (negAt bs)) := by
    by_cases hng : negAt bs
    · simp only [varAt, hng, if_true, decide_true]
      exact SignOf.minus
    · simp only [varAt, hng, if_false, decide_false]
      exact SignOf.none
  by_cases h0 : scaleAt bs = 0
  · refine ⟨_, _, [], rfl, ⟨_, [], [], hsg, hint.1, fun _ hc => absurd hc List.not_mem_nil, by simp [hint.2], .inr ⟨rfl, rfl⟩, .inl ⟨rfl, rfl⟩, ?_⟩, hint.2, by simp [h0]⟩
    unfold chars
    rw [if_neg (by rw [e, h0]; simp : ¬ (varAt bs).dscale > 0), eds]
    simp
  · have hf := fracLoop_dec hd (scaleAt bs) (((scaleAt bs : ℤ) + 3) / 4).toNat ((varAt bs).weight + 1) 0
    refine ⟨_, _, _, rfl, ⟨_, [46], [], hsg, hint.1, hf.1, by simp [hint.2], .inl rfl, .inl ⟨rfl, rfl⟩, ?_⟩, hint.2, ?_⟩
    · unfold chars
      rw [if_pos (by rw [e]; omega : (varAt bs).dscale > 0), eds, e]
      simp [str]
    · have := hf.2 (by omega) (by omega)
      omega

/-- C77: without negative digits this is the printing of the rest of the model (so with digits up to 9999 the text is the value: C74, C59). -/
theorem C77_model [Build] {bs : List (BitVec 8)} {a : Bin} (hn : bs.length < 4294967288) (h : Untrusted.deserialize bs = .ok a)
    (hd : kindAt bs ≠ 3 → ∀ d ∈ digitsAt bs, 0 ≤ d) : Untrusted.display a = Num.toString a := by
  obtain ⟨p1, p2⟩ := untrusted_facts hn h
  unfold Untrusted.display Num.toString
  rw [p1, bind_ok]
  rcases p2 with ⟨h3, hx⟩ | ⟨h3, hx, hst, hv⟩
  · obtain ⟨-, -, c3, -⟩ := C74_content hn h
    obtain rfl := c3 h3
    rw [Bin.asVar_nan]
    rfl
  · rw [hv, bind_ok, bind_ok]
    exact write_eq (hd h3)

theorem dec_small {n : ℕ} (h : n < 10) : Text.dec n = [48 + n] := by rw [Text.dec, if_pos h]

theorem dec_10000 : Text.dec 10000 = [49, 48, 48, 48, 48] := by
  have e1 : Text.dec 1 = [49] := dec_small (by omega)
  have e2 : Text.dec 10 = [49, 48] := by rw [Text.dec, if_neg (by omega), e1]; rfl
  have e3 : Text.dec 100 = [49, 48, 48] := by rw [Text.dec, if_neg (by omega), e2]; rfl
  have e4 : Text.dec 1000 = [49, 48, 48, 48] := by rw [Text.dec, if_neg (by omega), e3]; rfl
  rw [Text.dec, if_neg (by omega), e4]; rfl

/-- C77 (a defect): two numbers with the same text that are not equal, in both builds. The digit 10000 at weight 0, and the digit 1 at weight 1 (the number 10000). -/
theorem C77_same_text (d : Bool) : ∃ a b, @Untrusted.deserialize ⟨d, false⟩ (digitBytes1 0x10#8 0x27#8) = .ok a ∧
    @Untrusted.deserialize ⟨d, false⟩ [32#8, 0#8, 0#8, 0#8, 0x01#8, 0x80#8, 1#8, 0#8] = .ok b ∧
    @Untrusted.display ⟨d, false⟩ a = .ok (str "10000") ∧ @Untrusted.display ⟨d, false⟩ b = .ok (str "10000") ∧ @Untrusted.cmp ⟨d, false⟩ a b = .ok .lt := by
  have e1 : Text.pad 4 0 = [48, 48, 48, 48] := by rw [Text.pad, dec_small (n := 0) (by omega)]; rfl
  have w1 : @Untrusted.write ⟨d, false⟩ ⟨0, 0, .pos, [10000]⟩ = .ok (str "10000") := by
    rw [@write_eq ⟨d, false⟩ _ (by simp)]
    have h1 : @Text.intLoop ⟨d, false⟩ [10000] 1 0 = .ok (Text.dec 10000) := by
      have h2 : Var.digitAt [10000] 0 = 10000 := by simp [Var.digitAt]
      have h3 : (10000 : ℤ).toNat = 10000 := by simp
      have h4 : @dassert ⟨d, false⟩ ((10000 : ℤ) ≥ 0) _ = .ok () := @dassert_ok ⟨d, false⟩ _ _ (by omega)
      unfold Text.intLoop
      simp only [h2, h3, h4, bind_ok]
      simp [Text.intLoop, pure_ok]
    unfold Text.write Text.intText
    rw [if_neg (by simp), fits_ok (by fits_tac), bind_ok, if_neg (by simp)]
    have h5 : ((⟨0, 0, .pos, [10000]⟩ : Var).weight + 1).toNat = 1 := by simp
    rw [h5, h1, dec_10000]
    rfl
  cases d <;> (
    refine ⟨_, _, rfl, rfl, Eq.trans rfl w1, ?_, rfl⟩
    · refine Eq.trans (b := Except.ok ([] ++ (Text.dec 1 ++ (Text.pad 4 0 ++ [])) ++ [])) rfl ?_
      rw [e1, dec_small (n := 1) (by omega)]; rfl)

/-- C77 (a defect): a release build prints minus signs inside the text: the digits 1 and -1, with weight 1. -/
theorem C77_minus_inside : ∃ a, @Untrusted.deserialize (rel false) [40#8, 0#8, 0#8, 0#8, 0x01#8, 0x80#8, 1#8, 0#8, 0xFF#8, 0xFF#8] = .ok a ∧
    @Untrusted.display (rel false) a = .ok (str "1-001") ∧ @Untrusted.display (dbg false) a = .error .assert := by
  refine ⟨_, rfl, ?_, rfl⟩
  refine Eq.trans (b := Except.ok ([] ++ (Text.dec 1 ++ ((45 :: Text.pad 3 1) ++ [])) ++ [])) rfl ?_
  rw [Text.pad, dec_small (n := 1) (by omega)]; rfl

/-- The hypotheses of `C77_numeral` are met by numbers that the library never makes: the digits 0 and 32767 at weight 0 with scale 0. -/
example : ∃ a, @Untrusted.deserialize (dbg false) (digitBytes2 0#8 0#8 0xFF#8 0x7F#8) = .ok a ∧ kindAt (digitBytes2 0#8 0#8 0xFF#8 0x7F#8) ≠ 3 ∧
    ∀ d ∈ @digitsAt (dbg false) (digitBytes2 0#8 0#8 0xFF#8 0x7F#8), 0 ≤ d := by
  have : @digitsAt (dbg false) (digitBytes2 0#8 0#8 0xFF#8 0x7F#8) = [0, 32767] := rfl
  rw [this]
  exact ⟨_, rfl, by decide, by decide⟩

end PgNumeric.Props
