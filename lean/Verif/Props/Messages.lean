import Verif.Model.Messages
import Verif.Props.Typmod
import Verif.Props.Text
import Verif.Props.Convert
/-!
# What is printed for type modifiers and errors (C67)
-/
namespace PgNumeric.Props
open PgNumeric Spec

theorem toNat_of_range {p : BitVec 32} (h : 0 ≤ p.toInt) : (p.toNat : ℤ) = p.toInt := by
  rw [BitVec.toInt_eq_toNat_cond] at h ⊢
  split at h <;> split <;> omega

/-- C67: a type modifier prints as `(precision, scale)` in decimal. -/
theorem C67_typmod [Build] {p s : BitVec 32} {t : Typmod} (h : Typmod.new p s = .ok (some t)) :
    ∃ m n : ℕ, (m : ℤ) = p.toInt ∧ (n : ℤ) = s.toInt ∧
      Typmod.display t = .ok (str "(" ++ natText m ++ str ", " ++ natText n ++ str ")") := by
  obtain ⟨⟨h1, _, h3, _⟩, _⟩ := Typmod.new_some h
  refine ⟨p.toNat, s.toNat, toNat_of_range (by omega), toNat_of_range h3, ?_⟩
  unfold Typmod.display
  rw [C25_extract h]
  simp only [bind_ok, pure_ok, Text.dec_eq]

theorem natText_takeWhile (n : ℕ) (c : ℕ) (hc : ¬ (48 ≤ c ∧ c ≤ 57)) (r : Str) :
    (natText n ++ c :: r).takeWhile (fun x => decide (48 ≤ x ∧ x ≤ 57)) = natText n := by
  obtain ⟨h, -, -⟩ := Text.natText_dec n
  rw [List.takeWhile_append_of_pos (by intro x hx; simpa using h x hx)]
  simp [List.takeWhile_cons, hc]

/-- A number can be read off the front of a text. -/
theorem natText_front {m n c d : ℕ} {r r' : Str} (hc : ¬ (48 ≤ c ∧ c ≤ 57)) (hd : ¬ (48 ≤ d ∧ d ≤ 57))
    (h : natText m ++ c :: r = natText n ++ d :: r') : m = n ∧ r = r' := by
  have e : natText m = natText n := by
    rw [← natText_takeWhile m c hc r, h, natText_takeWhile n d hd r']
  have e2 : m = n := by rw [← (Text.natText_dec m).2.2, e, (Text.natText_dec n).2.2]
  subst e2
  have := List.append_cancel_left h
  exact ⟨rfl, (List.cons.inj this).2⟩

/-- C67: different type modifiers print differently. -/
theorem C67_typmod_injective [Build] {p s p' s' : BitVec 32} {t t' : Typmod} (h : Typmod.new p s = .ok (some t))
    (h' : Typmod.new p' s' = .ok (some t')) (e : Typmod.display t = Typmod.display t') : p = p' ∧ s = s' := by
  obtain ⟨m, n, hm, hn, hd⟩ := C67_typmod h
  obtain ⟨m', n', hm', hn', hd'⟩ := C67_typmod h'
  rw [hd, hd'] at e
  have e := Except.ok.inj e
  have e : natText m ++ 44 :: (32 :: (natText n ++ 41 :: [])) = natText m' ++ 44 :: (32 :: (natText n' ++ 41 :: [])) := by
    simpa [str] using e
  obtain ⟨e1, e2⟩ := natText_front (by decide) (by decide) e
  obtain ⟨e3, -⟩ := natText_front (by decide) (by decide) (List.cons.inj e2).2
  constructor
  · apply BitVec.eq_of_toInt_eq; omega
  · apply BitVec.eq_of_toInt_eq; omega

/-- C67 (surprising): the default type modifier, which stands for "no constraint", prints as a precision of 65535 and a scale of 65531. -/
theorem C67_typmod_default [Build] : Typmod.display Typmod.default = .ok (str "(65535, 65531)") := by
  rename_i inst
  obtain ⟨d, e⟩ := inst
  cases d <;> cases e <;> decide +kernel

/-- C67: what a program prints when it refuses a text, for every text. -/
theorem C67_parse_message [Build] {s : Str} (hlen : s.length < 2 ^ 29) :
    (Parse.complaint s = .ok (some (str "cannot parse numeric from empty string")) ↔ White s) ∧
    (Parse.complaint s = .ok (some (str "invalid numeric literal")) ↔
      ¬ White s ∧ ¬ NaNLiteral s ∧ (∀ neg int frac exp, ¬ Literal s neg int frac exp) ∧ ¬ HugeExponent s) ∧
    (Parse.complaint s = .ok (some (str "value overflows numeric format")) ↔
      HugeExponent s ∨ ∃ neg int frac exp, Literal s neg int frac exp ∧
        ¬ (|exp| < exponentLimit ∧ (frac.length : ℤ) - exp ≤ 16383 ∧ (int.length : ℤ) + exp ≤ 131072)) ∧
    (Parse.complaint s = .ok none ↔
      NaNLiteral s ∨ ∃ neg int frac exp, Literal s neg int frac exp ∧
        |exp| < exponentLimit ∧ (frac.length : ℤ) - exp ≤ 16383 ∧ (int.length : ℤ) + exp ≤ 131072) := by
  obtain ⟨g1, g2, g3⟩ := C01_grammar hlen
  have key : ∀ {x : M (Except ParseError Bin)} {y : M (Option Str)},
      (y = do match ← x with
        | .ok _ => pure none
        | .error e => pure (some e.display)) →
      (∃ r, x = .ok r) →
      (y = .ok (some (str "cannot parse numeric from empty string")) ↔ x = .ok (.error .empty)) ∧
      (y = .ok (some (str "invalid numeric literal")) ↔ x = .ok (.error .invalid)) ∧
      (y = .ok (some (str "value overflows numeric format")) ↔ x = .ok (.error .overflow)) ∧
      (y = .ok none ↔ ∃ r, x = .ok (.ok r)) := by
    rintro x y rfl ⟨r, rfl⟩
    rcases r with (_ | _ | _) | r <;> simp only [bind_ok, ParseError.display, pure_ok, Except.ok.injEq, Option.some.injEq] <;>
      refine ⟨?_, ?_, ?_, ?_⟩ <;> simp <;> decide
  obtain ⟨k1, k2, k3, k4⟩ := key (y := Parse.complaint s) rfl (C01_total hlen)
  refine ⟨k1.trans g1, k2.trans g2, k3.trans ?_, k4.trans ?_⟩
  · constructor
    · intro h
      rcases g3.1 (.inr h) with hn | ⟨neg, int, frac, exp, hl⟩ | hh
      · obtain ⟨r, hr, -⟩ := C01_nan (s := s) hn
        rw [h] at hr; cases hr
      · exact .inr ⟨neg, int, frac, exp, hl, (C03_parse_range hlen hl).2.1 h⟩
      · exact .inl hh
    · rintro (h | ⟨neg, int, frac, exp, hl, h⟩)
      · exact Parse.fromStr_huge h
      · exact (C03_parse_range hlen hl).2.2 h
  · constructor
    · rintro h
      rcases g3.1 (.inl h) with hn | ⟨neg, int, frac, exp, hl⟩ | hh
      · exact .inl hn
      · exact .inr ⟨neg, int, frac, exp, hl, (C03_parse_range hlen hl).1.1 h⟩
      · obtain ⟨r, hr⟩ := h
        rw [Parse.fromStr_huge hh] at hr; cases hr
    · rintro (h | ⟨neg, int, frac, exp, hl, h⟩)
      · obtain ⟨r, hr, -⟩ := C01_nan (s := s) h
        exact ⟨r, hr⟩
      · exact (C03_parse_range hlen hl).1.2 h

/-- C67: what a program prints when a number does not convert to an integer type. (NaN does convert "to numeric"; the text is the one of the
conversions in the other direction.) -/
theorem C67_int_message [Build] {ty : IntTy} (ht : ty ∈ Convert.types) {a : Bin} :
    (∀ x s n, Holds a x s → roundHalfAway x 0 = (n : ℤ) →
      (ty.lo ≤ n ∧ n ≤ ty.hi → Convert.intComplaint ty a = .ok none) ∧
      (¬ (ty.lo ≤ n ∧ n ≤ ty.hi) → Convert.intComplaint ty a = .ok (some (str "value is out of range")))) ∧
    (IsNaN a → Convert.intComplaint ty a = .ok (some (str "cannot convert to numeric"))) := by
  refine ⟨fun x s n ha hn => ?_, fun ha => ?_⟩
  · obtain ⟨m, hm, h1, h2⟩ := C30_to_int ht ha
    have : m = n := by rw [hn] at hm; exact_mod_cast hm.symm
    subst this
    refine ⟨fun h => ?_, fun h => ?_⟩
    · unfold Convert.intComplaint; rw [h1 h]; rfl
    · unfold Convert.intComplaint; rw [h2 h]; rfl
  · unfold Convert.intComplaint; rw [C30_nan ty ha]; rfl

/-- C67: what a program prints when a float does not convert: only the infinities do not. -/
theorem C67_float_message [Build] {P : ℕ} (hP : P = 6 ∨ P = 15) :
    (∀ neg, Convert.floatComplaint P (.inf neg) = .ok (some (str "cannot convert to numeric"))) ∧
    Convert.floatComplaint P .nan = .ok none ∧
    (∀ neg q, FloatRange q → Convert.floatComplaint P (.fin neg q) = .ok none) := by
  refine ⟨fun neg => ?_, ?_, fun neg q hq => ?_⟩
  · unfold Convert.floatComplaint; rw [(C39_nan_inf P neg).2]; rfl
  · unfold Convert.floatComplaint; rw [(C39_nan_inf P false).1]; rfl
  · obtain ⟨r, s, e, -⟩ := C39_finite hP neg hq
    unfold Convert.floatComplaint; rw [e]; rfl

/-- `numeric(5, 2)` prints as `(5, 2)`; a blank string, a word, a number with too large an exponent, a number. -/
example [Build] : Typmod.display 327686#32 = .ok (str "(5, 2)") := by
  obtain ⟨m, n, hm, hn, e⟩ := C67_typmod numeric52
  have : m = 5 := by rw [show (5#32).toInt = 5 by decide] at hm; exact_mod_cast hm
  have : n = 2 := by rw [show (2#32).toInt = 2 by decide] at hn; exact_mod_cast hn
  subst_vars
  rw [e]
  congr 1

example [Build] : Parse.complaint (str " \t") = .ok (some (str "cannot parse numeric from empty string")) :=
  (C67_parse_message (by decide)).1.2 (by decide)

example [Build] : Parse.complaint (str "0e200000") = .ok (some (str "value overflows numeric format")) := by
  have h := C03_zero_rejected.2
  unfold Parse.complaint
  rw [h]; rfl

end PgNumeric.Props
