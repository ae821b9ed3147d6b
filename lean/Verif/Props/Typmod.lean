import Verif.Proofs.Typmod
import Verif.Props.Arith
/-!
# Type modifiers (C25–C28)

Precisions and scales are Rust `i32`s, here `BitVec 32`; `.toInt` is their signed value.
-/
namespace PgNumeric.Props
open PgNumeric Spec

/-- C25: `new` succeeds exactly on `1 ≤ p ≤ 1000`, `0 ≤ s ≤ p`, and never faults. -/
theorem C25_new_iff [Build] (p s : BitVec 32) :
    (1 ≤ p.toInt ∧ p.toInt ≤ 1000 ∧ 0 ≤ s.toInt ∧ s.toInt ≤ p.toInt → ∃ t, Typmod.new p s = .ok (some t)) ∧
    (¬ (1 ≤ p.toInt ∧ p.toInt ≤ 1000 ∧ 0 ≤ s.toInt ∧ s.toInt ≤ p.toInt) → Typmod.new p s = .ok none) :=
  ⟨fun h => ⟨_, Typmod.new_valid h⟩, fun h => Typmod.new_invalid h⟩

/-- C25: `with_precision(p)` is `new(p, 0)`. -/
theorem C25_with_precision [Build] (p : BitVec 32) : Typmod.withPrecision p = Typmod.new p 0#32 :=
  Typmod.withPrecision_eq p

/-- C25: `extract` gives back precision and scale. -/
theorem C25_extract [Build] {p s : BitVec 32} {t : Typmod} (h : Typmod.new p s = .ok (some t)) :
    Typmod.extract t = .ok (p, s) := (Typmod.new_facts h).1

/-- C25: `value` of a type modifier is PostgreSQL's `(p << 16 | s) + 4`. -/
theorem C25_value [Build] {p s : BitVec 32} {t : Typmod} (h : Typmod.new p s = .ok (some t)) :
    (Typmod.value t).toInt = p.toInt * 65536 + s.toInt + 4 := (Typmod.new_facts h).2

/-- C25: different valid pairs have different type modifiers. -/
theorem C25_injective [Build] {p s p' s' : BitVec 32} {t t' : Typmod} (h : Typmod.new p s = .ok (some t))
    (h' : Typmod.new p' s' = .ok (some t')) (e : Typmod.value t = Typmod.value t') : p = p' ∧ s = s' := by
  have h1 := C25_extract h
  have h2 := C25_extract h'
  have : t = t' := e
  rw [this, h2] at h1
  cases h1; exact ⟨rfl, rfl⟩

/-- C25: `from_value_unchecked` inverts `value`. -/
theorem C25_from_value (t : Typmod) : Typmod.fromValueUnchecked (Typmod.value t) = t := rfl

/-- C25: the default type modifier is `-1`, different from every constructed one. -/
theorem C25_default [Build] {p s : BitVec 32} {t : Typmod} (h : Typmod.new p s = .ok (some t)) :
    (Typmod.value Typmod.default).toInt = -1 ∧ t ≠ Typmod.default := by
  refine ⟨by decide, fun e => ?_⟩
  have h2 := (Typmod.new_facts h).2
  obtain ⟨⟨h3, _, h4, _⟩, _⟩ := Typmod.new_some h
  rw [e, show (Typmod.default).toInt = -1 by decide] at h2
  omega

/-- A concrete type modifier used below: `numeric(5, 2)`. -/
theorem numeric52 [Build] : Typmod.new 5#32 2#32 = .ok (some 327686#32) := by
  rw [Typmod.new_valid (by unfold Typmod.ValidPair; decide)]
  rfl

example [Build] : ∃ t, Typmod.new 1000#32 1000#32 = .ok (some t) ∧ Typmod.extract t = .ok (1000#32, 1000#32) := by
  obtain ⟨t, ht⟩ := (C25_new_iff 1000#32 1000#32).1 (by decide)
  exact ⟨t, ht, C25_extract ht⟩

example [Build] : Typmod.new 3#32 4#32 = .ok none := (C25_new_iff 3#32 4#32).2 (by decide)

/-- C26: for a type modifier `(p, k)` and a number `x` rounded half away from zero to `r` at scale `k`: the
result is `false` exactly when `|r| < 10^(p-k)`, and then the receiver holds `r` with scale `k`. -/
theorem C26_apply_typmod [Build] {a : Bin} {x : ℚ} {s : Int} (ha : Holds a x s) {p k : BitVec 32} {t : Typmod}
    (ht : Typmod.new p k = .ok (some t)) :
    (|roundHalfAway x k.toInt| < 10 ^ (p.toInt - k.toInt) →
      ∃ r, Num.applyTypmod a t = .ok (some r, false) ∧ Holds r (roundHalfAway x k.toInt) k.toInt) ∧
    (10 ^ (p.toInt - k.toInt) ≤ |roundHalfAway x k.toInt| → ∃ o, Num.applyTypmod a t = .ok (o, true)) := by
  obtain ⟨o, e, h1, h2⟩ := Num.applyTypmod_spec ha ht
  obtain ⟨⟨g1, g2, g3, g4⟩, _⟩ := Typmod.new_some ht
  constructor
  · intro h
    have hl : |roundHalfAway x k.toInt| < limit := by
      refine lt_of_lt_of_le h ?_
      unfold limit
      rw [← zpow_natCast]
      exact T_le_iff'.2 (by omega)
    obtain ⟨r, rfl, hr⟩ := h1 hl
    exact ⟨r, by rw [e, decide_eq_false (not_le.2 h)], hr⟩
  · intro h
    exact ⟨o, by rw [e, decide_eq_true h]⟩

/-- C26: the default type modifier changes nothing. -/
theorem C26_default [Build] {a : Bin} {x : ℚ} {s : Int} (ha : Holds a x s) :
    Num.applyTypmod a Typmod.default = .ok (some a, false) := Num.applyTypmod_default ha

example [Build] : ∃ a r, Holds a (123456/1000) 3 ∧ Num.applyTypmod a 327686#32 = .ok (some r, false) ∧ Holds r (12346/100) 2 := by
  obtain ⟨a, ha⟩ := witness (x := 123456/1000) (s := 3) 123456 (by norm_num) (by norm_num) (by norm_num) (by norm_num [abs_lt])
  have e : roundHalfAway (123456/1000) 2 = 12346/100 := by norm_num [roundHalfAway]
  have e2 : (2#32).toInt = 2 := by decide
  have e5 : (5#32).toInt = 5 := by decide
  obtain ⟨r, er, hr⟩ := (C26_apply_typmod ha numeric52).1 (by rw [e2, e5, e]; norm_num [abs_lt])
  exact ⟨a, r, ha, er, cast hr (by rw [e2, e]) (by rw [e2])⟩

/-- 999.995 does not fit `numeric(5, 2)`: rounding carries into the fourth integer digit. -/
example [Build] : ∃ a o, Holds a (999995/1000) 3 ∧ Num.applyTypmod a 327686#32 = .ok (o, true) := by
  obtain ⟨a, ha⟩ := witness (x := 999995/1000) (s := 3) 999995 (by norm_num) (by norm_num) (by norm_num) (by norm_num [abs_lt])
  have e : roundHalfAway (999995/1000) 2 = 1000 := by norm_num [roundHalfAway]
  have e2 : (2#32).toInt = 2 := by decide
  have e5 : (5#32).toInt = 5 := by decide
  obtain ⟨o, eo⟩ := (C26_apply_typmod ha numeric52).2 (by rw [e2, e5, e]; norm_num)
  exact ⟨a, o, ha, eo⟩

/-- C27 (partial): the receiver is left holding the rounded value, whatever the result, provided the rounded
value is below `10^131072`. (The documented claim has no such proviso; see `C27_null_receiver`.) -/
theorem C27_receiver_partial [Build] {a : Bin} {x : ℚ} {s : Int} (ha : Holds a x s) {p k : BitVec 32} {t : Typmod}
    (ht : Typmod.new p k = .ok (some t)) (hl : |roundHalfAway x k.toInt| < limit) :
    ∃ r f, Num.applyTypmod a t = .ok (some r, f) ∧ Holds r (roundHalfAway x k.toInt) k.toInt := by
  obtain ⟨o, e, h1, _⟩ := Num.applyTypmod_spec ha ht
  obtain ⟨r, rfl, hr⟩ := h1 hl
  exact ⟨r, _, e, hr⟩

/-- C27 fails in general: whenever the rounded value reaches `10^131072` the call reports overflow and leaves the
receiver without a buffer (a null pointer). -/
theorem C27_null_receiver [Build] {a : Bin} {x : ℚ} {s : Int} (ha : Holds a x s) {p k : BitVec 32} {t : Typmod}
    (ht : Typmod.new p k = .ok (some t)) (hl : limit ≤ |roundHalfAway x k.toInt|) :
    Num.applyTypmod a t = .ok (none, true) := by
  obtain ⟨o, e, _, h2⟩ := Num.applyTypmod_spec ha ht
  obtain ⟨⟨g1, g2, g3, g4⟩, _⟩ := Typmod.new_some ht
  rw [e, h2 hl, decide_eq_true]
  refine le_trans ?_ hl
  unfold limit
  rw [← zpow_natCast]
  exact T_le_iff'.2 (by omega)

/-- The number `10^131072 - 1/2` exists and rounds to `10^131072` at scale 0. -/
theorem C27_null_receiver_occurs [Build] :
    ∃ a t, Holds a (limit - 1/2) 1 ∧ Typmod.new 5#32 0#32 = .ok (some t) ∧ Num.applyTypmod a t = .ok (none, true) := by
  have hpos : (10:ℚ) ≤ limit := by
    unfold limit
    calc (10:ℚ) = 10 ^ 1 := by norm_num
      _ ≤ 10 ^ 131072 := pow_le_pow_right₀ (by norm_num) (by norm_num)
  have hint : ∃ n : ℤ, limit = n := ⟨10 ^ 131072, by unfold limit; rw [Int.cast_pow]; norm_num⟩
  obtain ⟨a, ha⟩ := exists_holds (x := limit - 1/2) (s := 1) (by
    obtain ⟨n, hn⟩ := hint
    rw [hn]
    refine ⟨n * 10 - 5, ?_⟩
    push_cast; norm_num; ring) (by norm_num) (by norm_num) (by rw [abs_of_nonneg (by linarith)]; linarith)
  obtain ⟨t, ht⟩ := (C25_new_iff 5#32 0#32).1 (by decide)
  refine ⟨a, t, ha, ht, C27_null_receiver ha ht ?_⟩
  have e0 : (0#32).toInt = 0 := by decide
  have : roundHalfAway (limit - 1/2) 0 = limit := by
    obtain ⟨n, hn⟩ := hint
    rw [hn] at hpos ⊢
    unfold roundHalfAway
    rw [if_neg (by linarith)]
    simp
  rw [e0, this, abs_of_nonneg (by linarith)]

example [Build] : ∃ a r f, Holds a (123456/100) 2 ∧ Num.applyTypmod a 327686#32 = .ok (some r, f) ∧ Holds r (123456/100) 2 := by
  obtain ⟨a, ha⟩ := witness (x := 123456/100) (s := 2) 123456 (by norm_num) (by norm_num) (by norm_num) (by norm_num [abs_lt])
  have e : roundHalfAway (123456/100) 2 = 123456/100 := by norm_num [roundHalfAway]
  have e2 : (2#32).toInt = 2 := by decide
  obtain ⟨r, f, er, hr⟩ := C27_receiver_partial ha numeric52 (by rw [e2, e]; exact lt_limit (by norm_num [abs_lt]))
  exact ⟨a, r, f, ha, er, cast hr (by rw [e2, e]) (by rw [e2])⟩

/-- C28 does not hold. In a debug build `apply_typmod` on NaN aborts on an assertion, for every type modifier
including the default. -/
theorem C28_nan_debug_fails {e : Bool} (t : Typmod) (ht : 4 ≤ t.toInt ∨ t = Typmod.default) :
    @Num.applyTypmod ⟨true, e⟩ (@Bin.nan ⟨true, e⟩) t = .error .assert := Num.applyTypmod_nan_debug t ht

/-- C28 does not hold. In a release build `apply_typmod` turns NaN into the number zero. -/
theorem C28_nan_release_zero {e : Bool} {p k : BitVec 32} {t : Typmod}
    (ht : @Typmod.new ⟨false, e⟩ p k = .ok (some t)) :
    ∃ r, @Num.applyTypmod ⟨false, e⟩ (@Bin.nan ⟨false, e⟩) t = .ok (some r, false) ∧ @Holds ⟨false, e⟩ r 0 k.toInt :=
  Num.applyTypmod_nan_release ht

/-- C28 (partial): what is left of the claim: in a release build no overflow is reported on NaN and the receiver
is still a valid numeric (but not NaN, see `C28_nan_release_zero`). -/
theorem C28_nan_no_overflow_partial {e : Bool} {p k : BitVec 32} {t : Typmod}
    (ht : @Typmod.new ⟨false, e⟩ p k = .ok (some t)) :
    ∃ r, @Num.applyTypmod ⟨false, e⟩ (@Bin.nan ⟨false, e⟩) t = .ok (some r, false) ∧ @Valid ⟨false, e⟩ r := by
  obtain ⟨r, e1, h⟩ := Num.applyTypmod_nan_release ht
  exact ⟨r, e1, .inr ⟨_, _, h⟩⟩

example : ∃ r, @Num.applyTypmod ⟨false, false⟩ (@Bin.nan ⟨false, false⟩) 327686#32 = .ok (some r, false) ∧
    @Holds ⟨false, false⟩ r 0 2 := C28_nan_release_zero (e := false) (@numeric52 ⟨false, false⟩)

end PgNumeric.Props
