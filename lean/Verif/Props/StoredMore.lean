import Verif.Props.StoredArith
import Verif.Props.Typmod
/-!
# Type modifiers applied to numerics in any stored form (C59)
-/
namespace PgNumeric.Props
open PgNumeric Spec Var Num

/-- What `apply_typmod` does to any stored form. -/
theorem applyTypmod_loose [Build] {a : Bin} {x : ℚ} {s : Int} (ha : Stored a x s) {p k : BitVec 32} {t : Typmod}
    (ht : Typmod.new p k = .ok (some t)) :
    ∃ o, Num.applyTypmod a t = .ok (o, decide ((10:ℚ) ^ (p.toInt - k.toInt) ≤ |roundHalfAway x k.toInt|)) ∧
      (|roundHalfAway x k.toInt| < limit → ∃ r, o = some r ∧ Holds r (roundHalfAway x k.toInt) k.toInt) ∧
      (limit ≤ |roundHalfAway x k.toInt| → o = none) := by
  obtain ⟨⟨h1, h2, h3, h4⟩, _⟩ := Typmod.new_some ht
  obtain ⟨ex, et⟩ := Typmod.new_facts ht
  obtain ⟨v, hv, rfl, -, -, -, ev, -⟩ := Bin.stored_var ha
  have hln := hv.len
  have hhi := hv.hi
  have hlo := hv.lo
  obtain ⟨u, eu, ud, un, us, uv⟩ := roundCommon_spec v k.toInt hv.digits hv.not_nan (by omega) (by omega)
  have hsh := (roundCommon_shape v _ eu).1
  have hw := roundCommon_weight v _ hv.digits hv.not_nan eu
  have uw : u.weight ≤ 32767 ∨ ∃ d ds, u.digits = d :: ds ∧ d ≠ 0 := by
    rcases hw with h | h | ⟨h, h'⟩
    · exact .inl (by omega)
    · exact .inl (by omega)
    · exact .inr h'
  have uw2 : -32767 ≤ u.weight := by rcases hw with h | h | ⟨h, h'⟩ <;> omega
  have uw3 : u.weight ≤ 32768 := by rcases hw with h | h | ⟨h, h'⟩ <;> omega
  have ul : (u.digits.length : Int) ≤ 100000001 := by omega
  have hf := Num.finish_loose ud un us uv h3 (by omega) (roundHalfAway_hasScale _ _) uw uw2 (by omega)
  have hfl := typmod_flag ud u.weight (p.toInt - k.toInt)
  rw [← abs_value u ud, uv] at hfl
  have hb : (decide ((u.weight + 1) * DEC_DIGITS > p.toInt - k.toInt) &&
      typmodScan u.digits ((u.weight + 1) * DEC_DIGITS) (p.toInt - k.toInt)) =
      decide ((10:ℚ) ^ (p.toInt - k.toInt) ≤ |roundHalfAway (value v) k.toInt|) := by
    rw [Bool.eq_iff_iff, hfl, decide_eq_true_eq]
  have hva : Var.applyTypmod v t = .ok (u, decide ((10:ℚ) ^ (p.toInt - k.toInt) ≤ |roundHalfAway (value v) k.toInt|)) := by
    unfold Var.applyTypmod
    have hn : ¬ (Typmod.value t).toInt < 4 := by unfold Typmod.value; omega
    rw [if_neg hn]
    simp only [ex, bind_ok]
    rw [i32_ok (by omega) (by omega)]
    simp only [bind_ok, eu]
    kill_fits
    simp only [bind_ok]
    rw [i32_ok (by simp only [DEC_DIGITS]; omega) (by simp only [DEC_DIGITS]; omega)]
    simp only [bind_ok, pure_ok]
    kill_fits
    simp only [bind_ok]
    rw [hb]
  unfold Num.applyTypmod
  rw [ev]
  simp only [bind_ok, hva]
  rcases lt_or_ge |roundHalfAway (value v) k.toInt| limit with hl | hl
  · obtain ⟨r, er, hr⟩ := hf.1 hl
    refine ⟨some r, by simp only [er, bind_ok, pure_ok], fun _ => ⟨r, rfl, hr⟩, fun h => absurd hl (not_lt.2 h)⟩
  · refine ⟨none, ?_, fun h => absurd h (not_lt.2 hl), fun _ => rfl⟩
    have : (10:ℚ) ^ (p.toInt - k.toInt) ≤ |roundHalfAway (value v) k.toInt| := by
      refine le_trans ?_ hl
      unfold limit
      rw [← zpow_natCast]
      exact T_le_iff'.2 (by omega)
    simp only [hf.2 hl, bind_ok, decide_eq_true this, pure_ok]

/-- C59: a type modifier applied to any stored form rounds the number and tells whether it fits, as for the canonical form: the flag is `false` exactly
when the rounded number is below `10^(p-k)`, and then the receiver holds it in canonical form. -/
theorem C59_apply_typmod [Build] {a : Bin} {x : ℚ} {s : Int} (ha : Stored a x s) {p k : BitVec 32} {t : Typmod}
    (ht : Typmod.new p k = .ok (some t)) :
    (|roundHalfAway x k.toInt| < 10 ^ (p.toInt - k.toInt) →
      ∃ r, Num.applyTypmod a t = .ok (some r, false) ∧ Holds r (roundHalfAway x k.toInt) k.toInt) ∧
    (10 ^ (p.toInt - k.toInt) ≤ |roundHalfAway x k.toInt| → ∃ o, Num.applyTypmod a t = .ok (o, true)) := by
  obtain ⟨o, e, h1, h2⟩ := applyTypmod_loose ha ht
  obtain ⟨⟨g1, g2, g3, g4⟩, _⟩ := Typmod.new_some ht
  constructor
  · intro h
    have hl : |roundHalfAway x k.toInt| < limit := by
      refine lt_of_lt_of_le h ?_
      unfold limit
      rw [← zpow_natCast]
      exact T_le_iff'.2 (by omega)
    obtain ⟨r, rfl, hr⟩ := h1 hl
    exact ⟨r, by rw [e, decide_eq_false (not_le.2 h)], hr⟩
  · intro h
    exact ⟨o, by rw [e, decide_eq_true h]⟩

/-- C59: the default type modifier only brings a stored form into canonical form. -/
theorem C59_apply_typmod_default [Build] {a : Bin} {x : ℚ} {s : Int} (ha : Stored a x s) :
    ∃ r, Num.applyTypmod a Typmod.default = .ok (some r, false) ∧ Holds r x s := by
  obtain ⟨v, hv, rfl, rfl, -, -, ev, -⟩ := Bin.stored_var ha
  have hva : Var.applyTypmod v Typmod.default = .ok (v, false) := by
    unfold Var.applyTypmod
    rw [if_pos (by decide)]; rfl
  obtain ⟨r, er, hr⟩ := (Num.finish_loose hv.digits hv.not_nan rfl rfl hv.dscale_nonneg hv.dscale_le hv.scale
    (.inl hv.hi) hv.lo (by have := hv.len; omega)).1 hv.abs_lt
  refine ⟨r, ?_, hr⟩
  unfold Num.applyTypmod
  rw [ev]
  simp only [bind_ok, hva, er, pure_ok]

/-- `numeric(5, 2)` applied to a padded form of -1.5. -/
example [Build] : ∃ r, Num.applyTypmod paddedForm 327686#32 = .ok (some r, false) ∧ Holds r (-150 / 100) 2 := by
  have e : roundHalfAway (-3 / 2) 2 = -150 / 100 := by norm_num [roundHalfAway]
  have e2 : (2#32).toInt = 2 := by decide
  have e5 : (5#32).toInt = 5 := by decide
  obtain ⟨r, er, hr⟩ := (C59_apply_typmod paddedForm_stored numeric52).1 (by rw [e2, e5, e]; norm_num [abs_lt])
  exact ⟨r, er, cast hr (by rw [e2, e]) (by rw [e2])⟩

end PgNumeric.Props
