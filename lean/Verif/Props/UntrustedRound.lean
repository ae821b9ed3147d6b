import Verif.Proofs.UntrustedRound
import Verif.Props.UntrustedInt
/-!
# C82: rounding and truncating numbers from arbitrary bytes
-/
namespace PgNumeric.Props
open PgNumeric Spec Untrusted

/-- What comes out: complete bytes with the scale and the amount. -/
structure RoundedTo [Build] (r : Bin) (s : ℤ) (q : ℚ) : Prop where
  complete : Complete r.asBytes
  number : kindAt r.asBytes ≠ 3
  scale : (scaleAt r.asBytes : ℤ) = s
  amount : amountAt r.asBytes = q

theorem clamp_eq (n : Int) : Var.clampScale n = max (-1000) (min 1000 n) := by
  unfold Var.clampScale; simp only [NUMERIC_MAX_DISPLAY_SCALE]; omega

theorem digits15_of [Build] {bs : List (BitVec 8)} (hd : ∀ d ∈ digitsAt bs, 0 ≤ d) : Digits15 (varAt bs).digits := by
  intro d hm
  refine ⟨hd d hm, ?_⟩
  simp only [varAt, digitsAt, List.mem_map] at hm
  obtain ⟨i, -, rfl⟩ := hm
  unfold signed16
  split
  · omega
  · have h1 : wordAt bs (digitsFrom bs + 2 * i) < 65536 := by unfold wordAt byteAt; omega
    omega

theorem kept_value [Build] {v r : Var} {s : Int} (h : Kept v r s) {q : ℚ} (hq : mag r.digits r.weight = q) (hn : v.sign ≠ .nan) :
    value r = if v.sign = .neg then -q else q := by
  unfold value
  rcases h.sign with h0 | h0
  · have : q = 0 := by rw [← hq, h0]; rfl
    rw [hq, this]
    cases r.sign <;> simp
  · rw [h0, hq]
    cases hs : v.sign <;> simp_all

theorem rounded_of [Build] {r : Var} (h : Storable16 (Var.strip r)) : RoundedTo (Bin.encode (Var.strip r)) r.dscale (value r) := by
  obtain ⟨e1, e2, -, -, e5, -⟩ := encode_says h
  exact ⟨e1, e2, by rw [e5, strip_dscale], by rw [amount_encode h, strip_value]⟩

theorem dscale_value (r : Var) (s : Int) : value { r with dscale := s } = value r := rfl

/-- C82: a number read from any bytes without a negative digit is truncated at any scale without a panic, in either build: digit by digit, in base 10000. -/
theorem C82_trunc [Build] {bs : List (BitVec 8)} {a : Bin} (hl : bs.length ≤ 100000000) (h : Untrusted.deserialize bs = .ok a) (h3 : kindAt bs ≠ 3)
    (hd : ∀ d ∈ digitsAt bs, 0 ≤ d) (n : Int) :
    let k := max (-1000) (min 1000 n)
    ∃ r, Num.trunc a n = .ok r ∧ RoundedTo r (max k 0) (cutAt bs k) := by
  intro k
  obtain ⟨p1, p2, p3, p4, p5⟩ := untrusted_operand hl h h3
  have a1 := p5.lo
  have a2 := p5.hi
  have b2 := p3.weight_le
  have hk : -1000 ≤ k ∧ k ≤ 1000 := by omega
  obtain ⟨r, er, hr, hrw, hm⟩ := trunc15 (digits15_of hd) p3.not_nan (by omega) hk
  have hc : Var.clampScale n = k := clamp_eq n
  have hval := kept_value hr hm p3.not_nan
  have hq : value r = cutAt bs k := by
    rw [hval]
    unfold cutAt varAt
    by_cases hg : negAt bs <;> simp [hg]
  obtain ⟨k1, -, k3, k4, k5, k6, -⟩ := hr
  have key : ∀ u : Var, u = { r with dscale := max k 0 } → ∃ b, Num.finishNoOverflow u = .ok b ∧ RoundedTo b (max k 0) (cutAt bs k) := by
    rintro u rfl
    obtain ⟨-, f2, f3⟩ := finish_kept (r := { r with dscale := max k 0 }) k1 k3 (by simp only; omega) (by simp only; omega) k5 k6 (by simp only; omega)
    refine ⟨_, f2, ?_⟩
    have := rounded_of f3
    rw [dscale_value, hq] at this
    exact this
  unfold Num.trunc Var.trunc
  simp only [p1, p2, p4, bind_ok, Bool.false_eq_true, if_false, dassert_ok p3.not_nan, hc, er, pure_ok]
  apply key
  split
  · rw [show max k 0 = 0 by omega]
  · rw [show max k 0 = k by omega, ← k4]

/-- C82: with digits in 0..31767 it is rounded digit by digit: the places behind are cut, and a unit is added if the cut part of the next digit is at least one half.
Only a number of the largest weight can panic, with the documented message. -/
theorem C82_round [Build] {bs : List (BitVec 8)} {a : Bin} (hl : bs.length ≤ 100000000) (h : Untrusted.deserialize bs = .ok a) (h3 : kindAt bs ≠ 3)
    (hd : ∀ d ∈ digitsAt bs, 0 ≤ d ∧ d ≤ 31767) (n : Int) :
    let k := max (-1000) (min 1000 n)
    (∃ r, Num.round a n = .ok r ∧ RoundedTo r (max k 0) (roundAt bs k)) ∨
    weightAt bs = 32767 ∧ Num.round a n = .error (.panic "value overflows numeric format") := by
  intro k
  obtain ⟨p1, p2, p3, p4, p5⟩ := untrusted_operand hl h h3
  have a1 := p5.lo
  have a2 := p5.hi
  have b2 := p3.weight_le
  have hk : -1000 ≤ k ∧ k ≤ 1000 := by omega
  obtain ⟨r, er, hr, hm⟩ := roundTo15 (v := varAt bs) hd p3.not_nan (by omega) hk
  have hc : Var.clampScale n = k := clamp_eq n
  have hval := kept_value hr hm p3.not_nan
  have hq : value r = roundAt bs k := by
    rw [hval]
    unfold roundAt varAt
    by_cases hg : negAt bs <;> simp [hg]
  obtain ⟨k1, -, k3, k4, k5, k6, k7⟩ := hr
  have hgo : Num.round a n = (do let o ← Num.finish { r with dscale := max k 0 }; expect VALUE_OVERFLOW_MSG o) := by
    unfold Num.round Var.round
    simp only [p1, p2, p4, bind_ok, Bool.false_eq_true, if_false, dassert_ok p3.not_nan, hc, er, pure_ok]
    split
    · rw [show max k 0 = 0 by omega]
    · rw [show max k 0 = k by omega, ← k4]
  rw [hgo]
  by_cases hw : r.weight ≤ 32767
  · left
    obtain ⟨f1, -, f3⟩ := finish_kept (r := { r with dscale := max k 0 }) k1 k3 (by simp only; omega) (by simp only; omega) k5 k6 hw
    refine ⟨Bin.encode (Var.strip { r with dscale := max k 0 }), by rw [f1]; rfl, ?_⟩
    have := rounded_of f3
    rw [dscale_value, hq] at this
    exact this
  · right
    have hw2 : (varAt bs).weight = weightAt bs := rfl
    refine ⟨by omega, ?_⟩
    have hfin : Num.finish { r with dscale := max k 0 } = .ok none := by
      unfold Num.finish Var.makeResult
      rw [dassert_ok k3, bind_ok, dassert_ok (by simp only; omega), bind_ok, if_pos (by left; simp only [NUMERIC_WEIGHT_MAX]; omega)]
      rfl
    rw [hfin]; rfl

/-- C82: NaN stays NaN. -/
theorem C82_nan [Build] {bs : List (BitVec 8)} {a : Bin} (hn : bs.length < 4294967288) (h : Untrusted.deserialize bs = .ok a) (h3 : kindAt bs = 3) (n : Int) :
    Num.trunc a n = .ok Bin.nan ∧ Num.round a n = .ok Bin.nan := by
  obtain ⟨p1, p2⟩ := untrusted_facts hn h
  rcases p2 with p | p
  · unfold Num.trunc Num.round
    simp only [p1, p.2, bind_ok, if_true, Num.nan_ok, and_self]
  · exact absurd h3 p.1

/-- C82: with proper digits, cut and rounded digit by digit is the amount truncated, and rounded to the nearest with ties away from zero. -/
theorem C82_proper [Build] {bs : List (BitVec 8)} {a : Bin} (hl : bs.length ≤ 100000000) (h : Untrusted.deserialize bs = .ok a) (h3 : kindAt bs ≠ 3)
    (hd : ∀ d ∈ digitsAt bs, 0 ≤ d ∧ d < 10000) {k : Int} (hk : -1000 ≤ k ∧ k ≤ 1000) :
    cutAt bs k = truncTo (amountAt bs) k ∧ roundAt bs k = roundHalfAway (amountAt bs) k := by
  obtain ⟨-, -, p3, -, p5⟩ := untrusted_operand hl h h3
  have a1 := p5.lo
  have a2 := p5.hi
  have hd' : ∀ d ∈ (varAt bs).digits, 0 ≤ d ∧ d ≤ 31767 := fun d hm => ⟨(hd d hm).1, by have := (hd d hm).2; omega⟩
  obtain ⟨r, er, -, -, -, rv⟩ := roundCommon_spec (varAt bs) k hd p3.not_nan (by omega) (by omega)
  obtain ⟨t, et, -, -, -, tv⟩ := truncCommon_spec (varAt bs) k hd p3.not_nan (by omega) (by omega)
  obtain ⟨r', er', hr, hm⟩ := roundTo15 (v := varAt bs) hd' p3.not_nan (by omega) hk
  obtain ⟨t', et', ht, -, htm⟩ := trunc15 (v := varAt bs) (fun d hm => ⟨(hd d hm).1, by have := (hd d hm).2; omega⟩) p3.not_nan (by omega) hk
  rw [er] at er'
  rw [et] at et'
  obtain rfl : r = r' := by simpa using er'
  obtain rfl : t = t' := by simpa using et'
  rw [kept_value hr hm p3.not_nan, amount_var] at rv
  rw [kept_value ht htm p3.not_nan, amount_var] at tv
  rw [← rv, ← tv.1]
  unfold cutAt roundAt varAt
  by_cases hg : negAt bs <;> simp [hg]

/-- C82: a digit above 31767 can make a debug build panic where a release build wraps: 3.2767 (the digit 32767 at weight -1) rounded at one place. -/
theorem C82_wraps : ∃ a r, @Untrusted.deserialize (dbg false) [32#8, 0#8, 0#8, 0#8, 0x7f#8, 0x80#8, 0xff#8, 0x7f#8] = .ok a ∧
    @Untrusted.deserialize (rel false) [32#8, 0#8, 0#8, 0#8, 0x7f#8, 0x80#8, 0xff#8, 0x7f#8] = .ok a ∧
    @Num.round (dbg false) a 1 = .error .overflow ∧ @Num.round (rel false) a 1 = .ok r ∧ @digitsAt (rel false) r.asBytes = [-32536] :=
  ⟨_, _, rfl, rfl, rfl, rfl, rfl⟩

/-- C82: rounding digit by digit is not rounding the amount: the only digit 25000 at weight -1 has the amount 2.5, and rounds to 1 at scale 0, in either build. -/
theorem C82_not_nearest (d : Bool) : ∃ a r, @Untrusted.deserialize ⟨d, false⟩ [32#8, 0#8, 0#8, 0#8, 0x7f#8, 0x80#8, 0xa8#8, 0x61#8] = .ok a ∧
    @Num.round ⟨d, false⟩ a 0 = .ok r ∧ @digitsAt ⟨d, false⟩ r.asBytes = [1] ∧ weightAt r.asBytes = 0 := by
  cases d <;> exact ⟨_, _, rfl, rfl, rfl, rfl⟩

/-- The hypotheses are met by bytes with the digits 1 and 16383, weight 0: the amount is 2.6383, cut at two places 2.63. -/
example : ∃ a r, @Untrusted.deserialize (dbg false) (digitBytes2 1#8 0#8 0xff#8 0x3f#8) = .ok a ∧
    @digitsAt (dbg false) (digitBytes2 1#8 0#8 0xff#8 0x3f#8) = [1, 16383] ∧ kindAt (digitBytes2 1#8 0#8 0xff#8 0x3f#8) ≠ 3 ∧
    @Num.trunc (dbg false) a 2 = .ok r ∧ @digitsAt (dbg false) r.asBytes = [1, 16300] :=
  ⟨_, _, rfl, rfl, by decide, rfl, rfl⟩

end PgNumeric.Props
