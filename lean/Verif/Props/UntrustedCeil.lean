import Verif.Proofs.UntrustedCeil
import Verif.Props.UntrustedRound
/-!
# C83: ceil and floor of numbers from arbitrary bytes
-/
namespace PgNumeric.Props
open PgNumeric Spec Untrusted

theorem one_value : value Var.one = 1 := by simp [value, Var.one, mag]

/-- The integer part of bytes as a variable, and what the comparison with it says. -/
theorem integer_part [Build] {bs : List (BitVec 8)} (p3 : Storable16 (varAt bs)) (p5 : Small (varAt bs)) (hd : ∀ d ∈ digitsAt bs, 0 ≤ d ∧ d ≤ 16383) :
    ∃ r c, Var.truncCommon (varAt bs) 0 = .ok r ∧ Untrusted.cmpCommon (varAt bs) r = .ok c ∧ (c ≠ 0 ↔ FractionAt bs) ∧ Digits14 r.digits ∧ r.sign ≠ .nan ∧
      r.dscale = 0 ∧ (r.digits.length : Int) ≤ r.weight + 1 ∧ 0 ≤ r.weight ∧ r.weight = max (weightAt bs) 0 ∧ value r = cutAt bs 0 := by
  have a1 := p5.lo
  have a2 := p5.hi
  have hd15 : Digits15 (varAt bs).digits := fun d hm => ⟨(hd d hm).1, by have := (hd d hm).2; omega⟩
  have ht := trunc_zero (v := varAt bs) p3.not_nan (by omega)
  obtain ⟨r, er, hr, -, hm⟩ := trunc15 (s := 0) hd15 p3.not_nan (by omega) (by omega)
  have hval := kept_value hr hm p3.not_nan
  rw [er] at ht
  have hr2 := Except.ok.inj ht
  obtain ⟨c, ec, hc⟩ := cmp_trunc hd15 p3.not_nan hr2
  refine ⟨r, c, er, ec, hc, ?_, hr.not_nan, hr.dscale, ?_, ?_, ?_, ?_⟩
  · rw [hr2]
    split
    · exact fun d hm => by simp at hm
    · exact fun d hm => hd d (List.mem_of_mem_take hm)
  · rw [hr2]
    split
    · simp
    · simp only [List.length_take]; omega
  · rw [hr2]
    split
    · simp
    · simp only; omega
  · rw [hr2]
    have : (varAt bs).weight = weightAt bs := rfl
    split
    · simp only; omega
    · simp only; omega
  · rw [hval]
    unfold cutAt varAt
    by_cases hg : negAt bs <;> simp [hg]

theorem bumped_of [Build] {u : Var} (h : Storable16 u) (hs : u.dscale = 0) : RoundedTo (Bin.encode u) 0 (value u) := by
  obtain ⟨e1, e2, -, -, e5, -⟩ := encode_says h
  exact ⟨e1, e2, by rw [e5, hs], amount_encode h⟩

theorem one_small : Small Var.one := ⟨by decide, by decide, by decide⟩
theorem one_digits : Digits14 Var.one.digits := fun d hm => by simp [Var.one] at hm; omega

open Classical in
/-- C83: `ceil` of a number read from any bytes with digits in 0..16383, in either build: the amount cut at the decimal point, and one more if the number is not negative
and has a part behind the point. Only a number of the largest weight can panic, with the documented message. -/
theorem C83_ceil [Build] {bs : List (BitVec 8)} {a : Bin} (hl : bs.length ≤ 100000000) (h : Untrusted.deserialize bs = .ok a) (h3 : kindAt bs ≠ 3)
    (hd : ∀ d ∈ digitsAt bs, 0 ≤ d ∧ d ≤ 16383) :
    (∃ r, Untrusted.ceil a = .ok r ∧ RoundedTo r 0 (cutAt bs 0 + if ¬ negAt bs ∧ FractionAt bs then 1 else 0)) ∨
    weightAt bs = 32767 ∧ Untrusted.ceil a = .error (.panic "value overflows numeric format") := by
  obtain ⟨p1, p2, p3, p4, p5⟩ := untrusted_operand hl h h3
  have b2 := p3.weight_le
  have hvw : (varAt bs).weight = weightAt bs := rfl
  obtain ⟨r, c, er, ec, hc, rd, rn, rs, rl, rw0, rw1, rv⟩ := integer_part p3 p5 hd
  have hsg : (varAt bs).sign = .pos ↔ ¬ negAt bs := by unfold varAt; by_cases hg : negAt bs <;> simp [hg]
  unfold Untrusted.ceil Untrusted.ceilCommon
  simp only [p1, p2, p4, bind_ok, Bool.false_eq_true, if_false, dassert_ok p3.not_nan, er, ec]
  have keep : (∃ b, (do let o ← Num.finish r; expect VALUE_OVERFLOW_MSG o) = (.ok b : M Bin) ∧ RoundedTo b 0 (cutAt bs 0)) := by
    obtain ⟨f1, -, f3⟩ := finish_kept (r := r) (fun d hm => by have := rd d hm; omega) rn (by omega) (by omega) (by omega) (by omega) (by omega)
    have := rounded_of f3
    rw [rv, rs] at this
    exact ⟨_, by rw [f1]; rfl, this⟩
  by_cases hs : (varAt bs).sign = .pos
  · rw [if_pos hs]
    by_cases hf : FractionAt bs
    · rw [if_pos (hc.2 hf), if_pos ⟨hsg.1 hs, hf⟩]
      have hsm : Small r := ⟨by omega, by omega, by omega⟩
      obtain ⟨u, eu, nu, vu⟩ := addCommon14 hsm one_small rd one_digits rn (by simp [Var.one]) (by rw [rs]; simp [Var.one]) (by rw [rs]; simp [Var.one])
      have hmx : max r.dscale Var.one.dscale = 0 := by rw [rs]; rfl
      rw [hmx] at nu
      rw [eu, bind_ok]
      rcases finish_bump nu rl rw0 (by omega) with ⟨v, f1, f2, f3, f4⟩ | ⟨f1, f2⟩
      · left
        have := bumped_of f2 f3
        rw [f4, vu, rv, one_value] at this
        exact ⟨_, by rw [f1]; rfl, this⟩
      · right
        exact ⟨by omega, by rw [f2]; rfl⟩
    · rw [if_neg (fun hh => hf (hc.1 hh)), if_neg (fun hh => hf hh.2), add_zero]
      exact .inl keep
  · rw [if_neg hs, if_neg (fun hh => hs (hsg.2 hh.1)), add_zero]
    exact .inl keep

open Classical in
/-- C83: `floor`: one less if it is negative and has a part behind the point. -/
theorem C83_floor [Build] {bs : List (BitVec 8)} {a : Bin} (hl : bs.length ≤ 100000000) (h : Untrusted.deserialize bs = .ok a) (h3 : kindAt bs ≠ 3)
    (hd : ∀ d ∈ digitsAt bs, 0 ≤ d ∧ d ≤ 16383) :
    (∃ r, Untrusted.floor a = .ok r ∧ RoundedTo r 0 (cutAt bs 0 - if negAt bs ∧ FractionAt bs then 1 else 0)) ∨
    weightAt bs = 32767 ∧ Untrusted.floor a = .error (.panic "value overflows numeric format") := by
  obtain ⟨p1, p2, p3, p4, p5⟩ := untrusted_operand hl h h3
  have b2 := p3.weight_le
  have hvw : (varAt bs).weight = weightAt bs := rfl
  obtain ⟨r, c, er, ec, hc, rd, rn, rs, rl, rw0, rw1, rv⟩ := integer_part p3 p5 hd
  have hsg : (varAt bs).sign = .neg ↔ negAt bs := by unfold varAt; by_cases hg : negAt bs <;> simp [hg]
  unfold Untrusted.floor Untrusted.floorCommon
  simp only [p1, p2, p4, bind_ok, Bool.false_eq_true, if_false, dassert_ok p3.not_nan, er, ec]
  have keep : (∃ b, (do let o ← Num.finish r; expect VALUE_OVERFLOW_MSG o) = (.ok b : M Bin) ∧ RoundedTo b 0 (cutAt bs 0)) := by
    obtain ⟨f1, -, f3⟩ := finish_kept (r := r) (fun d hm => by have := rd d hm; omega) rn (by omega) (by omega) (by omega) (by omega) (by omega)
    have := rounded_of f3
    rw [rv, rs] at this
    exact ⟨_, by rw [f1]; rfl, this⟩
  by_cases hs : (varAt bs).sign = .neg
  · rw [if_pos hs]
    by_cases hf : FractionAt bs
    · rw [if_pos (hc.2 hf), if_pos ⟨hsg.1 hs, hf⟩]
      have hsm : Small r := ⟨by omega, by omega, by omega⟩
      obtain ⟨u, eu, nu, vu⟩ := subCommon14 hsm one_small rd one_digits rn (by simp [Var.one]) (by rw [rs]; simp [Var.one]) (by rw [rs]; simp [Var.one])
      have hmx : max r.dscale Var.one.dscale = 0 := by rw [rs]; rfl
      rw [hmx] at nu
      rw [eu, bind_ok]
      rcases finish_bump nu rl rw0 (by omega) with ⟨v, f1, f2, f3, f4⟩ | ⟨f1, f2⟩
      · left
        have := bumped_of f2 f3
        rw [f4, vu, rv, one_value] at this
        exact ⟨_, by rw [f1]; rfl, this⟩
      · right
        exact ⟨by omega, by rw [f2]; rfl⟩
    · rw [if_neg (fun hh => hf (hc.1 hh)), if_neg (fun hh => hf hh.2), sub_zero]
      exact .inl keep
  · rw [if_neg hs, if_neg (fun hh => hs (hsg.2 hh.1)), sub_zero]
    exact .inl keep

/-- C83: NaN stays NaN. -/
theorem C83_nan [Build] {bs : List (BitVec 8)} {a : Bin} (hn : bs.length < 4294967288) (h : Untrusted.deserialize bs = .ok a) (h3 : kindAt bs = 3) :
    Untrusted.ceil a = .ok Bin.nan ∧ Untrusted.floor a = .ok Bin.nan := by
  obtain ⟨p1, p2⟩ := untrusted_facts hn h
  rcases p2 with p | p
  · unfold Untrusted.ceil Untrusted.floor
    simp only [p1, p.2, bind_ok, if_true, Num.nan_ok, and_self]
  · exact absurd h3 p.1

/-- C83: where no digit is negative, this is the `ceil` and the `floor` of the rest of the model (C19 for the numbers that the library makes). -/
theorem C83_model [Build] {bs : List (BitVec 8)} {a : Bin} (hl : bs.length ≤ 100000000) (h : Untrusted.deserialize bs = .ok a) (hd : ∀ d ∈ digitsAt bs, 0 ≤ d) :
    Untrusted.ceil a = Num.ceil a ∧ Untrusted.floor a = Num.floor a := by
  have hn : bs.length < 4294967288 := by omega
  obtain ⟨p1, p2⟩ := untrusted_facts hn h
  unfold Untrusted.ceil Num.ceil Untrusted.floor Num.floor
  simp only [p1, bind_ok]
  rcases p2 with ⟨h3, hx⟩ | ⟨h3, hx, hst, hv⟩
  · simp only [hx, if_true, and_self]
  · have p5 := small_var hl hst (untrusted_source hn h).1 h3
    have a1 := p5.lo
    have a2 := p5.hi
    have d1 : Digits15 (varAt bs).digits := digits15_of hd
    obtain ⟨r, er, hr, -, -⟩ := trunc15 (s := 0) d1 hst.not_nan (by omega) (by omega)
    have e1 := Untrusted.cmpCommon_ok (a := varAt bs) (b := r) d1 hr.digits
    have e2 := cmpAbs_ok (a := r) (b := Var.one) hr.digits one_digits.wide
    simp only [hx, Bool.false_eq_true, if_false, hv, bind_ok]
    unfold Untrusted.ceilCommon Var.ceilCommon Untrusted.floorCommon Var.floorCommon Untrusted.addCommon Var.addCommon Untrusted.subCommon Var.subCommon difference
    simp only [er, e1, e2, bind_ok, dassert_ok hst.not_nan]
    constructor
    · by_cases hs : (varAt bs).sign = .pos <;> by_cases hc : Var.cmpCommon (varAt bs) r = 0 <;> simp [hs, hc]
    · by_cases hs : (varAt bs).sign = .neg <;> by_cases hc : Var.cmpCommon (varAt bs) r = 0 <;> simp [hs, hc]

/-- C83: a zero that is stored with a digit at weight -1 has the ceiling 1, in either build. -/
theorem C83_zero (d : Bool) : ∃ a r, @Untrusted.deserialize ⟨d, false⟩ [32#8, 0#8, 0#8, 0#8, 0x7f#8, 0x80#8, 0#8, 0#8] = .ok a ∧
    @digitsAt ⟨d, false⟩ [32#8, 0#8, 0#8, 0#8, 0x7f#8, 0x80#8, 0#8, 0#8] = [0] ∧ @Untrusted.ceil ⟨d, false⟩ a = .ok r ∧
    @digitsAt ⟨d, false⟩ r.asBytes = [1] ∧ weightAt r.asBytes = 0 := by
  cases d <;> exact ⟨_, _, rfl, rfl, rfl, rfl, rfl⟩

/-- C83: the ceiling of the amount 1.5 that is stored with the digit 15000 at weight -1 is 1: less than the number. -/
theorem C83_below (d : Bool) : ∃ a r, @Untrusted.deserialize ⟨d, false⟩ [32#8, 0#8, 0#8, 0#8, 0x7f#8, 0x80#8, 0x98#8, 0x3a#8] = .ok a ∧
    @digitsAt ⟨d, false⟩ [32#8, 0#8, 0#8, 0#8, 0x7f#8, 0x80#8, 0x98#8, 0x3a#8] = [15000] ∧ @Untrusted.ceil ⟨d, false⟩ a = .ok r ∧
    @digitsAt ⟨d, false⟩ r.asBytes = [1] ∧ weightAt r.asBytes = 0 := by
  cases d <;> exact ⟨_, _, rfl, rfl, rfl, rfl, rfl⟩

/-- The hypotheses are met by the digits 1 and 16383: the integer part is 1, and the ceiling 2. -/
example : ∃ a r, @Untrusted.deserialize (dbg false) (digitBytes2 1#8 0#8 0xff#8 0x3f#8) = .ok a ∧
    @digitsAt (dbg false) (digitBytes2 1#8 0#8 0xff#8 0x3f#8) = [1, 16383] ∧ kindAt (digitBytes2 1#8 0#8 0xff#8 0x3f#8) ≠ 3 ∧
    @Untrusted.ceil (dbg false) a = .ok r ∧ @digitsAt (dbg false) r.asBytes = [2] :=
  ⟨_, _, rfl, rfl, by decide, rfl, rfl⟩

end PgNumeric.Props
