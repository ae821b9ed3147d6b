import Verif.Proofs.StoredArith
import Verif.Props.UntrustedMul
/-!
# C86: dividing numbers from arbitrary bytes
-/
namespace PgNumeric.Props
open PgNumeric Spec Untrusted

theorem firstDigit_zeros {ds : List Int} (h : ∀ d ∈ ds, d = 0) (w : Int) : Var.firstDigit ds w = (0, 0) := by
  induction ds generalizing w with
  | nil => rfl
  | cons d ds ih =>
    have hd : d = 0 := h d (by simp)
    simp only [Var.firstDigit, hd, ne_eq, not_true_eq_false, if_false]
    exact ih (fun x hx => h x (by simp [hx])) _

theorem mag_all_zero {ds : List Int} (h : ∀ d ∈ ds, d = 0) (w : Int) : mag ds w = 0 := mag_zeros h w

theorem firstDigit_proper {v : Var} (hd : Digits v.digits) : Var.firstDigit v.digits v.weight = (leadDigit (value v), leadWeight (value v)) := by
  by_cases hne : ∃ d ∈ v.digits, d ≠ 0
  · have hp := mag_pos_of_mem hd hne v.weight
    have hab := abs_value v hd
    have h0 : value v ≠ 0 := by rw [← abs_pos, hab]; exact hp
    obtain ⟨h1, h2, h3, h4⟩ := firstDigit_mag hd hne v.weight
    rw [abs_of_nonneg (mag_nonneg hd _)] at h3 h4
    have hl : Num.Leading (value v) (Var.firstDigit v.digits v.weight).1 (Var.firstDigit v.digits v.weight).2 :=
      ⟨h1, h2, by rw [hab]; exact h3, by rw [hab]; exact h4⟩
    obtain ⟨e1, e2⟩ := Num.leading_unique hl (Num.leading_lead h0)
    rw [← e1, ← e2]
  · push Not at hne
    have h0 : value v = 0 := by
      rw [← abs_eq_zero, abs_value v hd, mag_zeros hne]
    rw [firstDigit_zeros hne, h0, Num.lead_zero.1, Num.lead_zero.2]

theorem divScale_proper {u v : Var} (hu : Digits u.digits) (hv : Digits v.digits) (h0 : 0 ≤ u.dscale) :
    Var.selectDivScale u v = quotientScale (value u) (value v) u.dscale v.dscale := by
  unfold Var.selectDivScale quotientScale
  rw [firstDigit_proper hu, firstDigit_proper hv]
  simp only [NUMERIC_MIN_DISPLAY_SCALE, NUMERIC_MAX_DISPLAY_SCALE, NUMERIC_MIN_SIG_DIGITS, DEC_DIGITS]
  split <;> omega

/-- C86: two numbers read from any bytes whose digits are proper (0..9999) are divided without a panic, in either build, if the first digit of the divisor is not zero. The
quotient is a valid number: the exact quotient of the two amounts, hidden digits included, rounded half away from zero at the scale that the same amounts in valid numbers have.
It is missing exactly if it is out of range. -/
theorem C86_div [Build] {xs ys : List (BitVec 8)} {a b : Bin} (hx : xs.length ≤ 100000000) (hy : ys.length ≤ 100000000)
    (ha : Untrusted.deserialize xs = .ok a) (hb : Untrusted.deserialize ys = .ok b) (h3 : kindAt xs ≠ 3) (k3 : kindAt ys ≠ 3)
    (dx : ∀ d ∈ digitsAt xs, 0 ≤ d ∧ d < 10000) (dy : ∀ d ∈ digitsAt ys, 0 ≤ d ∧ d < 10000)
    (hne : digitsAt ys ≠ []) (hh : (digitsAt ys).head? ≠ some 0) :
    let s := quotientScale (amountAt xs) (amountAt ys) (scaleAt xs) (scaleAt ys)
    let q := roundHalfAway (amountAt xs / amountAt ys) s
    (|q| < 10 ^ 131072 → ∃ r, Num.checkedDiv a b = .ok (some r) ∧ Num.overflowingDiv a b = .ok (r, false) ∧ Num.opDiv a b = .ok r ∧ Holds r q s) ∧
    (10 ^ 131072 ≤ |q| → Num.checkedDiv a b = .ok none ∧ Num.overflowingDiv a b = .ok (Bin.nan, true) ∧
      Num.opDiv a b = .error (.panic VALUE_OVERFLOW_MSG)) := by
  intro s q
  obtain ⟨p1, p2, p3, p4, p5⟩ := untrusted_operand hx ha h3
  obtain ⟨q1, q2, q3, q4, q5⟩ := untrusted_operand hy hb k3
  have hs := selectDivScale_bounds (varAt xs) (varAt ys)
  obtain ⟨u, eu, hu⟩ := divCommon_spec (varAt xs) (varAt ys) p5 q5 (Var.selectDivScale (varAt xs) (varAt ys)) (by omega) true dx dy p3.not_nan q3.not_nan
    hne hh hs.1 (.inl (by omega))
  rw [if_pos rfl] at hu
  have es : Var.selectDivScale (varAt xs) (varAt ys) = s := by
    rw [divScale_proper (u := varAt xs) (v := varAt ys) dx dy p3.dscale_nonneg, amount_var, amount_var]; rfl
  rw [es, amount_var, amount_var] at hu
  rw [es] at hs
  have hd : Var.checkedDiv (varAt xs) (varAt ys) = .ok (some u) := by
    unfold Var.checkedDiv
    rw [dassert_ok p3.not_nan, dassert_ok q3.not_nan, divScaleFits_ok p5 q5]
    exact eu
  have hf := Num.finish_spec hu hs.1 (by omega) (roundHalfAway_hasScale _ _)
  have hc : Num.checkedDiv a b = Num.finish u := by
    unfold Num.checkedDiv
    simp only [p1, q1, p2, q2, p4, q4, bind_ok, Bool.or_self, Bool.false_eq_true, if_false, hd]
  refine ⟨fun h => ?_, fun h => ?_⟩
  · obtain ⟨r, er, hr⟩ := hf.1 h
    have ho : Num.overflowingDiv a b = .ok (r, false) := by
      unfold Num.overflowingDiv
      simp only [p1, q1, p2, q2, p4, q4, bind_ok, Bool.or_self, Bool.false_eq_true, if_false, hd, expect, er, pure_ok]
    refine ⟨r, by rw [hc, er], ho, ?_, hr⟩
    unfold Num.opDiv
    rw [ho]; rfl
  · have er := hf.2 h
    have ho : Num.overflowingDiv a b = .ok (Bin.nan, true) := by
      unfold Num.overflowingDiv
      simp only [p1, q1, p2, q2, p4, q4, bind_ok, Bool.or_self, Bool.false_eq_true, if_false, hd, expect, er, pure_ok, Num.nan_ok]
    refine ⟨by rw [hc, er], ho, ?_⟩
    unfold Num.opDiv
    rw [ho]; rfl

/-- C86: and so is the quotient without a fraction: truncated towards zero. -/
theorem C86_div_trunc [Build] {xs ys : List (BitVec 8)} {a b : Bin} (hx : xs.length ≤ 100000000) (hy : ys.length ≤ 100000000)
    (ha : Untrusted.deserialize xs = .ok a) (hb : Untrusted.deserialize ys = .ok b) (h3 : kindAt xs ≠ 3) (k3 : kindAt ys ≠ 3)
    (dx : ∀ d ∈ digitsAt xs, 0 ≤ d ∧ d < 10000) (dy : ∀ d ∈ digitsAt ys, 0 ≤ d ∧ d < 10000)
    (hne : digitsAt ys ≠ []) (hh : (digitsAt ys).head? ≠ some 0) :
    let q := truncTo (amountAt xs / amountAt ys) 0
    (|q| < 10 ^ 131072 → ∃ r, Num.checkedDivTrunc a b = .ok (some r) ∧ Holds r q 0) ∧ (10 ^ 131072 ≤ |q| → Num.checkedDivTrunc a b = .ok none) := by
  intro q
  obtain ⟨p1, p2, p3, p4, p5⟩ := untrusted_operand hx ha h3
  obtain ⟨q1, q2, q3, q4, q5⟩ := untrusted_operand hy hb k3
  obtain ⟨u, eu, hu⟩ := divCommon_spec (varAt xs) (varAt ys) p5 q5 0 (by omega) false dx dy p3.not_nan q3.not_nan hne hh (by omega) (.inl (by omega))
  simp only [Bool.false_eq_true, if_false] at hu
  rw [amount_var, amount_var] at hu
  have hd : Var.checkedDivTrunc (varAt xs) (varAt ys) = .ok (some u) := by
    unfold Var.checkedDivTrunc
    rw [dassert_ok p3.not_nan, dassert_ok q3.not_nan]
    exact eu
  have hf := Num.finish_spec hu (by omega) (by omega) (truncTo_hasScale _ _)
  have hc : Num.checkedDivTrunc a b = Num.finish u := by
    unfold Num.checkedDivTrunc
    simp only [p1, q1, p2, q2, p4, q4, bind_ok, Bool.or_self, Bool.false_eq_true, if_false, hd]
  rw [hc]
  exact hf

/-- C86: a divisor without digits or with a first digit of zero counts as zero, whatever its amount is and whatever the other digits of the two numbers are, proper or not. -/
theorem C86_div_by_leading_zero [Build] {xs ys : List (BitVec 8)} {a b : Bin} (hx : xs.length ≤ 100000000) (hy : ys.length ≤ 100000000)
    (ha : Untrusted.deserialize xs = .ok a) (hb : Untrusted.deserialize ys = .ok b) (h3 : kindAt xs ≠ 3) (k3 : kindAt ys ≠ 3)
    (hh : digitsAt ys = [] ∨ (digitsAt ys).head? = some 0) :
    Num.checkedDiv a b = .ok none ∧ Num.checkedDivTrunc a b = .ok none ∧ Num.checkedRem a b = .ok none ∧
    Num.opDiv a b = .error (.panic DIVIDE_BY_ZERO_MSG) ∧ Num.opRem a b = .error (.panic DIVIDE_BY_ZERO_MSG) := by
  obtain ⟨p1, p2, p3, p4, p5⟩ := untrusted_operand hx ha h3
  obtain ⟨q1, q2, q3, q4, q5⟩ := untrusted_operand hy hb k3
  have key : ∀ s r, Var.divCommon (varAt xs) (varAt ys) s r = .ok none := by
    intro s r
    unfold Var.divCommon
    rw [dassert_ok p3.not_nan, dassert_ok q3.not_nan, bind_ok, bind_ok, if_pos]
    · rfl
    · have e : (varAt ys).digits = digitsAt ys := rfl
      rcases hh with h | h
      · left; simp [Var.ndigits, e, h]
      · right
        rw [e]
        cases hd : digitsAt ys with
        | nil => simp
        | cons d l => rw [hd] at h; simpa using h
  have d1 : Var.checkedDiv (varAt xs) (varAt ys) = .ok none := by
    unfold Var.checkedDiv
    rw [dassert_ok p3.not_nan, dassert_ok q3.not_nan, divScaleFits_ok p5 q5]
    exact key _ _
  have d2 : Var.checkedDivTrunc (varAt xs) (varAt ys) = .ok none := by
    unfold Var.checkedDivTrunc
    rw [dassert_ok p3.not_nan, dassert_ok q3.not_nan]
    exact key _ _
  have d3 : Var.modCommon (varAt xs) (varAt ys) = .ok none := by
    unfold Var.modCommon
    rw [dassert_ok p3.not_nan, dassert_ok q3.not_nan, bind_ok, bind_ok, key]
    rfl
  refine ⟨?_, ?_, ?_, ?_, ?_⟩
  · unfold Num.checkedDiv
    simp only [p1, q1, p2, q2, p4, q4, bind_ok, Bool.or_self, Bool.false_eq_true, if_false, d1, pure_ok]
  · unfold Num.checkedDivTrunc
    simp only [p1, q1, p2, q2, p4, q4, bind_ok, Bool.or_self, Bool.false_eq_true, if_false, d2, pure_ok]
  · unfold Num.checkedRem
    simp only [p1, q1, p2, q2, p4, q4, bind_ok, Bool.or_self, Bool.false_eq_true, if_false, d3, pure_ok]
  · unfold Num.opDiv Num.overflowingDiv
    simp only [p1, q1, p2, q2, p4, q4, bind_ok, Bool.or_self, Bool.false_eq_true, if_false, d1]
    rfl
  · unfold Num.opRem Num.overflowingRem
    simp only [p1, q1, p2, q2, p4, q4, bind_ok, Bool.or_self, Bool.false_eq_true, if_false, d3]
    rfl

/-- C86 (a defect): 5 divided by 5 is 1, or a division by zero if the divisor has a zero in front: the digits 0 and 5 where the other has 5. The two divisors are equal. -/
theorem C86_five_is_zero (d : Bool) : ∃ a b r, @Untrusted.deserialize ⟨d, false⟩ (digitBytes1 5#8 0#8) = .ok a ∧
    @Untrusted.deserialize ⟨d, false⟩ [40#8, 0#8, 0#8, 0#8, 0x01#8, 0x80#8, 0#8, 0#8, 5#8, 0#8] = .ok b ∧ @Untrusted.cmp ⟨d, false⟩ a b = .ok .eq ∧
    @Num.checkedDiv ⟨d, false⟩ a a = .ok (some r) ∧ @digitsAt ⟨d, false⟩ r.asBytes = [1] ∧ @Num.checkedDiv ⟨d, false⟩ a b = .ok none ∧
    @Num.opDiv ⟨d, false⟩ a b = .error (.panic DIVIDE_BY_ZERO_MSG) := by
  cases d <;> exact ⟨_, _, _, rfl, rfl, rfl, rfl, rfl, rfl, rfl⟩

/-- The hypotheses of the three theorems are met: the dividend has a zero in front and a digit behind its scale of zero, the first divisor is 7, the second begins with a
zero. -/
example : ∃ a b c r, @Untrusted.deserialize (dbg false) (digitBytes2 0#8 0#8 5#8 0#8) = .ok a ∧ @Untrusted.deserialize (dbg false) (digitBytes1 7#8 0#8) = .ok b ∧
    @Untrusted.deserialize (dbg false) (digitBytes2 0#8 0#8 5#8 0#8) = .ok c ∧
    @digitsAt (dbg false) (digitBytes2 0#8 0#8 5#8 0#8) = [0, 5] ∧ scaleAt (digitBytes2 0#8 0#8 5#8 0#8) = 0 ∧ @digitsAt (dbg false) (digitBytes1 7#8 0#8) = [7] ∧
    kindAt (digitBytes2 0#8 0#8 5#8 0#8) ≠ 3 ∧ kindAt (digitBytes1 7#8 0#8) ≠ 3 ∧
    @Num.checkedDiv (dbg false) a b = .ok (some r) ∧ @digitsAt (dbg false) r.asBytes = [7142, 8571, 4285, 7142, 8571] ∧ scaleAt r.asBytes = 24 ∧
    @Num.checkedDiv (dbg false) a c = .ok none :=
  ⟨_, _, _, _, rfl, rfl, rfl, rfl, rfl, rfl, by decide, by decide, rfl, rfl, rfl, rfl⟩

end PgNumeric.Props
