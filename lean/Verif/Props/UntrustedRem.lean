import Verif.Proofs.RoundErr
import Verif.Props.UntrustedDiv
/-!
# C87: remainders of numbers from arbitrary bytes
-/
namespace PgNumeric.Props
open PgNumeric Spec Untrusted

theorem difference_eq [Build] {a b : Var} (ha : Digits15 a.digits) (hb : Digits15 b.digits) : Untrusted.subCommon a b = Var.subCommon a b := by
  unfold Untrusted.subCommon Var.subCommon difference
  rw [cmpAbs_ok ha hb]
  simp only [bind_ok]

theorem weight_le_of_lt {v : Var} (hd : Digits v.digits) (hs : Stripped v) {k : ℤ} (h0 : 0 ≤ k) (h : |value v| < 10000 ^ (k + 1)) : v.weight ≤ k := by
  by_cases hne : v.digits = []
  · rw [(hs.2.2 hne).1]; exact h0
  · obtain ⟨d, ds, e⟩ := List.exists_cons_of_ne_nil hne
    have hh := hs.1
    rw [e] at hh
    have hd0 : d ≠ 0 := by simpa using hh
    have hdr := hd d (by simp [e])
    rw [abs_value v hd, e] at h
    have hm := (mag_head_bounds (by rw [← e]; exact hd) v.weight).1
    have h1 : (1 : ℚ) ≤ d := by exact_mod_cast (by omega : (1 : ℤ) ≤ d)
    have hp := B_zpow_pos v.weight
    have h2 : (10000 : ℚ) ^ v.weight < 10000 ^ (k + 1) := by nlinarith
    have := (zpow_lt_zpow_iff_right₀ (by norm_num : (1 : ℚ) < 10000)).1 h2
    omega

/-- C87: the remainder of two numbers read from any bytes whose digits are proper (0..9999), with a divisor whose first digit is not zero, in either build and without a panic.
The quotient is truncated; the product of it and the divisor is rounded half away from zero at the scale of the divisor (the exact product, if no digits are hidden behind that
scale; otherwise one that is off by less than one ten-thousandth of the last place for each digit of the divisor), and that is subtracted exactly: complete bytes at the larger
scale. The remainder is missing only for dividends at the end of the range of weights. -/
theorem C87_rem [Build] {xs ys : List (BitVec 8)} {a b : Bin} (hx : xs.length ≤ 100000000) (hy : ys.length ≤ 100000000)
    (ha : Untrusted.deserialize xs = .ok a) (hb : Untrusted.deserialize ys = .ok b) (h3 : kindAt xs ≠ 3) (k3 : kindAt ys ≠ 3)
    (dx : ∀ d ∈ digitsAt xs, 0 ≤ d ∧ d < 10000) (dy : ∀ d ∈ digitsAt ys, 0 ≤ d ∧ d < 10000)
    (hne : digitsAt ys ≠ []) (hh : (digitsAt ys).head? ≠ some 0) :
    let P := truncTo (amountAt xs / amountAt ys) 0 * amountAt ys
    ∃ (z : ℚ) (o : Option Bin), (NothingHidden ys → z = P) ∧ |P - z| ≤ (digitsAt ys).length * (1 / 10000) * 10 ^ (-(scaleAt ys : ℤ)) ∧
      Num.checkedRem a b = .ok o ∧
      (o = none → 32766 ≤ weightAt xs ∨ weightAt xs - (digitsAt xs).length < -32767) ∧
      ∀ r, o = some r → RoundedTo r (max (scaleAt xs) (scaleAt ys)) (amountAt xs - roundHalfAway z (scaleAt ys)) := by
  intro P
  obtain ⟨p1, p2, p3, p4, p5⟩ := untrusted_operand hx ha h3
  obtain ⟨q1, q2, q3, q4, q5⟩ := untrusted_operand hy hb k3
  have s1 := p3.dscale_nonneg
  have s2 := p3.dscale_le
  have s3 := q3.dscale_nonneg
  have s4 := q3.dscale_le
  have b1 := p3.weight_ge
  have b2 := p3.weight_le
  have c1 := q3.weight_ge
  have Dx : Digits (varAt xs).digits := dx
  have Dy : Digits (varAt ys).digits := dy
  have ew : (varAt xs).weight = weightAt xs := rfl
  have el : (varAt xs).digits.length = (digitsAt xs).length := rfl
  have el2 : (varAt ys).digits.length = (digitsAt ys).length := rfl
  have es2 : (varAt ys).dscale = scaleAt ys := rfl
  obtain ⟨q, eq, hq⟩ := divCommon_spec (varAt xs) (varAt ys) p5 q5 0 (by omega) false Dx Dy p3.not_nan q3.not_nan hne hh (by omega) (.inl (by omega))
  simp only [Bool.false_eq_true, if_false] at hq
  have hqi := truncTo_hasScale (value (varAt xs) / value (varAt ys)) 0
  -- the divisor is not small
  have hyv : (10000 : ℚ) ^ (varAt ys).weight ≤ |value (varAt ys)| := by
    rw [abs_value _ Dy]
    have e : (varAt ys).digits = digitsAt ys := rfl
    obtain ⟨d, ds, ed⟩ := List.exists_cons_of_ne_nil hne
    rw [e] at Dy ⊢
    rw [ed] at hh Dy ⊢
    have hd0 : d ≠ 0 := by simpa using hh
    have hdr := Dy d (by simp)
    have hm := (mag_head_bounds Dy (varAt ys).weight).1
    have h1 : (1 : ℚ) ≤ d := by exact_mod_cast (by omega : (1 : ℤ) ≤ d)
    have hp := B_zpow_pos (varAt ys).weight
    nlinarith
  have hyp : 0 < |value (varAt ys)| := lt_of_lt_of_le (B_zpow_pos _) hyv
  have hxv : |value (varAt xs)| < 10000 ^ ((varAt xs).weight + 1) := by rw [abs_value _ Dx]; exact mag_lt Dx _
  have hqb : |truncTo (value (varAt xs) / value (varAt ys)) 0| < huge := by
    refine lt_of_le_of_lt (abs_truncTo_le _ _) (lt_huge_of_zpow (k := (varAt xs).weight + 1 - (varAt ys).weight) ?_ (by omega))
    rw [abs_div, div_lt_iff₀ hyp]
    refine lt_of_lt_of_le hxv ?_
    rw [zpow_sub₀ (by norm_num : (10000:ℚ) ≠ 0), div_mul_eq_mul_div, le_div_iff₀ (B_zpow_pos _)]
    exact mul_le_mul_of_nonneg_left hyv (B_zpow_pos _).le
  have hqs : Small q := hq.small hqi (by omega) hqb
  obtain ⟨p, ep, hp⟩ := mulCommon_spec q (varAt ys) hqs q5 (varAt ys).dscale (by omega) hq.digits Dy hq.not_nan q3.not_nan s3 (.inl s4)
  obtain ⟨z, z1, z2, z3⟩ := hp.round
  have hP : value q * value (varAt ys) = P := by rw [hq.value, amount_var, amount_var]
  rw [hP] at z2 z3
  have hz : |P - z| ≤ (digitsAt ys).length * (1 / 10000) * 10 ^ (-(scaleAt ys : ℤ)) := by
    rw [es2] at z3
    refine z3.trans ?_
    have : ((min q.digits.length (varAt ys).digits.length : ℕ) : ℚ) ≤ (digitsAt ys).length := by
      exact_mod_cast (by rw [el2]; omega)
    have hT := T_zpow_pos (-(scaleAt ys : ℤ))
    have : ((min q.digits.length (varAt ys).digits.length : ℕ) : ℚ) * (1 / 10000) ≤ (digitsAt ys).length * (1 / 10000) := by linarith
    exact mul_le_mul_of_nonneg_right this hT.le
  have hPx : |P| ≤ |value (varAt xs)| := by
    rw [← hP, hq.value, abs_mul]
    have h1 := abs_truncTo_le (value (varAt xs) / value (varAt ys)) 0
    rw [abs_div, le_div_iff₀ hyp] at h1
    exact h1
  have hps : HasScale (value p) (varAt ys).dscale := by rw [z1]; exact roundHalfAway_hasScale _ _
  -- the size of the product
  set W : ℤ := max (weightAt xs) 1 with hW
  have hpl : |value p| < 10000 ^ (W + 1 + 1) := by
    have hr := roundHalfAway_err z (varAt ys).dscale
    rw [← z1] at hr
    have hT : (10 : ℚ) ^ (-(varAt ys).dscale) ≤ 1 := zpow_le_one_of_nonpos₀ (by norm_num) (by omega)
    have hT0 := T_zpow_pos (-(varAt ys).dscale)
    have hlen : ((digitsAt ys).length : ℚ) ≤ 1000000000 := by
      have := q5.len
      exact_mod_cast (by omega : (digitsAt ys).length ≤ 1000000000)
    have h5 : |P - z| ≤ 100000 := by
      refine hz.trans ?_
      rw [← es2]
      have : ((digitsAt ys).length : ℚ) * (1 / 10000) * 10 ^ (-(varAt ys).dscale) ≤ 1000000000 * (1 / 10000) * 1 := by
        apply mul_le_mul _ hT hT0.le (by norm_num)
        linarith
      linarith
    have h6 : |value p| ≤ |P| + 100001 := by
      rw [abs_le] at h5 hr
      have := abs_le.1 (le_refl |P|)
      rw [abs_le]
      constructor <;> linarith [h5.1, h5.2, hr.1, hr.2, this.1, this.2]
    have h7 : (10000 : ℚ) ^ ((varAt xs).weight + 1) ≤ 10000 ^ (W + 1) := B_zpow_le_iff.2 (by rw [ew]; omega)
    have h8 : (10000 : ℚ) ^ (2 : ℤ) ≤ 10000 ^ (W + 1) := B_zpow_le_iff.2 (by omega)
    have h9 : (10000 : ℚ) ^ (W + 1 + 1) = 10000 ^ (W + 1) * 10000 := zpow_add_one₀ (by norm_num) _
    norm_num at h8
    rw [h9]
    linarith
  have hpw := weight_le_of_lt hp.digits hp.stripped (by omega) hpl
  have hpsm : Small p := Small.of_stripped hp.digits hp.stripped hps (by omega) (lt_huge_of_zpow hpl (by omega))
  have hplo : -5000 ≤ p.weight - p.digits.length := by
    by_cases hpe : p.digits = []
    · rw [hpe, (hp.stripped.2.2 hpe).1]; simp
    · have := stripped_len hp.digits hp.stripped hpe hps
      simp only [Var.ndigits] at this
      omega
  have Dp : Digits14 p.digits := fun d hd => by have := hp.digits d hd; omega
  have Dx14 : Digits14 (varAt xs).digits := fun d hd => by have := dx d hd; omega
  obtain ⟨r, er, nr, vr⟩ := subCommon14 p5 hpsm Dx14 Dp p3.not_nan hp.not_nan (by omega) (by rw [hp.dscale]; omega)
  rw [difference_eq Dx14.wide Dp.wide] at er
  have := p5.len
  obtain ⟨o, eo, hn, hr⟩ := finish16 nr (by omega) (by rw [hp.dscale]; omega) (by unfold lo16 hi16; omega) (by unfold lo16; omega)
  refine ⟨z, o, fun hnh => z2 ?_, hz, ?_, fun e => ?_, fun r' e => ?_⟩
  · unfold NothingHidden at hnh
    have l2 : (varAt ys).ndigits = (digitsAt ys).length := rfl
    have w2 : (varAt ys).weight = weightAt ys := rfl
    rw [l2, w2, es2]
    by_cases hqe : q.digits = []
    · have := (hq.stripped.2.2 hqe).1
      simp only [Var.ndigits, hqe, this, List.length_nil]
      push_cast
      omega
    · have := stripped_len hq.digits hq.stripped hqe (s := 0) (by rw [hq.value]; exact hqi)
      omega
  · unfold Num.checkedRem Var.modCommon
    simp only [p1, q1, p2, q2, p4, q4, bind_ok, Bool.or_self, Bool.false_eq_true, if_false, dassert_ok p3.not_nan, dassert_ok q3.not_nan, eq, ep, er, pure_ok]
    exact eo
  · have := hn e
    unfold lo16 hi16 at this
    omega
  · obtain ⟨u, rfl, hu, hs, hval⟩ := hr r' e
    obtain ⟨e1, e2, -, -, e5, -⟩ := encode_says hu
    refine ⟨e1, e2, ?_, ?_⟩
    · rw [e5, hs, hp.dscale]; rfl
    · rw [amount_encode hu, hval, vr, z1, amount_var]; rfl

/-- C87: if the amount of the divisor has no more places than its scale says, the remainder is the exact one: smaller than the divisor, with the sign of the dividend. -/
theorem C87_rem_exact [Build] {xs ys : List (BitVec 8)} {a b r : Bin} (hx : xs.length ≤ 100000000) (hy : ys.length ≤ 100000000)
    (ha : Untrusted.deserialize xs = .ok a) (hb : Untrusted.deserialize ys = .ok b) (h3 : kindAt xs ≠ 3) (k3 : kindAt ys ≠ 3)
    (dx : ∀ d ∈ digitsAt xs, 0 ≤ d ∧ d < 10000) (dy : ∀ d ∈ digitsAt ys, 0 ≤ d ∧ d < 10000)
    (hne : digitsAt ys ≠ []) (hh : (digitsAt ys).head? ≠ some 0) (hn : NothingHidden ys) (hs : ∃ n : ℤ, amountAt ys = n / 10 ^ scaleAt ys)
    (hr : Num.checkedRem a b = .ok (some r)) :
    amountAt r.asBytes = amountAt xs - truncTo (amountAt xs / amountAt ys) 0 * amountAt ys ∧
    |amountAt r.asBytes| < |amountAt ys| ∧ 0 ≤ amountAt r.asBytes * amountAt xs := by
  obtain ⟨z, o, h1, -, h4, -, h5⟩ := C87_rem hx hy ha hb h3 k3 dx dy hne hh
  have ho : o = some r := by rw [hr] at h4; injection h4 with h; exact h.symm
  have h6 := (h5 r ho).amount
  have hsc : HasScale (amountAt ys) (scaleAt ys) := by
    obtain ⟨n, e⟩ := hs
    refine ⟨n, ?_⟩
    rw [e, zpow_natCast]
    field_simp
  have hP := (truncTo_hasScale (amountAt xs / amountAt ys) 0).mul hsc
  rw [zero_add] at hP
  rw [h1 hn, rmag_eq_self_iff hP] at h6
  have hy0 : amountAt ys ≠ 0 := by
    obtain ⟨d, ds, ed⟩ := List.exists_cons_of_ne_nil hne
    have hd0 : d ≠ 0 := by rw [ed] at hh; simpa using hh
    have hpos := mag_pos_of_mem (ds := digitsAt ys) dy ⟨d, by simp [ed], hd0⟩ (weightAt ys)
    unfold amountAt
    split <;> linarith [hpos.ne']
  obtain ⟨l1, -, l3⟩ := Num.rem_laws (x := amountAt xs) hy0
  rw [h6]
  exact ⟨rfl, l1, l3⟩

/-- C87: NaN, whatever the other number is; also for products and quotients. -/
theorem C87_nan [Build] {xs ys : List (BitVec 8)} {a b : Bin} (hx : xs.length < 4294967288) (hy : ys.length < 4294967288)
    (ha : Untrusted.deserialize xs = .ok a) (hb : Untrusted.deserialize ys = .ok b) (h3 : kindAt xs = 3 ∨ kindAt ys = 3) :
    Num.checkedMul a b = .ok (some Bin.nan) ∧ Num.checkedDiv a b = .ok (some Bin.nan) ∧ Num.checkedDivTrunc a b = .ok (some Bin.nan) ∧
    Num.checkedRem a b = .ok (some Bin.nan) := by
  obtain ⟨p1, p2⟩ := untrusted_facts hx ha
  obtain ⟨q1, q2⟩ := untrusted_facts hy hb
  have hor : (a.isNan || b.isNan) = true := by
    rcases h3 with h | h
    · rcases p2 with p | p
      · simp [p.2]
      · exact absurd h p.1
    · rcases q2 with p | p
      · simp [p.2]
      · exact absurd h p.1
  unfold Num.checkedMul Num.checkedDiv Num.checkedDivTrunc Num.checkedRem
  simp only [p1, q1, bind_ok, hor, if_true, Num.nan_ok, pure_ok, and_self]

/-- C87 (a defect): if digits of the divisor are hidden behind its scale, the product is rounded before it is subtracted: 5 modulo 1.5, with the divisor at scale zero, is 0 and
not 0.5, because 4.5 is rounded to 5. -/
theorem C87_hidden_digits (d : Bool) : ∃ a b r, @Untrusted.deserialize ⟨d, false⟩ (digitBytes1 5#8 0#8) = .ok a ∧
    @Untrusted.deserialize ⟨d, false⟩ (digitBytes2 1#8 0#8 0x88#8 0x13#8) = .ok b ∧ @digitsAt ⟨d, false⟩ (digitBytes2 1#8 0#8 0x88#8 0x13#8) = [1, 5000] ∧
    @Num.checkedRem ⟨d, false⟩ a b = .ok (some r) ∧ @digitsAt ⟨d, false⟩ r.asBytes = [] := by
  cases d <;> exact ⟨_, _, _, rfl, rfl, rfl, rfl, rfl⟩

/-- The hypotheses are met: a dividend with hidden digits, 1.5 at scale zero, modulo 1. -/
example : ∃ a b r, @Untrusted.deserialize (dbg false) (digitBytes2 1#8 0#8 0x88#8 0x13#8) = .ok a ∧ @Untrusted.deserialize (dbg false) (digitBytes1 1#8 0#8) = .ok b ∧
    kindAt (digitBytes2 1#8 0#8 0x88#8 0x13#8) ≠ 3 ∧ kindAt (digitBytes1 1#8 0#8) ≠ 3 ∧ @digitsAt (dbg false) (digitBytes1 1#8 0#8) = [1] ∧
    @Num.checkedRem (dbg false) a b = .ok (some r) ∧ @digitsAt (dbg false) r.asBytes = [5000] ∧ weightAt r.asBytes = -1 :=
  ⟨_, _, _, rfl, rfl, by decide, by decide, rfl, rfl, rfl, rfl⟩

end PgNumeric.Props
