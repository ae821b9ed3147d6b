import Verif.Props.Sqrt
import Verif.Props.UntrustedRem
/-!
# C88: square roots of numbers from arbitrary bytes
-/
namespace PgNumeric.Props
open PgNumeric Spec Untrusted Var

theorem lead_weight_proper {v : Var} (hd : Digits v.digits) (hne : v.digits ≠ []) (hh : v.digits.head? ≠ some 0) : v.weight = leadWeight (value v) := by
  have h := firstDigit_proper hd
  obtain ⟨d, ds, e⟩ := List.exists_cons_of_ne_nil hne
  rw [e] at h hh
  have : d ≠ 0 := by simpa using hh
  simp only [firstDigit, if_pos this, Prod.mk.injEq] at h
  exact h.2

theorem posVar_at [Build] {bs : List (BitVec 8)} (hl : bs.length ≤ 380000) (hc : Covered bs) (h3 : kindAt bs ≠ 3) (hst : Storable16 (varAt bs))
    (dx : ∀ d ∈ digitsAt bs, 0 ≤ d ∧ d < 10000) (hne : digitsAt bs ≠ []) (hh : (digitsAt bs).head? ≠ some 0) (hg : ¬ negAt bs)
    (hs : ∃ n : ℤ, amountAt bs = n / 10 ^ scaleAt bs) : PosVar (varAt bs) := by
  have hsc : HasScale (value (varAt bs)) (varAt bs).dscale := by
    obtain ⟨n, e⟩ := hs
    refine ⟨n, ?_⟩
    rw [amount_var, e, show (varAt bs).dscale = (scaleAt bs : ℤ) from rfl, zpow_natCast]
    field_simp
  have hd : Digits (varAt bs).digits := dx
  have hlen : (varAt bs).digits.length = declaredDigits bs := by simp [varAt, digitsAt]
  have h4 := (hc.2 h3).2
  have hsg : (varAt bs).sign = .pos := by simp [varAt, hg]
  have s2 := hst.dscale_le
  refine ⟨hd, hsg, hh, hne, ?_, by have := hst.weight_le; omega, by rw [hlen]; omega, hst.dscale_nonneg, s2, hsc⟩
  -- the first digit is not behind the scale
  obtain ⟨d, ds, e⟩ := List.exists_cons_of_ne_nil hne
  have hd0 : d ≠ 0 := by rw [e] at hh; simpa using hh
  have hpos : 0 < mag (varAt bs).digits (varAt bs).weight := mag_pos_of_mem hd ⟨d, by show d ∈ digitsAt bs; simp [e], hd0⟩ _
  have hv : value (varAt bs) ≠ 0 := by rw [← abs_pos, abs_value _ hd]; exact hpos
  have h1 := HasScale.abs_ge (hsc.mono s2) hv
  rw [abs_value _ hd] at h1
  have h2 := lt_of_le_of_lt h1 (mag_lt hd _)
  rw [B_eq_T, T_zpow_lt_iff] at h2
  omega

/-- C88: the square root of a number read from any bytes with proper digits (0..9999), the first of which is not zero, with no decimal places behind its scale and without a minus
sign: whenever it returns, it is a valid number of the documented scale within half a unit, plus `1.6 * 10^-8` units, of the root of the amount. It panics only below `10^-2016`;
the other ways not to return (an overflow check of a debug build, a loop without end) are those that valid numbers have. -/
theorem C88_sqrt [Build] {bs : List (BitVec 8)} {a : Bin} (hl : bs.length ≤ 380000) (h : Untrusted.deserialize bs = .ok a) (h3 : kindAt bs ≠ 3)
    (dx : ∀ d ∈ digitsAt bs, 0 ≤ d ∧ d < 10000) (hne : digitsAt bs ≠ []) (hh : (digitsAt bs).head? ≠ some 0) (hg : ¬ negAt bs)
    (hs : ∃ n : ℤ, amountAt bs = n / 10 ^ scaleAt bs) (fuel : Nat) :
    let q := sqrtScale (amountAt bs) (scaleAt bs)
    (∃ r y, Num.sqrt fuel a = .ok r ∧ Holds r y q ∧ |(y:ℝ) - √(amountAt bs : ℝ)| ≤ (1 / 2 + 16 / 10 ^ 9) * 10 ^ (-q)) ∨
    Num.sqrt fuel a = .error .diverge ∨
    (amountAt bs < 10 ^ (-2016:ℤ) ∧ Num.sqrt fuel a = .error (.panic "should not be zero")) ∨
    (Build.debug = true ∧ Num.sqrt fuel a = .error .overflow) := by
  intro q
  obtain ⟨p1, p2, p3, p4, p5⟩ := untrusted_operand (by omega) h h3
  have hpv := posVar_at hl (untrusted_source (by omega) h).1 h3 p3 dx hne hh hg hs
  have hx : 0 < value (varAt bs) := hpv.pos
  have hsg := hpv.sign
  have hlw := lead_weight_proper hpv.digits hpv.ne hpv.head
  have hds := hpv.dscale_nonneg
  have hw1 := p5.lo
  have hw2 := p5.hi
  have hq : q = sqrtScale (value (varAt bs)) (varAt bs).dscale := by rw [amount_var]; rfl
  obtain ⟨hq0, hq1⟩ := sqrtScale_bounds (x := value (varAt bs)) hds
  rw [← hq] at hq0 hq1
  have hsq : Var.sqrt fuel (varAt bs) = sqrtCommon fuel (varAt bs) q := by
    unfold Var.sqrt
    rw [dassert_ok (by rw [hsg]; simp), dassert_ok (by rw [hsg]; simp)]
    simp only [bind_ok]
    have h3 : (((varAt bs).weight + 1) * 4).tdiv 2 = 2 * ((varAt bs).weight + 1) := by
      rw [show ((varAt bs).weight + 1) * 4 = (2 * ((varAt bs).weight + 1)) * 2 by ring]
      exact Int.mul_tdiv_cancel _ (by norm_num)
    rw [fits_ok (by simp only [DEC_DIGITS]; rw [h3]; fits_tac), bind_ok]
    congr 1
    rw [hq]
    unfold sqrtScale
    simp only [DEC_DIGITS, NUMERIC_MIN_SIG_DIGITS, NUMERIC_MIN_DISPLAY_SCALE, NUMERIC_MAX_DISPLAY_SCALE]
    rw [h3, ← hlw]
    omega
  have hun : Num.sqrt fuel a = (do
      let w ← sqrtCommon fuel (varAt bs) q
      Num.finishNoOverflow w) := by
    unfold Num.sqrt
    simp only [p1, bind_ok, p2, Bool.false_eq_true, if_false, p4]
    rw [if_neg (by rw [hsg]; simp), hsq]
  rw [hun]
  have hT : (10:ℚ) ^ (-(q + 8)) = 10 ^ (-q) / 10 ^ 8 := by
    rw [show -(q + 8) = -q - 8 by ring, zpow_sub₀ (by norm_num)]
    norm_num
  have hcore := sqrtCommon_spec hpv hq0 (by omega) fuel
  have hsq2 : q = min 1000 (max (15 - 2 * (varAt bs).weight) (varAt bs).dscale) := by
    rw [hq]; unfold sqrtScale; rw [← hlw]
  have hlimx : |value (varAt bs)| < limit := by
    rw [abs_value _ hpv.digits, limit_eq]
    exact lt_of_lt_of_le (mag_lt hpv.digits _) (B_zpow_le_iff.2 (by have := p3.weight_le; omega))
  rw [← amount_var]
  generalize q = q at *
  generalize varAt bs = u at *
  rcases hcore with ⟨w, ρ, ew, wd, wn, ws, wv, hρ, hc, w0, ew0, ok0⟩ | e | ⟨hs, e⟩ | ⟨hd, e⟩
  · left
    have hT0 := T_zpow_pos (-q)
    have hTq1 : (10:ℚ) ^ (-q) ≤ 1 := by
      rw [show (1:ℚ) = 10 ^ (0:ℤ) by norm_num, T_zpow_le_iff]; omega
    rw [hT] at hc
    have hlim : |roundHalfAway ρ q| < limit := by
      have h1 := abs_le.1 hc
      have h2 : ρ - 1 ≤ value u / ρ := by linarith [h1.2]
      rw [le_div_iff₀ hρ] at h2
      have h3 : value u < limit := lt_of_le_of_lt (le_abs_self _) hlimx
      have h4 := abs_le.1 (roundHalfAway_err ρ q)
      have h5 : (100:ℚ) < limit := by
        have := lt_limit (x := 100) (by norm_num)
        exact lt_of_le_of_lt (le_abs_self _) this
      rw [abs_lt]
      by_contra hcon
      rw [not_and_or] at hcon
      rcases hcon with hcon | hcon
      · push Not at hcon; linarith
      · push Not at hcon
        have : limit - 1 ≤ ρ := by linarith
        nlinarith
    obtain ⟨r, er, hr⟩ := Num.finishNoOverflow_spec wd wn ws wv hq0 (by omega) (roundHalfAway_hasScale _ _) hlim
      (round_stripM ew0 ⟨by have := ok0.small.lo; omega, by have := ok0.small.hi; omega⟩ (by have := ok0.small.len; omega))
    refine ⟨r, _, by rw [ew]; exact er, hr, ?_⟩
    have hxR : (0:ℝ) < (value u : ℝ) := by exact_mod_cast hx
    have hρR : (0:ℝ) < (ρ:ℝ) := by exact_mod_cast hρ
    have h1 : |(roundHalfAway ρ q : ℝ) - ρ| ≤ (10:ℝ) ^ (-q) / 2 := by
      have := roundHalfAway_err ρ q
      have : ((|roundHalfAway ρ q - ρ| : ℚ) : ℝ) ≤ (((10:ℚ) ^ (-q) / 2 : ℚ) : ℝ) := by exact_mod_cast this
      push_cast at this
      exact this
    have h2 : |(ρ:ℝ) - (value u : ℝ) / ρ| ≤ 16 / 10 * ((10:ℝ) ^ (-q) / 10 ^ 8) := by
      have : ((|ρ - value u / ρ| : ℚ) : ℝ) ≤ ((16 / 10 * ((10:ℚ) ^ (-q) / 10 ^ 8) : ℚ) : ℝ) := by exact_mod_cast hc
      push_cast at this
      exact this
    have hsp := Real.sqrt_pos.2 hxR
    have hss := Real.mul_self_sqrt hxR.le
    have h3 : |(ρ:ℝ) - √(value u : ℝ)| ≤ |(ρ:ℝ) - (value u : ℝ) / ρ| := by
      have e1 : (ρ:ℝ) - (value u : ℝ) / ρ = (ρ - √(value u : ℝ)) * ((ρ + √(value u : ℝ)) / ρ) := by
        field_simp
        nlinarith
      rw [e1, abs_mul]
      have : 1 ≤ |((ρ:ℝ) + √(value u : ℝ)) / ρ| := by
        rw [abs_of_pos (by positivity), le_div_iff₀ hρR]; linarith
      exact le_mul_of_one_le_right (abs_nonneg _) this
    have h4 := abs_sub_le (roundHalfAway ρ q : ℝ) ρ (√(value u : ℝ))
    generalize (10:ℝ) ^ (-q) = T at *
    linarith
  · right; left; rw [e]; rfl
  · right; right; left
    refine ⟨?_, by rw [e]; rfl⟩
    have hge : (10000:ℚ) ^ u.weight ≤ value u := by
      obtain ⟨d, ds, ed⟩ := List.exists_cons_of_ne_nil hpv.ne
      have hd0 : d ≠ 0 := by have := hpv.head; rw [ed] at this; simpa using this
      have hD := hpv.digits
      have hv := abs_value u hD
      rw [abs_of_pos hx] at hv
      rw [hv]
      rw [ed] at hD ⊢
      have hdr := hD d (by simp)
      have hm := (mag_head_bounds hD u.weight).1
      have h1 : (1 : ℚ) ≤ d := by exact_mod_cast (by omega : (1 : ℤ) ≤ d)
      have hp := B_zpow_pos u.weight
      nlinarith
    by_cases hq : q = 1000
    · rw [hq] at hs; exact hs
    · exfalso
      have := lt_of_le_of_lt hge hs
      rw [B_eq_T, T_zpow_lt_iff] at this
      omega
  · right; right; right; exact ⟨hd, by rw [e]; rfl⟩

/-- C88: a number with the minus sign has no root, even if its amount is zero, whatever its digits are. -/
theorem C88_sqrt_negative [Build] {bs : List (BitVec 8)} {a : Bin} (hl : bs.length ≤ 100000000) (h : Untrusted.deserialize bs = .ok a) (h3 : kindAt bs ≠ 3)
    (hg : negAt bs) (fuel : Nat) : Num.sqrt fuel a = .error (.panic "cannot take square root of a negative number") := by
  obtain ⟨p1, p2, p3, p4, p5⟩ := untrusted_operand hl h h3
  unfold Num.sqrt
  simp only [p1, bind_ok, p2, Bool.false_eq_true, if_false, p4]
  rw [if_pos (by simp [varAt, hg])]
  rfl

/-- C88: the root of NaN is NaN. -/
theorem C88_sqrt_nan [Build] {bs : List (BitVec 8)} {a : Bin} (hl : bs.length < 4294967288) (h : Untrusted.deserialize bs = .ok a) (h3 : kindAt bs = 3) (fuel : Nat) :
    Num.sqrt fuel a = .ok Bin.nan := by
  obtain ⟨p1, p2⟩ := untrusted_facts hl h
  have hn : a.isNan = true := by
    rcases p2 with p | p
    · exact p.2
    · exact absurd h3 p.1
  unfold Num.sqrt
  simp only [p1, bind_ok, hn, if_true, Num.nan_ok]

/-- C88: the root of a number without digits is zero, at the scale that its weight gives. -/
theorem C88_sqrt_no_digits [Build] {bs : List (BitVec 8)} {a : Bin} (hl : bs.length ≤ 100000000) (h : Untrusted.deserialize bs = .ok a) (h3 : kindAt bs ≠ 3)
    (hd : digitsAt bs = []) (hg : ¬ negAt bs) (fuel : Nat) :
    ∃ r, Num.sqrt fuel a = .ok r ∧ Holds r 0 (min 1000 (max (15 - 2 * weightAt bs) (scaleAt bs))) := by
  obtain ⟨p1, p2, p3, p4, p5⟩ := untrusted_operand hl h h3
  have hsg : (varAt bs).sign = .pos := by simp [varAt, hg]
  have hw1 := p5.lo
  have hw2 := p5.hi
  have hds := p3.dscale_nonneg
  have ew : (varAt bs).weight = weightAt bs := rfl
  have es : (varAt bs).dscale = (scaleAt bs : ℤ) := rfl
  set q := min 1000 (max (15 - 2 * weightAt bs) (scaleAt bs : ℤ)) with hq
  have hsq : Var.sqrt fuel (varAt bs) = .ok ⟨0, q, .pos, []⟩ := by
    unfold Var.sqrt
    rw [dassert_ok (by rw [hsg]; simp), dassert_ok (by rw [hsg]; simp)]
    simp only [bind_ok]
    have h3 : (((varAt bs).weight + 1) * 4).tdiv 2 = 2 * ((varAt bs).weight + 1) := by
      rw [show ((varAt bs).weight + 1) * 4 = (2 * ((varAt bs).weight + 1)) * 2 by ring]
      exact Int.mul_tdiv_cancel _ (by norm_num)
    rw [fits_ok (by simp only [DEC_DIGITS]; rw [h3]; fits_tac), bind_ok]
    simp only [DEC_DIGITS, NUMERIC_MIN_SIG_DIGITS, NUMERIC_MIN_DISPLAY_SCALE, NUMERIC_MAX_DISPLAY_SCALE]
    rw [h3]
    have e : min (max (max (16 - (2 * ((varAt bs).weight + 1) - 1)) (varAt bs).dscale) 0) 1000 = q := by
      rw [hq, ew, es]; omega
    rw [e]
    unfold sqrtCommon
    rw [dassert_ok hsg, bind_ok, fits_ok (by fits_tac), bind_ok, show (varAt bs).digits = [] from hd]
    exact zeroScaled_ok (by omega) (by omega)
  obtain ⟨r, er, hr⟩ := Num.finishNoOverflow_spec (u := ⟨0, q, .pos, []⟩) (s := q) (x := 0) Digits.nil (by simp)
    rfl (by simp [value]) (by omega) (by omega) ⟨0, by simp⟩ (by rw [_root_.abs_zero, limit_eq]; exact B_zpow_pos _)
    (Small.stripM ⟨by simp, by simp, by simp⟩)
  refine ⟨r, ?_, hr⟩
  unfold Num.sqrt
  simp only [p1, bind_ok, p2, Bool.false_eq_true, if_false, p4]
  rw [if_neg (by rw [hsg]; simp), hsq]
  exact er

/-- The scale of the root of a number read from bytes. -/
def rootScale (d : Bool) (bs : List (BitVec 8)) : Option ℕ :=
  match @Untrusted.deserialize ⟨d, false⟩ bs with
  | .ok a => match @Num.sqrt ⟨d, false⟩ 100 a with
    | .ok r => some (scaleAt r.asBytes)
    | .error _ => none
  | .error _ => none

theorem rootScale_some {d : Bool} {bs : List (BitVec 8)} {n : ℕ} (h : rootScale d bs = some n) :
    ∃ a r, @Untrusted.deserialize ⟨d, false⟩ bs = .ok a ∧ @Num.sqrt ⟨d, false⟩ 100 a = .ok r ∧ scaleAt r.asBytes = n := by
  unfold rootScale at h
  split at h
  · rename_i a ha
    split at h
    · rename_i r hr
      exact ⟨a, r, ha, hr, by simpa using h⟩
    · simp at h
  · simp at h

/-- C88 (a defect): the scale comes from the stored weight, so that a zero in front costs digits: the root of 5 has 15 places, that of the equal number stored as 0, 5 has 13,
less than the 16 significant digits promised. -/
theorem C88_leading_zero (d : Bool) : ∃ a b r t, @Untrusted.deserialize ⟨d, false⟩ (digitBytes1 5#8 0#8) = .ok a ∧
    @Untrusted.deserialize ⟨d, false⟩ [40#8, 0#8, 0#8, 0#8, 0x01#8, 0x80#8, 0#8, 0#8, 5#8, 0#8] = .ok b ∧ @Untrusted.cmp ⟨d, false⟩ a b = .ok .eq ∧
    @Num.sqrt ⟨d, false⟩ 100 a = .ok r ∧ scaleAt r.asBytes = 15 ∧ @Num.sqrt ⟨d, false⟩ 100 b = .ok t ∧ scaleAt t.asBytes = 13 := by
  have h1 : rootScale d (digitBytes1 5#8 0#8) = some 15 := by cases d <;> decide +kernel
  have h2 : rootScale d [40#8, 0#8, 0#8, 0#8, 0x01#8, 0x80#8, 0#8, 0#8, 5#8, 0#8] = some 13 := by cases d <;> decide +kernel
  obtain ⟨a, r, e1, e2, e3⟩ := rootScale_some h1
  obtain ⟨b, t, f1, f2, f3⟩ := rootScale_some h2
  have hc : ∃ a b, @Untrusted.deserialize ⟨d, false⟩ (digitBytes1 5#8 0#8) = .ok a ∧
      @Untrusted.deserialize ⟨d, false⟩ [40#8, 0#8, 0#8, 0#8, 0x01#8, 0x80#8, 0#8, 0#8, 5#8, 0#8] = .ok b ∧ @Untrusted.cmp ⟨d, false⟩ a b = .ok .eq := by
    cases d <;> exact ⟨_, _, rfl, rfl, rfl⟩
  obtain ⟨a', b', g1, g2, g3⟩ := hc
  rw [e1] at g1; rw [f1] at g2
  cases g1; cases g2
  exact ⟨a, b, r, t, e1, f1, g3, e2, e3, f2, f3⟩

/-- The hypotheses are met: 5, with a zero behind it that a valid number does not have. -/
example : ∃ a, @Untrusted.deserialize (dbg false) (digitBytes2 5#8 0#8 0#8 0#8) = .ok a ∧ kindAt (digitBytes2 5#8 0#8 0#8 0#8) ≠ 3 ∧
    @digitsAt (dbg false) (digitBytes2 5#8 0#8 0#8 0#8) = [5, 0] ∧ ¬ negAt (digitBytes2 5#8 0#8 0#8 0#8) ∧
    ∃ n : ℤ, @amountAt (dbg false) (digitBytes2 5#8 0#8 0#8 0#8) = n / 10 ^ scaleAt (digitBytes2 5#8 0#8 0#8 0#8) := by
  have hg : ¬ negAt (digitBytes2 5#8 0#8 0#8 0#8) := by unfold negAt; decide
  refine ⟨_, rfl, by decide, rfl, hg, 5, ?_⟩
  unfold amountAt
  rw [if_neg hg, show @digitsAt (dbg false) (digitBytes2 5#8 0#8 0#8 0#8) = [5, 0] from rfl, show weightAt (digitBytes2 5#8 0#8 0#8 0#8) = 0 from rfl,
    show scaleAt (digitBytes2 5#8 0#8 0#8 0#8) = 0 from rfl]
  simp [mag]

/-- A minus sign on a zero: the root panics. -/
example : ∃ a, @Untrusted.deserialize (dbg false) [24#8, 0#8, 0#8, 0#8, 0x00#8, 0xa0#8] = .ok a ∧ kindAt [24#8, 0#8, 0#8, 0#8, 0x00#8, 0xa0#8] ≠ 3 ∧
    negAt [24#8, 0#8, 0#8, 0#8, 0x00#8, 0xa0#8] ∧ @digitsAt (dbg false) [24#8, 0#8, 0#8, 0#8, 0x00#8, 0xa0#8] = [] :=
  ⟨_, rfl, by decide, by unfold negAt; decide, rfl⟩

end PgNumeric.Props
