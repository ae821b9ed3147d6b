import Verif.Props.Ln
import Verif.Props.NoPanic
import Verif.Props.UntrustedSqrt
/-!
# C90: natural logarithms of numbers from arbitrary bytes
-/
namespace PgNumeric.Props
open PgNumeric Spec Untrusted Var

theorem ln_checks_pos [Build] (lm : Libm) (fuel : Nat) {u : Var} (hu : PosVar u) : Var.ln lm fuel u = (do
      let w ← estimateLnDweight lm u
      fits [NUMERIC_MIN_SIG_DIGITS - w]
      lnCommon fuel u (min (max (max (NUMERIC_MIN_SIG_DIGITS - w) u.dscale) NUMERIC_MIN_DISPLAY_SCALE) NUMERIC_MAX_DISPLAY_SCALE)) := by
  unfold Var.ln
  have := hu.cmp_zero_pos
  rw [dassert_ok hu.not_nan]
  simp only [bind_ok]
  rw [if_neg (by omega), if_neg (by omega)]

theorem ln_sig {u v : Var} (hp : PosVar u) {w t : ℤ} (ht : t = min (max (max (16 - w) u.dscale) 0) 1000) (h1000 : t ≠ 1000)
    (g1 : (10:ℝ) ^ w ≤ 1025 / 100 * |Real.log (value u)|)
    (hacc : |(value v : ℝ) - Real.log (value u)| ≤ (1 / 2 + (t + 10) * lnFactor (value u) / 10 ^ 8) * 10 ^ (-t)) :
    |(value v : ℝ) - Real.log (value u)| ≤ |Real.log (value u)| / 10 ^ 15 := by
  have hbig := log_canon_le hp
  have hw6 : w ≤ 6 := by
    by_contra hcon
    push Not at hcon
    have : (10:ℝ) ^ (7:ℤ) ≤ 10 ^ w := zpow_le_zpow_right₀ (by norm_num) (by omega)
    norm_num at this
    linarith
  have ht16 : 16 - w ≤ t := by omega
  have hu1 := scale_weight ht16
  have hU : (0:ℝ) < 10 ^ (-t) := by positivity
  have h10 : (10:ℤ) ≤ t := by omega
  have ht' : (t:ℝ) ≤ 1000 := by have : t ≤ 1000 := by omega
                                exact_mod_cast this
  have ht0 : (0:ℝ) ≤ t := by have : 0 ≤ t := by omega
                             exact_mod_cast this
  refine hacc.trans ?_
  unfold lnFactor
  have hL := abs_nonneg (Real.log (value u : ℝ))
  have hu2 := unit_decay h10
  generalize (10:ℝ) ^ (-t) = U at *
  generalize |Real.log (value u : ℝ)| = L at *
  have hU1 : U ≤ 1025 / 10 ^ 18 * L := by
    refine hu1.trans ?_
    norm_num
    linarith
  rcases le_total 1 (22 * L) with h22 | h22
  · rw [max_eq_right h22]
    have := mul_le_mul_of_nonneg_right hu2 hL
    norm_num at this hU1 ⊢
    linarith
  · rw [max_eq_left h22]
    have := mul_le_mul_of_nonneg_right (by linarith : (t:ℝ) + 10 ≤ 1010) hU.le
    norm_num at this hU1 ⊢
    linarith

/-- C90: the natural logarithm of a number read from any bytes with proper digits (0..9999), the first of which is not zero, with no decimal places behind its scale and without a
minus sign: whenever it returns, it is a valid number, the scale `t` of which is at most 1000 and at least that of the operand (up to the cap), within half a unit, plus a working
error of `(t + 10) * max(1, 22 |ln x|) * 10^-8` units, of the logarithm of the amount, and has 15 correct significant digits unless `t` is 1000 or the amount is 1; it never panics. -/
theorem C90_ln [Build] {lm : Libm} (hlm : LibmOK lm) {bs : List (BitVec 8)} {a : Bin} (hl : bs.length ≤ 380000) (h : Untrusted.deserialize bs = .ok a) (h3 : kindAt bs ≠ 3)
    (dx : ∀ d ∈ digitsAt bs, 0 ≤ d ∧ d < 10000) (hne : digitsAt bs ≠ []) (hh : (digitsAt bs).head? ≠ some 0) (hg : ¬ negAt bs)
    (hs : ∃ n : ℤ, amountAt bs = n / 10 ^ scaleAt bs) (fuel : Nat) :
    (∃ (r : Bin) (y : ℚ) (t : ℤ), Num.ln lm fuel a = .ok r ∧ Holds r y t ∧ min (scaleAt bs : ℤ) 1000 ≤ t ∧ t ≤ 1000 ∧
      |(y:ℝ) - Real.log (amountAt bs)| ≤ (1 / 2 + (t + 10) * max 1 (22 * |Real.log (amountAt bs)|) / 10 ^ 8) * 10 ^ (-t) ∧
      (t = 1000 ∨ amountAt bs = 1 ∨ |(y:ℝ) - Real.log (amountAt bs)| ≤ |Real.log (amountAt bs)| / 10 ^ 15)) ∨
    Num.ln lm fuel a = .error .diverge ∨ (Build.debug = true ∧ Num.ln lm fuel a = .error .overflow) := by
  obtain ⟨p1, p2, p3, p4, p5⟩ := untrusted_operand (by omega) h h3
  have hp := posVar_at hl (untrusted_source (by omega) h).1 h3 p3 dx hne hh hg hs
  have hx : 0 < value (varAt bs) := hp.pos
  have hd0 := hp.dscale_nonneg
  rw [ln_unfold lm fuel p1 p2 p4, ln_checks_pos lm fuel hp, ← amount_var, show ((scaleAt bs : ℕ) : ℤ) = (varAt bs).dscale from rfl]
  generalize varAt bs = u at *
  obtain ⟨w, ew, hw1, hw2⟩ := estimate_pos hlm hp
  obtain ⟨hb1, hb2⟩ := estimate_bounds_pos hlm hp ew
  simp only [ew, bind_ok, NUMERIC_MIN_SIG_DIGITS, NUMERIC_MIN_DISPLAY_SCALE, NUMERIC_MAX_DISPLAY_SCALE]
  obtain ⟨t, ht⟩ : ∃ t, t = min (max (max (16 - w) u.dscale) 0) 1000 := ⟨_, rfl⟩
  rw [← ht, fits_ok (by fits_tac), bind_ok]
  rcases lnCommon_cases hp (R := t) (by omega) (by omega) fuel with ⟨y, ey⟩ | ey | ⟨hd, ey⟩
  · left
    obtain ⟨hw, hacc⟩ := lnCommon_spec hp (by omega) (by omega) ey
    obtain ⟨r, er, hr⟩ := Num.finishNoOverflow_spec hw.digits hw.not_nan hw.dscale rfl hw.l_nonneg hw.l_le' hw.scale
      (ln_lim hp (by omega) (by omega) hacc) (hw.sm_limit (ln_lim hp (by omega) (by omega) hacc)).stripM
    refine ⟨r, value y, t, by rw [ey]; exact er, hr, by omega, by omega, hacc, ?_⟩
    by_cases h1000 : t = 1000
    · exact .inl h1000
    by_cases h1 : value u = 1
    · exact .inr (.inl h1)
    exact .inr (.inr (ln_sig hp ht h1000 (hw2 h1).1 hacc))
  · exact .inr (.inl (by rw [ey]; rfl))
  · exact .inr (.inr ⟨hd, by rw [ey]; rfl⟩)

/-- C90: a number with digits and a minus sign panics, even when the digits are zeros. -/
theorem C90_ln_negative [Build] (lm : Libm) {bs : List (BitVec 8)} {a : Bin} (hl : bs.length ≤ 100000000) (h : Untrusted.deserialize bs = .ok a) (h3 : kindAt bs ≠ 3)
    (hne : digitsAt bs ≠ []) (hg : negAt bs) (fuel : Nat) : Num.ln lm fuel a = .error (.panic "cannot take logarithm of a negative number") := by
  obtain ⟨p1, p2, p3, p4, p5⟩ := untrusted_operand hl h h3
  rw [ln_unfold lm fuel p1 p2 p4]
  have hsg : (varAt bs).sign = .neg := by simp [varAt, hg]
  have hc : Var.cmpCommon (varAt bs) zero = -1 := by
    unfold Var.cmpCommon
    have : (varAt bs).ndigits ≠ 0 := by simpa [Var.ndigits, varAt] using hne
    rw [if_neg this, if_pos (by decide), hsg]; rfl
  unfold Var.ln
  rw [dassert_ok (by rw [hsg]; decide), hc]
  rfl

/-- C90: a number without digits panics as zero, whatever its sign. -/
theorem C90_ln_no_digits [Build] (lm : Libm) {bs : List (BitVec 8)} {a : Bin} (hl : bs.length ≤ 100000000) (h : Untrusted.deserialize bs = .ok a) (h3 : kindAt bs ≠ 3)
    (hne : digitsAt bs = []) (fuel : Nat) : Num.ln lm fuel a = .error (.panic "cannot take logarithm of zero") := by
  obtain ⟨p1, p2, p3, p4, p5⟩ := untrusted_operand hl h h3
  rw [ln_unfold lm fuel p1 p2 p4]
  have hc : Var.cmpCommon (varAt bs) zero = 0 := by
    unfold Var.cmpCommon
    have : (varAt bs).ndigits = 0 := by simp [Var.ndigits, varAt, hne]
    rw [if_pos this, if_pos (by decide)]
  unfold Var.ln
  rw [dassert_ok p3.not_nan, hc]
  rfl

/-- C90: NaN gives NaN. -/
theorem C90_ln_nan [Build] (lm : Libm) {bs : List (BitVec 8)} {a : Bin} (hl : bs.length < 4294967288) (h : Untrusted.deserialize bs = .ok a) (h3 : kindAt bs = 3) (fuel : Nat) :
    Num.ln lm fuel a = .ok Bin.nan := by
  obtain ⟨p1, p2⟩ := untrusted_facts hl h
  have hn : a.isNan = true := by
    rcases p2 with p | p
    · exact p.2
    · exact absurd h3 p.1
  unfold Num.ln
  simp only [p1, bind_ok, hn, if_true, Num.nan_ok]

/-- The hypotheses are met: 5, with a zero behind it that a valid number does not have. -/
example : ∃ a, @Untrusted.deserialize (dbg false) (digitBytes2 5#8 0#8 0#8 0#8) = .ok a ∧ kindAt (digitBytes2 5#8 0#8 0#8 0#8) ≠ 3 ∧
    @digitsAt (dbg false) (digitBytes2 5#8 0#8 0#8 0#8) = [5, 0] ∧ ¬ negAt (digitBytes2 5#8 0#8 0#8 0#8) ∧
    ∃ n : ℤ, @amountAt (dbg false) (digitBytes2 5#8 0#8 0#8 0#8) = n / 10 ^ scaleAt (digitBytes2 5#8 0#8 0#8 0#8) := by
  have hg : ¬ negAt (digitBytes2 5#8 0#8 0#8 0#8) := by unfold negAt; decide
  refine ⟨_, rfl, by decide, rfl, hg, 5, ?_⟩
  unfold amountAt
  rw [if_neg hg, show @digitsAt (dbg false) (digitBytes2 5#8 0#8 0#8 0#8) = [5, 0] from rfl, show weightAt (digitBytes2 5#8 0#8 0#8 0#8) = 0 from rfl,
    show scaleAt (digitBytes2 5#8 0#8 0#8 0#8) = 0 from rfl]
  simp [mag]

/-- A minus sign on a zero digit: the logarithm panics as that of a negative number; without digits as that of zero. -/
example : (∃ a, @Untrusted.deserialize (dbg false) [32#8, 0#8, 0#8, 0#8, 0x00#8, 0xa0#8, 0#8, 0#8] = .ok a ∧ kindAt [32#8, 0#8, 0#8, 0#8, 0x00#8, 0xa0#8, 0#8, 0#8] ≠ 3 ∧
      negAt [32#8, 0#8, 0#8, 0#8, 0x00#8, 0xa0#8, 0#8, 0#8] ∧ @digitsAt (dbg false) [32#8, 0#8, 0#8, 0#8, 0x00#8, 0xa0#8, 0#8, 0#8] = [0]) ∧
    (∃ a, @Untrusted.deserialize (dbg false) [24#8, 0#8, 0#8, 0#8, 0x00#8, 0xa0#8] = .ok a ∧ kindAt [24#8, 0#8, 0#8, 0#8, 0x00#8, 0xa0#8] ≠ 3 ∧
      @digitsAt (dbg false) [24#8, 0#8, 0#8, 0#8, 0x00#8, 0xa0#8] = []) :=
  ⟨⟨_, rfl, by decide, by unfold negAt; decide, rfl⟩, ⟨_, rfl, by decide, rfl⟩⟩

end PgNumeric.Props
