import Verif.Proofs.SqrtShort
import Verif.Props.Sqrt
import Verif.Props.SqrtTotal
import Verif.Proofs.LnShort
import Verif.Props.Ln
import Verif.Props.Log
/-!
# Numbers for which debug builds do not overflow (C34, C49, C53)
-/
namespace PgNumeric.Props
open PgNumeric Spec Var

theorem weight_of_lt {u : Var} (hu : Canonical u) (h0 : 0 < value u) {k : ℤ} (hk : value u < 10 ^ k) : 4 * u.weight < k := by
  have hp := PosVar.of_canonical hu h0
  have h1 : (10000:ℚ) ^ u.weight ≤ value u := hp.ge
  rw [B_eq_T] at h1
  exact T_zpow_lt_iff.1 (lt_of_le_of_lt h1 hk)

/-- C34: the square root of a positive number `x < 10^k` with `s` decimals, `2s + k ≤ 128`, never panics and never overflows, in debug builds as
well: it returns a result as accurate as promised, or runs for ever. -/
theorem C34_sqrt_debug_safe [Build] {b : Bin} {x : ℚ} {s k : ℤ} (hb : Holds b x s) (hx : 0 < x) (hk : x < 10 ^ k) (hsk : 2 * s + k ≤ 128) (fuel : Nat) :
    (∃ r y, Num.sqrt fuel b = .ok r ∧ Holds r y (sqrtScale x s) ∧ |(y:ℝ) - √(x:ℝ)| ≤ (1 / 2 + 16 / 10 ^ 9) * 10 ^ (-sqrtScale x s)) ∨
    Num.sqrt fuel b = .error .diverge := by
  have hs0 := hb.bounds.2.1
  have hxs : (10:ℚ) ^ (-s) ≤ x := by
    have := hb.bounds.1.abs_ge hx.ne'
    rwa [abs_of_pos hx] at this
  have hks : -s < k := T_zpow_lt_iff.1 (lt_of_le_of_lt hxs hk)
  rcases sqrt_outcomes_full hb hx fuel with h | ⟨h, -⟩ | ⟨h, -⟩ | ⟨-, -, u, hu, rfl, rfl, e⟩
  · exact .inl h
  · exact .inr h
  · have := T_zpow_lt_iff.1 (lt_of_le_of_lt hxs h)
    omega
  · exfalso
    have hp := PosVar.of_canonical hu hx
    have hw := weight_of_lt hu hx hk
    have hge : (10000:ℚ) ^ u.weight ≤ value u := hp.ge
    have hlt : value u < 10000 ^ (u.weight + 1) := hp.lt
    rw [B_eq_T] at hge hlt
    have hw2 := T_zpow_lt_iff.1 (lt_of_le_of_lt hxs hlt)
    have hq : sqrtScale (value u) u.dscale = max (15 - 2 * u.weight) u.dscale := by
      unfold sqrtScale; rw [canonical_weight hu] at *; omega
    rw [hq] at e
    have ht := tdiv2_bounds u.weight
    refine sqrtCommon_short hp (by omega) (by omega) fuel ?_ ?_ e
    · refine le_trans ?_ hge
      calc 4 * ((10:ℚ) ^ (-(max (15 - 2 * u.weight) u.dscale + 8))) ^ 2
          ≤ 10 ^ (1:ℤ) * ((10:ℚ) ^ (-(max (15 - 2 * u.weight) u.dscale + 8))) ^ 2 := by gcongr; norm_num
        _ = 10 ^ (1 + -(max (15 - 2 * u.weight) u.dscale + 8) * 2) := by
            rw [zpow_add₀ (by norm_num), zpow_mul]; norm_cast
        _ ≤ 10 ^ (4 * u.weight) := T_zpow_le_iff.2 (by omega)
    · generalize u.weight.tdiv 2 = t at ht ⊢
      omega

/-- C53: in every build, debug builds included, the square root of a positive number `x < 10^k` with `s` decimals, `2s + k ≤ 128`, terminates within
60 rounds and is accurate, unless the exact root, measured in units of the working precision, has a fractional part within `10^-8` of 1/4. -/
theorem C53_sqrt_every_build [Build] {b : Bin} {x : ℚ} {s k : ℤ} (hb : Holds b x s) (hx : 0 < x) (hk : x < 10 ^ k) (hsk : 2 * s + k ≤ 128)
    (hq : 1 / 10 ^ 8 < |Int.fract (√(x:ℝ) * 10 ^ (sqrtScale x s + 8)) - 1 / 4|) {fuel : Nat} (hf : 60 ≤ fuel) :
    ∃ r y, Num.sqrt fuel b = .ok r ∧ Holds r y (sqrtScale x s) ∧ |(y:ℝ) - √(x:ℝ)| ≤ (1 / 2 + 16 / 10 ^ 9) * 10 ^ (-sqrtScale x s) := by
  have hxs : (10:ℚ) ^ (-s) ≤ x := by
    have := hb.bounds.1.abs_ge hx.ne'
    rwa [abs_of_pos hx] at this
  have hks : -s < k := T_zpow_lt_iff.1 (lt_of_le_of_lt hxs hk)
  rcases C53_sqrt_terminates hb (le_trans (T_zpow_le_iff.2 (by omega)) hxs) hq hf with h | ⟨-, h⟩
  · exact h
  · rcases C34_sqrt_debug_safe hb hx hk hsk fuel with h' | h'
    · exact h'
    · rw [h] at h'; cases h'

/-- C53: in every build, debug builds included, the square root of the square of a non-negative number `y` terminates and is exactly `y`, when the
square is below `10^k`, has `s` decimals and `2s + k ≤ 128`. -/
theorem C53_square_every_build [Build] {b : Bin} {x y : ℚ} {s k : ℤ} (hb : Holds b x s) (hy0 : 0 ≤ y) (hy : y * y = x) (hk : x < 10 ^ k)
    (hs : s ≤ 128) (hsk : 2 * s + k ≤ 128) {fuel : Nat} (hf : 60 ≤ fuel) :
    ∃ r, Num.sqrt fuel b = .ok r ∧ Holds r y (sqrtScale x s) := by
  rcases C53_perfect_square hb hy0 hy (by omega) hf with h | ⟨-, h⟩
  · exact h
  · rcases eq_or_lt_of_le hy0 with h0 | h0
    · subst h0
      have hx : x = 0 := by rw [← hy]; ring
      subst hx
      exact sqrt_zero_ok hb fuel
    · rcases C34_sqrt_debug_safe hb (by rw [← hy]; positivity) hk hsk fuel with ⟨r, z, h', -⟩ | h'
      all_goals rw [h] at h'; cases h'

/-- The hypotheses are met by `123456789.5^2`, in a debug build. -/
example (e : Bool) : ∃ b r, @Holds ⟨true, e⟩ b (123456789.5 ^ 2) 2 ∧ @Num.sqrt ⟨true, e⟩ 60 b = .ok r ∧
    @Holds ⟨true, e⟩ r 123456789.5 (sqrtScale (123456789.5 ^ 2) 2) := by
  let _ : Build := ⟨true, e⟩
  obtain ⟨b, hb⟩ := witness (x := 123456789.5 ^ 2) (s := 2) 1524157887364731025 (by norm_num) (by norm_num) (by norm_num) (by norm_num [abs_lt])
  obtain ⟨r, hr, hv⟩ := C53_square_every_build (y := 123456789.5) (k := 17) hb (by norm_num) (by norm_num) (by norm_num) (by norm_num) (by norm_num)
    (le_refl 60)
  exact ⟨b, r, hb, hr, hv⟩

/-- The estimate of the weight of a logarithm is at least that of the last decimal of the number, nearly. -/
theorem estimate_lower [Build] {lm : Libm} (hl : LibmOK lm) {u : Var} (hu : Canonical u) (hx : 0 < value u) {w : ℤ}
    (h : estimateLnDweight lm u = .ok w) : -(max u.dscale 2) - 1 ≤ w := by
  obtain ⟨w', e, h1, h2⟩ := estimate_spec hl hu hx
  rw [h] at e
  cases e
  by_cases h3 : value u = 1
  · rw [h1 h3]; omega
  obtain ⟨g1, g2⟩ := h2 h3
  have hux : (0:ℝ) < (value u : ℝ) := by exact_mod_cast hx
  have haway : (10:ℝ) ^ (-(max u.dscale 2)) ≤ |(value u : ℝ) - 1| := by
    have h1 : HasScale (value u - 1) (max u.dscale 2) := by
      have := (hu.scale.mono (le_max_left _ (2:ℤ))).sub (HasScale.int 1 (show (0:ℤ) ≤ max u.dscale 2 by omega))
      simpa using this
    have := castR (scale_lower h1 (sub_ne_zero.2 h3))
    push_cast at this; exact this
  exact weight_lower (log_away hux (by omega) haway) g2

/-- C49: the natural logarithm of a positive number below `10^136` with at most 38 decimals never panics and never overflows, in debug builds as
well: it returns a result as accurate as promised, or runs for ever. -/
theorem C49_ln_debug_safe [Build] {lm : Libm} (hl : LibmOK lm) (fuel : Nat) {a : Bin} {x : ℚ} {s : Int} (ha : Holds a x s) (hx : 0 < x)
    (hx2 : x < 10 ^ 136) (hs : s ≤ 38) :
    (∃ r y t, Num.ln lm fuel a = .ok r ∧ Holds r y t ∧ s ≤ t ∧ t ≤ 55 ∧
      |(y:ℝ) - Real.log x| ≤ (1 / 2 + (t + 10) * max 1 (22 * |Real.log x|) / 10 ^ 8) * 10 ^ (-t)) ∨
    Num.ln lm fuel a = .error .diverge := by
  obtain ⟨u, hu, rfl, rfl, ea, na, va⟩ := ha.exists_var
  have hp := PosVar.of_canonical hu hx
  obtain ⟨w, ew, -, -⟩ := estimate_spec hl hu hx
  obtain ⟨hw1, hw2⟩ := estimate_bounds hl hu hx ew
  have hw3 := estimate_lower hl hu hx ew
  have hd0 := hu.dscale_nonneg
  obtain ⟨t, ht⟩ : ∃ t, t = min (max (max (16 - w) u.dscale) 0) 1000 := ⟨_, rfl⟩
  have hun : Num.ln lm fuel a = (do let y ← lnCommon fuel u t; Num.finishNoOverflow y) := by
    rw [ln_unfold lm fuel ea na va, (ln_checks lm fuel hu).2.2 hx]
    simp only [ew, bind_ok, NUMERIC_MIN_SIG_DIGITS, NUMERIC_MIN_DISPLAY_SCALE, NUMERIC_MAX_DISPLAY_SCALE]
    rw [← ht, fits_ok (by fits_tac), bind_ok]
  rw [hun]
  rcases lnCommon_cases hp (R := t) (by omega) (by omega) fuel with ⟨y, ey⟩ | ey | ⟨-, ey⟩
  · left
    obtain ⟨hw, hacc⟩ := lnCommon_spec hp (by omega) (by omega) ey
    obtain ⟨r, er, hr⟩ := Num.finishNoOverflow_spec hw.digits hw.not_nan hw.dscale rfl hw.l_nonneg hw.l_le' hw.scale
      (ln_lim hp (by omega) (by omega) hacc) (hw.sm_limit (ln_lim hp (by omega) (by omega) hacc)).stripM
    exact ⟨r, value y, t, by rw [ey]; exact er, hr, by omega, by omega, hacc⟩
  · right
    rw [ey]; rfl
  · refine absurd ey (lnCommon_short hp (by omega) (by omega) fuel ?_ (by omega))
    refine hx2.trans_le (le_of_eq ?_)
    norm_num

/-- The hypotheses are met by `10^30 + 1/10^9`, in a debug build. -/
example (e : Bool) : ∃ a, @Holds ⟨true, e⟩ a (10 ^ 30 + 1 / 10 ^ 9) 9 ∧ (0:ℚ) < 10 ^ 30 + 1 / 10 ^ 9 ∧ (10:ℚ) ^ 30 + 1 / 10 ^ 9 < 10 ^ 136 := by
  let _ : Build := ⟨true, e⟩
  obtain ⟨a, ha⟩ := witness (x := 10 ^ 30 + 1 / 10 ^ 9) (s := 9) (10 ^ 39 + 1) (by norm_num) (by norm_num) (by norm_num) (by norm_num [abs_lt])
  exact ⟨a, ha, by norm_num, by norm_num⟩

end PgNumeric.Props
