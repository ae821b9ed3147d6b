import Verif.Proofs.Fast
import Verif.Proofs.RoundErr
import Verif.Props.Arith
/-!
# The floating-point assisted division (C47)

`divFastCommon a b s round` is the internal division used by `sqrt`, `ln`, `log`, `exp` and negative powers.
-/
namespace PgNumeric.Props
open PgNumeric Spec

/-- What the internal division is given: digits in range, no leading zero digit, sane weights and lengths (all
numerics and all intermediate results of the library satisfy the bounds; the largest weight is 32767). -/
structure FastInput (v : Var) : Prop where
  not_nan : v.sign ≠ .nan
  digits : Digits v.digits
  head : v.digits.head? ≠ some 0
  weight : |v.weight| ≤ 200000
  length : v.digits.length ≤ 200000

/-- C47: in a release build the fast division by a non-zero divisor always returns a result of the requested scale,
at most half a unit plus `10^-10` units of that scale away from the exact quotient. -/
theorem C47_release_accuracy (e : Bool) {a b : Var} (ha : FastInput a) (hb : FastInput b) (hb0 : b.digits ≠ [])
    {s : Int} (hs0 : 0 ≤ s) (hs1 : s ≤ 16383) :
    ∃ u, @Var.divFastCommon ⟨false, e⟩ a b s true = .ok (some u) ∧ u.dscale = s ∧ Stripped u ∧ Digits u.digits ∧
      u.sign ≠ .nan ∧ |value u - value a / value b| ≤ (1 / 2 + 1 / 10 ^ 10) * 10 ^ (-s) := by
  let _ : Build := ⟨false, e⟩
  rcases divFast_spec a b s true ha.digits hb.digits ha.not_nan hb.not_nan hb0 hb.head ha.head hs0 hs1 ha.weight
    hb.weight ha.length with ⟨u, x, eu, hx, ok⟩ | ⟨h, -⟩
  · refine ⟨u, eu, ok.dscale, ok.stripped, ok.digits, ok.not_nan, ?_⟩
    rw [ok.value, if_pos rfl]
    have h1 := roundHalfAway_err x s
    have h2 := abs_sub_le (roundHalfAway x s) x (value a / value b)
    have hT := T_zpow_pos (-s)
    generalize (10:ℚ) ^ (-s) = T at *
    linarith
  · cases h

/-- C47: the truncating variant, in a release build. -/
theorem C47_release_trunc (e : Bool) {a b : Var} (ha : FastInput a) (hb : FastInput b) (hb0 : b.digits ≠ [])
    {s : Int} (hs0 : 0 ≤ s) (hs1 : s ≤ 16383) :
    ∃ u, @Var.divFastCommon ⟨false, e⟩ a b s false = .ok (some u) ∧ u.dscale = s ∧ Stripped u ∧
      HasScale (value u) s ∧ |value u - value a / value b| < (1 + 1 / 10 ^ 10) * 10 ^ (-s) := by
  let _ : Build := ⟨false, e⟩
  rcases divFast_spec a b s false ha.digits hb.digits ha.not_nan hb.not_nan hb0 hb.head ha.head hs0 hs1 ha.weight
    hb.weight ha.length with ⟨u, x, eu, hx, ok⟩ | ⟨h, -⟩
  · refine ⟨u, eu, ok.dscale, ok.stripped, ?_, ?_⟩
    · rw [ok.value, if_neg (by simp)]; exact truncTo_hasScale _ _
    rw [ok.value, if_neg (by simp)]
    have h1 := (truncTo_err x s).1
    have h2 := abs_sub_le (truncTo x s) x (value a / value b)
    have hT := T_zpow_pos (-s)
    generalize (10:ℚ) ^ (-s) = T at *
    linarith
  · cases h

/-- C47, in every build: when the fast division returns, the result is as accurate as above; and unless the exact
quotient lies within `10^-10` units of a rounding boundary, it is *the* correctly rounded quotient. The only other
outcome is an overflow panic in a debug build (`C47_debug_panic_occurs`). -/
theorem C47_correctly_rounded [Build] {a b : Var} (ha : FastInput a) (hb : FastInput b) (hb0 : b.digits ≠ [])
    {s : Int} (hs0 : 0 ≤ s) (hs1 : s ≤ 16383) :
    (∃ u, Var.divFastCommon a b s true = .ok (some u) ∧ u.dscale = s ∧ HasScale (value u) s ∧
      |value u - value a / value b| ≤ (1 / 2 + 1 / 10 ^ 10) * 10 ^ (-s) ∧
      ((∀ n : ℤ, 10 ^ (-s) / 10 ^ 10 < |value a / value b - (n + 1 / 2) * 10 ^ (-s)|) →
        value u = roundHalfAway (value a / value b) s)) ∨
    (Build.debug = true ∧ Var.divFastCommon a b s true = .error .overflow) := by
  rcases divFast_spec a b s true ha.digits hb.digits ha.not_nan hb.not_nan hb0 hb.head ha.head hs0 hs1 ha.weight
    hb.weight ha.length with ⟨u, x, eu, hx, ok⟩ | h
  · refine .inl ⟨u, eu, ok.dscale, ?_, ?_, fun hn => ?_⟩
    · rw [ok.value, if_pos rfl]; exact roundHalfAway_hasScale _ _
    · rw [ok.value, if_pos rfl]
      have h1 := roundHalfAway_err x s
      have h2 := abs_sub_le (roundHalfAway x s) x (value a / value b)
      have hT := T_zpow_pos (-s)
      generalize (10:ℚ) ^ (-s) = T at *
      linarith
    · rw [ok.value, if_pos rfl]
      exact roundHalfAway_stable hx hn
  · exact .inr h

/-- C47, in every build: a divisor of at most 21 groups of four digits, or a quotient of which at most 20 groups are computed, never overflows. -/
theorem C47_short_never_panics [Build] {a b : Var} (ha : FastInput a) (hb : FastInput b) (hb0 : b.digits ≠ [])
    {s : Int} (hs0 : 0 ≤ s) (hs1 : s ≤ 16383)
    (hn : b.digits.length ≤ 21 ∨ a.digits.length ≤ 20 ∧ 4 * (a.weight - b.weight) + s ≤ 56) :
    ∃ u, Var.divFastCommon a b s true = .ok (some u) ∧ u.dscale = s ∧
      |value u - value a / value b| ≤ (1 / 2 + 1 / 10 ^ 10) * 10 ^ (-s) := by
  rcases divFast_full a b s true ha.digits hb.digits ha.not_nan hb.not_nan hb0 hb.head ha.head hs0 (by omega) (.inr hs1) ha.weight
    hb.weight ha.length with ⟨u, x, eu, hx, ok⟩ | ⟨-, -, h1, h2⟩
  · refine ⟨u, eu, ok.dscale, ?_⟩
    rw [ok.value, if_pos rfl]
    have h1 := roundHalfAway_err x s
    have h2 := abs_sub_le (roundHalfAway x s) x (value a / value b)
    have hT := T_zpow_pos (-s)
    generalize (10:ℚ) ^ (-s) = T at *
    linarith
  · exfalso
    simp only [Var.fastDigits, Var.ndigits, DEC_DIGITS, DIV_GUARD_DIGITS] at h1 h2
    omega

/-- Both conditions are met by ordinary numbers: 2 / 3, in a debug build. -/
example : ∃ u, @Var.divFastCommon ⟨true, false⟩ ⟨0, 0, .pos, [2]⟩ ⟨0, 0, .pos, [3]⟩ 40 true = .ok (some u) := by
  have h : ∀ d : ℤ, 0 < d → d < 10 → FastInput ⟨0, 0, .pos, [d]⟩ := fun d h1 h2 =>
    ⟨by simp, by intro x hx; simp only [List.mem_singleton] at hx; omega, by simp; omega, by simp, by simp⟩
  obtain ⟨u, e, -⟩ := @C47_short_never_panics ⟨true, false⟩ _ _ (h 2 (by norm_num) (by norm_num)) (h 3 (by norm_num) (by norm_num)) (by simp)
    40 (by norm_num) (by norm_num) (.inl (by simp))
  exact ⟨u, e⟩

/-- C47: an exactly representable quotient is returned exactly. -/
theorem C47_exact_quotient [Build] {a b : Var} (ha : FastInput a) (hb : FastInput b) (hb0 : b.digits ≠ [])
    {s : Int} (hs0 : 0 ≤ s) (hs1 : s ≤ 16383) (hq : HasScale (value a / value b) s) {r : Option Var}
    (hr : Var.divFastCommon a b s true = .ok r) : ∃ u, r = some u ∧ value u = value a / value b := by
  rcases C47_correctly_rounded ha hb hb0 hs0 hs1 with ⟨u, eu, -, -, -, h⟩ | ⟨-, h⟩
  · rw [eu] at hr
    cases hr
    refine ⟨u, rfl, ?_⟩
    rw [h ?_, rmag_eq_self_iff hq]
    intro n
    obtain ⟨m, hm⟩ := hq
    have hT := T_zpow_pos (-s)
    have hTT : (10:ℚ) ^ s * 10 ^ (-s) = 1 := by rw [← zpow_add₀ (by norm_num)]; simp
    have e : value a / value b = m * 10 ^ (-s) := by rw [← hm, mul_assoc, hTT, mul_one]
    rw [e, ← sub_mul, abs_mul, abs_of_pos hT]
    have : (1:ℚ) / 2 ≤ |(m:ℚ) - (n + 1 / 2)| := by
      rcases le_or_gt m n with h | h
      · have : (m:ℚ) ≤ n := by exact_mod_cast h
        rw [abs_of_nonpos (by linarith)]; linarith
      · have : (n:ℚ) + 1 ≤ m := by exact_mod_cast h
        rw [abs_of_nonneg (by linarith)]; linarith
    generalize (10:ℚ) ^ (-s) = T at *
    nlinarith
  · rw [h] at hr; cases hr

/-- C47: a zero divisor, and only that, gives `None`. -/
theorem C47_zero_divisor [Build] {a b : Var} (ha : FastInput a) (hb : FastInput b) {s : Int} (hs0 : 0 ≤ s)
    (hs1 : s ≤ 16383) : Var.divFastCommon a b s true = .ok none ↔ value b = 0 := by
  constructor
  · intro h
    by_contra hv
    have hb0 : b.digits ≠ [] := fun h => hv (by unfold value; rw [h]; cases b.sign <;> simp)
    rcases C47_correctly_rounded ha hb hb0 hs0 hs1 with ⟨u, eu, -⟩ | ⟨-, e⟩
    · rw [eu] at h; cases h
    · rw [e] at h; cases h
  · intro h
    have hb0 : b.digits = [] := by
      by_contra hne
      obtain ⟨v0, vs, hd⟩ := List.exists_cons_of_ne_nil hne
      have h1 := hb.head
      have h2 := hb.digits
      rw [hd] at h1 h2
      have h3 := mag_ge_of_head h2 (by simpa using h1) b.weight
      have h4 := B_zpow_pos b.weight
      unfold value at h
      rw [hd] at h
      cases hs : b.sign <;> rw [hs] at h <;> simp only at h <;> linarith
    unfold Var.divFastCommon
    rw [dassert_ok ha.not_nan, dassert_ok hb.not_nan, hb0]
    rfl

/-- The operands of `C47_debug_panic_occurs`: 57 and 30 digits. -/
def panicDividend : Var := ⟨0, 0, .pos, [9970, 9978, 9985, 9989, 9990, 9973, 9985, 9970, 9985, 9976, 9984, 9973, 9988,
  9982, 9984, 9982, 9983, 9973, 9977, 9980, 5162, 9978, 9000, 9116, 1638, 3045, 4855, 9999, 9999, 9999, 29, 21, 14, 10,
  9, 26, 14, 29, 14, 23, 15, 26, 11, 17, 15, 17, 16, 26, 22, 19, 4837, 21, 999, 883, 8361, 6954, 5144]⟩
/-- See `panicDividend`. -/
def panicDivisor : Var := ⟨0, 0, .pos, List.replicate 30 9999⟩

/-- C47: the overflow panic of debug builds is real: `div_qi * NBASE` exceeds `i32` for these operands. -/
theorem C47_debug_panic_occurs :
    @Var.divFastCommon ⟨true, false⟩ panicDividend panicDivisor 20 true = .error .overflow := by
  decide +kernel

theorem panicDividend_ok : FastInput panicDividend :=
  ⟨by decide, by intro d hd; revert d; decide, by decide, by decide, by decide⟩
theorem panicDivisor_ok : FastInput panicDivisor :=
  ⟨by decide, by intro d hd; revert d; decide, by decide, by decide, by decide⟩

/-- In a release build the same division succeeds. -/
example : ∃ u, @Var.divFastCommon ⟨false, false⟩ panicDividend panicDivisor 20 true = .ok (some u) ∧
    |value u - value panicDividend / value panicDivisor| ≤ (1 / 2 + 1 / 10 ^ 10) * 10 ^ (-20:ℤ) := by
  obtain ⟨u, e, -, -, -, -, h⟩ := C47_release_accuracy false panicDividend_ok panicDivisor_ok (by decide)
    (s := 20) (by norm_num) (by norm_num)
  exact ⟨u, e, h⟩

end PgNumeric.Props
