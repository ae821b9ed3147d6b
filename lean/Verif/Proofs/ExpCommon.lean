import Verif.Proofs.ExpSquare
import Verif.SpecLibm
import Verif.Proofs.ToFloat
/-!
# The exponential: accuracy
-/
namespace PgNumeric
open Spec Var

/-- Truncation is within one of the number. -/
theorem toI32_near {x : ℚ} (h : |x| ≤ 10 ^ 6) : x - 1 < F64.toI32 x ∧ (F64.toI32 x : ℚ) < x + 1 ∧ |(F64.toI32 x : ℚ)| ≤ |x| := by
  rw [abs_le] at h
  rcases lt_or_ge x 0 with h0 | h0
  · rw [F64.toI32_neg h0 (by norm_num at h ⊢; linarith [h.1])]
    have h1 := Int.le_ceil x
    have h2 := Int.ceil_lt_add_one x
    have h3 : (⌈x⌉ : ℚ) ≤ 0 := by exact_mod_cast Int.ceil_le.2 (by exact_mod_cast h0.le)
    refine ⟨by linarith, h2, ?_⟩
    rw [abs_of_neg h0, abs_of_nonpos h3]; linarith
  · rw [F64.toI32_nonneg h0 (by norm_num at h ⊢; linarith [h.2])]
    have h1 := Int.floor_le x
    have h2 := Int.lt_floor_add_one x
    have h3 : (0:ℚ) ≤ ⌊x⌋ := by exact_mod_cast Int.floor_nonneg.2 h0
    refine ⟨by linarith, by linarith, ?_⟩
    rw [abs_of_nonneg h0, abs_of_nonneg h3]; linarith

/-- The product with `LOG10_E` is near the decimal logarithm. -/
theorem expLog_spec {val : ℚ} {x : ℝ} (hval : |val| ≤ 7000) (hv : |(val : ℝ) - x| ≤ 1 / 10 ^ 10) :
    |(F64.mul val F64.LOG10_E : ℝ) * Real.log 10 - x| ≤ 1 / 10 ^ 4 ∧ |F64.mul val F64.LOG10_E| ≤ 4344 / 10000 * |val| := by
  have hr := F64.rnd_err (val * F64.LOG10_E)
  change |F64.mul val F64.LOG10_E - _| ≤ _ at hr
  have hE : F64.LOG10_E ≤ 43430 / 100000 ∧ 0 < F64.LOG10_E := by unfold F64.LOG10_E; norm_num
  have hr' : |F64.mul val F64.LOG10_E - val * F64.LOG10_E| ≤ 12 / 10 ^ 17 * (|val| * (43430 / 100000)) := by
    refine hr.trans ?_
    rw [abs_mul, abs_of_pos hE.2]
    apply mul_le_mul F64.u_small _ (by have := abs_nonneg val; have := hE.2; positivity) (by norm_num)
    exact mul_le_mul_of_nonneg_left hE.1 (abs_nonneg _)
  constructor
  · have h1 : |(F64.mul val F64.LOG10_E : ℝ) - val * F64.LOG10_E| ≤ 1 / 10 ^ 9 := by
      have := castR hr'
      push_cast at this
      have h2 := castR hval
      push_cast at h2
      refine this.trans ?_
      norm_num at h2 ⊢
      linarith
    obtain ⟨l1, l2, -⟩ := log_ten_bounds
    have h3 := log_ten_fine
    have hvR := castR hval
    push_cast at hvR
    have e : (F64.mul val F64.LOG10_E : ℝ) * Real.log 10 - x = (F64.mul val F64.LOG10_E - val * F64.LOG10_E) * Real.log 10 +
      (val * ((F64.LOG10_E : ℝ) * Real.log 10 - 1) + (val - x)) := by ring
    rw [e]
    refine (abs_add_le _ _).trans ?_
    have h4 := abs_add_le ((val:ℝ) * ((F64.LOG10_E : ℝ) * Real.log 10 - 1)) (val - x)
    rw [abs_mul] at h4
    rw [abs_mul, abs_of_pos (by linarith : 0 < Real.log 10)]
    have h5 := mul_le_mul h1 l2 (by linarith) (by norm_num)
    have h6 := mul_le_mul hvR h3 (abs_nonneg _) (by norm_num)
    norm_num at h5 h6 hv ⊢
    linarith
  · have h2 := abs_sub_abs_le_abs_sub (F64.mul val F64.LOG10_E) (val * F64.LOG10_E)
    rw [abs_mul, abs_of_pos hE.2] at h2
    have h3 : |val| * F64.LOG10_E ≤ |val| * (43430 / 100000) := mul_le_mul_of_nonneg_left hE.1 (abs_nonneg _)
    have h0 := abs_nonneg val
    generalize |val| = V at *
    norm_num at hr' h3 ⊢
    linarith

/-- The digits lost to the squarings. -/
theorem expLoss_spec {n : ℕ} (h : n ≤ 20) : 0 ≤ F64.toI32 (F64.mul ((n : ℤ) : ℚ) F64.LOG10_2) ∧
    F64.toI32 (F64.mul ((n : ℤ) : ℚ) F64.LOG10_2) ≤ 6 ∧ (2:ℝ) ^ n ≤ 10 ^ (F64.toI32 (F64.mul ((n : ℤ) : ℚ) F64.LOG10_2) + 1) := by
  have key : ∀ n : ℕ, n ≤ 20 → 0 ≤ F64.toI32 (F64.mul ((n : ℤ) : ℚ) F64.LOG10_2) ∧ F64.toI32 (F64.mul ((n : ℤ) : ℚ) F64.LOG10_2) ≤ 6 ∧
      (2:ℕ) ^ n ≤ 10 ^ ((F64.toI32 (F64.mul ((n : ℤ) : ℚ) F64.LOG10_2)).toNat + 1) := by decide +kernel
  obtain ⟨h1, h2, h3⟩ := key n h
  refine ⟨h1, h2, ?_⟩
  generalize F64.toI32 (F64.mul ((n : ℤ) : ℚ) F64.LOG10_2) = t at *
  obtain ⟨k, rfl⟩ : ∃ k : ℕ, t = k := ⟨t.toNat, by omega⟩
  rw [Int.toNat_natCast] at h3
  have : ((2 ^ n : ℕ) : ℝ) ≤ ((10 ^ (k + 1) : ℕ) : ℝ) := by exact_mod_cast h3
  push_cast at this
  rw [show (k:ℤ) + 1 = ((k + 1 : ℕ) : ℤ) by push_cast; rfl, zpow_natCast]
  exact this

theorem decay8 {S : ℤ} (h : 8 ≤ S) : (103 / 10 * (S:ℝ) + 101 / 100) * 10 ^ (-S) ≤ 8341 / 10 ^ 10 := by
  obtain ⟨n, rfl⟩ : ∃ n : ℕ, S = 8 + n := ⟨(S - 8).toNat, by omega⟩
  clear h
  induction n with
  | zero => norm_num
  | succ n ih =>
    have e : (10:ℝ) ^ (-(8 + ((n + 1 : ℕ) : ℤ))) = 10 ^ (-(8 + (n : ℤ))) / 10 := by
      rw [show -(8 + ((n + 1 : ℕ) : ℤ)) = -(8 + (n : ℤ)) - 1 by push_cast; ring, zpow_sub₀ (by norm_num)]; norm_num
    rw [e]
    have hp : (0:ℝ) < 10 ^ (-(8 + (n : ℤ))) := by positivity
    push_cast at ih ⊢
    have hn : (0:ℝ) ≤ n := by positivity
    generalize (10:ℝ) ^ (-(8 + (n : ℤ))) = P at *
    nlinarith

theorem tiny300 : (1:ℚ) / 10 ^ 300 ≤ 1 / 10 ^ 20 :=
  one_div_le_one_div_of_le (by norm_num) (pow_le_pow_right₀ (by norm_num) (by norm_num))

/-- The error of the working result: series, then squarings. -/
theorem exp_final {x : ℝ} {R : ℝ} {S dw tr rs : ℤ} {n : ℕ} (hR : 0 < R) (hS8 : 8 ≤ S) (hS1 : S ≤ 3700)
    (hS : S = max (1 + dw + rs + tr) 0 + 8) (htr : (2:ℝ) ^ n ≤ 10 ^ (tr + 1)) (hn : n ≤ 20)
    (hx : Real.exp x ≤ 1001 / 1000 * 10 ^ (dw + 1))
    (hlog : |Real.log R - x| ≤ 2 ^ n * (103 / 10 * S * 10 ^ (-S) + 101 / 100 * 10 ^ (-S))) :
    |R - Real.exp x| ≤ 1 / 100 * 10 ^ (-rs) := by
  have hd := decay8 hS8
  have hSp : (0:ℝ) < 10 ^ (-S) := by positivity
  set c : ℝ := (103 / 10 * S + 101 / 100) * 10 ^ (-S) with hc
  have hlog' : |Real.log R - x| ≤ 2 ^ n * c := by
    refine hlog.trans (le_of_eq ?_)
    rw [hc]; ring
  have hS8' : (8:ℝ) ≤ S := by exact_mod_cast hS8
  have hc0 : 0 ≤ c := by rw [hc]; apply mul_nonneg _ hSp.le; linarith
  have hle1 : |Real.log R - x| ≤ 1 := by
    refine hlog'.trans ?_
    have h20 : (2:ℝ) ^ n ≤ 2 ^ 20 := pow_le_pow_right₀ (by norm_num) hn
    have := mul_le_mul h20 hd hc0 (by norm_num)
    norm_num at this ⊢
    linarith
  have h1 := Real.abs_exp_sub_one_le hle1
  have e : R - Real.exp x = Real.exp x * (Real.exp (Real.log R - x) - 1) := by
    rw [Real.exp_sub, Real.exp_log hR]
    have := (Real.exp_pos x).ne'
    field_simp
  rw [e, abs_mul, abs_of_pos (Real.exp_pos x)]
  have h2 : |Real.exp (Real.log R - x) - 1| ≤ 2 * (10 ^ (tr + 1) * c) :=
    h1.trans (mul_le_mul_of_nonneg_left (hlog'.trans (mul_le_mul_of_nonneg_right htr hc0)) (by norm_num))
  refine (mul_le_mul hx h2 (abs_nonneg _) (by positivity)).trans ?_
  have hS' : (S:ℝ) ≤ 3700 := by exact_mod_cast hS1
  have hexp : (10:ℝ) ^ (dw + 1) * 10 ^ (tr + 1) * 10 ^ (-S) ≤ 10 ^ (-rs) / 10 ^ 7 := by
    rw [le_div_iff₀ (by norm_num), ← zpow_add₀ (by norm_num), ← zpow_add₀ (by norm_num), ← zpow_natCast, ← zpow_add₀ (by norm_num)]
    apply zpow_le_zpow_right₀ (by norm_num)
    push_cast
    omega
  have e2 : 1001 / 1000 * (10:ℝ) ^ (dw + 1) * (2 * (10 ^ (tr + 1) * c)) =
    2 * (1001 / 1000) * (103 / 10 * S + 101 / 100) * (10 ^ (dw + 1) * 10 ^ (tr + 1) * 10 ^ (-S)) := by rw [hc]; ring
  rw [e2]
  have hrs : (0:ℝ) < 10 ^ (-rs) := by positivity
  refine (mul_le_mul_of_nonneg_left hexp (by positivity)).trans ?_
  generalize (10:ℝ) ^ (-rs) = U at *
  nlinarith

/-- The conversion to a double in `exp_common` and `power_common`. -/
theorem Spec.LibmOK.toF64_all [Build] {lm : Libm} (hl : LibmOK lm) {a : Var} {s : Int} (ha : Work a s) (hsm : Small a) :
    ∃ val, lm.toF64 a = .ok val ∧ (|value a| ≤ 10 ^ 250 → |val - value a| ≤ |value a| / 10 ^ 15 + 1 / 10 ^ 300) ∧
      (20000 ≤ |value a| → 6020 < |val|) := by
  have h0 : 0 ≤ a.dscale := by rw [ha.dscale]; exact ha.l_nonneg
  have hds : a.dscale ≤ 1000000000 := by rw [ha.dscale]; have := ha.l_le; omega
  have hs : HasScale (value a) a.dscale := by rw [ha.dscale]; exact ha.scale
  rcases lt_or_ge |value a| 20000 with h | h
  · obtain ⟨val, e, hv⟩ := hl.toF64 ha.digits ha.not_nan ha.stripped h0 hs hsm hds (h.le.trans (by norm_num))
    exact ⟨val, e, fun _ => hv, fun hc => absurd h (not_lt.2 hc)⟩
  · obtain ⟨val, e, hv⟩ := hl.toF64_big (B := 9000) ha.digits ha.not_nan ha.stripped h0 hs hsm hds (by norm_num) (by
      have : (9000:ℤ) ≤ 2 ^ 1024 := by decide +kernel
      exact_mod_cast this) (by linarith)
    refine ⟨val, e, fun h250 => ?_, fun _ => by linarith⟩
    obtain ⟨val', e', hv'⟩ := hl.toF64 ha.digits ha.not_nan ha.stripped h0 hs hsm hds h250
    rw [e] at e'
    cases e'
    exact hv'

/-- Accuracy of `exp_common`. -/
theorem expCommon_spec [Build] {lm : Libm} (hlm : LibmOK lm) {fuel : Nat} (hfuel : 4200 ≤ fuel) {a : Var} {s rs : Int}
    (ha : Work a s) (hsm : Small a) (hrs0 : 0 ≤ rs) (hrs1 : rs ≤ 1000) :
    ∃ val, lm.toF64 a = .ok val ∧ (|value a| ≤ 10 ^ 250 → |val - value a| ≤ |value a| / 10 ^ 15 + 1 / 10 ^ 300) ∧
      (20000 ≤ |value a| → 6000 ≤ |val|) ∧
      (6000 ≤ |val| → expCommon lm fuel a rs = .ok none) ∧
      (|val| < 6000 → ∃ R, expCommon lm fuel a rs = .ok (some R) ∧ Digits R.digits ∧ R.sign ≠ .nan ∧ R.dscale = rs ∧
          HasScale (value R) rs ∧ -653 ≤ R.weight ∧ R.weight ≤ 653 ∧ (R.digits.length : Int) ≤ 100000 ∧ |value R| < limit ∧ |(value R : ℝ) - Real.exp (value a)| ≤ 51 / 100 * 10 ^ (-rs)) := by
  obtain ⟨val, eval, hval', hbig⟩ : ∃ val, lm.toF64 a = .ok val ∧ (|value a| ≤ 10 ^ 250 → |val - value a| ≤ |value a| / 10 ^ 15 + 1 / 10 ^ 300) ∧
      (20000 ≤ |value a| → 6020 < |val|) := hlm.toF64_all ha hsm
  refine ⟨val, eval, hval', fun h => by linarith [hbig h], ?_, ?_⟩
  · intro h
    unfold expCommon
    rw [dassert_ok ha.not_nan]
    simp only [eval, bind_ok, expect, pure_ok]
    rw [if_pos h]
  intro hlt
  have hX0 := abs_nonneg (value a)
  have hval : |val - value a| ≤ |value a| / 10 ^ 15 + 1 / 10 ^ 300 := by
    apply hval'
    by_contra hc
    push Not at hc
    have h1 : (20000:ℚ) ≤ 10 ^ 250 := by norm_num
    linarith [hbig (h1.trans hc.le)]
  have hxa : |value a| ≤ 6001 := by
    have h1 := abs_sub_abs_le_abs_sub (value a) val
    rw [abs_sub_comm] at h1
    have := tiny300
    generalize (1:ℚ) / 10 ^ 300 = ε at *
    generalize |value a| = A at *
    norm_num at hval this
    linarith
  have hvalR : |(val : ℝ) - (value a : ℝ)| ≤ 1 / 10 ^ 10 := by
    have h1 : |val - value a| ≤ 1 / 10 ^ 10 := by
      have := tiny300
      generalize (1:ℚ) / 10 ^ 300 = ε at *
      generalize |value a| = A at *
      norm_num at hval this ⊢
      linarith
    have := castR h1
    push_cast at this
    exact this
  obtain ⟨t1, t2⟩ := expLog_spec (by linarith) hvalR
  have ht6 : |F64.mul val F64.LOG10_E| ≤ 2607 := by linarith
  obtain ⟨d1, d2, d3⟩ := toI32_near (ht6.trans (by norm_num))
  obtain ⟨l1, l2, -⟩ := log_ten_bounds
  have hdw : |F64.toI32 (F64.mul val F64.LOG10_E)| ≤ 2607 := by
    have := d3.trans ht6
    exact_mod_cast this
  have hexpx : Real.exp (value a) ≤ 1001 / 1000 * 10 ^ (F64.toI32 (F64.mul val F64.LOG10_E) + 1) := by
    have h1 : (value a : ℝ) ≤ ((F64.toI32 (F64.mul val F64.LOG10_E) + 1 : ℤ) : ℝ) * Real.log 10 + 1 / 10 ^ 4 := by
      have h2 := (abs_le.1 t1).1
      have h3 : (F64.mul val F64.LOG10_E : ℝ) ≤ ((F64.toI32 (F64.mul val F64.LOG10_E) + 1 : ℤ) : ℝ) := by
        have := castR (by linarith : F64.mul val F64.LOG10_E ≤ (F64.toI32 (F64.mul val F64.LOG10_E) : ℚ) + 1)
        push_cast at this ⊢
        exact this
      have h4 := mul_le_mul_of_nonneg_right h3 (by linarith : 0 ≤ Real.log 10)
      linarith
    have h2 := Real.exp_le_exp.2 h1
    rw [Real.exp_add, mul_comm _ (Real.log 10), ← Real.rpow_def_of_pos (by norm_num), Real.rpow_intCast] at h2
    refine h2.trans ?_
    rw [mul_comm]
    apply mul_le_mul_of_nonneg_right _ (by positivity)
    have h3 := Real.abs_exp_sub_one_le (x := 1 / 10 ^ 4) (by norm_num [abs_le])
    rw [abs_of_pos (by norm_num : (0:ℝ) < 1 / 10 ^ 4)] at h3
    have := (abs_le.1 h3).2
    norm_num at this ⊢
    linarith
  obtain ⟨dw, hdwe⟩ : ∃ dw, dw = F64.toI32 (F64.mul val F64.LOG10_E) := ⟨_, rfl⟩
  rw [← hdwe] at hdw hexpx
  rw [abs_le] at hdw
  obtain ⟨n, x, ex, hn, hx, hxv, hxs⟩ := expReduce_spec ha hlt hval (fuel := fuel) (by omega)
  obtain ⟨tr0, tr6, trp⟩ := expLoss_spec hn
  obtain ⟨tr, htre⟩ : ∃ tr, tr = F64.toI32 (F64.mul ((n : ℤ) : ℚ) F64.LOG10_2) := ⟨_, rfl⟩
  rw [← htre] at tr0 tr6 trp
  obtain ⟨S, hS⟩ : ∃ S, S = max (1 + dw + rs + tr) 0 + 8 := ⟨_, rfl⟩
  have hS8 : 8 ≤ S := by omega
  have hS1 : S ≤ 3700 := by omega
  have hxR : |(value x : ℝ)| ≤ 101 / 10000 := by
    have := castR hxs
    push_cast at this
    exact this
  have hx1 : |(value x : ℝ)| < 1 := by linarith
  obtain ⟨-, -, xlen, -⟩ := hx.small hx1
  have hxl := hx.l_le
  have hxsm : Small x := hx.smR (hx1.le.trans (by norm_num))
  -- the first two terms
  obtain ⟨r, er, hr, hrv⟩ := (Work.of_canonical one_canonical).toWide.add_ne hx one_small hxsm (by
    rw [one_value]
    have := (abs_le.1 hxs).1
    intro h0
    norm_num at this
    linarith)
  rw [one_value] at hrv
  obtain ⟨q, eq, hq, hqe⟩ := hx.mul hx (l := S - 1) (by omega) (by omega) hxsm hxsm (n := 4102) (by omega)
  have hU : (0:ℝ) < 10 ^ (-(S - 1)) := by positivity
  have hU7 := unit_small7 (l := S - 1) (by omega)
  have hxx : |(value x : ℝ) * value x| ≤ 101 / 10000 := by
    rw [abs_mul]; nlinarith [abs_nonneg (value x : ℝ)]
  have hqs : |(value q : ℝ)| < 1 := by
    have := abs_sub_abs_le_abs_sub (value q : ℝ) (value x * value x)
    push_cast at hqe
    generalize (10:ℝ) ^ (-(S - 1)) = U at *
    norm_num at hqe hU7
    linarith
  obtain ⟨-, -, -, hqb⟩ := hq.small hqs
  have hcode : expCommon lm fuel a rs = (do
      let e ← divFastCommon q two (S - 1) true
      let e ← expect DIVIDE_BY_ZERO_MSG e
      let r ← expSeries x (S - 1) fuel two e r
      let r ← expSquare S n r
      let r ← roundCommon r rs
      pure (some r)) := by
    unfold expCommon
    rw [dassert_ok ha.not_nan]
    simp only [eval, bind_ok, expect, pure_ok]
    rw [if_neg (not_le.2 hlt), ex]
    simp only [bind_ok, ← hdwe, ← htre]
    rw [fits_ok (by fits_tac)]
    simp only [bind_ok, ← hdwe, ← htre, ← hS, er, eq, Int.toNat_natCast]
  rw [hcode]
  obtain ⟨e, y, ee, he, hev, hy, hee⟩ := hq.divFast_short (two_powOK.work rfl) (l := S - 1) (by omega) (by omega)
    (by rw [two_powOK.value]; norm_num) hqb (lt_big (by rw [two_powOK.value]; norm_num)) (by decide)
  rw [ee]
  simp only [bind_ok, expect, pure_ok]
  have h2v : (value two : ℝ) = 2 := by rw [two_powOK.value]; norm_num
  rw [h2v] at hee hy
  have he1 : |(value e : ℝ) - (value x : ℝ) ^ 2 / (2:ℕ).factorial| ≤ 10 ^ (-(S - 1)) := by
    have h1 := abs_sub_le (value e : ℝ) (value q / 2) ((value x : ℝ) ^ 2 / (2:ℕ).factorial)
    have e1 : (value q : ℝ) / 2 - (value x : ℝ) ^ 2 / (2:ℕ).factorial = (value q - value x * value x) / 2 := by
      rw [show (2:ℕ).factorial = 2 by rfl]; push_cast; ring
    rw [e1, abs_div, abs_of_pos (by norm_num : (0:ℝ) < 2)] at h1
    push_cast at hqe
    generalize (10:ℝ) ^ (-(S - 1)) = U at *
    norm_num at hqe hee
    linarith
  obtain ⟨Q, m'', eQ, hQ, hQe⟩ := expSeries_spec (l := S - 1) (by omega) (by omega) hx hxR fuel (k := 2) (ni := two) (elem := e) (result := r)
      (by omega) (by norm_num) (by push_cast; omega) (two_powOK.work rfl) (by rw [two_powOK.value]; norm_num) he hr he1
      (by intro h; omega)
      (by rw [expSum_two, hrv]; push_cast; simp)
  rw [eQ]
  simp only [bind_ok]
  -- the logarithm of the sum
  have hun : (10:ℝ) ^ (-(S - 1)) = 10 * 10 ^ (-S) := by
    rw [show -(S - 1) = -S + 1 by ring, zpow_add₀ (by norm_num)]; norm_num; ring
  have hd8 := decay8 hS8
  have hSp : (0:ℝ) < 10 ^ (-S) := by positivity
  have hS8' : (8:ℝ) ≤ S := by exact_mod_cast hS8
  have hQe' : |(value Q : ℝ) - Real.exp (value x)| ≤ 10 * S * 10 ^ (-S) := by
    rw [hun] at hQe
    push_cast at hQe
    refine hQe.trans (le_of_eq (by ring))
  have hsmall : 10 * (S:ℝ) * 10 ^ (-S) ≤ 1 / 10 ^ 5 := by
    generalize (10:ℝ) ^ (-S) = U at *
    norm_num at hd8 ⊢
    nlinarith
  have hex : (9899 / 10000 : ℝ) ≤ Real.exp (value x) := by
    have := Real.add_one_le_exp (value x : ℝ)
    have := (abs_le.1 hxR).1
    linarith
  have hQlo : (98 / 100 : ℝ) ≤ value Q := by
    have := (abs_le.1 hQe').1
    norm_num at hsmall
    linarith
  have hQp : 0 < value Q := by
    have : (0:ℝ) < value Q := by linarith
    exact_mod_cast this
  have hlogQ : |Real.log (value Q : ℝ) - value x| ≤ 103 / 10 * S * 10 ^ (-S) := by
    have h1 := log_lip (a := value Q) (b := Real.exp (value x)) (m := 98 / 100) (by norm_num) hQlo (by linarith)
    rw [Real.log_exp] at h1
    refine h1.trans ?_
    rw [div_le_iff₀ (by norm_num)]
    have : 0 ≤ (S:ℝ) * 10 ^ (-S) := by apply mul_nonneg _ hSp.le; linarith
    refine hQe'.trans ?_
    rw [mul_assoc, mul_assoc]
    linarith
  have hp20 : (2:ℝ) ^ n ≤ 2 ^ 20 := pow_le_pow_right₀ (by norm_num) hn
  have hxvR : (2:ℝ) ^ n * (value x : ℝ) = value a := by
    rw [hxv]; push_cast
    have : (2:ℝ) ^ n ≠ 0 := by positivity
    field_simp
  obtain ⟨R, m3, eR, hR, hRp, hRe⟩ := expSquare_spec (S := S) hS8 (by omega) n hQ hQp hlogQ
    (by
      have : (2:ℝ) ^ n * |(value x : ℝ)| = |(value a : ℝ)| := by
        rw [← hxvR, abs_mul, abs_of_pos (by positivity : (0:ℝ) < 2 ^ n)]
      rw [this]
      have := castR hxa
      push_cast at this
      exact this)
    (by
      have : (103 / 10 * (S:ℝ) * 10 ^ (-S) + 101 / 100 * 10 ^ (-S)) ≤ 8341 / 10 ^ 10 := by
        refine le_trans (le_of_eq (by ring)) hd8
      have h0 : 0 ≤ (103 / 10 * (S:ℝ) * 10 ^ (-S) + 101 / 100 * 10 ^ (-S)) := by positivity
      have := mul_le_mul hp20 this h0 (by norm_num)
      refine this.trans (by norm_num))
  rw [eR, hxvR] at *
  have hRR : (0:ℝ) < value R := by exact_mod_cast hRp
  have hfin := exp_final hRR hS8 hS1 hS trp hn hexpx hRe
  obtain ⟨w1, w2, wR⟩ := hR.weight_of_log hRp (by
    have h1 := abs_sub_abs_le_abs_sub (Real.log (value R : ℝ)) (value a)
    have h2 : |(value a : ℝ)| ≤ 6001 := by have := castR hxa; push_cast at this; exact this
    have h3 : (2:ℝ) ^ n * (103 / 10 * S * 10 ^ (-S) + 101 / 100 * 10 ^ (-S)) ≤ 1 := by
      have : (103 / 10 * (S:ℝ) * 10 ^ (-S) + 101 / 100 * 10 ^ (-S)) ≤ 8341 / 10 ^ 10 := by
        refine le_trans (le_of_eq (by ring)) hd8
      have h0 : 0 ≤ (103 / 10 * (S:ℝ) * 10 ^ (-S) + 101 / 100 * 10 ^ (-S)) := by positivity
      have := mul_le_mul hp20 this h0 (by norm_num)
      refine this.trans (by norm_num)
    linarith)
  obtain ⟨-, -, -, hlen⟩ := hR.bounds (k := 653) (by norm_num) (by rw [abs_of_pos hRp]; exact wR)
  have hRl := hR.l_le
  obtain ⟨F, eF, f1, f2, f3, f4⟩ := roundCommon_spec R rs hR.digits hR.not_nan ⟨by omega, by omega⟩ ⟨by omega, by omega⟩
  have hsh := (roundCommon_shape R rs eF).1
  have hfin2 : |(value F : ℝ) - Real.exp (value a)| ≤ 51 / 100 * 10 ^ (-rs) := by
    have h1 := round_errR (value R) rs
    rw [← f4] at h1
    have h2 := abs_sub_le (value F : ℝ) (value R) (Real.exp (value a))
    generalize (10:ℝ) ^ (-rs) = U at *
    linarith
  have hw := roundCommon_weight R rs hR.digits hR.not_nan eF
  refine ⟨F, ?_, f1, f2, f3, by rw [f4]; exact roundHalfAway_hasScale _ _, by omega, by omega, by omega, ?_, hfin2⟩
  · simp only [bind_ok, eF]
  · have h1 : (10:ℝ) ^ (-rs) ≤ 1 := by
      rw [show (1:ℝ) = 10 ^ (0:ℤ) by norm_num]; exact zpow_le_zpow_right₀ (by norm_num) (by omega)
    have h2 : (10:ℝ) ^ (dw + 1) ≤ 10 ^ (2608:ℤ) := zpow_le_zpow_right₀ (by norm_num) (by omega)
    have h3 := abs_sub_abs_le_abs_sub (value F : ℝ) (Real.exp (value a))
    rw [abs_of_pos (Real.exp_pos _)] at h3
    have h4 : (10:ℝ) ^ (2609:ℤ) = 10 * 10 ^ (2608:ℤ) := by
      rw [show (2609:ℤ) = 1 + 2608 by norm_num, zpow_add₀ (by norm_num), zpow_one]
    have h5 : (1:ℝ) ≤ 10 ^ (2608:ℤ) := one_le_zpow₀ (by norm_num) (by norm_num)
    have h6 : |(value F : ℝ)| ≤ 10 ^ (2609:ℤ) := by
      rw [h4]
      clear h4
      have h8 := hfin2
      generalize (10:ℝ) ^ (2608:ℤ) = P at h5 h2 ⊢
      generalize (10:ℝ) ^ (-rs) = U at h1 h8
      have h9 := hexpx
      generalize (10:ℝ) ^ (dw + 1) = D at h9 h2
      linarith only [h1, h2, h3, h5, h8, h9]
    have h7 : |value F| ≤ 10 ^ (2609:ℤ) := by
      have : ((|value F| : ℚ) : ℝ) ≤ (((10:ℚ) ^ (2609:ℤ) : ℚ) : ℝ) := by push_cast; exact h6
      exact_mod_cast this
    refine lt_of_le_of_lt h7 ?_
    unfold limit
    rw [← zpow_natCast]
    exact zpow_lt_zpow_right₀ (by norm_num) (by norm_num)

end PgNumeric
