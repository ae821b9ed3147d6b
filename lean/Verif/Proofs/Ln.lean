import Verif.Proofs.LnSeries
/-!
# Accuracy of `ln_common`
-/
namespace PgNumeric
open Spec Var

theorem PosVar.mag_pos {a : Var} (h : PosVar a) : a.digits ≠ [] → 0 < mag a.digits a.weight :=
  fun hne => mag_pos_of_head h.digits hne h.head _

theorem zeroPointNine_value : value zeroPointNine = 9 / 10 := by simp [value, mag, zeroPointNine]; norm_num

theorem onePointOne_value : value onePointOne = 11 / 10 := by simp [value, mag, onePointOne]; norm_num

theorem PosVar.cmp {a b : Var} (h : PosVar a) (hd : Digits b.digits) (hn : b.sign ≠ .nan)
    (hp : b.digits ≠ [] → 0 < mag b.digits b.weight) : cmpCommon a b = cmpSign (value a) (value b) :=
  cmpCommon_spec a b h.digits hd h.not_nan hn h.mag_pos hp

theorem PosVar.cmp_nine {a : Var} (h : PosVar a) : cmpCommon a zeroPointNine ≤ 0 ↔ (value a : ℝ) ≤ 9 / 10 := by
  have hd : Digits zeroPointNine.digits := by unfold Digits; decide
  rw [h.cmp hd (by decide) (fun hne => mag_pos_of_head hd hne (by decide) _), zeroPointNine_value]
  have : (value a : ℝ) ≤ 9 / 10 ↔ value a ≤ 9 / 10 := by
    rw [show (9 / 10 : ℝ) = ((9 / 10 : ℚ) : ℝ) by norm_num, Rat.cast_le]
  rw [this]
  unfold cmpSign
  split_ifs with h1 h2
  · simp [h1.le]
  · simp [h2]
  · simp; exact lt_of_le_of_ne (not_lt.1 h1) (Ne.symm h2)

theorem PosVar.cmp_eleven {a : Var} (h : PosVar a) : cmpCommon a onePointOne ≥ 0 ↔ 11 / 10 ≤ (value a : ℝ) := by
  have hd : Digits onePointOne.digits := by unfold Digits; decide
  rw [h.cmp hd (by decide) (fun hne => mag_pos_of_head hd hne (by decide) _), onePointOne_value]
  have : 11 / 10 ≤ (value a : ℝ) ↔ 11 / 10 ≤ value a := by
    rw [show (11 / 10 : ℝ) = ((11 / 10 : ℚ) : ℝ) by norm_num, Rat.cast_le]
  rw [this]
  unfold cmpSign
  split_ifs with h1 h2
  · simp [h1]
  · simp [h2]
  · simp; exact not_lt.1 h1

theorem PosVar.cmp_zero_pos {a : Var} (h : PosVar a) : cmpCommon a zero > 0 := by
  rw [h.cmp (by simp [zero, Digits]) (by decide) (fun hne => absurd rfl hne)]
  have h0 : value zero = 0 := by simp [value, mag, zero]
  have := h.pos
  unfold cmpSign
  rw [h0, if_neg (by linarith), if_neg (by linarith)]
  norm_num

theorem halfLog_quot {x : ℝ} (hx : 0 < x) : halfLog ((x - 1) / (x + 1)) = Real.log x / 2 := by
  unfold halfLog
  have h1 : 1 + (x - 1) / (x + 1) = 2 * x / (x + 1) := by field_simp; ring
  have h2 : 1 - (x - 1) / (x + 1) = 2 / (x + 1) := by field_simp; ring
  rw [h1, h2, ← Real.log_div (by positivity) (by positivity)]
  congr 2
  field_simp

theorem log_eleven {y : ℝ} (hy : 11 / 10 ≤ y) : 95 / 1000 ≤ Real.log y := by
  have h1 : Real.log (11 / 10) ≤ Real.log y := Real.log_le_log (by norm_num) hy
  have h2 := halfLog_quot (x := 11 / 10) (by norm_num)
  have h3 := halfLog_tail (z := (11 / 10 - 1) / (11 / 10 + 1)) (by norm_num [abs_of_pos]) 1
  rw [h2] at h3
  unfold halfSum at h3
  norm_num [abs_of_pos] at h3
  rw [abs_le] at h3
  linarith [h3.1]

theorem log_nine {y : ℝ} (h0 : 0 < y) (hy : y ≤ 9 / 10) : 95 / 1000 ≤ -Real.log y := by
  have := Real.log_le_sub_one_of_pos h0
  linarith

/-- `M x` bounds half the number `2^(k+1)` by which `ln_common` multiplies its series. -/
noncomputable def lnFactor (x : ℝ) : ℝ := max 1 (22 * |Real.log x|)

theorem lnFactor_pos (x : ℝ) : 1 ≤ lnFactor x := le_max_left _ _

theorem unit8 (R : ℤ) : (10:ℝ) ^ (-(R + 8)) = 10 ^ (-R) / 10 ^ 8 := by
  rw [show -(R + 8) = -R - 8 by ring, zpow_sub₀ (by norm_num)]
  norm_num

theorem dassert_elim [Build] {p : Prop} [Decidable p] {α : Type} {k : M α} {r : α} (h : (do dassert p; k) = .ok r) : k = .ok r := by
  by_cases hp : p
  · rw [dassert_ok hp] at h; exact h
  · cases hd : dassert p with
    | error e => rw [hd] at h; cases h
    | ok u => rw [hd] at h; exact h

theorem bind_elim {α β : Type} {m : M α} {f : α → M β} {r : β} (h : (m >>= f) = .ok r) : ∃ a, m = .ok a ∧ f a = .ok r := by
  cases hm : m with
  | error e => rw [hm] at h; cases h
  | ok a => rw [hm] at h; exact ⟨a, rfl, h⟩

/-- The reduction phase. -/
theorem lnReduce_both [Build] {a : Var} (ha : PosVar a) {R : Int} (hR0 : 0 ≤ R) (hR1 : R ≤ 8000) {sf f1 f2 : Nat} {p q : Var × Var}
    (h1 : lnReduce (fun x => cmpCommon x zeroPointNine ≤ 0) R sf f1 a two = .ok p)
    (h2 : lnReduce (fun x => cmpCommon x onePointOne ≥ 0) R sf f2 p.1 p.2 = .ok q) :
    ∃ k, PosVar q.1 ∧ 9 / 10 < (value q.1 : ℝ) ∧ (value q.1 : ℝ) < 11 / 10 ∧ PowOK q.2 (2 ^ (k + 1)) ∧
      q.2.weight ≤ 100 ∧       RedOK (10 ^ (-(R + 8))) (value a) k (value q.1) := by
  have hU1 : (10:ℝ) ^ (-(R + 8)) ≤ 1 / 10 ^ 8 := unit_small (by omega)
  have hU : (0:ℝ) < 10 ^ (-(R + 8)) := by positivity
  obtain ⟨k1, p1, -, p2, p3, p5, p6, p4⟩ := lnReduce_spec (C := fun y => y ≤ 9 / 10) (I := fun _ => True) hR0 hR1
    (fun x hx => by simp only [decide_eq_true_eq]; exact hx.cmp_nine)
    (fun y h0 hy => by rw [← abs_neg]; exact (log_nine h0 hy).trans (le_abs_self _)) (fun _ _ _ _ _ _ => trivial) sf f1 (j := 1) ha trivial
    (by rw [pow_one]; exact two_powOK) (by simp [two]) (Budget.start ha hU.le) h1
  obtain ⟨k2, q1, q2, q3, q4, q6, -, q5⟩ := lnReduce_spec (C := fun y => 11 / 10 ≤ y) (I := fun y => 9 / 10 < y) hR0 hR1
    (fun x hx => by simp only [decide_eq_true_eq]; exact hx.cmp_eleven)
    (fun y h0 hy => (log_eleven hy).trans (le_abs_self _))
    (fun y y' h0 h0' hy hl => by
      have h1 := log_eleven hy
      have h2 := (abs_le.1 hl).1
      by_contra hc
      push Not at hc
      have h3 := log_nine h0' hc
      linarith) sf f2 p1 (not_le.1 p2) p3 p5 p6 h2
  refine ⟨k1 + k2, q1, q2, not_le.1 q3, ?_, q6, p4.trans q5⟩
  rw [show k1 + k2 + 1 = 1 + k1 + k2 by ring]; exact q4

/-- Once the argument is reduced, `ln_common` returns the logarithm up to half a unit and a small multiple of `10^-8` units
(or overflows in the fast division of a debug build, if the reduced argument has more than 80 decimals, or is stopped before half as many rounds as digits). -/
theorem lnCommon_outcome [Build] {a : Var} (ha : PosVar a) {R : Int} (hR0 : 0 ≤ R) (hR1 : R ≤ 5000) {fuel : Nat} {p q : Var × Var}
    (e1 : lnReduce (fun x => cmpCommon x zeroPointNine ≤ 0) R fuel fuel a two = .ok p)
    (e2 : lnReduce (fun x => cmpCommon x onePointOne ≥ 0) R fuel fuel p.1 p.2 = .ok q) :
    (∃ y, lnCommon fuel a R = .ok y ∧ Work y R ∧
      |(value y : ℝ) - Real.log (value a)| ≤ (1 / 2 + (R + 10) * lnFactor (value a) / 10 ^ 8) * 10 ^ (-R)) ∨
    (Build.debug = true ∧ lnCommon fuel a R = .error .overflow ∧ 80 < q.1.dscale) ∨
    (2 * (fuel:ℤ) ≤ R + 8 ∧ lnCommon fuel a R = .error .diverge) := by
  have h : lnCommon fuel a R = (do
      let num ← subCommon q.1 one
      let den ← addCommon q.1 one
      let z ← divFastCommon num den (R + 8) true
      let z ← expect DIVIDE_BY_ZERO_MSG z
      let zz ← mulCommon z z (R + 8)
      let sum ← lnSeries zz (R + 8) fuel one z z
      mulCommon sum q.2 R) := by
    unfold lnCommon
    rw [dassert_ok ha.not_nan, dassert_ok ha.cmp_zero_pos]
    simp only [bind_ok, e1, e2]
    rw [fits_ok (by fits_tac), bind_ok]
  obtain ⟨k, hx, hx9, hx11, hf, hfw, hred⟩ := lnReduce_both ha hR0 (by omega) e1 e2
  obtain ⟨x, fact⟩ := q
  simp only at h hx hx9 hx11 hf hfw hred
  have hU1 : (10:ℝ) ^ (-(R + 8)) ≤ 1 / 10 ^ 8 := unit_small (by omega)
  have hU : (0:ℝ) < 10 ^ (-(R + 8)) := by positivity
  -- numerator and denominator
  have one_w : Work one 0 := one_powOK.work rfl
  have hx1 := hx.dscale_nonneg
  have hx2 := hx.dscale_le
  have h1s : (0:ℤ) ≤ one.dscale ∧ one.dscale ≤ 16383 := by simp [one]
  have hsx : SignOK x := by intro hneg; rw [hx.sign] at hneg; cases hneg
  obtain ⟨nv, en, hn⟩ := subCommon_spec x one hx.small one_small hx.digits one_w.digits hx.not_nan one_w.not_nan hsx ⟨hx1, hx2⟩ h1s
  obtain ⟨dv, ed, hd⟩ := addCommon_spec x one hx.small one_small hx.digits one_w.digits hx.not_nan one_w.not_nan hsx ⟨hx1, hx2⟩ h1s
  have hone : value one = 1 := by rw [one_powOK.value]; norm_num
  rw [show max x.dscale one.dscale = x.dscale by simp [one]; omega, hone] at hn hd
  have hsc1 : HasScale (1:ℚ) x.dscale := by have := HasScale.int 1 hx1; simpa using this
  have hnW := Work.of_addOK hn (hx.scale.sub hsc1) hx1 hx2
  have hdW := Work.of_addOK hd (hx.scale.add hsc1) hx1 hx2
  rw [en] at h
  simp only [bind_ok] at h
  rw [ed] at h
  simp only [bind_ok] at h
  have hxq9 : 9 / 10 < value x := by
    have : ((9 / 10 : ℚ) : ℝ) < (value x : ℝ) := by push_cast; exact hx9
    exact_mod_cast this
  have hxq11 : value x < 11 / 10 := by
    have : (value x : ℝ) < ((11 / 10 : ℚ) : ℝ) := by push_cast; exact hx11
    exact_mod_cast this
  have hdne : value dv ≠ 0 := by rw [hd.value]; linarith
  rcases hnW.divFast_full hdW (l := R + 8) (by omega) (by omega) hdne
    (by apply lt_big; rw [hn.value, abs_lt]; constructor <;> norm_num <;> linarith)
    (by apply lt_big; rw [hd.value, abs_lt]; constructor <;> norm_num <;> linarith) with ⟨z, y0, ez, hz, -, -, hze⟩ | ⟨hdb, ez, hnd, -⟩
  swap
  · rw [ez] at h
    refine .inr (.inl ⟨hdb, h, ?_⟩)
    obtain ⟨-, -, -, h3⟩ := hdW.bounds (k := 1) (by norm_num) (by rw [hd.value, abs_lt]; constructor <;> norm_num <;> linarith)
    simp only [ndigits] at hnd
    change 80 < x.dscale
    omega
  rw [ez] at h
  simp only [bind_ok, expect, pure_ok] at h
  rw [hn.value, hd.value] at hze
  push_cast at hze
  set Z : ℝ := ((value x : ℝ) - 1) / (value x + 1) with hZ
  have hZb : |Z| ≤ 5264 / 100000 := by
    rw [hZ, abs_div, abs_of_pos (by linarith : (0:ℝ) < value x + 1), div_le_iff₀ (by linarith), abs_le]
    constructor <;> linarith
  have hzb : |(value z : ℝ)| ≤ 527 / 10000 := by
    have := abs_sub_abs_le_abs_sub (value z : ℝ) Z
    linarith
  obtain ⟨-, -, zl, zb⟩ := hz.small (by linarith)
  obtain ⟨zz, ezz, hzz, hzze⟩ := hz.mul hz (l := R + 8) (by omega) (by omega) (hz.sm zb) (hz.sm zb) (n := 1253) (by omega)
  rw [ezz] at h
  simp only [bind_ok] at h
  rcases lnSeries_spec (by omega) (by omega) hzz hzb (by
      rw [pow_two]; push_cast at hzze; refine hzze.trans (le_of_eq_of_le rfl ?_)
      apply mul_le_mul_of_nonneg_right (by norm_num) hU.le) fuel (i := 0) one_w (by rw [hone]; norm_num) hz hz (by norm_num; omega)
    (by simp; positivity) (by unfold halfSum; simp) with ⟨S, eS, hS, hSe⟩ | ⟨hfu, eS⟩
  swap
  · rw [eS] at h; exact .inr (.inr ⟨by push_cast at hfu; omega, h⟩)
  rw [eS] at h
  simp only [bind_ok] at h
  have hSb : |(value S : ℝ)| ≤ 10 ^ 12 := by
    have h1 := abs_sub_abs_le_abs_sub (value S : ℝ) (halfLog (value z))
    have h3 := halfLog_tail hzb 0
    have h4 : halfSum (value z : ℝ) 0 = 0 := by unfold halfSum; simp
    rw [h4, sub_zero] at h3
    norm_num at h3
    have hRR : (R:ℝ) ≤ 5000 := by exact_mod_cast hR1
    have hRR0 : (0:ℝ) ≤ R := by exact_mod_cast hR0
    have h5 : (37 / 100 * ((R + 8 : ℤ) : ℝ) + 74 / 100) * (10:ℝ) ^ (-(R + 8)) ≤ 10000 * (1 / 10 ^ 8) := by
      push_cast
      exact mul_le_mul (by linarith) hU1 hU.le (by norm_num)
    have h6 : (10000:ℝ) * (1 / 10 ^ 8) ≤ 1 := by norm_num
    have h7 : (100:ℝ) ≤ 10 ^ 12 := by norm_num
    linarith
  -- the final product is exact before rounding
  have hex : S.ndigits + fact.ndigits ≤ S.weight + fact.weight + 4 + (R + 3) / 4 := by
    have h1 := hf.len
    have h2 := hf.weight_nonneg
    by_cases hne : S.digits = []
    · rw [(hS.stripped.2.2 hne).1]
      have : S.ndigits = 0 := by unfold ndigits; rw [hne]; rfl
      omega
    · have := stripped_len hS.digits hS.stripped hne hS.scale
      omega
  obtain ⟨y, ey, hy⟩ := mulCommon_spec S fact (hS.smR hSb) (hf.small (by omega)) R (by omega) hS.digits hf.digits hS.not_nan hf.not_nan hR0 (.inl (by omega))
  rw [ey] at h
  left
  obtain ⟨w, hw, hw2, -⟩ := hy.round
  rw [hw2 hex, hf.value] at hw
  refine ⟨y, h, ⟨⟨hy.digits, hy.not_nan, hy.stripped, hy.dscale, by rw [hw]; exact roundHalfAway_hasScale _ _, hR0, by omega⟩, by omega⟩, ?_⟩
  have hr := round_errR (value S * ((2 ^ (k + 1) : ℤ) : ℚ)) R
  rw [← hw] at hr
  push_cast at hr
  have hcount := hred.count hU.le hU1
  have hr1 := hred.1
  unfold Red at hr1
  have hl1 := halfLog_lip hzb (hZb.trans (by norm_num))
  have hl2 : halfLog Z = Real.log (value x) / 2 := halfLog_quot (by linarith)
  rw [hl2] at hl1
  have hSx : |(value S : ℝ) - Real.log (value x) / 2| ≤ (37 / 100 * (R + 8) + 128 / 100) * 10 ^ (-(R + 8)) := by
    have := abs_sub_le (value S : ℝ) (halfLog (value z)) (Real.log (value x) / 2)
    push_cast at hSe
    generalize (10:ℝ) ^ (-(R + 8)) = U at *
    have : |halfLog (value z : ℝ) - Real.log (value x) / 2| ≤ 532 / 1000 * U := by
      refine hl1.trans ?_
      linarith
    linarith
  have hp : (0:ℝ) < 2 ^ (k + 1) := by positivity
  have hmain : |(value S : ℝ) * 2 ^ (k + 1) - Real.log (value a)| ≤ 2 ^ (k + 1) * ((37 / 100 * R + 4.78) * 10 ^ (-(R + 8))) := by
    have e : (value S : ℝ) * 2 ^ (k + 1) - Real.log (value a) =
        2 ^ (k + 1) * (value S - Real.log (value x) / 2) + (2 ^ k * Real.log (value x) - Real.log (value a)) := by
      rw [pow_succ]; ring
    rw [e]
    refine (abs_add_le _ _).trans ?_
    rw [abs_mul, abs_of_pos hp]
    have h1 := mul_le_mul_of_nonneg_left hSx hp.le
    have h2 : 52 / 100 * (10:ℝ) ^ (-(R + 8)) * (2 ^ (k + 1) - 2) ≤ 2 ^ (k + 1) * (52 / 100 * 10 ^ (-(R + 8))) := by
      nlinarith
    nlinarith
  have hM : (2:ℝ) ^ (k + 1) ≤ 2 * lnFactor (value a) := hcount
  have hMp := lnFactor_pos (value a)
  have hRr : (0:ℝ) ≤ R := by exact_mod_cast hR0
  have hfin : (2:ℝ) ^ (k + 1) * ((37 / 100 * R + 4.78) * 10 ^ (-(R + 8))) ≤ (R + 10) * lnFactor (value a) / 10 ^ 8 * 10 ^ (-R) := by
    rw [unit8]
    have hT : (0:ℝ) < 10 ^ (-R) := by positivity
    calc (2:ℝ) ^ (k + 1) * ((37 / 100 * R + 4.78) * (10 ^ (-R) / 10 ^ 8))
        ≤ 2 * lnFactor (value a) * ((37 / 100 * R + 4.78) * (10 ^ (-R) / 10 ^ 8)) := by
          apply mul_le_mul_of_nonneg_right hM; positivity
      _ = (74 / 100 * R + 9.56) * lnFactor (value a) * (10 ^ (-R) / 10 ^ 8) := by ring
      _ ≤ (R + 10) * lnFactor (value a) * (10 ^ (-R) / 10 ^ 8) := by
          apply mul_le_mul_of_nonneg_right _ (by positivity)
          apply mul_le_mul_of_nonneg_right _ (by linarith)
          linarith
      _ = _ := by ring
  have := abs_sub_le (value y : ℝ) (value S * 2 ^ (k + 1)) (Real.log (value a))
  have e3 : (1 / 2 + (R + 10) * lnFactor (value a) / 10 ^ 8) * (10:ℝ) ^ (-R) = 10 ^ (-R) / 2 + (R + 10) * lnFactor (value a) / 10 ^ 8 * 10 ^ (-R) := by ring
  rw [e3]
  linarith

/-- Whenever `ln_common` returns, the result is the logarithm up to half a unit and a small multiple of `10^-8` units. -/
theorem lnCommon_spec [Build] {a : Var} (ha : PosVar a) {R : Int} (hR0 : 0 ≤ R) (hR1 : R ≤ 5000) {fuel : Nat} {y : Var}
    (h : lnCommon fuel a R = .ok y) :
    Work y R ∧ |(value y : ℝ) - Real.log (value a)| ≤ (1 / 2 + (R + 10) * lnFactor (value a) / 10 ^ 8) * 10 ^ (-R) := by
  have h' := h
  unfold lnCommon at h'
  rw [dassert_ok ha.not_nan, dassert_ok ha.cmp_zero_pos] at h'
  simp only [bind_ok] at h'
  obtain ⟨p, e1, h'⟩ := bind_elim h'
  obtain ⟨q, e2, -⟩ := bind_elim h'
  rcases lnCommon_outcome ha hR0 hR1 e1 e2 with ⟨y', ey, hy⟩ | ⟨-, e, -⟩ | ⟨-, e⟩
  · rw [h] at ey; cases ey; exact hy
  · rw [h] at e; cases e
  · rw [h] at e; cases e

/-- For an argument between 0.9 and 1.1 no reduction takes place, so the logarithm is always found in a release build. -/
theorem lnCommon_near [Build] {a : Var} (ha : PosVar a) (h9 : (9 / 10 : ℝ) < value a) (h11 : (value a : ℝ) < 11 / 10) {R : Int} (hR0 : 0 ≤ R)
    (hR1 : R ≤ 5000) {fuel : Nat} (hf : R + 10 ≤ 2 * (fuel:ℤ)) :
    (∃ y, lnCommon fuel a R = .ok y) ∨ (Build.debug = true ∧ lnCommon fuel a R = .error .overflow ∧ 80 < a.dscale) := by
  obtain ⟨f, rfl⟩ : ∃ f, fuel = f + 1 := ⟨fuel - 1, by omega⟩
  have e1 : lnReduce (fun x => cmpCommon x zeroPointNine ≤ 0) R (f + 1) (f + 1) a two = .ok (a, two) := by
    unfold lnReduce
    rw [if_neg (by
      simp only [decide_eq_true_eq]
      rw [ha.cmp_nine]
      exact not_le.2 h9)]
    rfl
  have e2 : lnReduce (fun x => cmpCommon x onePointOne ≥ 0) R (f + 1) (f + 1) a two = .ok (a, two) := by
    unfold lnReduce
    rw [if_neg (by
      simp only [decide_eq_true_eq]
      rw [ha.cmp_eleven]
      exact not_le.2 h11)]
    rfl
  rcases lnCommon_outcome ha hR0 hR1 e1 e2 with ⟨y', ey, hy⟩ | h | ⟨h, -⟩
  · exact .inl ⟨_, ey⟩
  · exact .inr h
  · push_cast at h hf; omega

/-- A reduction loop returns, runs out of rounds, or (debug) stops on an overflow; it never panics. -/
theorem lnReduce_outcome [Build] {again : Var → Bool} {R : Int} (hR0 : 0 ≤ R) (hR1 : R ≤ 8000)
    (hC2 : ∀ x, PosVar x → again x = true → 95 / 1000 ≤ |Real.log (value x)|) (sf fuel : Nat) :
    ∀ {x fact : Var} {j : ℕ}, PosVar x → PowOK fact (2 ^ j) → fact.weight ≤ 100 → Budget (10 ^ (-(R + 8))) (value x) j →
      (∃ p, lnReduce again R sf fuel x fact = .ok p ∧ PosVar p.1 ∧ ∃ k, PowOK p.2 (2 ^ k) ∧ p.2.weight ≤ 100 ∧
        Budget (10 ^ (-(R + 8))) (value p.1) k) ∨
      lnReduce again R sf fuel x fact = .error .diverge ∨
      (Build.debug = true ∧ lnReduce again R sf fuel x fact = .error .overflow) := by
  induction fuel with
  | zero => intro x fact j _ _ _ _; exact .inr (.inl rfl)
  | succ fuel ih =>
    intro x fact j hx hf hfw hbud
    rw [lnReduce]
    by_cases hag : again x = true
    · rw [if_pos hag]
      have htd : (x.weight * DEC_DIGITS).tdiv 2 = 2 * x.weight := by
        rw [show x.weight * DEC_DIGITS = (2 * x.weight) * 2 by simp only [DEC_DIGITS]; ring, Int.mul_tdiv_cancel _ (by norm_num)]
      have hw1 := hx.weight_ge
      have hw2 := hx.weight_le
      rw [fits_ok (by rw [htd]; simp only [DEC_DIGITS]; fits_tac), bind_ok]
      rcases sqrtCommon_spec hx (s := max (R - (x.weight * DEC_DIGITS).tdiv 2 + 8) NUMERIC_MIN_DISPLAY_SCALE)
        (by simp only [NUMERIC_MIN_DISPLAY_SCALE]; omega) (by rw [htd]; simp only [NUMERIC_MIN_DISPLAY_SCALE]; omega) sf with
        ⟨u, ρ, eu, -⟩ | e | ⟨h, -⟩ | ⟨hd, e⟩
      · obtain ⟨hu, hlog⟩ := reduce_step hx hR0 hR1 eu
        have two_ok : PowOK two 2 := two_powOK
        obtain ⟨w, ew, hw⟩ := hf.mul two_ok (by omega) (by simp [two]) (s := 0) le_rfl (by norm_num)
        rw [← pow_succ] at hw
        simp only [eu, ew, bind_ok]
        exact ih hu hw (hbud.weight (unit_small (by omega)) (hC2 x hx hag) hw) (hbud.step hlog)
      · right; left
        simp only [e]; rfl
      · exfalso
        have h1 := lt_of_le_of_lt hx.ge h
        rw [B_eq_T, T_zpow_lt_iff] at h1
        rw [htd] at h1
        simp only [NUMERIC_MIN_DISPLAY_SCALE] at h1
        omega
      · right; right
        refine ⟨hd, ?_⟩
        simp only [e]; rfl
    · rw [if_neg hag]
      exact .inl ⟨_, rfl, hx, j, hf, hfw, hbud⟩

/-- `ln_common` of a positive number never panics: it returns, does not terminate, or (debug) stops on an overflow. -/
theorem lnCommon_cases [Build] {a : Var} (ha : PosVar a) {R : Int} (hR0 : 0 ≤ R) (hR1 : R ≤ 5000) (fuel : Nat) :
    (∃ y, lnCommon fuel a R = .ok y) ∨ lnCommon fuel a R = .error .diverge ∨
    (Build.debug = true ∧ lnCommon fuel a R = .error .overflow) := by
  have hun : lnCommon fuel a R = (do
      let (x, fact) ← lnReduce (fun x => cmpCommon x zeroPointNine ≤ 0) R fuel fuel a two
      let (x, fact) ← lnReduce (fun x => cmpCommon x onePointOne ≥ 0) R fuel fuel x fact
      fits [R + 8]
      let num ← subCommon x one
      let den ← addCommon x one
      let z ← divFastCommon num den (R + 8) true
      let z ← expect DIVIDE_BY_ZERO_MSG z
      let zz ← mulCommon z z (R + 8)
      let sum ← lnSeries zz (R + 8) fuel one z z
      mulCommon sum fact R) := by
    unfold lnCommon
    rw [dassert_ok ha.not_nan, dassert_ok ha.cmp_zero_pos]
    rfl
  rcases lnReduce_outcome (again := fun x => cmpCommon x zeroPointNine ≤ 0) hR0 (by omega)
    (fun x hx h => by
      rw [← abs_neg]
      exact (log_nine (by exact_mod_cast hx.pos) (hx.cmp_nine.1 (by simpa using h))).trans (le_abs_self _))
    fuel fuel (j := 1) ha
    (by rw [pow_one]; exact two_powOK) (by simp [two]) (Budget.start ha (by positivity)) with ⟨p, e1, p1, k, p2, p3, p4⟩ | e1 | ⟨hd, e1⟩
  · rcases lnReduce_outcome (again := fun x => cmpCommon x onePointOne ≥ 0) hR0 (by omega)
      (fun x hx h => (log_eleven (hx.cmp_eleven.1 (by simpa using h))).trans (le_abs_self _)) fuel fuel (j := k) p1 p2 p3 p4 with
      ⟨q, e2, -⟩ | e2 | ⟨hd, e2⟩
    · rcases lnCommon_outcome ha hR0 hR1 e1 e2 with ⟨y, h, -⟩ | ⟨h0, h, -⟩ | ⟨-, h⟩
      · exact .inl ⟨y, h⟩
      · exact .inr (.inr ⟨h0, h⟩)
      · exact .inr (.inl h)
    · right; left
      rw [hun, e1]
      simp only [bind_ok, e2]; rfl
    · right; right
      refine ⟨hd, ?_⟩
      rw [hun, e1]
      simp only [bind_ok, e2]; rfl
  · right; left
    rw [hun, e1]; rfl
  · right; right
    refine ⟨hd, ?_⟩
    rw [hun, e1]; rfl

end PgNumeric
