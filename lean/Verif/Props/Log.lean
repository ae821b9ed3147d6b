import Verif.Props.Power
/-!
# Domain of the logarithms (C43)
-/
namespace PgNumeric.Props
open PgNumeric Spec Var

theorem cmpSign_pos {x y : ℚ} : cmpSign x y > 0 ↔ y < x := by
  rcases cmpSign_cases x y with ⟨hc, hl⟩ | ⟨hc, hl⟩ | ⟨hc, hl⟩ <;> rw [hc]
  · exact ⟨fun h => by omega, fun h => by linarith⟩
  · exact ⟨fun h => by omega, fun h => by linarith⟩
  · exact ⟨fun _ => hl, fun _ => by omega⟩

theorem ln_checks [Build] (lm : Libm) (fuel : Nat) {u : Var} (hu : Canonical u) :
    (value u = 0 → Var.ln lm fuel u = .error (.panic "cannot take logarithm of zero")) ∧
    (value u < 0 → Var.ln lm fuel u = .error (.panic "cannot take logarithm of a negative number")) ∧
    (0 < value u → Var.ln lm fuel u = (do
      let w ← estimateLnDweight lm u
      fits [NUMERIC_MIN_SIG_DIGITS - w]
      lnCommon fuel u (min (max (max (NUMERIC_MIN_SIG_DIGITS - w) u.dscale) NUMERIC_MIN_DISPLAY_SCALE)
        NUMERIC_MAX_DISPLAY_SCALE))) := by
  unfold Var.ln
  rw [dassert_ok hu.not_nan, cmp_zero hu]
  simp only [bind_ok, cmpSign_eq_zero, cmpSign_pos]
  refine ⟨fun h => by rw [if_pos h]; rfl, fun h => ?_, fun h => ?_⟩
  · rw [if_neg h.ne, if_pos (by linarith)]; rfl
  · rw [if_neg h.ne', if_neg (by push Not; exact h)]

theorem log_checks [Build] (lm : Libm) (fuel : Nat) {u b : Var} (hu : Canonical u) (hb : Canonical b) :
    (value u = 0 → Var.log lm fuel u b = .error (.panic "cannot take logarithm of zero")) ∧
    (value u < 0 → Var.log lm fuel u b = .error (.panic "cannot take logarithm of a negative number")) ∧
    (0 < value u → value b = 0 → Var.log lm fuel u b = .error (.panic "cannot take logarithm of zero")) ∧
    (0 < value u → value b < 0 → Var.log lm fuel u b = .error (.panic "cannot take logarithm of a negative number")) ∧
    (0 < value u → 0 < value b → Var.log lm fuel u b = logCommon lm fuel u b) := by
  unfold Var.log
  rw [dassert_ok hu.not_nan, dassert_ok hb.not_nan, cmp_zero hu, cmp_zero hb]
  simp only [bind_ok, cmpSign_eq_zero, cmpSign_pos]
  refine ⟨fun h => by rw [if_pos h]; rfl, fun h => ?_, fun h h' => ?_, fun h h' => ?_, fun h h' => ?_⟩
  · rw [if_neg h.ne, if_pos (by linarith)]; rfl
  · rw [if_neg h.ne', if_neg (by push Not; exact h), if_pos h']; rfl
  · rw [if_neg h.ne', if_neg (by push Not; exact h), if_neg h'.ne, if_pos (by linarith)]; rfl
  · rw [if_neg h.ne', if_neg (by push Not; exact h), if_neg h'.ne', if_neg (by push Not; exact h')]

theorem ln_unfold [Build] (lm : Libm) (fuel : Nat) {a : Bin} {u : Var} (ea : Num.asBinary a = .ok ()) (na : a.isNan = false)
    (va : a.asVar = .ok u) : Num.ln lm fuel a = (do let w ← Var.ln lm fuel u; Num.finishNoOverflow w) := by
  unfold Num.ln
  simp only [ea, na, va, bind_ok, Bool.false_eq_true, if_false]

theorem log_unfold [Build] (lm : Libm) (fuel : Nat) {a b : Bin} {u v : Var} (ea : Num.asBinary a = .ok ()) (na : a.isNan = false)
    (va : a.asVar = .ok u) (eb : Num.asBinary b = .ok ()) (nb : b.isNan = false) (vb : b.asVar = .ok v) :
    Num.log lm fuel a b = (do let w ← Var.log lm fuel u v; Num.finishNoOverflow w) := by
  unfold Num.log
  simp only [ea, na, va, eb, nb, vb, bind_ok, Bool.false_eq_true, or_self, if_false]

/-- C43: the natural logarithm of zero and of a negative number panics with the documented message. -/
theorem C43_ln_domain [Build] (lm : Libm) (fuel : Nat) {a : Bin} {x : ℚ} {s : Int} (ha : Holds a x s) (hx : x ≤ 0) :
    Num.ln lm fuel a = .error (.panic (if x = 0 then "cannot take logarithm of zero"
      else "cannot take logarithm of a negative number")) := by
  obtain ⟨u, hu, rfl, rfl, ea, na, va⟩ := ha.exists_var
  rw [ln_unfold lm fuel ea na va]
  obtain ⟨h1, h2, -⟩ := ln_checks lm fuel hu
  by_cases h : value u = 0
  · rw [if_pos h, h1 h]; rfl
  · rw [if_neg h, h2 (lt_of_le_of_ne hx h)]; rfl

/-- C43: `log` to any base checks its argument first, then the base. -/
theorem C43_log_domain [Build] (lm : Libm) (fuel : Nat) {a b : Bin} {x y : ℚ} {s t : Int} (ha : Holds a x s)
    (hb : Holds b y t) (h : x ≤ 0 ∨ y ≤ 0) :
    Num.log lm fuel a b = .error (.panic (if x = 0 ∨ (0 < x ∧ y = 0) then "cannot take logarithm of zero"
      else "cannot take logarithm of a negative number")) := by
  obtain ⟨u, hu, rfl, rfl, ea, na, va⟩ := ha.exists_var
  obtain ⟨v, hv, rfl, rfl, eb, nb, vb⟩ := hb.exists_var
  rw [log_unfold lm fuel ea na va eb nb vb]
  obtain ⟨h1, h2, h3, h4, -⟩ := log_checks lm fuel hu hv
  rcases lt_trichotomy (value u) 0 with hu0 | hu0 | hu0
  · rw [if_neg (by rintro (h | h); · linarith
                   · linarith [h.1]), h2 hu0]; rfl
  · rw [if_pos (.inl hu0), h1 hu0]; rfl
  · rcases lt_trichotomy (value v) 0 with hv0 | hv0 | hv0
    · rw [if_neg (by rintro (h | h); · linarith
                     · linarith [h.2]), h4 hu0 hv0]; rfl
    · rw [if_pos (.inr ⟨hu0, hv0⟩), h3 hu0 hv0]; rfl
    · exfalso; rcases h with h | h <;> linarith

theorem two_canonical : Canonical Var.two where
  not_nan := by simp [Var.two]
  digits := by intro d hd; simp [Var.two] at hd; subst hd; norm_num
  stripped := by simp [Stripped, Var.two]
  weight_le := by simp [Var.two]
  dscale_nonneg := by simp [Var.two]
  dscale_le := by simp [Var.two]
  scale := ⟨2, by simp [value, mag, Var.two]⟩

theorem ten_canonical : Canonical Var.ten where
  not_nan := by simp [Var.ten]
  digits := by intro d hd; simp [Var.ten] at hd; subst hd; norm_num
  stripped := by simp [Stripped, Var.ten]
  weight_le := by simp [Var.ten]
  dscale_nonneg := by simp [Var.ten]
  dscale_le := by simp [Var.ten]
  scale := ⟨10, by simp [value, mag, Var.ten]⟩

/-- C43: `log2` and `log10` of zero and of a negative number panic with the documented message. -/
theorem C43_log2_log10_domain [Build] (lm : Libm) (fuel : Nat) {a : Bin} {x : ℚ} {s : Int} (ha : Holds a x s) (hx : x ≤ 0) :
    Num.log2 lm fuel a = .error (.panic (if x = 0 then "cannot take logarithm of zero"
      else "cannot take logarithm of a negative number")) ∧
    Num.log10 lm fuel a = .error (.panic (if x = 0 then "cannot take logarithm of zero"
      else "cannot take logarithm of a negative number")) := by
  obtain ⟨u, hu, rfl, rfl, ea, na, va⟩ := ha.exists_var
  unfold Num.log2 Num.log10
  simp only [ea, na, va, bind_ok, Bool.false_eq_true, if_false]
  obtain ⟨h1, h2, -⟩ := log_checks lm fuel hu two_canonical
  obtain ⟨h3, h4, -⟩ := log_checks lm fuel hu ten_canonical
  by_cases h : value u = 0
  · rw [if_pos h, h1 h, h3 h]; exact ⟨rfl, rfl⟩
  · have h' := lt_of_le_of_ne hx h
    rw [if_neg h, h2 h', h4 h']; exact ⟨rfl, rfl⟩

/-- C43: NaN in, NaN out. -/
theorem C43_nan [Build] (lm : Libm) (fuel : Nat) {a : Bin} (ha : IsNaN a) :
    (∃ r, Num.ln lm fuel a = .ok r ∧ IsNaN r) ∧ (∃ r, Num.log2 lm fuel a = .ok r ∧ IsNaN r) ∧
    (∃ r, Num.log10 lm fuel a = .ok r ∧ IsNaN r) ∧
    (∀ {b : Bin} {k : WithTop ℚ}, Denotes b k → (∃ r, Num.log lm fuel a b = .ok r ∧ IsNaN r) ∧
      ∃ r, Num.log lm fuel b a = .ok r ∧ IsNaN r) := by
  obtain ⟨ea, na, va⟩ := ha.facts
  have hn := Num.nan_ok
  unfold Num.ln Num.log2 Num.log10 Num.log
  simp only [ea, na, bind_ok, if_true, true_or, or_true]
  refine ⟨⟨_, hn, nan_isNaN⟩, ⟨_, hn, nan_isNaN⟩, ⟨_, hn, nan_isNaN⟩, ?_⟩
  rintro b k hb
  have eb : Num.asBinary b = .ok () := by
    rcases hb with ⟨hb, -⟩ | ⟨y, t, hb, -⟩
    · exact hb.facts.1
    · obtain ⟨-, -, -, -, eb, -⟩ := hb.exists_var; exact eb
  simp only [eb, bind_ok]
  exact ⟨⟨_, hn, nan_isNaN⟩, ⟨_, hn, nan_isNaN⟩⟩

example [Build] : ∃ a b : Bin, Holds a 0 2 ∧ Holds b (-5) 0 := by
  obtain ⟨a, ha⟩ := witness (x := 0) (s := 2) 0 (by norm_num) (by norm_num) (by norm_num) (by norm_num)
  obtain ⟨b, hb⟩ := witness (x := -5) (s := 0) (-5) (by norm_num) (by norm_num) (by norm_num) (by norm_num [abs_lt])
  exact ⟨a, b, ha, hb⟩

/-! ## The logarithm of one -/

theorem one_scaled {u : Var} (hu : Canonical u) (h : value u = 1) : u = { one with dscale := u.dscale } := by
  refine hu.unique (b := { one with dscale := u.dscale }) ?_ ?_ rfl
  · exact ⟨by simp [one], one_canonical.digits, by simp [Stripped, one], by simp [one], hu.dscale_nonneg, hu.dscale_le, by
      have := hu.scale; rw [h] at this; simpa [value, mag, one] using this⟩
  · rw [h]; simp [value, mag, one]

theorem divFast_zero [Build] {b : Var} {s t : Int} {v0 : Int} {vs : List Int} (hb : b.digits = v0 :: vs) (h0 : v0 ≠ 0)
    (hn : b.sign ≠ .nan) (hs0 : 0 ≤ s) (hs1 : s ≤ 16383) (rnd : Bool) :
    divFastCommon ⟨0, t, .pos, []⟩ b s rnd = .ok (some ⟨0, s, .pos, []⟩) := by
  unfold divFastCommon
  rw [dassert_ok (by simp), dassert_ok hn, hb]
  simp only [bind_ok]
  rw [if_neg h0, if_pos (by simp [ndigits]), zeroScaled_ok hs0 hs1]; rfl

theorem mul_zero_left [Build] {b : Var} {s t : Int} (hn : b.sign ≠ .nan) (hs0 : 0 ≤ s) (hs1 : s ≤ 16383) :
    mulCommon ⟨0, t, .pos, []⟩ b s = .ok ⟨0, s, .pos, []⟩ := by
  unfold mulCommon
  rw [dassert_ok (by simp), dassert_ok hn]
  simp only [bind_ok]
  rw [if_pos ?_, zeroScaled_ok hs0 hs1]
  by_cases h : (⟨0, t, .pos, []⟩ : Var).ndigits > b.ndigits
  · simp [ndigits] at h
    omega
  · left; rw [if_neg h]; simp [ndigits]

theorem cmp_one {t : Int} : cmpCommon { one with dscale := t } zero = 1 ∧
    cmpCommon { one with dscale := t } zeroPointNine = 1 ∧ cmpCommon { one with dscale := t } onePointOne = -1 := by
  have hc : ∀ y : Var, Digits y.digits → y.sign ≠ .nan → (y.digits ≠ [] → 0 < mag y.digits y.weight) →
      cmpCommon { one with dscale := t } y = cmpSign 1 (value y) := by
    intro y h1 h2 h3
    have := cmpCommon_spec { one with dscale := t } y one_canonical.digits h1 one_canonical.not_nan h2
      (fun _ => by simp [mag, one]) h3
    have hv : value { one with dscale := t } = 1 := by simp [value, mag, one]
    rw [hv] at this; exact this
  have h0 : cmpCommon { one with dscale := t } zero = 1 := by
    rw [hc zero zero_canonical.digits zero_canonical.not_nan (fun h => absurd rfl h), zero_value]; norm_num [cmpSign]
  have h9 : cmpCommon { one with dscale := t } zeroPointNine = 1 := by
    rw [hc zeroPointNine (by intro d hd; simp [zeroPointNine] at hd; subst hd; norm_num) (by simp [zeroPointNine])
      (fun _ => by simp [mag, zeroPointNine])]
    have : value zeroPointNine = 9 / 10 := by simp [value, mag, zeroPointNine]; norm_num
    rw [this]; norm_num [cmpSign]
  have h11 : cmpCommon { one with dscale := t } onePointOne = -1 := by
    rw [hc onePointOne (by intro d hd; simp [onePointOne] at hd; omega) (by simp [onePointOne])
      (fun _ => by simp [mag, onePointOne]; norm_num)]
    have : value onePointOne = 11 / 10 := by simp [value, mag, onePointOne]; norm_num
    rw [this]; norm_num [cmpSign]
  exact ⟨h0, h9, h11⟩

/-- `ln_common` of one. -/
theorem lnCommon_one [Build] {t s : Int} (ht0 : 0 ≤ t) (ht1 : t ≤ 16383) (hs0 : 0 ≤ s) (hs1 : s ≤ 16000) (fuel : Nat) :
    lnCommon (fuel + 1) { one with dscale := t } s = .ok ⟨0, s, .pos, []⟩ := by
  obtain ⟨h0, h9, h11⟩ := cmp_one (t := t)
  unfold lnCommon
  rw [dassert_ok one_canonical.not_nan, dassert_ok (by rw [h0]; norm_num)]
  have e1 : lnReduce (fun x => cmpCommon x zeroPointNine ≤ 0) s (fuel + 1) (fuel + 1) { one with dscale := t } two =
      .ok ({ one with dscale := t }, two) := by
    unfold lnReduce
    rw [if_neg (by rw [h9]; decide)]; rfl
  have e2 : lnReduce (fun x => cmpCommon x onePointOne ≥ 0) s (fuel + 1) (fuel + 1) { one with dscale := t } two =
      .ok ({ one with dscale := t }, two) := by
    unfold lnReduce
    rw [if_neg (by rw [h11]; decide)]; rfl
  simp only [bind_ok, e1, e2]
  rw [fits_ok (by fits_tac), bind_ok]
  obtain ⟨x, ex, hx⟩ := subCommon_spec { one with dscale := t } one ⟨by simp [one], by simp [one], by simp [one]⟩ one_small one_canonical.digits one_canonical.digits
    one_canonical.not_nan one_canonical.not_nan (by simp [SignOK, one]) ⟨ht0, ht1⟩ ⟨by simp [one], by simp [one]⟩
  have hx' : ∃ q, x = ⟨0, q, .pos, []⟩ := by
    have hd := (stripped_zero_iff hx.digits hx.stripped).1 (by rw [hx.value]; simp [value, mag, one])
    obtain ⟨h1, h2⟩ := hx.stripped.2.2 hd
    refine ⟨x.dscale, ?_⟩
    cases x; simp only at h1 h2 hd; subst h1 h2 hd; rfl
  obtain ⟨q, rfl⟩ := hx'
  obtain ⟨y, ey, hy⟩ := addCommon_spec { one with dscale := t } one ⟨by simp [one], by simp [one], by simp [one]⟩ one_small one_canonical.digits one_canonical.digits
    one_canonical.not_nan one_canonical.not_nan (by simp [SignOK, one]) ⟨ht0, ht1⟩ ⟨by simp [one], by simp [one]⟩
  have hy2 : value y = 2 := by rw [hy.value]; simp [value, mag, one]; norm_num
  have hyne : y.digits ≠ [] := fun h => by
    have := (stripped_zero_iff hy.digits hy.stripped).2 h
    rw [hy2] at this; norm_num at this
  obtain ⟨y0, ys, hyd⟩ := List.exists_cons_of_ne_nil hyne
  have hy0 : y0 ≠ 0 := by have := hy.stripped.1; rw [hyd] at this; simpa using this
  have hthree : addCommon one two = .ok ⟨0, 0, .pos, [3]⟩ := by
    show @addCommon ⟨Build.debug, Build.bigEndianVarlen⟩ _ _ = _
    generalize Build.debug = d
    generalize Build.bigEndianVarlen = e
    cases d <;> cases e <;> decide +kernel
  simp only [ex, ey, bind_ok]
  rw [divFast_zero hyd hy0 hy.not_nan (by omega) (by omega)]
  simp only [bind_ok, expect, pure_ok]
  rw [mul_zero_left (by simp) (by omega) (by omega)]
  simp only [bind_ok]
  unfold lnSeries
  simp only [hthree, bind_ok]
  rw [mul_zero_left (by simp) (by omega) (by omega)]
  simp only [bind_ok]
  rw [divFast_zero rfl (by norm_num) (by simp) (by omega) (by omega)]
  simp only [bind_ok, expect, pure_ok]
  rw [if_pos (by simp [ndigits])]
  simp only [bind_ok]
  exact mul_zero_left (by simp [two]) hs0 (by omega)

theorem estimate_one [Build] (lm : Libm) {t : Int} (ht0 : 0 ≤ t) (ht1 : t ≤ 16383) :
    estimateLnDweight lm { one with dscale := t } = .ok 0 := by
  unfold estimateLnDweight
  rw [dassert_ok one_canonical.not_nan]
  simp only [bind_ok]
  have hc : cmpCommon { one with dscale := t } zeroPointNine ≥ 0 ∧ cmpCommon { one with dscale := t } onePointOne ≤ 0 := by
    obtain ⟨-, h9, h11⟩ := cmp_one (t := t)
    rw [h9, h11]; decide
  rw [if_pos hc]
  obtain ⟨x, ex, hx⟩ := subCommon_spec { one with dscale := t } one ⟨by simp [one], by simp [one], by simp [one]⟩ one_small one_canonical.digits one_canonical.digits
    one_canonical.not_nan one_canonical.not_nan (by simp [SignOK, one]) ⟨ht0, ht1⟩ ⟨by simp [one], by simp [one]⟩
  have hd := (stripped_zero_iff hx.digits hx.stripped).1 (by rw [hx.value]; simp [value, mag, one])
  simp only [ex, bind_ok, hd]; rfl

/-- C43: `ln(1)` is 0, at the scale of the operand but at least 16 and at most 1000. -/
theorem C43_ln_one [Build] (lm : Libm) (fuel : Nat) {a : Bin} {s : Int} (ha : Holds a 1 s) :
    ∃ r, Num.ln lm (fuel + 1) a = .ok r ∧ Holds r 0 (powerScale s) := by
  obtain ⟨u, hu, hux, rfl, ea, na, va⟩ := ha.exists_var
  obtain ⟨p0, p1⟩ := powerScale_bounds hu.dscale_nonneg
  rw [ln_unfold lm _ ea na va, (ln_checks lm _ hu).2.2 (by rw [hux]; norm_num)]
  have h1 := one_scaled hu hux
  have h2 : estimateLnDweight lm u = .ok 0 := by
    rw [h1]; exact estimate_one lm hu.dscale_nonneg hu.dscale_le
  have h3 : lnCommon (fuel + 1) u (powerScale u.dscale) = .ok ⟨0, powerScale u.dscale, .pos, []⟩ := by
    have := lnCommon_one (t := u.dscale) (s := powerScale u.dscale) hu.dscale_nonneg hu.dscale_le (by omega) (by omega) fuel
    rw [← h1] at this; exact this
  have h4 : min (max (max (NUMERIC_MIN_SIG_DIGITS - 0) u.dscale) NUMERIC_MIN_DISPLAY_SCALE) NUMERIC_MAX_DISPLAY_SCALE =
      powerScale u.dscale := by
    unfold powerScale
    simp only [NUMERIC_MIN_SIG_DIGITS, NUMERIC_MIN_DISPLAY_SCALE, NUMERIC_MAX_DISPLAY_SCALE]; omega
  simp only [h2, bind_ok, h4]
  rw [fits_ok (by fits_tac), bind_ok, h3, bind_ok]
  exact Num.finishNoOverflow_spec Digits.nil (by simp) rfl (by simp [value]) (by omega) (by omega) ⟨0, by simp⟩
    (lt_limit (by norm_num)) (Small.stripM ⟨by simp, by simp, by simp⟩)

example [Build] (lm : Libm) : ∃ a r, Holds a 1 20 ∧ Num.ln lm 1 a = .ok r ∧ Holds r 0 20 := by
  obtain ⟨a, ha⟩ := witness (x := 1) (s := 20) (10 ^ 20) (by norm_num) (by norm_num) (by norm_num) (by norm_num [abs_lt])
  obtain ⟨r, e, h⟩ := C43_ln_one lm 0 ha
  exact ⟨a, r, ha, e, h⟩

theorem dassert_cases [Build] (c : Prop) [Decidable c] : dassert c = .ok () ∨ ∃ f, dassert c = .error f := by
  unfold dassert
  split
  · exact .inr ⟨_, rfl⟩
  · exact .inl rfl

theorem zeroScaled_cases [Build] (s : Int) : zeroScaled s = .ok ⟨0, s, .pos, []⟩ ∨ ∃ f, zeroScaled s = .error f := by
  unfold zeroScaled
  rcases dassert_cases (s ≥ 0 ∧ s ≤ NUMERIC_DSCALE_MAX) with h | ⟨f, h⟩ <;> rw [h]
  · exact .inl rfl
  · exact .inr ⟨f, rfl⟩

theorem divFast_zero' [Build] {b : Var} {s t : Int} {v0 : Int} {vs : List Int} (hb : b.digits = v0 :: vs) (h0 : v0 ≠ 0)
    (hn : b.sign ≠ .nan) (rnd : Bool) :
    divFastCommon ⟨0, t, .pos, []⟩ b s rnd = .ok (some ⟨0, s, .pos, []⟩) ∨
    ∃ f, divFastCommon ⟨0, t, .pos, []⟩ b s rnd = .error f := by
  unfold divFastCommon
  rw [dassert_ok (by simp), dassert_ok hn, hb]
  simp only [bind_ok]
  rw [if_neg h0, if_pos (by simp [ndigits])]
  rcases zeroScaled_cases s with h | ⟨f, h⟩ <;> rw [h]
  · exact .inl rfl
  · exact .inr ⟨f, rfl⟩

theorem mul_zero_left' [Build] {b : Var} {s t : Int} (hn : b.sign ≠ .nan) :
    mulCommon ⟨0, t, .pos, []⟩ b s = .ok ⟨0, s, .pos, []⟩ ∨ ∃ f, mulCommon ⟨0, t, .pos, []⟩ b s = .error f := by
  unfold mulCommon
  rw [dassert_ok (by simp), dassert_ok hn]
  simp only [bind_ok]
  rw [if_pos ?_]
  · exact zeroScaled_cases s
  by_cases h : (⟨0, t, .pos, []⟩ : Var).ndigits > b.ndigits
  · simp [ndigits] at h
    omega
  · left; rw [if_neg h]; simp [ndigits]

/-- The first step of the series at zero. -/
theorem lnSeries_zero [Build] (l : Int) (fuel : Nat) :
    lnSeries ⟨0, l, .pos, []⟩ l (fuel + 1) one ⟨0, l, .pos, []⟩ ⟨0, l, .pos, []⟩ = .ok ⟨0, l, .pos, []⟩ ∨
    ∃ f, lnSeries ⟨0, l, .pos, []⟩ l (fuel + 1) one ⟨0, l, .pos, []⟩ ⟨0, l, .pos, []⟩ = .error f := by
  have hthree : addCommon one two = .ok ⟨0, 0, .pos, [3]⟩ := by
    show @addCommon ⟨Build.debug, Build.bigEndianVarlen⟩ _ _ = _
    generalize Build.debug = d
    generalize Build.bigEndianVarlen = e
    cases d <;> cases e <;> decide +kernel
  unfold lnSeries
  simp only [hthree, bind_ok]
  rcases mul_zero_left' (b := ⟨0, l, .pos, []⟩) (s := l) (t := l) (by simp) with h | ⟨f, h⟩
  swap
  · rw [h]; exact .inr ⟨f, rfl⟩
  simp only [h, bind_ok]
  rcases divFast_zero' (b := ⟨0, 0, .pos, [3]⟩) (s := l) (t := l) rfl (by norm_num) (by simp) true with h | ⟨f, h⟩
  swap
  · rw [h]; exact .inr ⟨f, rfl⟩
  simp only [h, bind_ok, expect, pure_ok]
  rw [if_pos (by simp [ndigits])]
  exact .inl rfl

/-- `ln_common` of one at any scale is zero or a fault. -/
theorem lnCommon_one' [Build] {t s : Int} (ht0 : 0 ≤ t) (ht1 : t ≤ 16383) (fuel : Nat) :
    lnCommon fuel { one with dscale := t } s = .ok ⟨0, s, .pos, []⟩ ∨
    ∃ f, lnCommon fuel { one with dscale := t } s = .error f := by
  obtain ⟨h0, h9, h11⟩ := cmp_one (t := t)
  unfold lnCommon
  rw [dassert_ok one_canonical.not_nan, dassert_ok (by rw [h0]; norm_num)]
  cases fuel with
  | zero => exact .inr ⟨_, rfl⟩
  | succ fuel =>
    have e1 : lnReduce (fun x => cmpCommon x zeroPointNine ≤ 0) s (fuel + 1) (fuel + 1) { one with dscale := t } two =
        .ok ({ one with dscale := t }, two) := by
      unfold lnReduce
      rw [if_neg (by rw [h9]; decide)]; rfl
    have e2 : lnReduce (fun x => cmpCommon x onePointOne ≥ 0) s (fuel + 1) (fuel + 1) { one with dscale := t } two =
        .ok ({ one with dscale := t }, two) := by
      unfold lnReduce
      rw [if_neg (by rw [h11]; decide)]; rfl
    simp only [bind_ok, e1, e2]
    rcases hf : fits [s + 8] with f | _
    · exact .inr ⟨f, rfl⟩
    rw [bind_ok]
    obtain ⟨x, ex, hx⟩ := subCommon_spec { one with dscale := t } one ⟨by simp [one], by simp [one], by simp [one]⟩ one_small one_canonical.digits one_canonical.digits
      one_canonical.not_nan one_canonical.not_nan (by simp [SignOK, one]) ⟨ht0, ht1⟩ ⟨by simp [one], by simp [one]⟩
    have hx' : ∃ q, x = ⟨0, q, .pos, []⟩ := by
      have hd := (stripped_zero_iff hx.digits hx.stripped).1 (by rw [hx.value]; simp [value, mag, one])
      obtain ⟨h1, h2⟩ := hx.stripped.2.2 hd
      refine ⟨x.dscale, ?_⟩
      cases x; simp only at h1 h2 hd; subst h1 h2 hd; rfl
    obtain ⟨q, rfl⟩ := hx'
    obtain ⟨y, ey, hy⟩ := addCommon_spec { one with dscale := t } one ⟨by simp [one], by simp [one], by simp [one]⟩ one_small one_canonical.digits one_canonical.digits
      one_canonical.not_nan one_canonical.not_nan (by simp [SignOK, one]) ⟨ht0, ht1⟩ ⟨by simp [one], by simp [one]⟩
    have hy2 : value y = 2 := by rw [hy.value]; simp [value, mag, one]; norm_num
    have hyne : y.digits ≠ [] := fun h => by
      have := (stripped_zero_iff hy.digits hy.stripped).2 h
      rw [hy2] at this; norm_num at this
    obtain ⟨y0, ys, hyd⟩ := List.exists_cons_of_ne_nil hyne
    have hy0 : y0 ≠ 0 := by have := hy.stripped.1; rw [hyd] at this; simpa using this
    simp only [ex, ey, bind_ok]
    rcases divFast_zero' (s := s + 8) (t := q) hyd hy0 hy.not_nan true with h | ⟨f, h⟩
    swap
    · rw [h]; exact .inr ⟨f, rfl⟩
    simp only [h, bind_ok, expect, pure_ok]
    rcases mul_zero_left' (b := ⟨0, s + 8, .pos, []⟩) (s := s + 8) (t := s + 8) (by simp) with h | ⟨f, h⟩
    swap
    · rw [h]; exact .inr ⟨f, rfl⟩
    simp only [h, bind_ok]
    rcases lnSeries_zero (s + 8) fuel with h | ⟨f, h⟩
    swap
    · rw [h]; exact .inr ⟨f, rfl⟩
    simp only [h, bind_ok]
    exact mul_zero_left' (by simp [two])

/-- C43: a logarithm to base 1 never returns a result: it panics, or hangs computing the logarithm of its argument. -/
theorem C43_log_base_one [Build] (lm : Libm) (fuel : Nat) {a b : Bin} {x : ℚ} {s t : Int} (ha : Holds a x s)
    (hb : Holds b 1 t) (r : Bin) : Num.log lm fuel a b ≠ .ok r := by
  obtain ⟨u, hu, rfl, rfl, ea, na, va⟩ := ha.exists_var
  obtain ⟨v, hv, hvx, rfl, eb, nb, vb⟩ := hb.exists_var
  by_cases hx : value u ≤ 0
  · rw [C43_log_domain lm fuel ha hb (.inl hx)]; exact fun h => by cases h
  push Not at hx
  rw [log_unfold lm fuel ea na va eb nb vb, (log_checks lm fuel hu hv).2.2.2.2 hx (by rw [hvx]; norm_num)]
  have h1 := one_scaled hv hvx
  have h2 : estimateLnDweight lm v = .ok 0 := by
    rw [h1]; exact estimate_one lm hv.dscale_nonneg hv.dscale_le
  intro hr
  unfold logCommon at hr
  rw [dassert_ok hu.not_nan, dassert_ok hv.not_nan, dassert_ok (by rw [cmp_zero hu, cmpSign_pos]; exact hx)] at hr
  simp only [bind_ok, h2] at hr
  rcases hw : estimateLnDweight lm u with f | w
  · rw [hw] at hr; cases hr
  simp only [hw, bind_ok] at hr
  rcases hi : i32 (w - 0) with f | q
  · rw [hi] at hr; cases hr
  simp only [hi, bind_ok] at hr
  generalize fits _ = o at hr
  rcases o with f | _
  · cases hr
  simp only [bind_ok] at hr
  generalize (max (min (max (max (max (NUMERIC_MIN_SIG_DIGITS - q) v.dscale) u.dscale) NUMERIC_MIN_DISPLAY_SCALE)
    NUMERIC_MAX_DISPLAY_SCALE + q - 0 + 8) NUMERIC_MIN_DISPLAY_SCALE) = S at hr
  have hone := lnCommon_one' (t := v.dscale) (s := S) hv.dscale_nonneg hv.dscale_le fuel
  rw [← h1] at hone
  rcases hone with h | ⟨f, h⟩
  swap
  · rw [h] at hr; cases hr
  simp only [h, bind_ok] at hr
  generalize lnCommon fuel u _ = o at hr
  rcases o with f | y
  · cases hr
  simp only [bind_ok] at hr
  unfold divFastCommon at hr
  rcases dassert_cases (y.sign ≠ .nan) with h | ⟨f, h⟩
  swap
  · rw [h] at hr; cases hr
  rw [h, dassert_ok (by simp)] at hr
  simp only [bind_ok, pure_ok, expect] at hr
  cases hr

example [Build] : ∃ a b : Bin, Holds a 7 0 ∧ Holds b 1 0 := by
  obtain ⟨a, ha⟩ := witness (x := 7) (s := 0) 7 (by norm_num) (by norm_num) (by norm_num) (by norm_num [abs_lt])
  obtain ⟨b, hb⟩ := witness (x := 1) (s := 0) 1 (by norm_num) (by norm_num) (by norm_num) (by norm_num [abs_lt])
  exact ⟨a, b, ha, hb⟩

end PgNumeric.Props
