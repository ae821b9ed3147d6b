import Verif.Props.DivLaws
import Verif.Props.Sqrt
import Verif.Props.SqrtTotal
import Verif.Props.Ln
import Verif.Props.LogAcc
import Verif.Props.Exp
import Verif.Props.PowReal
/-!
# Roots, logarithms, exponentials and powers never end up on the wrong side of a number (C65)
-/
namespace PgNumeric.Props
open PgNumeric Spec

/-- `z` is a number of `q` decimals, and no number of `q` decimals lies strictly between `z` and the exact value `v`: `z` is `v` itself, or one of its two
neighbours. -/
def Faithful (z : ℚ) (v : ℝ) (q : ℤ) : Prop :=
  HasScale z q ∧ ∀ g : ℚ, HasScale g q → ((g:ℝ) ≤ v → g ≤ z) ∧ (v ≤ g → z ≤ g)

/-- Different numbers of `q` decimals are a unit of that scale apart. -/
theorem scale_gap {a b : ℚ} {q : ℤ} (ha : HasScale a q) (hb : HasScale b q) (h : a < b) : a + 10 ^ (-q) ≤ b := by
  obtain ⟨n, hn⟩ := hb.sub ha
  have hT := T_zpow_pos q
  have h1 : (0:ℚ) < n := by rw [← hn]; exact mul_pos (sub_pos.2 h) hT
  have h2 : (1:ℚ) ≤ n := by exact_mod_cast h1
  rw [← hn] at h2
  have h3 : (10:ℚ) ^ (-q) ≤ b - a := by
    rw [zpow_neg, inv_eq_one_div, div_le_iff₀ hT]; exact h2
  linarith

theorem scale_gapR {a b : ℚ} {q : ℤ} (ha : HasScale a q) (hb : HasScale b q) (h : a < b) : (a:ℝ) + 10 ^ (-q) ≤ b := by
  have := (Rat.cast_le (K := ℝ)).2 (scale_gap ha hb h)
  push_cast at this
  exact this

theorem faithful_of {z : ℚ} {v m : ℝ} {q : ℤ} (hz : HasScale z q) (hm : m < 1) (h : |(z:ℝ) - v| ≤ m * 10 ^ (-q)) : Faithful z v q := by
  have hT : (0:ℝ) < 10 ^ (-q) := by positivity
  have h' := abs_le.1 h
  refine ⟨hz, fun g hg => ⟨fun hgv => ?_, fun hgv => ?_⟩⟩ <;> by_contra hlt <;> rw [not_le] at hlt
  · have := scale_gapR hz hg hlt
    nlinarith
  · have := scale_gapR hg hz hlt
    nlinarith

theorem unit_scale (q : ℤ) : HasScale ((10:ℚ) ^ (-q)) q :=
  ⟨1, by rw [zpow_neg, inv_mul_cancel₀ (T_zpow_pos q).ne']; norm_num⟩

/-- Faithful results of the same scale keep the order up to one unit, and keep it exactly when a number of that scale separates the exact values. -/
theorem faithful_order {z z' : ℚ} {v v' : ℝ} {q : ℤ} (hz : Faithful z v q) (hz' : Faithful z' v' q) (hv : v ≤ v') :
    z ≤ z' + 10 ^ (-q) ∧ ((∃ g : ℚ, HasScale g q ∧ v ≤ g ∧ (g:ℝ) ≤ v') → z ≤ z') := by
  refine ⟨?_, fun ⟨g, hg, h1, h2⟩ => ((hz.2 g hg).2 h1).trans ((hz'.2 g hg).1 h2)⟩
  have hg : HasScale (z' + 10 ^ (-q)) q := hz'.1.add (unit_scale q)
  refine (hz.2 _ hg).2 ?_
  by_contra hlt
  rw [not_le] at hlt
  have h1 := (hz'.2 _ hg).1 (hlt.le.trans hv)
  have := T_zpow_pos (-q)
  linarith

theorem one_scale {q : ℤ} (h : 0 ≤ q) : HasScale (1:ℚ) q := HasScale.mono (s := 0) ⟨1, by norm_num⟩ h

/-- C65: the square root, when it returns, is the exact root or one of its neighbours among the numbers of its scale. -/
theorem C65_sqrt_faithful [Build] {a r : Bin} {x : ℚ} {s : ℤ} {fuel : ℕ} (ha : Holds a x s) (hx : 0 ≤ x) (hr : Num.sqrt fuel a = .ok r) :
    ∃ y q, Holds r y q ∧ Faithful y √(x:ℝ) q := by
  obtain ⟨y, h, hy⟩ := C34_sqrt_accuracy ha hx hr
  exact ⟨y, _, h, faithful_of h.bounds.1 (by norm_num) hy⟩

/-- C65: the natural logarithm of a number between `10^-950` and `10^950`, when it returns. -/
theorem C65_ln_faithful [Build] (lm : Libm) {a r : Bin} {x : ℚ} {s : ℤ} {fuel : ℕ} (ha : Holds a x s) (hx : 0 < x)
    (hL : |Real.log x| ≤ 2200) (hr : Num.ln lm fuel a = .ok r) : ∃ y q, Holds r y q ∧ Faithful y (Real.log x) q := by
  obtain ⟨y, t, h, h1, h2, hy⟩ := C49_ln_accuracy lm fuel ha hx hr
  refine ⟨y, t, h, faithful_of h.bounds.1 ?_ hy⟩
  have ht : (t:ℝ) ≤ 1000 := by exact_mod_cast h2
  have ht0 : (0:ℝ) ≤ t := by exact_mod_cast h.bounds.2.1
  have hm : max 1 (22 * |Real.log (x:ℝ)|) ≤ 48400 := max_le (by norm_num) (by linarith)
  have hm0 : 0 ≤ max 1 (22 * |Real.log (x:ℝ)|) := le_trans zero_le_one (le_max_left _ _)
  nlinarith

/-- C65: the sign of the natural logarithm is right for every argument. -/
theorem C65_ln_sign [Build] (lm : Libm) {a r : Bin} {x : ℚ} {s : ℤ} {fuel : ℕ} (ha : Holds a x s) (hx : 0 < x)
    (hr : Num.ln lm fuel a = .ok r) : ∃ y q, Holds r y q ∧ (1 ≤ x → 0 ≤ y) ∧ (x ≤ 1 → y ≤ 0) := by
  have hxR : (0:ℝ) < x := by exact_mod_cast hx
  rcases le_or_gt |Real.log (x:ℝ)| 2200 with hL | hL
  · obtain ⟨y, q, h, hy⟩ := C65_ln_faithful lm ha hx hL hr
    refine ⟨y, q, h, fun h1 => (hy.2 0 (zero_scale q)).1 ?_, fun h1 => (hy.2 0 (zero_scale q)).2 ?_⟩
    · push_cast; exact Real.log_nonneg (by exact_mod_cast h1)
    · push_cast; exact Real.log_nonpos hxR.le (by exact_mod_cast h1)
  · obtain ⟨y, t, h, h1, h2, hy⟩ := C49_ln_accuracy lm fuel ha hx hr
    have ht : (t:ℝ) ≤ 1000 := by exact_mod_cast h2
    have ht0 := h.bounds.2.1
    have ht0' : (0:ℝ) ≤ t := by exact_mod_cast ht0
    have hu : (10:ℝ) ^ (-t) ≤ 1 := zpow_le_one_of_nonpos₀ (by norm_num) (by omega)
    rw [max_eq_right (by linarith)] at hy
    have hb : |(y:ℝ) - Real.log x| ≤ |Real.log (x:ℝ)| / 2 := by
      have e1 : (1 / 2 + (t + 10) * (22 * |Real.log (x:ℝ)|) / 10 ^ 8) ≤ |Real.log (x:ℝ)| / 2 := by nlinarith
      have e0 : 0 ≤ (1 / 2 + ((t:ℝ) + 10) * (22 * |Real.log (x:ℝ)|) / 10 ^ 8) := by positivity
      exact hy.trans ((mul_le_of_le_one_right e0 hu).trans e1)
    rw [abs_le] at hb
    refine ⟨y, t, h, fun h1 => ?_, fun h1 => ?_⟩
    · have hl := Real.log_nonneg (x := x) (by exact_mod_cast h1)
      rw [abs_of_nonneg hl] at hb
      have : (0:ℝ) ≤ y := by linarith [hb.1]
      exact_mod_cast this
    · have hl := Real.log_nonpos hxR.le (by exact_mod_cast h1)
      rw [abs_of_nonpos hl] at hb
      have : (y:ℝ) ≤ 0 := by linarith [hb.2]
      exact_mod_cast this

/-- C65: logarithms to another base, when they return. -/
theorem C65_log_faithful [Build] {lm : Libm} (hl : LibmOK lm) {fuel : ℕ} {a b r : Bin} {x y : ℚ} {s t : ℤ} (ha : Holds a x s)
    (hb : Holds b y t) (hx : 0 < x) (hy : 0 < y) (hx1 : x = 1 ∨ (10:ℚ) ^ (-900:ℤ) ≤ |x - 1|) (hy1 : (10:ℚ) ^ (-190:ℤ) ≤ |y - 1|)
    (hr : Num.log lm fuel a b = .ok r) : ∃ z q, Holds r z q ∧ Faithful z (Real.logb y x) q := by
  obtain ⟨z, q, h, -, -, hz, -⟩ := C50_log_accuracy hl fuel ha hb hx hy hx1 hy1 hr
  exact ⟨z, q, h, faithful_of h.bounds.1 (by norm_num) hz⟩

/-- C65: `e^x`, when it returns: faithful; not negative; at least one for `x ≥ 0` and at most one for `x ≤ 0`. -/
theorem C65_exp_faithful [Build] {lm : Libm} (hl : LibmOK lm) {fuel : ℕ} (hf : 4200 ≤ fuel) {a r : Bin} {x : ℚ} {s : ℤ} (ha : Holds a x s)
    (hx : |x| ≤ 6000 - 1 / 10 ^ 9) (hr : Num.exp lm fuel a = .ok (some r)) :
    ∃ y q, Holds r y q ∧ Faithful y (Real.exp x) q ∧ 0 ≤ y ∧ (0 ≤ x → 1 ≤ y) ∧ (x ≤ 0 → y ≤ 1) := by
  rcases C51_exp_accuracy hl hf ha hx with ⟨r', y, t, e, h, -, -, hy, -⟩
  · rw [hr] at e; cases e
    have hF := faithful_of h.bounds.1 (by norm_num) hy
    have h1 := hF.2 1 (one_scale h.bounds.2.1)
    refine ⟨y, t, h, hF, (hF.2 0 (zero_scale t)).1 (by push_cast; exact (Real.exp_pos _).le), fun h0 => h1.1 ?_, fun h0 => h1.2 ?_⟩
    · push_cast; exact Real.one_le_exp (by exact_mod_cast h0)
    · push_cast; exact Real.exp_le_one_iff.2 (by exact_mod_cast h0)

/-- C65: powers with a fractional (or too large) exponent, when they return and the exact power is above about `10^-994`. -/
theorem C65_pow_faithful [Build] {lm : Libm} (hl : LibmOK lm) {fuel : ℕ} (hf : 4200 ≤ fuel) {a b : Bin} {o : Option Bin} {x y : ℚ}
    {s t : ℤ} (ha : Holds a x s) (hb : Holds b y t) (hx : 0 < x) (hx1 : x = 1 ∨ (10:ℚ) ^ (-980:ℤ) ≤ |x - 1|)
    (hy : ∀ k : ℤ, y = k → ¬ IsI32 k) (h1 : -2290 ≤ (y:ℝ) * Real.log x) (h2 : (y:ℝ) * Real.log x ≤ 5999) (hL : |Real.log x| ≤ 40000)
    (hr : Num.pow lm fuel a b = .ok o) :
    ∃ r z q, o = some r ∧ Holds r z q ∧ Faithful z ((x:ℝ) ^ (y:ℝ)) q ∧ 0 ≤ z ∧ ((1 ≤ x ↔ 0 ≤ y) → 1 ≤ z) ∧ (1 ≤ x → y ≤ 0 → z ≤ 1) ∧
      (x ≤ 1 → 0 ≤ y → z ≤ 1) := by
  obtain ⟨r, z, q, ho, h, -, -, hz, -⟩ := C52_pow_accuracy hl hf ha hb hx hx1 hy h1 h2 hr
  have hF := faithful_of h.bounds.1 (by linarith : 52 / 100 + |Real.log (x:ℝ)| / 10 ^ 5 < 1) hz
  have g1 := hF.2 1 (one_scale h.bounds.2.1)
  have hxR : (0:ℝ) < x := by exact_mod_cast hx
  refine ⟨r, z, q, ho, h, hF, (hF.2 0 (zero_scale q)).1 (by push_cast; positivity), fun h0 => g1.1 ?_, fun h0 h0' => g1.2 ?_,
    fun h0 h0' => g1.2 ?_⟩
  · push_cast
    rcases le_or_gt 1 x with hc | hc
    · exact Real.one_le_rpow (by exact_mod_cast hc) (by exact_mod_cast h0.1 hc)
    · have hy0 : y < 0 := by
        by_contra hn
        exact absurd (h0.2 (not_lt.1 hn)) (not_le.2 hc)
      exact Real.one_le_rpow_of_pos_of_le_one_of_nonpos hxR (by exact_mod_cast hc.le) (by exact_mod_cast hy0.le)
  · push_cast
    exact Real.rpow_le_one_of_one_le_of_nonpos (by exact_mod_cast h0) (by exact_mod_cast h0')
  · push_cast
    exact Real.rpow_le_one hxR.le (by exact_mod_cast h0) (by exact_mod_cast h0')

/-- C65: square roots of the same scale keep the order of their arguments up to one unit of that scale; so do exponentials. -/
theorem C65_order [Build] {a b r r' : Bin} {x x' : ℚ} {s s' : ℤ} {fuel : ℕ} (ha : Holds a x s) (hb : Holds b x' s') (hx : x ≤ x') :
    (0 ≤ x → Num.sqrt fuel a = .ok r → Num.sqrt fuel b = .ok r' →
      ∃ y y' q q', Holds r y q ∧ Holds r' y' q' ∧ (q = q' → y ≤ y' + 10 ^ (-q))) ∧
    (∀ lm, LibmOK lm → 4200 ≤ fuel → |x| ≤ 6000 - 1 / 10 ^ 9 → |x'| ≤ 6000 - 1 / 10 ^ 9 →
      Num.exp lm fuel a = .ok (some r) → Num.exp lm fuel b = .ok (some r') →
      ∃ y y' q q', Holds r y q ∧ Holds r' y' q' ∧ (q = q' → y ≤ y' + 10 ^ (-q))) := by
  refine ⟨fun h0 h1 h2 => ?_, fun lm hl hf hx1 hx2 h1 h2 => ?_⟩
  · obtain ⟨y, q, hy, hF⟩ := C65_sqrt_faithful ha h0 h1
    obtain ⟨y', q', hy', hF'⟩ := C65_sqrt_faithful hb (h0.trans hx) h2
    refine ⟨y, y', q, q', hy, hy', ?_⟩
    rintro rfl
    exact (faithful_order hF hF' (Real.sqrt_le_sqrt (by exact_mod_cast hx))).1
  · obtain ⟨y, q, hy, hF, -⟩ := C65_exp_faithful hl hf ha hx1 h1
    obtain ⟨y', q', hy', hF', -⟩ := C65_exp_faithful hl hf hb hx2 h2
    refine ⟨y, y', q, q', hy, hy', ?_⟩
    rintro rfl
    exact (faithful_order hF hF' (Real.exp_le_exp.2 (by exact_mod_cast hx))).1

/-- C65: squaring a computed root misses the argument by at most 0.51 units of the root's scale times twice the root (and a unit). -/
theorem C65_root_squared [Build] {a r p : Bin} {x : ℚ} {s : ℤ} {fuel : ℕ} (ha : Holds a x s) (hx : 0 ≤ x) (hr : Num.sqrt fuel a = .ok r)
    (hp : Num.checkedMul r r = .ok (some p)) :
    ∃ z q, Num.scale r = .ok (some q) ∧ Holds p z (q + q) ∧ |(z:ℝ) - x| ≤ 51 / 100 * 10 ^ (-q) * (2 * √(x:ℝ) + 10 ^ (-q)) := by
  obtain ⟨y, h, hy⟩ := C34_sqrt_accuracy ha hx hr
  refine ⟨y * y, _, (C20_accessors h).2.2.2, C10_mul_sound h h hp, ?_⟩
  have hxR : (0:ℝ) ≤ x := by exact_mod_cast hx
  have hsq := Real.mul_self_sqrt hxR
  have hs0 := Real.sqrt_nonneg (x:ℝ)
  generalize √(x:ℝ) = v at *
  generalize sqrtScale x s = q at *
  have hT : (0:ℝ) < 10 ^ (-q) := by positivity
  generalize (10:ℝ) ^ (-q) = T at *
  have e : ((y * y : ℚ) : ℝ) - x = (y - v) * (2 * v + (y - v)) := by push_cast; rw [← hsq]; ring
  rw [e, abs_mul]
  have h1 : |(y:ℝ) - v| ≤ 51 / 100 * T := hy.trans (by nlinarith)
  have h2 : |2 * v + ((y:ℝ) - v)| ≤ 2 * v + T := by
    refine (abs_add_le _ _).trans ?_
    rw [abs_of_nonneg (by linarith : 0 ≤ 2 * v)]
    linarith
  exact mul_le_mul h1 h2 (abs_nonneg _) (by positivity)

theorem exp_2201 : Real.exp 2201 ≤ 10 ^ 961 := by
  have h1 := Real.exp_one_lt_d9
  have h0 := Real.exp_pos 1
  have e : Real.exp 2201 = (Real.exp 1 ^ 55) ^ 40 * Real.exp 1 := by
    rw [← pow_mul, ← pow_succ, ← Real.exp_nat_mul]; norm_num
  have h2 : Real.exp 1 ^ 55 ≤ 10 ^ 24 := (pow_le_pow_left₀ h0.le h1.le 55).trans (by norm_num)
  have h3 : (Real.exp 1 ^ 55) ^ 40 ≤ (10 ^ 24) ^ 40 := pow_le_pow_left₀ (by positivity) h2 40
  rw [e, show (10:ℝ) ^ 961 = (10 ^ 24) ^ 40 * 10 by rw [← pow_mul, ← pow_succ]]
  exact mul_le_mul h3 (by linarith) h0.le (by positivity)

/-- An error of half a unit at scale 1000 is a small relative error, unless the value is extremely small. -/
theorem exp_rel {v y : ℝ} {t : ℤ} (hv : |v| ≤ 2201) (h : |y - Real.exp v| ≤ 51 / 100 * 10 ^ (-t))
    (h' : t = 1000 ∨ |y - Real.exp v| ≤ Real.exp v / 10 ^ 15) : |y - Real.exp v| ≤ Real.exp v / 10 ^ 15 := by
  rcases h' with rfl | h'
  · refine h.trans ?_
    have h1 : Real.exp (-2201) ≤ Real.exp v := Real.exp_le_exp.2 (abs_le.1 hv).1
    rw [Real.exp_neg] at h1
    have h2 : ((10:ℝ) ^ 961)⁻¹ ≤ (Real.exp 2201)⁻¹ := inv_anti₀ (Real.exp_pos _) exp_2201
    rw [zpow_neg, show (1000:ℤ) = ((961 + 39 : ℕ) : ℤ) by norm_num, zpow_natCast, pow_add, mul_inv, le_div_iff₀ (by positivity)]
    have h3 : ((10:ℝ) ^ 961)⁻¹ ≤ Real.exp v := h2.trans h1
    have h4 : (0:ℝ) < ((10:ℝ) ^ 961)⁻¹ := by positivity
    generalize ((10:ℝ) ^ 961)⁻¹ = c at *
    norm_num
    linarith
  · exact h'

/-- The logarithm in absolute terms, for arguments that are not extreme. -/
theorem ln_abs [Build] {lm : Libm} (hl : LibmOK lm) {fuel : ℕ} {a r : Bin} {x : ℚ} {s : ℤ} (ha : Holds a x s) (hx : 0 < x)
    (hL : |Real.log x| ≤ 2201) (hr : Num.ln lm fuel a = .ok r) :
    ∃ y q, Holds r y q ∧ q ≤ 1000 ∧ |(y:ℝ) - Real.log x| ≤ (|Real.log x| + 1) / 10 ^ 15 := by
  obtain ⟨y, t, h, h1, h2, hy⟩ := C49_ln_accuracy lm fuel ha hx hr
  obtain ⟨y', t', h', hy'⟩ := C49_ln_significant hl fuel ha hx hr
  obtain ⟨rfl, rfl⟩ := h.inj h'
  refine ⟨y, t, h, h2, ?_⟩
  rcases hy' with rfl | hy'
  · refine hy.trans ?_
    have hm : max 1 (22 * |Real.log (x:ℝ)|) ≤ 48422 := max_le (by norm_num) (by linarith)
    have hm0 : 0 ≤ max 1 (22 * |Real.log (x:ℝ)|) := le_trans zero_le_one (le_max_left _ _)
    have hT : (10:ℝ) ^ (-(1000:ℤ)) ≤ 1 / 10 ^ 15 := by
      rw [show (1 / 10 ^ 15 : ℝ) = 10 ^ (-(15:ℤ)) by norm_num]
      exact zpow_le_zpow_right₀ (by norm_num) (by norm_num)
    have hT0 : (0:ℝ) < 10 ^ (-(1000:ℤ)) := by positivity
    generalize (10:ℝ) ^ (-(1000:ℤ)) = T at *
    generalize max 1 (22 * |Real.log (x:ℝ)|) = m at *
    have h5 : (1 / 2 + (((1000:ℤ) : ℝ) + 10) * m / 10 ^ 8) ≤ 1 := by push_cast; linarith
    have h6 := abs_nonneg (Real.log (x:ℝ))
    calc (1 / 2 + (((1000:ℤ) : ℝ) + 10) * m / 10 ^ 8) * T ≤ 1 * T := mul_le_mul_of_nonneg_right h5 hT0.le
      _ ≤ 1 / 10 ^ 15 := by rw [one_mul]; exact hT
      _ ≤ _ := by gcongr; linarith
  · refine hy'.trans ?_
    gcongr
    linarith

/-- C65: `ln(exp(x))` is `x`, up to a relative error of a few units in the 15th place. -/
theorem C65_ln_exp [Build] {lm : Libm} (hl : LibmOK lm) {fuel : ℕ} (hf : 4200 ≤ fuel) {a r w : Bin} {x : ℚ} {s : ℤ} (ha : Holds a x s)
    (hx : |x| ≤ 2200) (hr : Num.exp lm fuel a = .ok (some r)) (hw : Num.ln lm fuel r = .ok w) :
    ∃ z q, Holds w z q ∧ |(z:ℝ) - x| ≤ (|(x:ℝ)| + 4) / 10 ^ 15 := by
  rcases C51_exp_accuracy hl hf ha (hx.trans (by norm_num)) with ⟨r', y, t, e, h, -, -, hy, hy'⟩
  · rw [hr] at e; cases e
    have hxR : |(x:ℝ)| ≤ 2200 := by exact_mod_cast hx
    have hrel := exp_rel (hxR.trans (by norm_num)) hy hy'
    have hE := Real.exp_pos (x:ℝ)
    have hrel' := abs_le.1 hrel
    have hy0 : (0:ℝ) < y := by linarith [hrel'.1]
    have hy0Q : 0 < y := by exact_mod_cast hy0
    have hd : |Real.log y - x| ≤ 2 / 10 ^ 15 := by
      have e1 : Real.log y - x = Real.log (y / Real.exp x) := by rw [Real.log_div hy0.ne' hE.ne', Real.log_exp]
      have hu : 0 < y / Real.exp x := div_pos hy0 hE
      have u1 : y / Real.exp x ≤ 1 + 1 / 10 ^ 15 := by rw [div_le_iff₀ hE]; linarith [hrel'.2]
      have u2 : 1 - 1 / 10 ^ 15 ≤ y / Real.exp x := by rw [le_div_iff₀ hE]; linarith [hrel'.1]
      rw [e1]
      generalize (y:ℝ) / Real.exp x = u at *
      have l1 := Real.log_le_sub_one_of_pos hu
      have l2 := Real.one_sub_inv_le_log_of_pos hu
      have l3 : u⁻¹ ≤ 1 + 2 / 10 ^ 15 := by
        rw [inv_le_comm₀ hu (by norm_num)]
        refine le_trans ?_ u2
        norm_num
      rw [abs_le]; constructor <;> linarith
    have hd' := abs_le.1 hd
    have hxa := abs_le.1 hxR
    have hLy : |Real.log (y:ℝ)| ≤ |(x:ℝ)| + 2 / 10 ^ 15 := by
      have := abs_sub_abs_le_abs_sub (Real.log (y:ℝ)) x
      linarith
    obtain ⟨z, q, hz, -, hzz⟩ := ln_abs hl h hy0Q (hLy.trans (by linarith)) hw
    refine ⟨z, q, hz, ?_⟩
    have := abs_sub_le (z:ℝ) (Real.log y) x
    have e2 : (|Real.log (y:ℝ)| + 1) / 10 ^ 15 ≤ (|(x:ℝ)| + 2) / 10 ^ 15 := div_le_div_of_nonneg_right (by linarith) (by positivity)
    have e3 : (|(x:ℝ)| + 4) / 10 ^ 15 = (|(x:ℝ)| + 2) / 10 ^ 15 + 2 / 10 ^ 15 := by ring
    linarith

/-- C65: `exp(ln(x))` is `x`, up to a relative error of a few units in the 15th place times the logarithm. -/
theorem C65_exp_ln [Build] {lm : Libm} (hl : LibmOK lm) {fuel : ℕ} (hf : 4200 ≤ fuel) {a r w : Bin} {x : ℚ} {s : ℤ} (ha : Holds a x s)
    (hx : 0 < x) (hL : |Real.log x| ≤ 2200) (hr : Num.ln lm fuel a = .ok r) (hw : Num.exp lm fuel r = .ok (some w)) :
    ∃ z q, Holds w z q ∧ |(z:ℝ) - x| ≤ x * ((2 * |Real.log x| + 4) / 10 ^ 15) := by
  have hxR : (0:ℝ) < x := by exact_mod_cast hx
  obtain ⟨y, q, hy, hq, hyy⟩ := ln_abs hl ha hx (hL.trans (by norm_num)) hr
  have hL0 := abs_nonneg (Real.log (x:ℝ))
  have hd1 : (|Real.log (x:ℝ)| + 1) / 10 ^ 15 ≤ 3 / 10 ^ 12 := by
    rw [div_le_div_iff₀ (by norm_num) (by norm_num)]; linarith
  have hya : |(y:ℝ)| ≤ 2201 := by
    have := abs_sub_abs_le_abs_sub (y:ℝ) (Real.log x)
    linarith
  have hyQ : |y| ≤ 6000 - 1 / 10 ^ 9 := by
    have : |y| ≤ 2201 := by exact_mod_cast hya
    linarith
  rcases C51_exp_accuracy hl hf hy hyQ with ⟨w', z, t, e, h, -, -, hz, hz'⟩
  · rw [hw] at e; cases e
    refine ⟨z, t, h, ?_⟩
    have hrel := exp_rel hya hz hz'
    have hE : Real.exp y = x * Real.exp (y - Real.log x) := by rw [Real.exp_sub, Real.exp_log hxR]; field_simp
    have hdd := Real.abs_exp_sub_one_le (x := (y:ℝ) - Real.log x) (by linarith)
    rw [hE] at hrel
    generalize Real.exp ((y:ℝ) - Real.log x) = u at *
    have hu2 : |u - 1| ≤ 2 * ((|Real.log (x:ℝ)| + 1) / 10 ^ 15) := by linarith
    generalize hδ : (|Real.log (x:ℝ)| + 1) / 10 ^ 15 = δ at *
    have hu3 := abs_le.1 hu2
    have h1 : |x * u - x| = x * |u - 1| := by rw [← mul_sub_one, abs_mul, abs_of_pos hxR]
    have h2 := abs_sub_le (z:ℝ) (x * u) x
    have h3 : x * u / 10 ^ 15 ≤ x * (2 / 10 ^ 15) := by rw [mul_div_assoc]; gcongr; linarith
    have h4 : x * |u - 1| ≤ x * (2 * δ) := by gcongr
    have h5 : (2 * |Real.log (x:ℝ)| + 4) / 10 ^ 15 = 2 * δ + 2 / 10 ^ 15 := by rw [← hδ]; ring
    rw [h5, mul_add]
    linarith

/-- The hypotheses are met: `exp(ln(1.05))`, `ln(exp(0.05))` and the square of `sqrt(152.2756)` (which is `12.34`) all return in a release build; `1.05`
to the power `0.5` does by the example of `C52`, and a logarithm to base `1.02` by that of `C50`. -/
example (e : Bool) {lm : Libm} (hl : LibmOK lm) : ∃ a ra w b rb v c rc p, @Holds ⟨false, e⟩ a (105 / 100) 2 ∧
    |Real.log ((105 / 100 : ℚ) : ℝ)| ≤ 2200 ∧ @Num.ln ⟨false, e⟩ lm 4200 a = .ok ra ∧ @Num.exp ⟨false, e⟩ lm 4200 ra = .ok (some w) ∧
    @Holds ⟨false, e⟩ b (5 / 100) 2 ∧ @Num.exp ⟨false, e⟩ lm 4200 b = .ok (some rb) ∧ @Num.ln ⟨false, e⟩ lm 4200 rb = .ok v ∧
    @Holds ⟨false, e⟩ c (1522756 / 10000) 4 ∧ @Num.sqrt ⟨false, e⟩ 4200 c = .ok rc ∧ @Num.checkedMul ⟨false, e⟩ rc rc = .ok (some p) := by
  let _ : Build := ⟨false, e⟩
  obtain ⟨a, ha⟩ := witness (x := 105 / 100) (s := 2) 105 (by norm_num) (by norm_num) (by norm_num) (by norm_num [abs_lt])
  obtain ⟨b, hb⟩ := witness (x := 5 / 100) (s := 2) 5 (by norm_num) (by norm_num) (by norm_num) (by norm_num [abs_lt])
  obtain ⟨c, hc⟩ := witness (x := 1522756 / 10000) (s := 4) 1522756 (by norm_num) (by norm_num) (by norm_num) (by norm_num [abs_lt])
  have hlog : |Real.log ((105 / 100 : ℚ) : ℝ)| ≤ 1 := by
    rw [abs_of_nonneg (Real.log_nonneg (by norm_num))]
    exact (Real.log_le_sub_one_of_pos (by norm_num)).trans (by norm_num)
  obtain ⟨ra, h1⟩ := C49_ln_total_near_one hl (fuel := 4200) (by norm_num) ha (by norm_num) (by norm_num) (.inl rfl)
  obtain ⟨y, q, hy, hq, hyy⟩ := ln_abs hl ha (by norm_num) (hlog.trans (by norm_num)) h1
  have hyb : |y| ≤ 6000 - 1 / 10 ^ 9 := by
    have h3 := abs_sub_abs_le_abs_sub (y:ℝ) (Real.log ((105 / 100 : ℚ) : ℝ))
    have h4 : (|Real.log ((105 / 100 : ℚ) : ℝ)| + 1) / 10 ^ 15 ≤ 1 := by rw [div_le_one (by norm_num)]; linarith
    have h5 : |(y:ℝ)| ≤ 2 := by linarith
    have h6 : |y| ≤ 2 := by exact_mod_cast h5
    linarith
  obtain ⟨w, -, -, h2, -⟩ := C51_exp_accuracy hl (fuel := 4200) le_rfl hy hyb
  obtain ⟨rb, z, t, h3, hz, ht, -, hzz, -⟩ := C51_exp_accuracy hl (fuel := 4200) le_rfl hb (by norm_num [abs_le])
  have hT : (10:ℝ) ^ (-t) ≤ 1 / 100 := by
    rw [show (1 / 100 : ℝ) = 10 ^ (-2:ℤ) by norm_num]
    exact zpow_le_zpow_right₀ (by norm_num) (by have : min (2:ℤ) 1000 = 2 := by decide
                                                omega)
  have hz1 : 9 / 10 < z ∧ z < 11 / 10 := by
    have h4 : Real.exp ((5 / 100 : ℚ) : ℝ) ≤ 1 + 7 / 100 := by
      have := Real.exp_bound' (x := ((5 / 100 : ℚ) : ℝ)) (n := 2) (by norm_num) (by norm_num) (by norm_num)
      refine this.trans ?_
      norm_num [Finset.sum_range_succ, Nat.factorial]
    have h5 := Real.add_one_le_exp ((5 / 100 : ℚ) : ℝ)
    have h6 := abs_le.1 (hzz.trans (by linarith : 51 / 100 * (10:ℝ) ^ (-t) ≤ 1 / 100))
    push_cast at h4 h5 h6
    have h7 : ((9 / 10 : ℚ) : ℝ) < z := by push_cast; linarith
    have h8 : (z:ℝ) < ((11 / 10 : ℚ) : ℝ) := by push_cast; linarith
    exact ⟨by exact_mod_cast h7, by exact_mod_cast h8⟩
  obtain ⟨v, h7⟩ := C49_ln_total_near_one hl (fuel := 4200) (by norm_num) hz hz1.1 hz1.2 (.inl rfl)
  rcases C53_perfect_square hc (y := 1234 / 100) (by norm_num) (by norm_num) (by norm_num) (fuel := 4200) (by norm_num) with
    ⟨rc, h8, h9⟩ | ⟨h, -⟩
  · obtain ⟨p, h10, -⟩ := C10_mul_exact h9 h9 (by have := (sqrtScale_bounds (x := (1522756 / 10000 : ℚ)) (s := 4) (by norm_num)).2; omega) (by
      refine lt_trans ?_ (lt_limit (x := 10000) (by norm_num))
      norm_num)
    exact ⟨a, ra, w, b, rb, v, c, rc, p, ha, hlog.trans (by norm_num), h1, h2, hb, h3, h7, hc, h8, h10⟩
  · exact absurd (show false = true from h) (by decide)

end PgNumeric.Props
