import Verif.Props.Faithful
import Verif.Props.LogSafe
/-!
# The laws of exponentials, logarithms, powers and roots hold up to a stated error (C69)

The functions round, so that their laws hold only approximately. Each theorem takes the results that the calls returned and bounds the distance of the
two sides of a law, in units of the last decimal of the results or relative to them.
-/
namespace PgNumeric.Props
open PgNumeric Spec

/-- The error of a logarithm of moderate size is below one unit. -/
theorem ln_unit [Build] (lm : Libm) {a r : Bin} {x : ℚ} {s : ℤ} {fuel : ℕ} (ha : Holds a x s) (hx : 0 < x) (hL : |Real.log x| ≤ 2200)
    (hr : Num.ln lm fuel a = .ok r) : ∃ y t, Holds r y t ∧ t ≤ 1000 ∧ |(y:ℝ) - Real.log x| ≤ 99 / 100 * 10 ^ (-t) := by
  obtain ⟨y, t, h, -, h2, hy⟩ := C49_ln_accuracy lm fuel ha hx hr
  refine ⟨y, t, h, h2, hy.trans (mul_le_mul_of_nonneg_right ?_ (by positivity))⟩
  have ht : (t:ℝ) ≤ 1000 := by exact_mod_cast h2
  have ht0 : (0:ℝ) ≤ t := by exact_mod_cast h.bounds.2.1
  have hm : max 1 (22 * |Real.log (x:ℝ)|) ≤ 48400 := max_le (by norm_num) (by linarith)
  have := mul_le_mul (by linarith : (t:ℝ) + 10 ≤ 1010) hm (le_trans zero_le_one (le_max_left _ _)) (by norm_num)
  norm_num at this ⊢
  linarith

theorem unit_le_one {t : ℤ} (h : 0 ≤ t) : (10:ℝ) ^ (-t) ≤ 1 := by
  rw [show (1:ℝ) = 10 ^ (0:ℤ) by norm_num]; exact zpow_le_zpow_right₀ (by norm_num) (by omega)

/-- C69: `exp(ln x)` is `x`, up to 0.51 units of the result and `2x` units of the logarithm. -/
theorem C69_exp_ln [Build] {lm : Libm} (hl : LibmOK lm) {fuel : ℕ} (hf : 4200 ≤ fuel) {a r : Bin} {x : ℚ} {s : ℤ} (ha : Holds a x s) (hx : 0 < x)
    (hL : |Real.log x| ≤ 2200) (hr : Num.ln lm fuel a = .ok r) :
    ∃ r' z q t, Num.scale r = .ok (some t) ∧ Num.exp lm fuel r = .ok (some r') ∧ Holds r' z q ∧
      |(z:ℝ) - x| ≤ 51 / 100 * 10 ^ (-q) + 2 * x * 10 ^ (-t) := by
  obtain ⟨y, t, h, -, hy⟩ := ln_unit lm ha hx hL hr
  have hxR : (0:ℝ) < x := by exact_mod_cast hx
  have ht := h.bounds.2.1
  have h1 := unit_le_one ht
  have hT : (0:ℝ) < 10 ^ (-t) := by positivity
  have hya : |(y:ℝ)| ≤ 2201 := by
    have := abs_sub_abs_le_abs_sub (y:ℝ) (Real.log x)
    linarith
  have hyq : |y| ≤ 2201 := by
    have : ((|y| : ℚ) : ℝ) ≤ ((2201:ℚ):ℝ) := by push_cast; exact hya
    exact_mod_cast this
  obtain ⟨r', z, q, e, hz, -, -, hacc, -⟩ := C51_exp_accuracy hl hf h (hyq.trans (by norm_num))
  refine ⟨r', z, q, t, (C20_accessors h).2.2.2, e, hz, ?_⟩
  have h2 : |Real.exp (y:ℝ) - x| ≤ 2 * x * 10 ^ (-t) := by
    have e1 : Real.exp (y:ℝ) - x = x * (Real.exp (y - Real.log x) - 1) := by
      rw [Real.exp_sub, Real.exp_log hxR]; field_simp
    rw [e1, abs_mul, abs_of_pos hxR]
    have h3 := Real.abs_exp_sub_one_le (x := (y:ℝ) - Real.log x) (by linarith)
    have h4 : |Real.exp ((y:ℝ) - Real.log x) - 1| ≤ 2 * 10 ^ (-t) := by linarith
    calc (x:ℝ) * |Real.exp ((y:ℝ) - Real.log x) - 1| ≤ x * (2 * 10 ^ (-t)) := mul_le_mul_of_nonneg_left h4 hxR.le
      _ = _ := by ring
  exact (abs_sub_le _ _ _).trans (add_le_add hacc h2)

/-- A small relative error is a small error of the logarithm. -/
theorem log_rel {y E : ℝ} (hE : 0 < E) {ε : ℝ} (h0 : 0 ≤ ε) (h1 : ε ≤ 1 / 2) (h : |y - E| ≤ ε * E) : 0 < y ∧ |Real.log y - Real.log E| ≤ 2 * ε := by
  obtain ⟨g1, g2⟩ := abs_le.1 h
  have h2 : ε * E ≤ 1 / 2 * E := mul_le_mul_of_nonneg_right h1 hE.le
  have hy : 0 < y := by linarith
  refine ⟨hy, ?_⟩
  rw [← Real.log_div hy.ne' hE.ne', abs_le]
  have hq : y / E ≤ 1 + ε := by rw [div_le_iff₀ hE]; linarith
  have hq2 : E / y ≤ 1 + 2 * ε := by
    rw [div_le_iff₀ hy]
    have : ε * E ≤ 2 * ε * y := by
      have := mul_le_mul_of_nonneg_left (by linarith : E ≤ 2 * y) h0
      linarith
    linarith
  constructor
  · have := Real.log_le_sub_one_of_pos (div_pos hE hy)
    rw [show E / y = (y / E)⁻¹ by rw [inv_div], Real.log_inv, inv_div] at this
    linarith
  · have := Real.log_le_sub_one_of_pos (div_pos hy hE)
    linarith

/-- Numbers above `e^-2200` have 14 digits at 1000 decimals. -/
theorem deep_unit {E : ℝ} (h : Real.exp (-2200) ≤ E) : (4:ℝ) * 10 ^ (-1000:ℤ) ≤ E / 10 ^ 15 := by
  have h1 : (10:ℝ) ^ (-960:ℤ) ≤ Real.exp (-2200) := by
    rw [← exp_mul_log_ten]
    apply Real.exp_le_exp.2
    have := log_ten_bounds.1
    push_cast
    linarith
  have h2 : (10:ℝ) ^ (-1000:ℤ) * 10 ^ 40 = 10 ^ (-960:ℤ) := by
    rw [← zpow_natCast (10:ℝ) 40, ← zpow_add₀ (by norm_num)]; norm_num
  have h3 : (0:ℝ) < 10 ^ (-1000:ℤ) := by positivity
  have h4 := h1.trans h
  rw [← h2] at h4
  generalize (10:ℝ) ^ (-1000:ℤ) = T at *
  norm_num at h4 ⊢
  linarith

/-- The relative error of an exponential. -/
theorem exp_near [Build] {lm : Libm} (hl : LibmOK lm) {fuel : ℕ} (hf : 4200 ≤ fuel) {a : Bin} {x : ℚ} {s : ℤ} (ha : Holds a x s) (hx1 : -2200 ≤ x)
    (hx2 : x ≤ 5999) : ∃ r y t, Num.exp lm fuel a = .ok (some r) ∧ Holds r y t ∧ |(y:ℝ) - Real.exp x| ≤ 1 / 10 ^ 15 * Real.exp x := by
  obtain ⟨r, y, t, e, h, -, -, h1, h2⟩ := C51_exp_accuracy hl hf ha (abs_le.2 ⟨by linarith, by linarith⟩)
  refine ⟨r, y, t, e, h, ?_⟩
  rcases h2 with rfl | h2
  · have hE : Real.exp (-2200) ≤ Real.exp (x:ℝ) := Real.exp_le_exp.2 (by exact_mod_cast hx1)
    have := deep_unit hE
    have h3 : (0:ℝ) < 10 ^ (-1000:ℤ) := by positivity
    linarith
  · linarith

/-- C69: `ln(exp x)` is `x`, up to one unit of the result and `2/10^15`, for `x` of magnitude up to 2000. -/
theorem C69_ln_exp [Build] {lm : Libm} (hl : LibmOK lm) {fuel : ℕ} (hf : 4200 ≤ fuel) {a : Bin} {x : ℚ} {s : ℤ} (ha : Holds a x s) (hx : |x| ≤ 2000) :
    ∃ r, Num.exp lm fuel a = .ok (some r) ∧ ∀ r', Num.ln lm fuel r = .ok r' →
      ∃ z q, Holds r' z q ∧ |(z:ℝ) - x| ≤ 10 ^ (-q) + 2 / 10 ^ 15 := by
  rw [abs_le] at hx
  obtain ⟨r, y, t, e, h, hy⟩ := exp_near hl hf ha (by linarith [hx.1]) (by linarith [hx.2])
  refine ⟨r, e, fun r' hr => ?_⟩
  obtain ⟨y0, hlog⟩ := log_rel (Real.exp_pos (x:ℝ)) (by norm_num) (by norm_num) hy
  rw [Real.log_exp] at hlog
  have hxR : |(x:ℝ)| ≤ 2000 := by
    rw [abs_le]; exact ⟨by exact_mod_cast hx.1, by exact_mod_cast hx.2⟩
  have hL : |Real.log (y:ℝ)| ≤ 2200 := by
    have := abs_sub_abs_le_abs_sub (Real.log (y:ℝ)) x
    norm_num at hlog
    linarith
  obtain ⟨z, q, hz, -, hacc⟩ := ln_unit lm h (by exact_mod_cast y0) hL hr
  refine ⟨z, q, hz, (abs_sub_le _ (Real.log (y:ℝ)) _).trans ?_⟩
  have : (0:ℝ) < 10 ^ (-q) := by positivity
  linarith

/-- C69: the logarithm of a product is the sum of the logarithms, up to one unit of each of the three. -/
theorem C69_ln_mul [Build] (lm : Libm) {fuel : ℕ} {a b p la lb lp : Bin} {x y : ℚ} {s t : ℤ} (ha : Holds a x s) (hb : Holds b y t) (hx : 0 < x)
    (hy : 0 < y) (hLx : |Real.log x| ≤ 1100) (hLy : |Real.log y| ≤ 1100) (hp : Num.checkedMul a b = .ok (some p))
    (ea : Num.ln lm fuel a = .ok la) (eb : Num.ln lm fuel b = .ok lb) (ep : Num.ln lm fuel p = .ok lp) :
    ∃ u v w i j k, Holds la u i ∧ Holds lb v j ∧ Holds lp w k ∧
      |(w:ℝ) - (u + v)| ≤ 99 / 100 * (10 ^ (-i) + 10 ^ (-j) + 10 ^ (-k)) := by
  have h := C10_mul_sound ha hb hp
  have hxR : (0:ℝ) < x := by exact_mod_cast hx
  have hyR : (0:ℝ) < y := by exact_mod_cast hy
  have hlog : Real.log ((x * y : ℚ) : ℝ) = Real.log x + Real.log y := by
    push_cast; exact Real.log_mul hxR.ne' hyR.ne'
  obtain ⟨u, i, hu, -, gu⟩ := ln_unit lm ha hx (by linarith) ea
  obtain ⟨v, j, hv, -, gv⟩ := ln_unit lm hb hy (by linarith) eb
  obtain ⟨w, k, hw, -, gw⟩ := ln_unit lm h (mul_pos hx hy) (by rw [hlog]; linarith [abs_add_le (Real.log (x:ℝ)) (Real.log y)]) ep
  refine ⟨u, v, w, i, j, k, hu, hv, hw, ?_⟩
  rw [hlog] at gw
  rw [abs_le] at gu gv gw ⊢
  constructor <;> linarith [gu.1, gu.2, gv.1, gv.2, gw.1, gw.2]

/-- Products of numbers with small relative errors. -/
theorem rel_mul {u v U V ε : ℝ} (hU : 0 < U) (hV : 0 < V) (h1 : ε ≤ 1) (h0 : 0 ≤ ε) (hu : |u - U| ≤ ε * U) (hv : |v - V| ≤ ε * V) :
    |u * v - U * V| ≤ 3 * ε * (U * V) := by
  have e : u * v - U * V = (u - U) * (v - V) + (u - U) * V + U * (v - V) := by ring
  have a1 : |(u - U) * (v - V)| ≤ ε * (U * V) := by
    rw [abs_mul]
    calc |u - U| * |v - V| ≤ (ε * U) * (ε * V) := mul_le_mul hu hv (abs_nonneg _) (by positivity)
      _ = ε * (ε * (U * V)) := by ring
      _ ≤ ε * (1 * (U * V)) := mul_le_mul_of_nonneg_left (mul_le_mul_of_nonneg_right h1 (by positivity)) h0
      _ = _ := by ring
  have a2 : |(u - U) * V| ≤ ε * (U * V) := by
    rw [abs_mul, abs_of_pos hV]
    have := mul_le_mul_of_nonneg_right hu hV.le
    linarith
  have a3 : |U * (v - V)| ≤ ε * (U * V) := by
    rw [abs_mul, abs_of_pos hU]
    have := mul_le_mul_of_nonneg_left hv hU.le
    linarith
  rw [e]
  refine (abs_add_le _ _).trans ?_
  have := abs_add_le ((u - U) * (v - V)) ((u - U) * V)
  linarith

/-- C69: the exponential of a sum is the product of the exponentials, up to a relative error of `4/10^15`. -/
theorem C69_exp_add [Build] {lm : Libm} (hl : LibmOK lm) {fuel : ℕ} (hf : 4200 ≤ fuel) {a b c : Bin} {x y : ℚ} {s t : ℤ} (ha : Holds a x s)
    (hb : Holds b y t) (hx1 : -2200 ≤ x) (hx2 : x ≤ 5999) (hy1 : -2200 ≤ y) (hy2 : y ≤ 5999) (h1 : -2200 ≤ x + y) (h2 : x + y ≤ 5999)
    (hc : Num.checkedAdd a b = .ok (some c)) :
    ∃ ra rb rc u v w i j k, Num.exp lm fuel a = .ok (some ra) ∧ Num.exp lm fuel b = .ok (some rb) ∧ Num.exp lm fuel c = .ok (some rc) ∧
      Holds ra u i ∧ Holds rb v j ∧ Holds rc w k ∧ |(w:ℝ) - u * v| ≤ 4 / 10 ^ 15 * Real.exp (x + y) := by
  have hsum : Holds c (x + y) (max s t) := by
    obtain ⟨g1, g2⟩ := C08_add_exact ha hb
    rcases lt_or_ge |x + y| limit with hlim | hlim
    · obtain ⟨r, e, hr⟩ := g1 hlim
      rw [hc] at e; cases e; exact hr
    · rw [g2 hlim] at hc; cases hc
  obtain ⟨ra, u, i, ea, hu, gu⟩ := exp_near hl hf ha hx1 hx2
  obtain ⟨rb, v, j, eb, hv, gv⟩ := exp_near hl hf hb hy1 hy2
  obtain ⟨rc, w, k, ec, hw, gw⟩ := exp_near hl hf hsum h1 h2
  refine ⟨ra, rb, rc, u, v, w, i, j, k, ea, eb, ec, hu, hv, hw, ?_⟩
  push_cast at gw
  have h3 := rel_mul (Real.exp_pos _) (Real.exp_pos _) (by norm_num) (by norm_num) gu gv
  rw [← Real.exp_add, abs_sub_comm] at h3
  refine (abs_sub_le _ (Real.exp ((x:ℝ) + y)) _).trans ?_
  have := Real.exp_pos ((x:ℝ) + y)
  generalize Real.exp ((x:ℝ) + y) = E at *
  norm_num at *
  linarith

/-- The relative error of a power with a real exponent. -/
theorem pow_rel [Build] {lm : Libm} (hl : LibmOK lm) {fuel : ℕ} (hf : 4200 ≤ fuel) {a b : Bin} {o : Option Bin} {x y : ℚ} {s t : ℤ}
    (ha : Holds a x s) (hb : Holds b y t) (hx : 0 < x) (hx1 : x = 1 ∨ (10:ℚ) ^ (-980:ℤ) ≤ |x - 1|) (hy : ∀ k : ℤ, y = k → ¬ IsI32 k)
    (h1 : -2200 ≤ (y:ℝ) * Real.log x) (h2 : (y:ℝ) * Real.log x ≤ 5999) (hr : Num.pow lm fuel a b = .ok o) :
    ∃ r z q, o = some r ∧ Holds r z q ∧ |(z:ℝ) - (x:ℝ) ^ (y:ℝ)| ≤ 1 / 10 ^ 14 * (x:ℝ) ^ (y:ℝ) := by
  have hxR : (0:ℝ) < x := by exact_mod_cast hx
  obtain ⟨r, z, q, ho, h, -, -, g1, g2⟩ := C52_pow_accuracy hl hf ha hb hx hx1 hy (by linarith) h2 hr
  refine ⟨r, z, q, ho, h, ?_⟩
  rcases g2 with rfl | g2
  · have hE : Real.exp (-2200) ≤ (x:ℝ) ^ (y:ℝ) := by
      rw [Real.rpow_def_of_pos hxR, mul_comm]; exact Real.exp_le_exp.2 h1
    have h3 := deep_unit hE
    obtain ⟨u, hu, hux, -, -⟩ := ha.exists_var
    have hL : |Real.log (x:ℝ)| ≤ 320000 := by
      rw [← hux] at hx ⊢
      exact log_canon_le (PosVar.of_canonical hu hx)
    have h4 : (0:ℝ) < 10 ^ (-1000:ℤ) := by positivity
    have h5 : (52 / 100 + |Real.log (x:ℝ)| / 10 ^ 5) * (10:ℝ) ^ (-1000:ℤ) ≤ 4 * 10 ^ (-1000:ℤ) :=
      mul_le_mul_of_nonneg_right (by norm_num; linarith) h4.le
    have h6 : 0 < (x:ℝ) ^ (y:ℝ) := Real.rpow_pos_of_pos hxR _
    have h7 := g1.trans h5
    clear g1 h5 hE h1 h2 hL
    generalize (x:ℝ) ^ (y:ℝ) = E at *
    generalize (10:ℝ) ^ (-1000:ℤ) = T at *
    norm_num at *
    linarith
  · linarith

/-- C69: `x^y * x^z` is `x^(y+z)`, up to a relative error of `4/10^14`, for exponents that are not 32-bit integers. -/
theorem C69_pow_add [Build] {lm : Libm} (hl : LibmOK lm) {fuel : ℕ} (hf : 4200 ≤ fuel) {a b c d : Bin} {o1 o2 o3 : Option Bin} {x y z : ℚ}
    {s t q : ℤ} (ha : Holds a x s) (hb : Holds b y t) (hc : Holds c z q) (hx : 0 < x) (hx1 : x = 1 ∨ (10:ℚ) ^ (-980:ℤ) ≤ |x - 1|)
    (hy : ∀ k : ℤ, y = k → ¬ IsI32 k) (hz : ∀ k : ℤ, z = k → ¬ IsI32 k) (hyz : ∀ k : ℤ, y + z = k → ¬ IsI32 k)
    (h1 : -2200 ≤ (y:ℝ) * Real.log x) (h2 : (y:ℝ) * Real.log x ≤ 5999) (h3 : -2200 ≤ (z:ℝ) * Real.log x) (h4 : (z:ℝ) * Real.log x ≤ 5999)
    (h5 : -2200 ≤ (y + z:ℝ) * Real.log x) (h6 : (y + z:ℝ) * Real.log x ≤ 5999) (hd : Num.checkedAdd b c = .ok (some d))
    (e1 : Num.pow lm fuel a b = .ok o1) (e2 : Num.pow lm fuel a c = .ok o2) (e3 : Num.pow lm fuel a d = .ok o3) :
    ∃ r1 r2 r3 u v w i j k, o1 = some r1 ∧ o2 = some r2 ∧ o3 = some r3 ∧ Holds r1 u i ∧ Holds r2 v j ∧ Holds r3 w k ∧
      |(w:ℝ) - u * v| ≤ 4 / 10 ^ 14 * (x:ℝ) ^ (y + z : ℝ) := by
  have hxR : (0:ℝ) < x := by exact_mod_cast hx
  have hsum : Holds d (y + z) (max t q) := by
    obtain ⟨g1, g2⟩ := C08_add_exact hb hc
    rcases lt_or_ge |y + z| limit with hlim | hlim
    · obtain ⟨r, e, hr⟩ := g1 hlim
      rw [hd] at e; cases e; exact hr
    · rw [g2 hlim] at hd; cases hd
  obtain ⟨r1, u, i, ea, hu, gu⟩ := pow_rel hl hf ha hb hx hx1 hy h1 h2 e1
  obtain ⟨r2, v, j, eb, hv, gv⟩ := pow_rel hl hf ha hc hx hx1 hz h3 h4 e2
  obtain ⟨r3, w, k, ec, hw, gw⟩ := pow_rel hl hf ha hsum hx hx1 hyz (by push_cast; exact h5) (by push_cast; exact h6) e3
  refine ⟨r1, r2, r3, u, v, w, i, j, k, ea, eb, ec, hu, hv, hw, ?_⟩
  push_cast at gw
  have g := rel_mul (Real.rpow_pos_of_pos hxR _) (Real.rpow_pos_of_pos hxR _) (by norm_num) (by norm_num) gu gv
  rw [← Real.rpow_add hxR, abs_sub_comm] at g
  refine (abs_sub_le _ ((x:ℝ) ^ (y + z : ℝ)) _).trans ?_
  have := Real.rpow_pos_of_pos hxR ((y:ℝ) + z)
  generalize (x:ℝ) ^ ((y:ℝ) + z) = E at *
  norm_num at *
  linarith

/-- C69: `x^0.5` is the square root, up to 0.52 units of each (and one hundred-thousandth of a unit for each unit of `|ln x|`). -/
theorem C69_pow_half [Build] {lm : Libm} (hl : LibmOK lm) {fuel : ℕ} (hf : 4200 ≤ fuel) {a b r : Bin} {o : Option Bin} {x : ℚ} {s t : ℤ}
    (ha : Holds a x s) (hb : Holds b (1 / 2) t) (hx : 0 < x) (hx1 : x = 1 ∨ (10:ℚ) ^ (-980:ℤ) ≤ |x - 1|) (hL : |Real.log x| ≤ 4580)
    (er : Num.sqrt fuel a = .ok r) (ep : Num.pow lm fuel a b = .ok o) :
    ∃ p u v i j, o = some p ∧ Holds r u i ∧ Holds p v j ∧
      |(v:ℝ) - u| ≤ 51 / 100 * 10 ^ (-i) + (52 / 100 + |Real.log x| / 10 ^ 5) * 10 ^ (-j) := by
  have hxR : (0:ℝ) < x := by exact_mod_cast hx
  have hh : ∀ k : ℤ, (1 / 2 : ℚ) = k → ¬ IsI32 k := by
    intro k h
    exfalso
    have h2 : (1:ℚ) = ((2 * k : ℤ) : ℚ) := by push_cast; linarith
    have h3 : (1:ℤ) = 2 * k := by exact_mod_cast h2
    omega
  obtain ⟨g1, g2⟩ := abs_le.1 hL
  obtain ⟨u, hu, gu⟩ := C34_sqrt_accuracy ha hx.le er
  obtain ⟨p, v, j, ho, hv, -, -, gv, -⟩ := C52_pow_accuracy hl hf ha hb hx hx1 hh (by push_cast; linarith) (by push_cast; linarith) ep
  refine ⟨p, u, v, _, j, ho, hu, hv, ?_⟩
  rw [show ((1 / 2 : ℚ) : ℝ) = 1 / 2 by push_cast; rfl, ← Real.sqrt_eq_rpow] at gv
  rw [abs_sub_comm] at gu
  have h0 : (0:ℝ) < 10 ^ (-sqrtScale x s) := by positivity
  have h3 : (1 / 2 + 16 / 10 ^ 9) * (10:ℝ) ^ (-sqrtScale x s) ≤ 51 / 100 * 10 ^ (-sqrtScale x s) :=
    mul_le_mul_of_nonneg_right (by norm_num) h0.le
  have := abs_sub_le (v:ℝ) √(x:ℝ) u
  linarith

/-- C69: change of base: `log_y x * ln y` is `ln x`, up to 0.51 units of the first times `|ln y|`, one unit of the second times the first, and one unit
of the third. -/
theorem C69_change_of_base [Build] {lm : Libm} (hl : LibmOK lm) {fuel : ℕ} {a b r la lb : Bin} {x y : ℚ} {s t : ℤ} (ha : Holds a x s)
    (hb : Holds b y t) (hx : 0 < x) (hy : 0 < y) (hx1 : x = 1 ∨ (10:ℚ) ^ (-900:ℤ) ≤ |x - 1|) (hy1 : (10:ℚ) ^ (-190:ℤ) ≤ |y - 1|)
    (hLx : |Real.log x| ≤ 2200) (hLy : |Real.log y| ≤ 2200) (er : Num.log lm fuel a b = .ok r) (ea : Num.ln lm fuel a = .ok la)
    (eb : Num.ln lm fuel b = .ok lb) :
    ∃ z u v q i j, Holds r z q ∧ Holds la u i ∧ Holds lb v j ∧
      |(z:ℝ) * v - u| ≤ 51 / 100 * 10 ^ (-q) * |Real.log y| + |(z:ℝ)| * 10 ^ (-j) + 10 ^ (-i) := by
  have hyR : (0:ℝ) < y := by exact_mod_cast hy
  obtain ⟨z, q, hz, -, -, gz, -⟩ := C50_log_accuracy hl fuel ha hb hx hy hx1 hy1 er
  obtain ⟨u, i, hu, -, gu⟩ := ln_unit lm ha hx hLx ea
  obtain ⟨v, j, hv, -, gv⟩ := ln_unit lm hb hy hLy eb
  refine ⟨z, u, v, q, i, j, hz, hu, hv, ?_⟩
  have hly : Real.log (y:ℝ) ≠ 0 := by
    intro h
    have hne : (y:ℝ) = 1 := by
      rcases Real.log_eq_zero.1 h with h | h | h <;> linarith
    have : y = 1 := by exact_mod_cast hne
    rw [this, sub_self, abs_zero] at hy1
    exact absurd hy1 (not_le.2 (T_zpow_pos _))
  have e1 : Real.logb y x * Real.log y = Real.log x := by rw [Real.logb, div_mul_cancel₀ _ hly]
  have e2 : (z:ℝ) * v - u = (z - Real.logb y x) * Real.log y + z * (v - Real.log y) + (Real.log x - u) := by
    rw [sub_mul, e1]; ring
  rw [e2]
  have a1 : |((z:ℝ) - Real.logb y x) * Real.log y| ≤ 51 / 100 * 10 ^ (-q) * |Real.log y| := by
    rw [abs_mul]; exact mul_le_mul_of_nonneg_right gz (abs_nonneg _)
  have hj : (0:ℝ) < 10 ^ (-j) := by positivity
  have hi : (0:ℝ) < 10 ^ (-i) := by positivity
  have a2 : |(z:ℝ) * (v - Real.log y)| ≤ |(z:ℝ)| * 10 ^ (-j) := by
    rw [abs_mul]; exact mul_le_mul_of_nonneg_left (by linarith) (abs_nonneg _)
  have a3 : |Real.log (x:ℝ) - u| ≤ 10 ^ (-i) := by rw [abs_sub_comm]; linarith
  have h3 := abs_add_le (((z:ℝ) - Real.logb y x) * Real.log y + z * (v - Real.log y)) (Real.log x - u)
  have h4 := abs_add_le (((z:ℝ) - Real.logb y x) * Real.log y) ((z:ℝ) * (v - Real.log y))
  linarith

/-- The logarithms of numbers between 1 and 1.1 are small. -/
theorem near_log {x : ℚ} (h1 : 1 ≤ x) (h2 : x ≤ 11 / 10) : |Real.log (x:ℝ)| ≤ 1 / 10 := by
  have h1' : (1:ℝ) ≤ x := by exact_mod_cast h1
  have h2' : (x:ℝ) ≤ 11 / 10 := by
    have : (x:ℝ) ≤ ((11 / 10 : ℚ) : ℝ) := by exact_mod_cast h2
    push_cast at this; exact this
  rw [abs_of_nonneg (Real.log_nonneg h1')]
  have := Real.log_le_sub_one_of_pos (by linarith : (0:ℝ) < x)
  linarith

/-- The hypotheses of the laws of logarithms are met by 1.02 and 1.04: all the calls return, in every build. -/
example [Build] {lm : Libm} (hl : LibmOK lm) : ∃ a b p la lb lp r r', Holds a (102 / 100) 2 ∧ Holds b (104 / 100) 2 ∧ Num.checkedMul a b = .ok (some p) ∧
    Num.ln lm 4200 a = .ok la ∧ Num.ln lm 4200 b = .ok lb ∧ Num.ln lm 4200 p = .ok lp ∧ Num.log lm 4200 a b = .ok r ∧
    Num.exp lm 4200 la = .ok (some r') := by
  obtain ⟨a, ha⟩ := witness (x := 102 / 100) (s := 2) 102 (by norm_num) (by norm_num) (by norm_num) (by norm_num [abs_lt])
  obtain ⟨b, hb⟩ := witness (x := 104 / 100) (s := 2) 104 (by norm_num) (by norm_num) (by norm_num) (by norm_num [abs_lt])
  obtain ⟨p, ep, hp⟩ := C10_mul_exact ha hb (by norm_num) (lt_limit (by norm_num [abs_lt]))
  obtain ⟨la, ea⟩ := C49_ln_total_near_one hl (fuel := 4200) (by norm_num) ha (by norm_num) (by norm_num) (.inr (by norm_num))
  obtain ⟨lb, eb⟩ := C49_ln_total_near_one hl (fuel := 4200) (by norm_num) hb (by norm_num) (by norm_num) (.inr (by norm_num))
  obtain ⟨lp, elp⟩ := C49_ln_total_near_one hl (fuel := 4200) (by norm_num) hp (by norm_num) (by norm_num) (.inr (by norm_num))
  have haway : ∀ n : ℤ, n ≤ -2 → (10:ℚ) ^ n ≤ 1 / 50 := fun n hn => by
    refine le_trans ?_ (by norm_num : (1:ℚ) / 100 ≤ _)
    rw [show (1 / 100 : ℚ) = 10 ^ (-2:ℤ) by norm_num, T_zpow_le_iff]; exact hn
  obtain ⟨r, er⟩ := C50_log_total_near_one hl (fuel := 4200) (by norm_num) ha hb (by norm_num) (by norm_num) (by norm_num) (by norm_num)
    (.inr (by rw [abs_of_pos (by norm_num)]; exact (haway _ (by norm_num)).trans (by norm_num)))
    (by rw [abs_of_pos (by norm_num)]; exact (haway _ (by norm_num)).trans (by norm_num)) (.inr ⟨by norm_num, by norm_num⟩)
  obtain ⟨r', z, q, t, -, er', -⟩ := C69_exp_ln hl (fuel := 4200) le_rfl ha (by norm_num) ((near_log (by norm_num) (by norm_num)).trans (by norm_num)) ea
  exact ⟨a, b, p, la, lb, lp, r, r', ha, hb, ep, ea, eb, elp, er, er'⟩

/-- Those of the laws of powers by 1.0404 and the exponents 0.5 and 0.7: all the calls return, in every build. -/
example [Build] {lm : Libm} (hl : LibmOK lm) : ∃ a b c d o1 o2 o3, Holds a (10404 / 10000) 4 ∧ Holds b (1 / 2) 1 ∧ Holds c (7 / 10) 1 ∧
    Num.checkedAdd b c = .ok (some d) ∧ Num.pow lm 4200 a b = .ok o1 ∧ Num.pow lm 4200 a c = .ok o2 ∧ Num.pow lm 4200 a d = .ok o3 := by
  obtain ⟨a, ha⟩ := witness (x := 10404 / 10000) (s := 4) 10404 (by norm_num) (by norm_num) (by norm_num) (by norm_num [abs_lt])
  obtain ⟨b, hb⟩ := witness (x := 1 / 2) (s := 1) 5 (by norm_num) (by norm_num) (by norm_num) (by norm_num [abs_lt])
  obtain ⟨c, hc⟩ := witness (x := 7 / 10) (s := 1) 7 (by norm_num) (by norm_num) (by norm_num) (by norm_num [abs_lt])
  obtain ⟨d, ed, hd⟩ := (C08_add_exact hb hc).1 (lt_limit (by norm_num [abs_lt]))
  have haway : (10404 / 10000 : ℚ) = 1 ∨ (10:ℚ) ^ (-980:ℤ) ≤ |(10404 / 10000 : ℚ) - 1| := by
    right
    rw [abs_of_pos (by norm_num)]
    refine le_trans ?_ (by norm_num : (1:ℚ) / 100 ≤ _)
    rw [show (1 / 100 : ℚ) = 10 ^ (-2:ℤ) by norm_num, T_zpow_le_iff]; norm_num
  have hni : ∀ n : ℤ, n % 10 ≠ 0 → ∀ k : ℤ, (n:ℚ) / 10 = k → ¬ IsI32 k := fun n hn k h => by
    exfalso
    have h2 : (n:ℚ) = ((10 * k : ℤ) : ℚ) := by push_cast; linarith
    have h3 : n = 10 * k := by exact_mod_cast h2
    omega
  obtain ⟨o1, e1⟩ := C52_pow_total_near_one hl (fuel := 4200) le_rfl ha hb (by norm_num) (by norm_num) haway
    (fun k h => hni 5 (by norm_num) k (by rw [← h]; norm_num)) (.inr (by norm_num))
  obtain ⟨o2, e2⟩ := C52_pow_total_near_one hl (fuel := 4200) le_rfl ha hc (by norm_num) (by norm_num) haway
    (fun k h => hni 7 (by norm_num) k (by rw [← h]; norm_num)) (.inr (by norm_num))
  obtain ⟨o3, e3⟩ := C52_pow_total_near_one hl (fuel := 4200) le_rfl ha hd (by norm_num) (by norm_num) haway
    (fun k h => hni 12 (by norm_num) k (by rw [← h]; norm_num)) (.inr (by norm_num))
  exact ⟨a, b, c, d, o1, o2, o3, ha, hb, hc, ed, e1, e2, e3⟩

end PgNumeric.Props
