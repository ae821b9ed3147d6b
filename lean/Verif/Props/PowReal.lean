import Verif.Props.LogAcc
import Verif.Proofs.PowReal
/-!
# Accuracy of powers with exponents that are not `i32` integers (C52)
-/
namespace PgNumeric.Props
open PgNumeric Spec Var

/-- What `pow` does with a positive base and a real exponent. -/
theorem pow_real_elim [Build] {lm : Libm} {fuel : Nat} {a b : Bin} {u e : Var} {o : Option Bin} (hu : Canonical u) (he : Canonical e)
    (va : a.asVar = .ok u) (vb : b.asVar = .ok e) (hx : 0 < value u) (hy : ∀ k : ℤ, value e = k → ¬ IsI32 k)
    (hr : Num.pow lm fuel a b = .ok o) :
    (powerReal lm fuel u e = .ok none ∧ o = none) ∨
    ∃ v, powerReal lm fuel u e = .ok (some v) ∧ (v.sign ≠ .nan → Num.finish v = .ok o) := by
  rw [pow_unfold lm fuel va vb, (pow_checks lm fuel hu he).2.2 (fun h => by linarith [h.1]) (fun h => by linarith),
    powerCommon_real lm fuel hu he hy] at hr
  obtain ⟨p, e1, hr⟩ := bind_elim hr
  rw [e1]
  cases p with
  | none => left; cases hr; exact ⟨rfl, rfl⟩
  | some v =>
    right
    refine ⟨v, rfl, fun h => ?_⟩
    simp only at hr
    rw [if_neg h] at hr
    exact hr

/-- C52: a power `x^y` of a positive base, for an exponent that is not an `i32` integer, when it returns, is the exact power
up to 0.52 units in its last place, plus one hundred-thousandth of a unit for each unit of `|ln x|` (so 0.55 units for bases
between `10^-1000` and `10^1000`, and never more than 4). Its scale is at least those of the operands (up to 1000), and it has
at least 14 correct significant digits unless its scale is the maximum 1000. The exact power must lie between about `10^-994` and
`10^2605`: see `C52_pow_overflow` and `C52_tiny_power_is_one` for the others. -/
theorem C52_pow_accuracy [Build] {lm : Libm} (hl : LibmOK lm) {fuel : Nat} (hf : 4200 ≤ fuel) {a b : Bin} {o : Option Bin} {x y : ℚ}
    {s t : Int} (ha : Holds a x s) (hb : Holds b y t) (hx : 0 < x) (hx1 : x = 1 ∨ (10:ℚ) ^ (-980:ℤ) ≤ |x - 1|)
    (hy : ∀ k : ℤ, y = k → ¬ IsI32 k) (h1 : -2290 ≤ (y:ℝ) * Real.log x) (h2 : (y:ℝ) * Real.log x ≤ 5999)
    (hr : Num.pow lm fuel a b = .ok o) :
    ∃ (r : Bin) (z : ℚ) (q : Int), o = some r ∧ Holds r z q ∧ min (max s t) 1000 ≤ q ∧ q ≤ 1000 ∧
      |(z:ℝ) - (x:ℝ) ^ (y:ℝ)| ≤ (52 / 100 + |Real.log x| / 10 ^ 5) * 10 ^ (-q) ∧
      (q = 1000 ∨ |(z:ℝ) - (x:ℝ) ^ (y:ℝ)| ≤ (x:ℝ) ^ (y:ℝ) / 10 ^ 14) := by
  obtain ⟨u, hu, rfl, rfl, -, -, va⟩ := ha.exists_var
  obtain ⟨e, he, rfl, rfl, -, -, vb⟩ := hb.exists_var
  have hU : (0:ℝ) < (value u : ℝ) := by exact_mod_cast hx
  have hpow : (value u : ℝ) ^ (value e : ℝ) = Real.exp (value e * Real.log (value u)) := by
    rw [Real.rpow_def_of_pos hU, mul_comm]
  rw [hpow]
  have key : ∀ p, powerReal lm fuel u e = .ok p → ∃ R rs, p = some R ∧ Digits R.digits ∧ R.sign ≠ .nan ∧ R.dscale = rs ∧
      HasScale (value R) rs ∧ -653 ≤ R.weight ∧ R.weight ≤ 653 ∧ (R.digits.length : ℤ) ≤ 100000 ∧ |value R| < limit ∧
      min (max u.dscale e.dscale) 1000 ≤ rs ∧ 0 ≤ rs ∧ rs ≤ 1000 ∧
      |(value R : ℝ) - Real.exp (value e * Real.log (value u))| ≤ (52 / 100 + |Real.log (value u)| / 10 ^ 5) * 10 ^ (-rs) ∧
      (rs = 1000 ∨ |(value R : ℝ) - Real.exp (value e * Real.log (value u))| ≤ Real.exp (value e * Real.log (value u)) / 10 ^ 14) := by
    intro p hp
    rcases powerReal_core hl hu hx hx1 he h1 (by linarith) hp with ⟨-, h6⟩ | ⟨N, l, rs, eN, wN, sN, hl5, hrs, hrs0, hrs1, c1, c2, c3⟩
    · linarith
    have hbig := log_canon_le (PosVar.of_canonical hu hx)
    set T : ℝ := (value e : ℝ) * Real.log (value u) with hT
    have hTa : |T| ≤ 5999 := abs_le.2 ⟨by linarith, h2⟩
    have hNa : |value N| ≤ 6000 - 1 / 10 ^ 9 := by
      have h3 := abs_sub_abs_le_abs_sub (value N : ℝ) T
      have : |(value N : ℝ)| ≤ 6000 - 1 / 10 ^ 9 := by norm_num at c1 ⊢; linarith
      have : ((|value N| : ℚ) : ℝ) ≤ ((6000 - 1 / 10 ^ 9 : ℚ) : ℝ) := by push_cast; exact this
      exact_mod_cast this
    obtain ⟨val, -, hval, -, -, hmain⟩ := expCommon_spec hl hf wN sN hrs0 hrs1
    replace hval := hval (hNa.trans (by norm_num))
    obtain ⟨R, eR, r1, r2, r3, r4, r5, r6, rl, r7, r8⟩ := hmain (val_lt hval hNa)
    rw [eN] at eR
    cases eR
    have hE : |Real.exp (value N : ℝ) - Real.exp T| ≤ 1001 / 1000 * (Real.exp T * |(value N : ℝ) - T|) := by
      have e1 : Real.exp (value N : ℝ) - Real.exp T = Real.exp T * (Real.exp (value N - T) - 1) := by
        rw [mul_sub, ← Real.exp_add]; ring_nf
      rw [e1, abs_mul, abs_of_pos (Real.exp_pos _)]
      have h3 := Real.abs_exp_sub_one_sub_id_le (x := (value N : ℝ) - T) (c1.trans (by norm_num))
      have h4 := abs_sub_abs_le_abs_sub (Real.exp (value N - T) - 1) ((value N : ℝ) - T)
      have h5 : ((value N : ℝ) - T) ^ 2 ≤ 1 / 1000 * |(value N : ℝ) - T| := by
        rw [← sq_abs, pow_two]
        exact mul_le_mul_of_nonneg_right (c1.trans (by norm_num)) (abs_nonneg _)
      have h6 : |Real.exp (value N - T) - 1| ≤ 1001 / 1000 * |(value N : ℝ) - T| := by linarith
      have := mul_le_mul_of_nonneg_left h6 (Real.exp_pos T).le
      linarith
    have hL0 := abs_nonneg (Real.log (value u : ℝ))
    have hS : (0:ℝ) < 10 ^ (-rs) := by positivity
    have hfin : |(value R : ℝ) - Real.exp T| ≤ (52 / 100 + |Real.log (value u)| / 10 ^ 5) * 10 ^ (-rs) := by
      have h3 := abs_sub_le (value R : ℝ) (Real.exp (value N)) (Real.exp T)
      have h4 : (51 / 100 + 1001 / 1000 * (5 / 1000 + 9 / 10 ^ 6 * |Real.log (value u : ℝ)|)) * (10:ℝ) ^ (-rs) ≤
          (52 / 100 + |Real.log (value u)| / 10 ^ 5) * 10 ^ (-rs) := by
        apply mul_le_mul_of_nonneg_right _ hS.le
        norm_num
        linarith
      rw [add_mul, mul_assoc (1001 / 1000 : ℝ)] at h4
      linarith
    refine ⟨R, rs, rfl, r1, r2, r3, r4, r5, r6, rl, r7, hrs, hrs0, hrs1, hfin, ?_⟩
    rcases c3 with c3 | c3
    · exact .inl c3
    right
    refine hfin.trans ?_
    have hEp := Real.exp_pos T
    have h3 := mul_le_mul (by linarith : 52 / 100 + |Real.log (value u : ℝ)| / 10 ^ 5 ≤ 52 / 100 + 320000 / 10 ^ 5) c3 hS.le (by norm_num)
    refine h3.trans ?_
    generalize Real.exp T = E at *
    norm_num
    linarith
  rcases pow_real_elim hu he va vb hx hy hr with ⟨h, -⟩ | ⟨v, h, hfin⟩
  · obtain ⟨R, rs, h3, -⟩ := key _ h
    cases h3
  · obtain ⟨R, rs, h3, r1, r2, r3, r4, r5, r6, rl, r7, hrs, hrs0, hrs1, hacc, hsig⟩ := key _ h
    cases h3
    obtain ⟨r, er, hr'⟩ := (Num.finish_loose r1 r2 r3 rfl hrs0 (by omega) r4 (.inl (by omega)) (by omega) (by omega)).1 r7
    have h4 := hfin r2
    rw [er] at h4
    cases h4
    exact ⟨r, value v, rs, rfl, hr', hrs, hrs1, hacc, hsig⟩

/-- A number of scale `q` less than one unit from a number of that scale is that number. -/
theorem near_scaled {z c : ℚ} {q : ℤ} (hz : HasScale z q) (hc : HasScale c q) {m : ℝ} (hm : m < 1) (h : |(z:ℝ) - c| ≤ m * 10 ^ (-q)) :
    z = c := by
  obtain ⟨n, hn⟩ := hz.sub hc
  have hT := T_zpow_pos q
  have hTR : (0:ℝ) < (10:ℝ) ^ q := by positivity
  have hnR : ((z:ℝ) - c) * 10 ^ q = n := by
    have := congrArg (fun r : ℚ => (r : ℝ)) hn
    push_cast at this
    exact this
  have h1 : |(n:ℝ)| < 1 := by
    rw [← hnR, abs_mul, abs_of_pos hTR]
    have := mul_le_mul_of_nonneg_right h hTR.le
    rw [mul_assoc, ← zpow_add₀ (by norm_num)] at this
    simp only [neg_add_cancel, zpow_zero, mul_one] at this
    linarith
  have h2 : |n| < 1 := by exact_mod_cast h1
  rw [Int.abs_lt_one_iff] at h2
  rw [h2, Int.cast_zero] at hn
  rcases mul_eq_zero.1 hn with h | h
  · linarith
  · exact absurd h hT.ne'

/-- C52: a power whose exact value has no more decimals than the operands is exact: for example `0.25^0.5 = 0.5`, `1^y = 1`. -/
theorem C52_pow_exact [Build] {lm : Libm} (hl : LibmOK lm) {fuel : Nat} (hf : 4200 ≤ fuel) {a b : Bin} {o : Option Bin} {x y c : ℚ}
    {s t : Int} (ha : Holds a x s) (hb : Holds b y t) (hx : 0 < x) (hx1 : x = 1 ∨ (10:ℚ) ^ (-980:ℤ) ≤ |x - 1|)
    (hy : ∀ k : ℤ, y = k → ¬ IsI32 k) (h1 : -2290 ≤ (y:ℝ) * Real.log x) (h2 : (y:ℝ) * Real.log x ≤ 5999)
    (hc : (x:ℝ) ^ (y:ℝ) = c) (hcs : HasScale c (min (max s t) 1000)) (hL : |Real.log x| ≤ 40000)
    (hr : Num.pow lm fuel a b = .ok o) : ∃ r q, o = some r ∧ Holds r c q := by
  obtain ⟨r, z, q, ho, h, hq, -, hacc, -⟩ := C52_pow_accuracy hl hf ha hb hx hx1 hy h1 h2 hr
  refine ⟨r, q, ho, ?_⟩
  rw [hc] at hacc
  have := near_scaled h.bounds.1 (hcs.mono hq) (by linarith : 52 / 100 + |Real.log (x:ℝ)| / 10 ^ 5 < 1) hacc
  rw [this] at h
  exact h

/-- C52: when the exact power exceeds about `10^2606` the code reports an overflow, although the format could hold it. -/
theorem C52_pow_overflow [Build] {lm : Libm} (hl : LibmOK lm) {fuel : Nat} (hf : 4200 ≤ fuel) {a b : Bin} {o : Option Bin} {x y : ℚ}
    {s t : Int} (ha : Holds a x s) (hb : Holds b y t) (hx : 0 < x) (hx1 : (10:ℚ) ^ (-980:ℤ) ≤ |x - 1|)
    (hy : ∀ k : ℤ, y = k → ¬ IsI32 k) (h1 : 6001 ≤ (y:ℝ) * Real.log x)
    (hr : Num.pow lm fuel a b = .ok o) : o = none := by
  obtain ⟨u, hu, rfl, rfl, -, -, va⟩ := ha.exists_var
  obtain ⟨e, he, rfl, rfl, -, -, vb⟩ := hb.exists_var
  have key : ∀ p, powerReal lm fuel u e = .ok p → p = none := by
    intro p hp
    by_cases h3 : (value e : ℝ) * Real.log (value u) ≤ 6030
    · rcases powerReal_core hl hu hx (.inr hx1) he (by linarith) h3 hp with ⟨h, -⟩ | ⟨N, l, rs, eN, wN, sN, hl5, hrs, hrs0, hrs1, c1, -, -⟩
      · exact h
      have hN1 : |(value N : ℝ)| ≤ 6031 ∧ 6000 + 1 / 10 ^ 9 ≤ |(value N : ℝ)| := by
        rw [abs_le] at c1
        rw [abs_of_pos (by norm_num at c1; linarith [c1.1])]
        constructor <;> norm_num at c1 ⊢ <;> linarith [c1.1, c1.2]
      have hNa : |value N| ≤ 6031 := by
        have : ((|value N| : ℚ) : ℝ) ≤ ((6031 : ℚ) : ℝ) := by push_cast; exact hN1.1
        exact_mod_cast this
      have hNb : 6000 + 1 / 10 ^ 9 ≤ |value N| := by
        have : ((6000 + 1 / 10 ^ 9 : ℚ) : ℝ) ≤ ((|value N| : ℚ) : ℝ) := by push_cast; exact hN1.2
        exact_mod_cast this
      obtain ⟨val, -, hval, -, hmain, -⟩ := expCommon_spec hl hf wN sN hrs0 hrs1
      have := hmain (val_ge (hval (hNa.trans (by norm_num))) hNb)
      rw [eN] at this
      cases this; rfl
    · push Not at h3
      obtain ⟨w, ew, hw0, hw6, hw, hwL⟩ := powEst_spec hl hu hx (.inr hx1)
      unfold powerReal at hp
      rw [if_neg (by rw [cmp_zero hu, cmpSign_eq_zero]; exact hx.ne')] at hp
      simp only [ew, bind_ok, NUMERIC_MIN_SIG_DIGITS, NUMERIC_MIN_DISPLAY_SCALE, NUMERIC_MAX_DISPLAY_SCALE] at hp
      rw [show min (max (8 - w) 0) 1000 = 8 - w by omega, fits_ok (by fits_tac), bind_ok] at hp
      obtain ⟨y1, e1, hp⟩ := bind_elim hp
      obtain ⟨N1, val, eN1, ev, hv, hbig⟩ := powFirst_spec hl hu hx he hw0 hw6 hw e1
      simp only [eN1, ev, bind_ok, expect, pure_ok] at hp
      rw [if_pos ?_] at hp
      · cases hp; rfl
      · rw [abs_of_pos (by linarith : (0:ℝ) < value e * Real.log (value u))] at hv hbig
        rcases le_or_gt 30000 ((value e : ℝ) * Real.log (value u)) with h30 | h30
        · exact hbig h30
        replace hv := hv (h30.le.trans (by norm_num))
        have h5 := (abs_le.1 hv).1
        have h6 : (6020:ℝ) < |(val:ℝ)| := by
          refine lt_of_lt_of_le ?_ (le_abs_self _)
          norm_num at h5
          linarith
        have : ((6020:ℚ):ℝ) < ((|val| : ℚ) : ℝ) := by push_cast; exact h6
        exact_mod_cast this
  rcases pow_real_elim hu he va vb hx hy hr with ⟨-, h⟩ | ⟨v, h, -⟩
  · exact h
  · cases key _ h

/-- For a tiny power the code computes the logarithm of the base without decimals. -/
theorem powerReal_tiny [Build] {lm : Libm} (hl : LibmOK lm) {fuel : Nat} {u e : Var} (hu : Canonical u) (hu0 : 0 < value u)
    (he : Canonical e) {w : ℤ} (ew : estimateLnDweight lm u = .ok w) (hw0 : -2 ≤ w) (hw6 : w ≤ 6)
    (hw : value u ≠ 1 → (10:ℝ) ^ w ≤ 1025 / 100 * |Real.log (value u)|)
    (h1 : -6000 ≤ (value e : ℝ) * Real.log (value u)) (h2 : (value e : ℝ) * Real.log (value u) ≤ -2340)
    {y1 : Var} (e1 : lnCommon fuel u (8 - w) = .ok y1) :
    powerReal lm fuel u e = (do
      let y ← lnCommon fuel u 0
      let n ← mulCommon y e 0
      expCommon lm fuel n 1000) := by
  obtain ⟨l1, l2, -⟩ := log_ten_bounds
  set T : ℝ := (value e : ℝ) * Real.log (value u) with hTd
  have hTa : |T| ≤ 6000 := abs_le.2 ⟨by linarith, by linarith⟩
  unfold powerReal
  rw [if_neg (by rw [cmp_zero hu, cmpSign_eq_zero]; exact hu0.ne')]
  simp only [ew, bind_ok, NUMERIC_MIN_SIG_DIGITS, NUMERIC_MIN_DISPLAY_SCALE, NUMERIC_MAX_DISPLAY_SCALE]
  rw [show min (max (8 - w) 0) 1000 = 8 - w by omega, fits_ok (by fits_tac), bind_ok]
  obtain ⟨N1, val, eN1, ev, hv, -⟩ := powFirst_spec hl hu hu0 he (by omega) hw6 hw e1
  replace hv := hv (by rw [← hTd]; exact hTa.trans (by norm_num))
  rw [← hTd] at hv
  simp only [e1, eN1, ev, bind_ok, expect, pure_ok]
  have hv6 : |(val:ℝ) - T| ≤ 6 / 100 := by
    refine hv.trans ?_
    norm_num
    linarith
  rw [if_neg ?_]
  swap
  · have h2 := abs_sub_abs_le_abs_sub (val:ℝ) T
    have : ((|val| : ℚ) : ℝ) ≤ ((6020:ℚ):ℝ) := by push_cast; linarith
    exact not_lt.2 (by exact_mod_cast this)
  obtain ⟨v, ev', hTw, hTv⟩ := powWeight (by linarith) hv6
  rw [ev']
  have hvlo : -10000 ≤ v := by
    by_contra hc
    have : (v:ℝ) + 1 ≤ -10000 := by exact_mod_cast (by omega : v + 1 ≤ -10000)
    have := mul_le_mul_of_nonneg_right this (by linarith : 0 ≤ Real.log 10)
    linarith
  have hvhi : v ≤ -1010 := by
    by_contra hc
    have : (-1010:ℝ) ≤ v - 1 := by
      have : (-1009:ℝ) ≤ v := by exact_mod_cast (by omega : -1009 ≤ v)
      linarith
    have := mul_le_mul_of_nonneg_right this (by linarith : 0 ≤ Real.log 10)
    linarith
  rw [show min (max (max (max (16 - v) u.dscale) e.dscale) 0) 1000 = 1000 by omega,
    show max (1000 + v - w + 8) 0 = 0 by omega, fits_ok (by fits_tac), bind_ok]

/-- The estimated weight of the logarithm of a base that is neither large nor near one. -/
theorem tiny_weight [Build] {lm : Libm} (hl : LibmOK lm) {u : Var} (hu : Canonical u) (hu0 : 0 < value u)
    (h1 : (95 / 1000 : ℝ) ≤ |Real.log (value u)|) (h2 : |Real.log (value u)| ≤ 93 / 100) :
    ∃ w, estimateLnDweight lm u = .ok w ∧ -2 ≤ w ∧ w ≤ 0 ∧ (value u ≠ 1 → (10:ℝ) ^ w ≤ 1025 / 100 * |Real.log (value u)|) := by
  obtain ⟨w, ew, -, hw⟩ := estimate_spec hl hu hu0
  have hne : value u ≠ 1 := by intro h; rw [h] at h1; norm_num at h1
  obtain ⟨g1, g2⟩ := hw hne
  refine ⟨w, ew, ?_, ?_, fun _ => g1⟩
  · by_contra hc
    have : (10:ℝ) ^ w ≤ 10 ^ (-3:ℤ) := zpow_le_zpow_right₀ (by norm_num) (by omega)
    norm_num at this
    linarith
  · by_contra hc
    have : (10:ℝ) ^ (1:ℤ) ≤ 10 ^ w := zpow_le_zpow_right₀ (by norm_num) (by omega)
    norm_num at this
    linarith

/-- A logarithm without decimals. -/
theorem ln_integer [Build] {u : Var} (hu : Canonical u) (hu0 : 0 < value u) (h2 : |Real.log (value u)| ≤ 93 / 100) {fuel : Nat} {y : Var}
    (h : lnCommon fuel u 0 = .ok y) : Work y 0 ∧ ∃ n : ℤ, value y = n ∧ |(n:ℝ) - Real.log (value u)| ≤ 501 / 1000 := by
  obtain ⟨wB, aB⟩ := lnCommon_spec (PosVar.of_canonical hu hu0) le_rfl (by norm_num) h
  have hf : lnFactor (value u) ≤ 22 := by
    unfold lnFactor; rw [max_le_iff]; constructor <;> linarith
  obtain ⟨n, hn⟩ := wB.scale
  simp only [zpow_zero, mul_one] at hn
  refine ⟨wB, n, hn, ?_⟩
  rw [hn] at aB
  push_cast at aB
  refine aB.trans ?_
  norm_num
  linarith

theorem log_range_above {x : ℝ} (h1 : 11 / 10 ≤ x) (h2 : x ≤ 3 / 2) : 95 / 1000 ≤ Real.log x ∧ Real.log x ≤ 41 / 100 := by
  refine ⟨log_eleven h1, ?_⟩
  have h3 : Real.log x ≤ Real.log (3 / 2) := Real.log_le_log (by linarith) h2
  have h4 : Real.log (3 / 2 : ℝ) ≤ 41 / 100 := by
    rw [Real.log_le_iff_le_exp (by norm_num)]
    have h5 := Real.sum_le_exp_of_nonneg (x := 41 / 100) (by norm_num) 4
    simp [Finset.sum_range_succ, Nat.factorial] at h5
    norm_num at h5 ⊢
    linarith
  linarith

theorem log_range_below {x : ℝ} (h1 : 2 / 5 ≤ x) (h2 : x ≤ 3 / 5) : 510 / 1000 ≤ -Real.log x ∧ -Real.log x ≤ 93 / 100 := by
  have hx : 0 < x := by linarith
  constructor
  · have h3 : Real.log x ≤ Real.log (3 / 5) := Real.log_le_log hx h2
    have h4 : Real.log (3 / 5 : ℝ) ≤ -(510 / 1000) := by
      have h6 : Real.log (3 / 5 : ℝ) = -Real.log (5 / 3) := by rw [← Real.log_inv]; norm_num
      rw [h6, neg_le_neg_iff, Real.le_log_iff_exp_le (by norm_num)]
      have h5 := Real.exp_bound' (x := 510 / 1000) (by norm_num) (by norm_num) (n := 6) (by norm_num)
      simp [Finset.sum_range_succ, Nat.factorial] at h5
      norm_num at h5 ⊢
      linarith
    linarith
  · have h3 : Real.log (2 / 5) ≤ Real.log x := Real.log_le_log (by norm_num) h1
    have h4 : -(93 / 100) ≤ Real.log (2 / 5 : ℝ) := by
      have h6 : Real.log (2 / 5 : ℝ) = -Real.log (5 / 2) := by rw [← Real.log_inv]; norm_num
      rw [h6, neg_le_neg_iff, Real.log_le_iff_le_exp (by norm_num)]
      have h5 := Real.sum_le_exp_of_nonneg (x := 93 / 100) (by norm_num) 6
      simp [Finset.sum_range_succ, Nat.factorial] at h5
      norm_num at h5 ⊢
      linarith
    linarith

theorem tiny_bound {x y : ℝ} (hx : 0 < x) (h : y * Real.log x ≤ -2340) : x ^ y ≤ 10 ^ (-1016:ℤ) := by
  obtain ⟨l1, l2, -⟩ := log_ten_bounds
  rw [Real.rpow_def_of_pos hx, mul_comm, ← exp_mul_log_ten]
  apply Real.exp_le_exp.2
  push_cast
  linarith

/-- The exponential of zero. -/
theorem exp_of_zero [Build] {lm : Libm} (hl : LibmOK lm) {fuel : Nat} (hf : 4200 ≤ fuel) {N : Var} (wN : Work N 0) (hN : value N = 0) :
    ∃ R, expCommon lm fuel N 1000 = .ok (some R) ∧ Storable R ∧ R.dscale = 1000 ∧ value R = 1 := by
  obtain ⟨val, -, hval, -, -, hmain⟩ := expCommon_spec hl hf wN (wN.smR (by rw [hN]; norm_num)) (rs := 1000) (by norm_num) le_rfl
  replace hval := hval (by rw [hN]; simp)
  obtain ⟨R, eR, r1, r2, r3, r4, r5, r6, rl, r7, r8⟩ := hmain (val_lt hval (by rw [hN]; norm_num))
  refine ⟨R, eR, ⟨r1, r2, by rw [r3]; exact r4, by omega, by omega, r5, r6, rl, r7⟩, r3, ?_⟩
  rw [hN, Rat.cast_zero, Real.exp_zero] at r8
  exact near_scaled (c := 1) r4 (by have := HasScale.int 1 (s := 1000) (by norm_num); simpa using this) (by norm_num : (51 / 100 : ℝ) < 1)
    (by push_cast; exact r8)

theorem mul_by_zero [Build] {y e : Var} (wy : Work y 0) (hy : value y = 0) (he : Canonical e) :
    ∃ N, mulCommon y e 0 = .ok N ∧ Work N 0 ∧ value N = 0 := by
  have hlen : y.digits.length = 0 := by rw [wy.zero_iff.2 hy]; rfl
  obtain ⟨N, eN, wN, aN⟩ := wy.mul (Work.of_canonical he) le_rfl (by norm_num) (wy.smR (by rw [hy]; norm_num)) he.small (n := 0) (by omega)
  refine ⟨N, eN, wN, ?_⟩
  obtain ⟨n, hn⟩ := wN.scale
  simp only [zpow_zero, mul_one] at hn
  rw [hy] at aN
  norm_num at aN
  rw [hn] at aN ⊢
  have h2 : |(n:ℝ)| < 1 := by push_cast at aN; linarith
  have h2 : |n| < 1 := by exact_mod_cast h2
  rw [Int.abs_lt_one_iff] at h2
  rw [h2]; simp

/-- C52 (defect): a power below about `10^-1016` of a base between 1.1 and 1.5 is computed as one: the logarithm of the base is
computed to zero decimals, where it is zero. For example `1.5^-10000.5`. -/
theorem C52_tiny_power_is_one [Build] {lm : Libm} (hl : LibmOK lm) {fuel : Nat} (hf : 4200 ≤ fuel) {a b : Bin} {o : Option Bin} {x y : ℚ}
    {s t : Int} (ha : Holds a x s) (hb : Holds b y t) (hx1 : 11 / 10 ≤ x) (hx2 : x ≤ 3 / 2)
    (hy : ∀ k : ℤ, y = k → ¬ IsI32 k) (h1 : -6000 ≤ (y:ℝ) * Real.log x) (h2 : (y:ℝ) * Real.log x ≤ -2340)
    (hr : Num.pow lm fuel a b = .ok o) :
    (∃ r, o = some r ∧ Holds r 1 1000) ∧ (x:ℝ) ^ (y:ℝ) ≤ 10 ^ (-1016:ℤ) := by
  obtain ⟨u, hu, rfl, rfl, -, -, va⟩ := ha.exists_var
  obtain ⟨e, he, rfl, rfl, -, -, vb⟩ := hb.exists_var
  have hx : 0 < value u := by linarith
  have hU : (0:ℝ) < (value u : ℝ) := by exact_mod_cast hx
  refine ⟨?_, tiny_bound hU h2⟩
  obtain ⟨hlo, hhi⟩ := log_range_above (by have := castR hx1; push_cast at this; exact this) (by have := castR hx2; push_cast at this; exact this)
  have habs : |Real.log (value u : ℝ)| = Real.log (value u : ℝ) := abs_of_pos (by linarith)
  obtain ⟨w, ew, hw0, hw6, hw⟩ := tiny_weight hl hu hx (by rw [habs]; linarith) (by rw [habs]; linarith)
  have key : ∀ p, powerReal lm fuel u e = .ok p → ∃ R, p = some R ∧ Storable R ∧ R.dscale = 1000 ∧ value R = 1 := by
    intro p h
    have hfirst : ∃ y1, lnCommon fuel u (8 - w) = .ok y1 := by
      have h' := h
      unfold powerReal at h'
      rw [if_neg (by rw [cmp_zero hu, cmpSign_eq_zero]; exact hx.ne')] at h'
      simp only [ew, bind_ok, NUMERIC_MIN_SIG_DIGITS, NUMERIC_MIN_DISPLAY_SCALE, NUMERIC_MAX_DISPLAY_SCALE] at h'
      rw [show min (max (8 - w) 0) 1000 = 8 - w by omega, fits_ok (by fits_tac), bind_ok] at h'
      obtain ⟨y1, e1, -⟩ := bind_elim h'
      exact ⟨y1, e1⟩
    obtain ⟨y1, e1⟩ := hfirst
    rw [powerReal_tiny hl hu hx he ew hw0 (by omega) hw h1 h2 e1] at h
    obtain ⟨y2, e2, h⟩ := bind_elim h
    obtain ⟨wy, n, hn, hn1⟩ := ln_integer hu hx (by rw [habs]; linarith) e2
    have hz : value y2 = 0 := by
      have h2 : |(n:ℝ)| < 1 := by
        rw [abs_le] at hn1
        rw [abs_lt]; constructor <;> linarith [hn1.1, hn1.2]
      have h2 : |n| < 1 := by exact_mod_cast h2
      rw [Int.abs_lt_one_iff] at h2
      rw [hn, h2]; simp
    obtain ⟨N, eN, wN, hN⟩ := mul_by_zero wy hz he
    simp only [eN, bind_ok] at h
    obtain ⟨R, eR, hR⟩ := exp_of_zero hl hf wN hN
    rw [h] at eR; cases eR
    exact ⟨R, rfl, hR⟩
  rcases pow_real_elim hu he va vb hx hy hr with ⟨h, -⟩ | ⟨v, h, hfin⟩
  · obtain ⟨R, h3, -⟩ := key _ h
    cases h3
  · obtain ⟨R, h3, ⟨r1, r2, r3, r4, r5, r6, r7, rl, r8⟩, hs, h9⟩ := key _ h
    cases h3
    obtain ⟨r, er, hr'⟩ := (Num.finish_loose r1 r2 hs h9 (by norm_num) (by norm_num) (by rw [← h9, ← hs]; exact r3) (.inl (by omega)) (by omega) (by omega)).1
      (by rw [← h9]; exact r8)
    have h4 := hfin r2
    rw [er] at h4
    cases h4
    exact ⟨r, rfl, hr'⟩

/-- C52 (defect): a power below about `10^-1016` of a base between 0.4 and 0.6 with an exponent above 6002 is reported as an
overflow: the logarithm of the base is computed to zero decimals, where it is minus one. For example `0.5^8000.5`. -/
theorem C52_tiny_power_overflows [Build] {lm : Libm} (hl : LibmOK lm) {fuel : Nat} (hf : 4200 ≤ fuel) {a b : Bin} {o : Option Bin} {x y : ℚ}
    {s t : Int} (ha : Holds a x s) (hb : Holds b y t) (hx1 : 2 / 5 ≤ x) (hx2 : x ≤ 3 / 5) (hy0 : 6002 ≤ y)
    (hy : ∀ k : ℤ, y = k → ¬ IsI32 k) (h1 : -6000 ≤ (y:ℝ) * Real.log x)
    (hr : Num.pow lm fuel a b = .ok o) : o = none ∧ (x:ℝ) ^ (y:ℝ) ≤ 10 ^ (-1016:ℤ) := by
  obtain ⟨u, hu, rfl, rfl, -, -, va⟩ := ha.exists_var
  obtain ⟨e, he, rfl, rfl, -, -, vb⟩ := hb.exists_var
  have hx : 0 < value u := by linarith
  have hU : (0:ℝ) < (value u : ℝ) := by exact_mod_cast hx
  obtain ⟨hlo, hhi⟩ := log_range_below (by have := castR hx1; push_cast at this; exact this) (by have := castR hx2; push_cast at this; exact this)
  have hyR : (6002:ℝ) ≤ (value e : ℝ) := by have := castR hy0; push_cast at this; exact this
  have h2 : (value e : ℝ) * Real.log (value u) ≤ -2340 := by nlinarith
  have hyR2 : (value e : ℝ) ≤ 20000 := by nlinarith
  refine ⟨?_, tiny_bound hU h2⟩
  have habs : |Real.log (value u : ℝ)| = -Real.log (value u : ℝ) := abs_of_neg (by linarith)
  obtain ⟨w, ew, hw0, hw6, hw⟩ := tiny_weight hl hu hx (by rw [habs]; linarith) (by rw [habs]; linarith)
  have key : ∀ p, powerReal lm fuel u e = .ok p → p = none := by
    intro p h
    have hfirst : ∃ y1, lnCommon fuel u (8 - w) = .ok y1 := by
      have h' := h
      unfold powerReal at h'
      rw [if_neg (by rw [cmp_zero hu, cmpSign_eq_zero]; exact hx.ne')] at h'
      simp only [ew, bind_ok, NUMERIC_MIN_SIG_DIGITS, NUMERIC_MIN_DISPLAY_SCALE, NUMERIC_MAX_DISPLAY_SCALE] at h'
      rw [show min (max (8 - w) 0) 1000 = 8 - w by omega, fits_ok (by fits_tac), bind_ok] at h'
      obtain ⟨y1, e1, -⟩ := bind_elim h'
      exact ⟨y1, e1⟩
    obtain ⟨y1, e1⟩ := hfirst
    rw [powerReal_tiny hl hu hx he ew hw0 (by omega) hw h1 h2 e1] at h
    obtain ⟨y2, e2, h⟩ := bind_elim h
    obtain ⟨wy, n, hn, hn1⟩ := ln_integer hu hx (by rw [habs]; linarith) e2
    have hz : n = -1 := by
      rw [abs_le] at hn1
      have a1 : (n:ℝ) < ((0:ℤ):ℝ) := by push_cast; linarith [hn1.2]
      have a2 : ((-2:ℤ):ℝ) < (n:ℝ) := by push_cast; linarith [hn1.1]
      have a1 : n < 0 := by exact_mod_cast a1
      have a2 : -2 < n := by exact_mod_cast a2
      omega
    have hlen : (y2.digits.length : ℤ) ≤ 1 := by
      have := (wy.bounds (k := 1) (by norm_num) (by rw [hn, hz]; norm_num)).2.2.2
      omega
    obtain ⟨N, eN, wN, aN⟩ := wy.mul (Work.of_canonical he) le_rfl (by norm_num) (wy.smR (by rw [hn, hz]; norm_num)) he.small (n := 1) (by omega)
    simp only [eN, bind_ok] at h
    rw [hn, hz] at aN
    push_cast at aN
    norm_num at aN
    have hN1 : |(value N : ℝ)| ≤ 20001 ∧ 6000 + 1 / 10 ^ 9 ≤ |(value N : ℝ)| := by
      rw [abs_le] at aN
      rw [abs_of_neg (by linarith [aN.2])]
      constructor
      · linarith [aN.1]
      · norm_num; linarith [aN.2]
    have hNa : |value N| ≤ 20001 := by
      have : ((|value N| : ℚ) : ℝ) ≤ ((20001 : ℚ) : ℝ) := by push_cast; exact hN1.1
      exact_mod_cast this
    have hNb : 6000 + 1 / 10 ^ 9 ≤ |value N| := by
      have : ((6000 + 1 / 10 ^ 9 : ℚ) : ℝ) ≤ ((|value N| : ℚ) : ℝ) := by push_cast; exact hN1.2
      exact_mod_cast this
    obtain ⟨val, -, hval, -, hmain, -⟩ := expCommon_spec hl hf wN (wN.smR (by norm_num; linarith [hN1.1])) (rs := 1000) (by norm_num) le_rfl
    have := hmain (val_ge (hval (hNa.trans (by norm_num))) hNb)
    rw [h] at this
    cases this; rfl
  rcases pow_real_elim hu he va vb hx hy hr with ⟨-, h⟩ | ⟨v, h, -⟩
  · exact h
  · cases key _ h

/-- The power is found if the logarithms of the base are. -/
theorem pow_returns [Build] {lm : Libm} (hl : LibmOK lm) {fuel : Nat} (hf : 4200 ≤ fuel) {a b : Bin} {x y : ℚ} {s t : Int}
    (ha : Holds a x s) (hb : Holds b y t) (hx : 0 < x) (hx1 : x = 1 ∨ (10:ℚ) ^ (-980:ℤ) ≤ |x - 1|)
    (hy : ∀ k : ℤ, y = k → ¬ IsI32 k)
    (hln : ∀ u : Var, Canonical u → value u = x → u.dscale = s → ∀ R : ℤ, 0 ≤ R → R ≤ 5000 →
      ∃ y, lnCommon fuel u R = .ok y) : ∃ o, Num.pow lm fuel a b = .ok o := by
  obtain ⟨u, hu, rfl, rfl, -, -, va⟩ := ha.exists_var
  obtain ⟨c, hc, rfl, rfl, -, -, vb⟩ := hb.exists_var
  rcases powerReal_ok hl hf hu hx hx1 hc (F := fun _ => False) (fun R h0 h1 _ => .inl (hln u hu rfl rfl R h0 h1)) with ⟨o, ho, hs⟩ | ⟨f, hd, -⟩
  swap
  · exact hd.elim
  rw [pow_unfold lm fuel va vb, (pow_checks lm fuel hu hc).2.2 (fun h => by linarith [h.1]) (fun h => by linarith),
    powerCommon_real lm fuel hu hc hy, ho]
  cases o with
  | none => exact ⟨none, rfl⟩
  | some R =>
    obtain ⟨r1, r2, r3, r4, r5, r6, r7, rl, r8⟩ := hs R rfl
    simp only [bind_ok, if_neg r2]
    obtain ⟨r, er, -⟩ := (Num.finish_loose r1 r2 rfl rfl r4 (by omega) r3 (.inl (by omega)) (by omega) (by omega)).1 r8
    exact ⟨_, er⟩

/-- C52: a real power of a base between 0.9 and 1.1 (and not extremely close to one) always returns, in a release build, and in every build if the
base has at most 80 decimals. -/
theorem C52_pow_total_near_one [Build] {lm : Libm} (hl : LibmOK lm) {fuel : Nat} (hf : 4200 ≤ fuel) {a b : Bin} {x y : ℚ} {s t : Int}
    (ha : Holds a x s) (hb : Holds b y t) (h9 : 9 / 10 < x) (h11 : x < 11 / 10)
    (hx1 : x = 1 ∨ (10:ℚ) ^ (-980:ℤ) ≤ |x - 1|) (hy : ∀ k : ℤ, y = k → ¬ IsI32 k) (hs : Build.debug = false ∨ s ≤ 80) :
    ∃ o, Num.pow lm fuel a b = .ok o := by
  refine pow_returns hl hf ha hb (by linarith) hx1 hy ?_
  intro u hu hux hus R h0 h1
  rcases lnCommon_near (PosVar.of_canonical hu (by rw [hux]; linarith)) (R := R) (by
      have : ((9 / 10 : ℚ) : ℝ) < (value u : ℝ) := by rw [hux]; exact_mod_cast h9
      push_cast at this; exact this) (by
      have : (value u : ℝ) < ((11 / 10 : ℚ) : ℝ) := by rw [hux]; exact_mod_cast h11
      push_cast at this; exact this) h0 h1 (fuel := fuel) (by omega) with h | ⟨hd, -, h80⟩
  · exact h
  · rcases hs with hs | hs
    · rw [hs] at hd; cases hd
    · omega

theorem half_not_int {n : ℤ} (h : n % 2 = 1) (k : ℤ) (hk : (n:ℚ) / 2 = k) : ¬ IsI32 k := by
  have : (n:ℚ) = 2 * k := by linarith
  have : n = 2 * k := by exact_mod_cast this
  omega

/-- The hypotheses are met: `1.0404^0.5` and `1.0404^-0.5` return in every build with any accurate libm, and the first is
exactly 1.02. -/
example (d e : Bool) {lm : Libm} (hl : LibmOK lm) : ∃ a b c r q o, @Holds ⟨d, e⟩ a (10404 / 10000) 4 ∧ @Holds ⟨d, e⟩ b (1 / 2) 1 ∧
    @Holds ⟨d, e⟩ c (-1 / 2) 1 ∧ @Num.pow ⟨d, e⟩ lm 4200 a b = .ok (some r) ∧ @Holds ⟨d, e⟩ r (102 / 100) q ∧
    @Num.pow ⟨d, e⟩ lm 4200 a c = .ok o := by
  let _ : Build := ⟨d, e⟩
  obtain ⟨a, ha⟩ := witness (x := 10404 / 10000) (s := 4) 10404 (by norm_num) (by norm_num) (by norm_num) (by norm_num [abs_lt])
  obtain ⟨b, hb⟩ := witness (x := 1 / 2) (s := 1) 5 (by norm_num) (by norm_num) (by norm_num) (by norm_num [abs_lt])
  obtain ⟨c, hc⟩ := witness (x := -1 / 2) (s := 1) (-5) (by norm_num) (by norm_num) (by norm_num) (by norm_num [abs_lt])
  have haway : (10404 / 10000 : ℚ) = 1 ∨ (10:ℚ) ^ (-980:ℤ) ≤ |(10404 / 10000 : ℚ) - 1| := by
    right
    rw [abs_of_pos (by norm_num)]
    refine le_trans ?_ (by norm_num : (1:ℚ) / 100 ≤ _)
    rw [show (1 / 100 : ℚ) = 10 ^ (-2:ℤ) by norm_num, T_zpow_le_iff]; norm_num
  obtain ⟨o1, e1⟩ := C52_pow_total_near_one hl (fuel := 4200) le_rfl ha hb (by norm_num) (by norm_num) haway
    (fun k hk => half_not_int (n := 1) (by norm_num) k (by rw [← hk]; norm_num)) (.inr (by norm_num))
  obtain ⟨o2, e2⟩ := C52_pow_total_near_one hl (fuel := 4200) le_rfl ha hc (by norm_num) (by norm_num) haway
    (fun k hk => half_not_int (n := -1) (by norm_num) k (by rw [← hk]; norm_num)) (.inr (by norm_num))
  have hL : |Real.log ((10404 / 10000 : ℚ) : ℝ)| ≤ 1 := by
    push_cast
    have := Real.log_le_sub_one_of_pos (x := 10404 / 10000) (by norm_num)
    rw [abs_of_pos (Real.log_pos (by norm_num))]
    norm_num at this ⊢
    linarith
  rw [abs_le] at hL
  obtain ⟨r, q, rfl, h⟩ := C52_pow_exact hl (fuel := 4200) le_rfl (c := 102 / 100) ha hb (by norm_num) haway
    (fun k hk => half_not_int (n := 1) (by norm_num) k (by rw [← hk]; norm_num)) (by push_cast at hL ⊢; linarith [hL.1])
    (by push_cast at hL ⊢; linarith [hL.2]) (by
      push_cast
      rw [show (1 / 2 : ℝ) = 1 / 2 by rfl, ← Real.sqrt_eq_rpow, Real.sqrt_eq_iff_mul_self_eq (by norm_num) (by norm_num)]
      norm_num)
    ⟨10200, by norm_num⟩ (abs_le.2 ⟨by linarith [hL.1], by linarith [hL.2]⟩) e1
  exact ⟨a, b, c, r, q, o2, ha, hb, hc, e1, h, e2⟩

end PgNumeric.Props
