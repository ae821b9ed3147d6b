import Verif.Proofs.Sqrt
import Verif.Proofs.Power
import Mathlib.Analysis.SpecialFunctions.Log.Basic
/-!
# Range reduction of the natural logarithm by repeated square roots
-/
namespace PgNumeric
open Spec Var

/-- The shape of a rounded variable. -/
theorem roundCommon_shape' [Build] (v : Var) (s : Int) (h : Digits v.digits) (hn : v.sign ≠ .nan) {u : Var}
    (hu : roundCommon v s = .ok u) :
    u.digits = [] ∨ (u.sign = v.sign ∧ u.digits.length ≤ v.digits.length + 1 ∧
      (u.weight = v.weight ∨ (u.weight = v.weight + 1 ∧ ∃ d ds, u.digits = d :: ds ∧ d ≠ 0))) := by
  unfold roundCommon at hu
  rw [dassert_ok hn] at hu
  simp only [bind_ok] at hu
  rcases hf : fits [v.weight + 1, (v.weight + 1) * DEC_DIGITS, (v.weight + 1) * DEC_DIGITS + s,
    (v.weight + 1) * DEC_DIGITS + s + DEC_DIGITS] with e | _
  · rw [hf] at hu; cases hu
  rw [hf, bind_ok] at hu
  split at hu
  · cases hu; left; rfl
  split at hu
  swap
  · cases hu; right; exact ⟨rfl, by simp, .inl rfl⟩
  right
  split at hu
  · cases hg : getM v.digits (((v.weight + 1) * DEC_DIGITS + s + DEC_DIGITS - 1) / DEC_DIGITS).toNat with
    | error e => rw [hg] at hu; cases hu
    | ok d =>
      rw [hg] at hu
      simp only [bind_ok] at hu
      obtain ⟨ds', c', e, -, hc', hl, -⟩ := carryUp_spec (v.digits.take (((v.weight + 1) * DEC_DIGITS + s + DEC_DIGITS - 1) / DEC_DIGITS).toNat)
        (if d ≥ HALF_NBASE then 1 else 0) (h.take _) (by split <;> simp)
      rw [e] at hu
      simp only [bind_ok] at hu
      rw [List.length_take] at hl
      split at hu
      · cases hu; exact ⟨rfl, by simp only [List.length_cons]; omega, .inr ⟨rfl, _, _, rfl, by omega⟩⟩
      · cases hu; exact ⟨rfl, by simp only; omega, .inl rfl⟩
  · rename_i hpos hcut hdi
    simp only [DEC_DIGITS] at hpos hcut hdi hu
    generalize hD : ((v.weight + 1) * 4 + s) = di at *
    have h1 : 1 ≤ ((di + 4 - 1) / 4).toNat := by omega
    have hlt : ((di + 4 - 1) / 4).toNat - 1 < v.digits.length := by simp only [ndigits] at hcut; omega
    rw [getM_ok hlt] at hu
    simp only [bind_ok] at hu
    have hpp : roundPower (di % 4) = 10 ∨ roundPower (di % 4) = 100 ∨ roundPower (di % 4) = 1000 := by
      rcases roundPower_cases (k := di % 4) (by omega) (by omega) with ⟨-, hh⟩ | ⟨-, hh⟩ | ⟨-, hh⟩ <;> simp [hh]
    obtain ⟨d', c, e, -, hc, -⟩ := roundDigit_spec _ _ (Digits.get h hlt) hpp
    rw [e] at hu
    simp only [bind_ok] at hu
    obtain ⟨ds', c', e, -, hc', hl, -⟩ := carryUp_spec (v.digits.take (((di + 4 - 1) / 4).toNat - 1)) c (h.take _) hc
    rw [e] at hu
    simp only [bind_ok, pure_ok] at hu
    rw [List.length_take] at hl
    split at hu
    · cases hu; exact ⟨rfl, by simp only [List.length_cons, List.length_append, List.length_nil]; omega, .inr ⟨rfl, _, _, rfl, by omega⟩⟩
    · cases hu; exact ⟨rfl, by simp only [List.length_cons, List.length_append, List.length_nil]; omega, .inl rfl⟩

/-- A rounded non-zero variable keeps a non-zero leading digit. -/
theorem roundCommon_head [Build] (v : Var) (s : Int) (h : Digits v.digits) (hn : v.sign ≠ .nan)
    (hh : v.digits.head? ≠ some 0) (hne : v.digits ≠ []) (hvw : -300000000 ≤ v.weight ∧ v.weight ≤ 300000000)
    (hvs : -300000000 ≤ s ∧ s ≤ 300000000) {u : Var} (hu : roundCommon v s = .ok u) (hv : value u ≠ 0) :
    u.digits.head? ≠ some 0 ∧ u.digits ≠ [] ∧ u.sign = v.sign ∧ u.digits.length ≤ v.digits.length + 1 ∧
      v.weight ≤ u.weight ∧ u.weight ≤ v.weight + 1 := by
  have hune : u.digits ≠ [] := by
    intro h; apply hv; unfold value; rw [h]; cases u.sign <;> simp
  obtain ⟨u', eu', hud, hun, -, huv⟩ := roundCommon_spec v s h hn hvw hvs
  rw [hu] at eu'; cases eu'
  rcases roundCommon_shape' v s h hn hu with h0 | ⟨hs, hl, hw⟩
  · exact absurd h0 hune
  rcases hw with hw | ⟨hw, d, ds, hd, hd0⟩
  · refine ⟨?_, hune, hs, hl, by omega, by omega⟩
    intro hz
    obtain ⟨d, ds, hd⟩ := List.exists_cons_of_ne_nil hune
    rw [hd] at hz
    have hd0 : d = 0 := by simpa using hz
    -- the rounded magnitude would be below the leading digit
    have hlow : |value u| < (10000:ℚ) ^ v.weight := by
      rw [abs_value u hud, hd, mag_cons, hd0, hw]
      rw [hd] at hud
      have := mag_lt (Digits.cons.1 hud).2 (v.weight - 1)
      rw [sub_add_cancel] at this
      simpa using this
    have hge : (10000:ℚ) ^ v.weight ≤ |value v| := by
      rw [abs_value v h]
      obtain ⟨d, ds, hd⟩ := List.exists_cons_of_ne_nil hne
      rw [hd] at hh h ⊢
      exact mag_ge_of_head h (by simpa using hh) _
    obtain ⟨n, hn'⟩ := (huv ▸ roundHalfAway_hasScale (value v) s : HasScale (value u) s).abs
    have hT := T_zpow_pos s
    have hTT : (10:ℚ) ^ s * 10 ^ (-s) = 1 := by rw [← zpow_add₀ (by norm_num)]; simp
    have hU := T_zpow_pos (-s)
    have hup : 0 < |value u| := abs_pos.2 hv
    have hn1 : 1 ≤ n := by
      have : (0:ℚ) < n := by rw [← hn']; positivity
      have : 0 < n := by exact_mod_cast this
      omega
    have hn1' : (1:ℚ) ≤ n := by exact_mod_cast hn1
    have heq : |value u| = n * 10 ^ (-s) := by rw [← hn', mul_assoc, hTT, mul_one]
    by_cases hws : 0 ≤ 4 * v.weight + s
    · -- both magnitudes are multiples of `10^-s`
      obtain ⟨k, hk⟩ := Int.eq_ofNat_of_zero_le hws
      have hB : (10000:ℚ) ^ v.weight = ((10 ^ k : ℤ) : ℚ) * 10 ^ (-s) := by
        push_cast
        rw [B_eq_T, ← zpow_natCast, ← zpow_add₀ (by norm_num)]; congr 1; omega
      rw [heq, hB] at hlow
      have h1 : (n:ℚ) < ((10 ^ k : ℤ) : ℚ) := lt_of_mul_lt_mul_right hlow hU.le
      have h1 : n < 10 ^ k := by exact_mod_cast h1
      have h2 : (n:ℚ) + 1 ≤ ((10 ^ k : ℤ) : ℚ) := by exact_mod_cast (by omega : n + 1 ≤ 10 ^ k)
      have h3 := roundHalfAway_err (value v) s
      rw [← huv] at h3
      have h4 : |value v| - |value u| ≤ 10 ^ (-s) / 2 := by
        have := abs_sub_abs_le_abs_sub (value v) (value u)
        rw [abs_sub_comm] at this
        linarith
      have h5 := mul_le_mul_of_nonneg_right h2 hU.le
      rw [heq] at h4
      rw [hB] at hge
      linarith
    · have : (10000:ℚ) ^ v.weight < 10 ^ (-s) := by rw [B_eq_T, T_zpow_lt_iff]; omega
      have := mul_le_mul_of_nonneg_right hn1' hU.le
      linarith
  · refine ⟨?_, hune, hs, hl, by omega, by omega⟩
    rw [hd]; simpa using hd0

/-- Newton's stopping criterion bounds the distance to the root. -/
theorem sqrt_near {A ρ : ℚ} {s : ℤ} (hA : 0 < A) (hρ : 0 < ρ) (hc : |ρ - A / ρ| ≤ 16 / 10 * 10 ^ (-(s + 8))) :
    |((roundHalfAway ρ s : ℚ) : ℝ) - √(A:ℝ)| ≤ (1 / 2 + 16 / 10 ^ 9) * 10 ^ (-s) := by
  have hT : (10:ℚ) ^ (-(s + 8)) = 10 ^ (-s) / 10 ^ 8 := by
    rw [show -(s + 8) = -s - 8 by ring, zpow_sub₀ (by norm_num)]
    norm_num
  rw [hT] at hc
  have hxR : (0:ℝ) < (A : ℝ) := by exact_mod_cast hA
  have hρR : (0:ℝ) < (ρ:ℝ) := by exact_mod_cast hρ
  have h1 : |(roundHalfAway ρ s : ℝ) - ρ| ≤ (10:ℝ) ^ (-s) / 2 := by
    have := roundHalfAway_err ρ s
    have : ((|roundHalfAway ρ s - ρ| : ℚ) : ℝ) ≤ (((10:ℚ) ^ (-s) / 2 : ℚ) : ℝ) := by exact_mod_cast this
    push_cast at this
    exact this
  have h2 : |(ρ:ℝ) - (A : ℝ) / ρ| ≤ 16 / 10 * ((10:ℝ) ^ (-s) / 10 ^ 8) := by
    have : ((|ρ - A / ρ| : ℚ) : ℝ) ≤ ((16 / 10 * ((10:ℚ) ^ (-s) / 10 ^ 8) : ℚ) : ℝ) := by exact_mod_cast hc
    push_cast at this
    exact this
  have hsp := Real.sqrt_pos.2 hxR
  have hss := Real.mul_self_sqrt hxR.le
  have h3 : |(ρ:ℝ) - √(A : ℝ)| ≤ |(ρ:ℝ) - (A : ℝ) / ρ| := by
    have e1 : (ρ:ℝ) - (A : ℝ) / ρ = (ρ - √(A : ℝ)) * ((ρ + √(A : ℝ)) / ρ) := by
      field_simp
      nlinarith
    rw [e1, abs_mul]
    have : 1 ≤ |((ρ:ℝ) + √(A : ℝ)) / ρ| := by
      rw [abs_of_pos (by positivity), le_div_iff₀ hρR]; linarith
    exact le_mul_of_one_le_right (abs_nonneg _) this
  have h4 := abs_sub_le (roundHalfAway ρ s : ℝ) ρ (√(A : ℝ))
  generalize (10:ℝ) ^ (-s) = T at *
  linarith

/-- `log` is Lipschitz away from zero. -/
theorem log_lip {a b m : ℝ} (hm : 0 < m) (ha : m ≤ a) (hb : m ≤ b) : |Real.log a - Real.log b| ≤ |a - b| / m := by
  have ha0 : 0 < a := lt_of_lt_of_le hm ha
  have hb0 : 0 < b := lt_of_lt_of_le hm hb
  have key : ∀ {a b : ℝ}, m ≤ a → m ≤ b → Real.log a - Real.log b ≤ |a - b| / m := by
    intro a b ha hb
    have ha0 : 0 < a := lt_of_lt_of_le hm ha
    have hb0 : 0 < b := lt_of_lt_of_le hm hb
    rw [← Real.log_div ha0.ne' hb0.ne']
    have h1 := Real.log_le_sub_one_of_pos (div_pos ha0 hb0)
    have h2 : a / b - 1 = (a - b) / b := by field_simp
    rw [h2] at h1
    refine h1.trans ?_
    calc (a - b) / b ≤ |a - b| / b := div_le_div_of_nonneg_right (le_abs_self _) hb0.le
      _ ≤ |a - b| / m := div_le_div_of_nonneg_left (abs_nonneg _) hm hb
  rw [abs_le]
  constructor
  · have := key hb ha
    rw [abs_sub_comm] at this
    linarith
  · exact key ha hb

/-- One square root of the reduction, at the scale `ln_common` chooses: the logarithm is halved up to
`0.52 * 10^-(R+8)`. -/
theorem reduce_step [Build] {a : Var} (ha : PosVar a) {R : Int} (hR0 : 0 ≤ R) (hR1 : R ≤ 8000) {fuel : Nat} {u : Var}
    (hu : sqrtCommon fuel a (max (R - (a.weight * DEC_DIGITS).tdiv 2 + 8) NUMERIC_MIN_DISPLAY_SCALE) = .ok u) :
    PosVar u ∧ |Real.log (value u) - Real.log (value a) / 2| ≤ 52 / 100 * 10 ^ (-(R + 8)) := by
  have htd : (a.weight * DEC_DIGITS).tdiv 2 = 2 * a.weight := by
    rw [show a.weight * DEC_DIGITS = (2 * a.weight) * 2 by simp only [DEC_DIGITS]; ring, Int.mul_tdiv_cancel _ (by norm_num)]
  rw [htd] at hu
  have hwa := ha.weight_ge
  have hwa2 := ha.weight_le
  generalize hs : max (R - 2 * a.weight + 8) NUMERIC_MIN_DISPLAY_SCALE = s at hu
  have hs' : s = max (R - 2 * a.weight + 8) 0 := hs.symm
  have hs0 : 0 ≤ s := by omega
  have hs1 : s ≤ 16375 := by omega
  have hapos := ha.pos
  rcases sqrtCommon_spec ha hs0 hs1 fuel with ⟨u', ρ, eu, ud, un, us, uv, hρ, hc, v, ev, hv⟩ | e | ⟨-, e⟩ | ⟨-, e⟩
  rotate_left
  · rw [hu] at e; cases e
  · rw [hu] at e; cases e
  · rw [hu] at e; cases e
  rw [hu] at eu; cases eu
  have hnear := sqrt_near hapos hρ hc
  rw [← uv] at hnear
  have hA : (0:ℝ) < (value a : ℝ) := by exact_mod_cast hapos
  have hsp := Real.sqrt_pos.2 hA
  -- lower bound on the root
  have hge : (10:ℝ) ^ (2 * a.weight) ≤ √(value a : ℝ) := by
    apply Real.le_sqrt_of_sq_le
    have h1 : (((10000:ℚ) ^ a.weight : ℚ) : ℝ) ≤ (value a : ℝ) := by exact_mod_cast ha.ge
    push_cast at h1
    refine le_trans (le_of_eq ?_) h1
    rw [← zpow_natCast, ← zpow_mul, show (10000:ℝ) = 10 ^ (4:ℤ) by norm_num, ← zpow_mul]
    congr 1; push_cast; ring
  have hU : (0:ℝ) < 10 ^ (-(R + 8)) := by positivity
  have hU1 : (10:ℝ) ^ (-(R + 8)) ≤ 1 / 10 ^ 8 := by
    have : (10:ℝ) ^ (-(R + 8)) ≤ 10 ^ (-8:ℤ) := zpow_le_zpow_right₀ (by norm_num) (by omega)
    norm_num at this ⊢
    exact this
  have hsU : (10:ℝ) ^ (-s) ≤ √(value a : ℝ) * 10 ^ (-(R + 8)) := by
    calc (10:ℝ) ^ (-s) ≤ 10 ^ (2 * a.weight + -(R + 8)) := zpow_le_zpow_right₀ (by norm_num) (by omega)
      _ = 10 ^ (2 * a.weight) * 10 ^ (-(R + 8)) := zpow_add₀ (by norm_num) _ _
      _ ≤ _ := mul_le_mul_of_nonneg_right hge hU.le
  have hrel : |(value u : ℝ) - √(value a : ℝ)| ≤ 51 / 100 * 10 ^ (-(R + 8)) * √(value a : ℝ) := by
    refine hnear.trans ?_
    have : (1 / 2 + 16 / 10 ^ 9 : ℝ) * 10 ^ (-s) ≤ 51 / 100 * (√(value a : ℝ) * 10 ^ (-(R + 8))) := by
      apply mul_le_mul (by norm_num) hsU (by positivity) (by norm_num)
    linarith
  generalize (10:ℝ) ^ (-(R + 8)) = U at *
  have hlow : 99 / 100 * √(value a : ℝ) ≤ (value u : ℝ) := by
    have := (abs_le.1 hrel).1
    nlinarith
  have hupos : (0:ℝ) < (value u : ℝ) := by nlinarith
  have huq : 0 < value u := by exact_mod_cast hupos
  have hvne : v.digits ≠ [] := fun h => by
    have := (stripped_zero_iff hv.digits hv.stripped).2 h
    have := hv.pos; linarith
  obtain ⟨g1, g2, g3, g4, g5, g6⟩ := roundCommon_head v s hv.digits hv.not_nan hv.stripped.1 hvne
    ⟨by have := hv.small.lo; omega, by have := hv.small.hi; omega⟩ (by omega) ev huq.ne'
  have hvl := stripped_len hv.digits hv.stripped hvne hv.scale
  have hvw := hv.weight_le
  have hvw2 := stripped_weight_ge hv.digits hv.stripped hv.scale (by omega)
  simp only [ndigits] at hvl
  have husg : u.sign = .pos := by
    have hm := mag_nonneg ud u.weight
    cases hs : u.sign
    · rfl
    · unfold value at huq; rw [hs] at huq; simp only at huq; linarith
    · exact absurd hs un
  have hu0 : (10000:ℚ) ^ u.weight ≤ value u := by
    have : value u = mag u.digits u.weight := by unfold value; rw [husg]
    rw [this]
    obtain ⟨d, ds, hd⟩ := List.exists_cons_of_ne_nil g2
    rw [hd] at g1 ud ⊢
    exact mag_ge_of_head ud (by simpa using g1) _
  have huw : u.weight ≤ 33000 := by
    have h1 : (value u : ℝ) ≤ 2 * √(value a : ℝ) := by
      have := (abs_le.1 hrel).2
      nlinarith
    have h2 : value u * value u ≤ 4 * value a := by
      have hss := Real.mul_self_sqrt hA.le
      have : (value u : ℝ) * value u ≤ 4 * (value a : ℝ) := by nlinarith
      exact_mod_cast this
    have h3 : (10000:ℚ) ^ (2 * u.weight) < 10000 ^ (a.weight + 2) := by
      calc (10000:ℚ) ^ (2 * u.weight) = 10000 ^ u.weight * 10000 ^ u.weight := by rw [← zpow_add₀ B_ne]; congr 1; ring
        _ ≤ value u * value u := mul_le_mul hu0 hu0 (B_zpow_pos _).le huq.le
        _ ≤ 4 * value a := h2
        _ < 10000 * 10000 ^ (a.weight + 1) := by
            have := ha.lt
            have hp := B_zpow_pos (a.weight + 1)
            linarith
        _ = _ := by rw [show a.weight + 2 = 1 + (a.weight + 1) by ring, zpow_add₀ B_ne (1:ℤ), zpow_one]
    have := B_zpow_lt_iff.1 h3
    omega
  refine ⟨⟨ud, husg, g1, g2, by omega, huw, by omega, by omega, by omega,
    by rw [us, uv]; exact roundHalfAway_hasScale _ _⟩, ?_⟩
  have h5 : Real.log (value a) / 2 = Real.log √(value a : ℝ) := (Real.log_sqrt hA.le).symm
  rw [h5]
  have h6 := log_lip (b := √(value a : ℝ)) (m := 99 / 100 * √(value a : ℝ)) (by positivity) hlow (by linarith)
  refine h6.trans ?_
  rw [div_le_iff₀ (by positivity)]
  nlinarith

/-- Range reduction by `k` square roots: `2^k * log x'` approximates `log x`. -/
def Red (U x : ℝ) (k : ℕ) (x' : ℝ) : Prop :=
  |2 ^ k * Real.log x' - Real.log x| ≤ 52 / 100 * U * (2 ^ (k + 1) - 2)

theorem Red.refl (U x : ℝ) : Red U x 0 x := by unfold Red; simp

theorem Red.trans {U x y z : ℝ} {j k : ℕ} (h1 : Red U x j y) (h2 : Red U y k z) : Red U x (j + k) z := by
  unfold Red at *
  have e : (2:ℝ) ^ (j + k) * Real.log z - Real.log x =
      2 ^ j * (2 ^ k * Real.log z - Real.log y) + (2 ^ j * Real.log y - Real.log x) := by rw [pow_add]; ring
  rw [e]
  refine (abs_add_le _ _).trans ?_
  rw [abs_mul, abs_of_pos (by positivity : (0:ℝ) < 2 ^ j)]
  have := mul_le_mul_of_nonneg_left h2 (by positivity : (0:ℝ) ≤ 2 ^ j)
  have e2 : (2:ℝ) ^ j * (52 / 100 * U * (2 ^ (k + 1) - 2)) + 52 / 100 * U * (2 ^ (j + 1) - 2) =
      52 / 100 * U * (2 ^ (j + k + 1) - 2) := by
    rw [show j + k + 1 = j + (k + 1) by ring, pow_add 2 j (k + 1), pow_succ 2 j]; ring
  linarith

theorem Red.step {U x y : ℝ} (h : |Real.log y - Real.log x / 2| ≤ 52 / 100 * U) : Red U x 1 y := by
  unfold Red
  have e : (2:ℝ) ^ 1 * Real.log y - Real.log x = 2 * (Real.log y - Real.log x / 2) := by ring
  rw [e, abs_mul, abs_of_pos (by norm_num : (0:ℝ) < 2)]
  norm_num
  linarith

/-- Range reduction that did not go too far: the last root was taken of a number with a logarithm above `0.095`. -/
def RedOK (U x : ℝ) (k : ℕ) (x' : ℝ) : Prop :=
  Red U x k x' ∧ ∀ j, k = j + 1 → ∃ z, Red U x j z ∧ 95 / 1000 ≤ |Real.log z|

theorem RedOK.refl (U x : ℝ) : RedOK U x 0 x := ⟨Red.refl U x, fun j h => by omega⟩

theorem RedOK.trans {U x y z : ℝ} {j k : ℕ} (h1 : RedOK U x j y) (h2 : RedOK U y k z) : RedOK U x (j + k) z := by
  refine ⟨h1.1.trans h2.1, fun i hi => ?_⟩
  cases k with
  | zero => exact h1.2 i hi
  | succ k =>
    obtain ⟨w, hw, hw2⟩ := h2.2 k rfl
    refine ⟨w, ?_, hw2⟩
    have : i = j + k := by omega
    rw [this]; exact h1.1.trans hw

theorem RedOK.step {U x y : ℝ} (h : |Real.log y - Real.log x / 2| ≤ 52 / 100 * U) (hx : 95 / 1000 ≤ |Real.log x|) : RedOK U x 1 y := by
  refine ⟨Red.step h, fun j hj => ⟨x, ?_, hx⟩⟩
  have : j = 0 := by omega
  rw [this]; exact Red.refl U x

/-- How many roots were taken. -/
theorem RedOK.count {U x y : ℝ} {k : ℕ} (h : RedOK U x k y) (hU0 : 0 ≤ U) (hU : U ≤ 1 / 10 ^ 8) :
    (2:ℝ) ^ (k + 1) ≤ 2 * max 1 (22 * |Real.log x|) := by
  cases k with
  | zero => have := le_max_left 1 (22 * |Real.log x|); norm_num
  | succ j =>
    obtain ⟨z, hz, hz2⟩ := h.2 j rfl
    unfold Red at hz
    have hp : (0:ℝ) < 2 ^ j := by positivity
    have h1 : 2 ^ j * (95 / 1000) ≤ 2 ^ j * |Real.log z| := mul_le_mul_of_nonneg_left hz2 hp.le
    have h2 : 2 ^ j * |Real.log z| ≤ |2 ^ j * Real.log z - Real.log x| + |Real.log x| := by
      have := abs_sub_abs_le_abs_sub (2 ^ j * Real.log z) (Real.log x)
      rw [abs_mul, abs_of_pos hp] at this
      linarith
    have h3 : 52 / 100 * U * ((2:ℝ) ^ (j + 1) - 2) ≤ 2 ^ j / 10 ^ 7 := by
      rw [pow_succ]
      have : U * (2 ^ j * 2 - 2) ≤ 1 / 10 ^ 8 * (2 ^ j * 2) := by
        apply mul_le_mul hU (by linarith) _ (by norm_num)
        have : (1:ℝ) ≤ 2 ^ j := one_le_pow₀ (by norm_num)
        linarith
      nlinarith
    have h4 := le_max_right 1 (22 * |Real.log x|)
    rw [pow_succ, pow_succ]
    linarith

/-- The logarithm is halved at every step, so the factor `2^j` stays moderate as long as the loop goes on. -/
def Budget (U x : ℝ) (j : ℕ) : Prop := 2 ^ j * (|Real.log x| - 104 / 100 * U) ≤ 10 ^ 10

theorem Budget.step {U x y : ℝ} {j : ℕ} (h : Budget U x j) (hl : |Real.log y - Real.log x / 2| ≤ 52 / 100 * U) :
    Budget U y (j + 1) := by
  unfold Budget at *
  refine le_trans ?_ h
  have h1 : |Real.log y| ≤ |Real.log x| / 2 + 52 / 100 * U := by
    have h2 := abs_sub_abs_le_abs_sub (Real.log y) (Real.log x / 2)
    rw [abs_div, abs_of_pos (by norm_num : (0:ℝ) < 2)] at h2
    linarith
  rw [pow_succ, mul_assoc]
  refine mul_le_mul_of_nonneg_left ?_ (by positivity)
  linarith

theorem Budget.start {a : Var} (ha : PosVar a) {U : ℝ} (hU : 0 ≤ U) : Budget U (value a) 1 := by
  have hp : (0:ℝ) < (value a : ℝ) := by exact_mod_cast ha.pos
  have h1 : (value a : ℝ) ≤ (10000:ℝ) ^ (a.weight + 1) := by
    have := (Rat.cast_le (K := ℝ)).2 ha.lt.le
    push_cast at this
    exact this
  have h2 : (10000:ℝ) ^ a.weight ≤ (value a : ℝ) := by
    have := (Rat.cast_le (K := ℝ)).2 ha.ge
    push_cast at this
    exact this
  have h3 := Real.log_le_log hp h1
  have h4 := Real.log_le_log (by positivity) h2
  rw [Real.log_zpow] at h3 h4
  have h5 := Real.log_le_sub_one_of_pos (x := 10000) (by norm_num)
  have h6 : 0 ≤ Real.log 10000 := Real.log_nonneg (by norm_num)
  have h7 : ((a.weight + 1 : ℤ) : ℝ) ≤ 33001 := by have := ha.weight_le; exact_mod_cast (by omega : a.weight + 1 ≤ 33001)
  have h8 : (-33001:ℝ) ≤ (a.weight : ℝ) := by have := ha.weight_ge; exact_mod_cast (by omega : -33001 ≤ a.weight)
  have h9 : |Real.log (value a)| ≤ 33001 * 9999 := by
    rw [abs_le]
    constructor <;> nlinarith
  unfold Budget
  linarith

theorem Budget.weight {U x : ℝ} {j : ℕ} (h : Budget U x j) (hU : U ≤ 1 / 10 ^ 8) (hx : 95 / 1000 ≤ |Real.log x|) {f : Var}
    (hf : PowOK f (2 ^ (j + 1))) : f.weight ≤ 100 := by
  unfold Budget at h
  have h1 : (2:ℝ) ^ j * (9 / 100) ≤ 10 ^ 10 := by
    refine le_trans (mul_le_mul_of_nonneg_left ?_ (by positivity)) h
    norm_num at hU ⊢
    linarith
  have h2 : (2:ℝ) ^ (j + 1) < 10 ^ 12 := by
    rw [pow_succ]; norm_num at h1 ⊢; linarith
  have h3 : ((2:ℤ) ^ (j + 1)) < 10 ^ 12 := by exact_mod_cast h2
  have h4 := hf.abs_ge
  have h5 : |(((2:ℤ) ^ (j + 1) : ℤ) : ℚ)| < (10000:ℚ) ^ (3:ℤ) := by
    rw [abs_of_nonneg (by positivity)]
    have : (((2:ℤ) ^ (j + 1) : ℤ) : ℚ) < ((10 ^ 12 : ℤ) : ℚ) := Int.cast_lt.2 h3
    exact lt_of_lt_of_le this (by norm_num)
  have := B_zpow_lt_iff.1 (lt_of_le_of_lt h4 h5)
  omega

/-- The reduction loops. `C` is the loop condition on values, `I` an invariant of the values. -/
theorem lnReduce_spec [Build] {again : Var → Bool} {C I : ℝ → Prop} {R : Int} (hR0 : 0 ≤ R) (hR1 : R ≤ 8000)
    (hC : ∀ x, PosVar x → (again x = true ↔ C (value x))) (hC2 : ∀ y, 0 < y → C y → 95 / 1000 ≤ |Real.log y|)
    (hI : ∀ y y' : ℝ, 0 < y → 0 < y' → C y → |Real.log y' - Real.log y / 2| ≤ 52 / 100 * 10 ^ (-(R + 8)) → I y')
    (sf fuel : Nat) : ∀ {x fact : Var} {j : ℕ} {p : Var × Var}, PosVar x → I (value x) → PowOK fact (2 ^ j) →
      fact.weight ≤ 100 → Budget (10 ^ (-(R + 8))) (value x) j →
      lnReduce again R sf fuel x fact = .ok p →
      ∃ k, PosVar p.1 ∧ I (value p.1) ∧ ¬ C (value p.1) ∧ PowOK p.2 (2 ^ (j + k)) ∧
        p.2.weight ≤ 100 ∧ Budget (10 ^ (-(R + 8))) (value p.1) (j + k) ∧ RedOK (10 ^ (-(R + 8))) (value x) k (value p.1) := by
  induction fuel with
  | zero => intro x fact j p _ _ _ _ _ h; cases h
  | succ fuel ih =>
    intro x fact j p hx hIx hf hfw hbud h
    rw [lnReduce] at h
    by_cases hag : again x = true
    · rw [if_pos hag] at h
      have hCx := (hC x hx).1 hag
      have hxw := hx.weight_le
      have hxw2 := hx.weight_ge
      have htd : (x.weight * DEC_DIGITS).tdiv 2 = 2 * x.weight := by
        rw [show x.weight * DEC_DIGITS = (2 * x.weight) * 2 by simp only [DEC_DIGITS]; ring, Int.mul_tdiv_cancel _ (by norm_num)]
      rw [fits_ok (by rw [htd]; simp only [DEC_DIGITS]; fits_tac), bind_ok] at h
      cases hs : sqrtCommon sf x (max (R - (x.weight * DEC_DIGITS).tdiv 2 + 8) NUMERIC_MIN_DISPLAY_SCALE) with
      | error e => simp only [hs] at h; cases h
      | ok u =>
        simp only [hs, bind_ok] at h
        obtain ⟨hu, hlog⟩ := reduce_step hx hR0 hR1 hs
        have two_ok : PowOK two 2 :=
          ⟨by intro d hd; simp [two] at hd; subst hd; norm_num, by simp [two], by simp [Stripped, two],
            by simp [value, mag, two], by norm_num, by simp [two], by simp [two]⟩
        obtain ⟨w, ew, hw⟩ := hf.mul two_ok (by omega) (by simp [two]) (s := 0) le_rfl (by norm_num)
        simp only [ew, bind_ok] at h
        rw [← pow_succ] at hw
        have hx0 : (0:ℝ) < (value x : ℝ) := by exact_mod_cast hx.pos
        have hu0 : (0:ℝ) < (value u : ℝ) := by exact_mod_cast hu.pos
        have hUU : (10:ℝ) ^ (-(R + 8)) ≤ 1 / 10 ^ 8 := by
          have : (10:ℝ) ^ (-(R + 8)) ≤ 10 ^ (-8:ℤ) := zpow_le_zpow_right₀ (by norm_num) (by omega)
          norm_num at this ⊢
          exact this
        obtain ⟨k, h1, h2, h3, h4, h6, h7, h5⟩ := ih hu (hI _ _ hx0 hu0 hCx hlog) hw
          (hbud.weight hUU (hC2 _ hx0 hCx) hw) (hbud.step hlog) h
        refine ⟨k + 1, h1, h2, h3, by rw [show j + (k + 1) = j + 1 + k by ring]; exact h4, h6,
          by rw [show j + (k + 1) = j + 1 + k by ring]; exact h7, ?_⟩
        have := (RedOK.step hlog (hC2 _ hx0 hCx)).trans h5
        rw [add_comm k 1]; exact this
    · rw [if_neg hag] at h
      cases h
      exact ⟨0, hx, hIx, fun h => hag ((hC x hx).2 h), hf, hfw, hbud, RedOK.refl _ _⟩

end PgNumeric
