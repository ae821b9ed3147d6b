import Verif.Proofs.ToFloat
/-!
# The conversion to `f32`: the nearest double, then the nearest single
-/
namespace PgNumeric
open Spec F64

namespace F64

theorem roundEven_half_up {m : ℤ} (h : m % 2 = 0) : roundEven (m - 1 / 2) = m := by
  have hf : ⌊(m:ℚ) - 1 / 2⌋ = m - 1 := by rw [Int.floor_eq_iff]; push_cast; constructor <;> linarith
  unfold roundEven
  simp only [hf]
  push_cast
  rw [if_neg (by linarith), if_neg (by linarith), if_neg (by omega)]
  ring

theorem roundEven_half_down {m : ℤ} (h : m % 2 = 0) : roundEven (m + 1 / 2) = m := by
  have hf : ⌊(m:ℚ) + 1 / 2⌋ = m := by rw [Int.floor_eq_iff]; constructor <;> linarith
  unfold roundEven
  simp only [hf]
  rw [if_neg (by linarith), if_neg (by linarith), if_pos h]

namespace Format
variable {F : Format} {q : ℚ}

/-- Where rounding reaches an even number `m·2^e` from below. -/
theorem le_nearest_iff (hP : 1 ≤ F.prec) {m e : ℤ} (hm : 1 ≤ m) (hm2 : m ≤ 2 ^ F.prec) (hev : m % 2 = 0) (he : F.emin ≤ e)
    (hu : F.unit ((m - 1 / 2) * 2 ^ e) = e) (hq : 0 ≤ q) : m * 2 ^ e ≤ F.nearest q ↔ (m - 1 / 2) * 2 ^ e ≤ q := by
  have hp := two_pos e
  have hm1 : (1:ℚ) ≤ m := by exact_mod_cast hm
  constructor
  · intro h
    by_contra hc
    push Not at hc
    rcases le_or_gt (((m:ℚ) - 1) * 2 ^ e) q with h1 | h1
    · have hq0 : 0 < q := by
        by_contra hn
        have : q = 0 := le_antisymm (not_lt.1 hn) hq
        subst this
        rw [nearest_zero] at h
        nlinarith
      have := nearest_best (F := F) hP hq0 (m := m - 1) (e := e) (by rw [abs_of_nonneg (by omega)]; omega) he
      push_cast at this
      rw [abs_of_nonneg (by linarith), abs_of_nonpos (by linarith)] at this
      linarith
    · have h2 := nearest_mono (F := F) hP hq h1.le
      rw [nearest_self hP (q := (m - 1) * 2 ^ e) (m := m - 1) (e := e) (mul_nonneg (by linarith) hp.le)
        (by rw [abs_of_nonneg (by omega)]; omega) he (by push_cast; ring)] at h2
      linarith
  · intro h
    have h0 : 0 < ((m:ℚ) - 1 / 2) * 2 ^ e := mul_pos (by linarith) hp
    refine le_trans (le_of_eq ?_) (nearest_mono hP h0.le h)
    rw [nearest_eq h0, hu, mul_div_cancel_right₀ _ hp.ne', roundEven_half_up hev]

/-- Where rounding leaves an even number `m·2^e` upwards. -/
theorem nearest_le_iff (hP : 1 ≤ F.prec) {m e : ℤ} (hm : 0 ≤ m) (hm2 : m < 2 ^ F.prec) (hev : m % 2 = 0) (he : F.emin ≤ e)
    (hu : F.unit ((m + 1 / 2) * 2 ^ e) = e) (hq : 0 ≤ q) : F.nearest q ≤ m * 2 ^ e ↔ q ≤ (m + 1 / 2) * 2 ^ e := by
  have hp := two_pos e
  have hm1 : (0:ℚ) ≤ m := by exact_mod_cast hm
  have hm3 : m + 1 < 2 ^ F.prec := by
    obtain ⟨k, hk⟩ : ∃ k, F.prec = k + 1 := ⟨F.prec - 1, by omega⟩
    rw [hk, pow_succ] at hm2 ⊢
    omega
  constructor
  · intro h
    by_contra hc
    push Not at hc
    rcases le_or_gt q (((m:ℚ) + 1) * 2 ^ e) with h1 | h1
    · have hq0 : 0 < q := lt_of_le_of_lt (mul_nonneg (by linarith) hp.le) hc
      have := nearest_best (F := F) hP hq0 (m := m + 1) (e := e) (by rw [abs_of_nonneg (by omega)]; omega) he
      push_cast at this
      rw [abs_of_nonpos (by linarith), abs_of_nonneg (by linarith)] at this
      linarith
    · have h2 := nearest_mono (F := F) hP (mul_nonneg (by linarith) hp.le) h1.le
      rw [nearest_self hP (q := (m + 1) * 2 ^ e) (m := m + 1) (e := e) (mul_nonneg (by linarith) hp.le)
        (by rw [abs_of_nonneg (by omega)]; omega) he (by push_cast; ring)] at h2
      linarith
  · intro h
    have h0 : 0 < ((m:ℚ) + 1 / 2) * 2 ^ e := mul_pos (by linarith) hp
    refine le_trans (nearest_mono hP hq h) (le_of_eq ?_)
    rw [nearest_eq h0, hu, mul_div_cancel_right₀ _ hp.ne', roundEven_half_down hev]

end Format

/-- The double reaches the value from which on a single overflows. -/
theorem double_reaches_single {q : ℚ} (hq : 0 ≤ q) :
    (2:ℚ) ^ 128 - 2 ^ 103 ≤ double.nearest q ↔ (2:ℚ) ^ 128 - 2 ^ 103 - 2 ^ 74 ≤ q := by
  have h := Format.le_nearest_iff (F := double) (by decide) (m := 2 ^ 53 - 2 ^ 28) (e := 75) (by norm_num) (by decide) (by decide)
    (by decide) (by
      unfold Format.unit
      rw [log2_eq (k := 127) (by norm_num) (by norm_num)]
      decide) hq
  norm_num at h ⊢
  exact h

/-- The double is above half the smallest single. -/
theorem double_leaves_zero {q : ℚ} (hq : 0 ≤ q) :
    double.nearest q ≤ 1 / 2 ^ 150 ↔ q ≤ 1 / 2 ^ 150 + 1 / 2 ^ 203 := by
  have h := Format.nearest_le_iff (F := double) (by decide) (m := 2 ^ 52) (e := -202) (by norm_num) (by decide) (by decide)
    (by decide) (by
      unfold Format.unit
      rw [log2_eq (k := -150) (by norm_num) (by norm_num)]
      decide) hq
  norm_num at h ⊢
  exact h

theorem single_zero_iff {q : ℚ} (hq : 0 ≤ q) : single.nearest q = 0 ↔ q ≤ 1 / 2 ^ 150 := by
  have h := Format.nearest_le_iff (F := single) (by decide) (m := 0) (e := -149) (by norm_num) (by decide) (by decide)
    (by decide) (by
      unfold Format.unit
      rw [log2_eq (k := -150) (by norm_num) (by norm_num)]
      decide) hq
  have h0 := Format.nearest_nonneg (F := single) hq
  rw [Int.cast_zero, zero_mul, zero_add] at h
  constructor
  · intro e
    have := h.1 e.le
    norm_num at this ⊢; exact this
  · intro e
    refine le_antisymm (h.2 ?_) h0
    norm_num at e ⊢; exact e

theorem double_zero_iff {q : ℚ} (hq : 0 ≤ q) : double.nearest q = 0 ↔ q ≤ 1 / 2 ^ 1075 := by
  have e1 : ((0:ℤ) + 1 / 2 : ℚ) * 2 ^ (-1074:ℤ) = 2 ^ (-1075:ℤ) := by
    rw [Int.cast_zero, zero_add, show (1/2:ℚ) = 2 ^ (-1:ℤ) by norm_num, ← zpow_add₀ (by norm_num)]
    rfl
  have h := Format.nearest_le_iff (F := double) (by decide) (m := 0) (e := -1074) (by norm_num) (by decide) (by decide)
    (by decide) (by
      unfold Format.unit
      rw [e1, log2_eq (k := -1075) le_rfl (two_lt_iff.2 (by norm_num))]
      decide) hq
  have h0 := Format.nearest_nonneg (F := double) hq
  rw [e1, Int.cast_zero, zero_mul, show (-1075:ℤ) = -((1075:ℕ):ℤ) by norm_num, zpow_neg, zpow_natCast, ← one_div] at h
  exact ⟨fun e => h.1 e.le, fun e => le_antisymm (h.2 e) h0⟩

theorem single_overflow {q : ℚ} (hq : 0 ≤ q) :
    (2:ℚ) ^ single.emax ≤ single.nearest q ↔ (2:ℚ) ^ 128 - 2 ^ 103 ≤ q := by
  rw [Format.overflow_iff (by decide) (by decide) hq]
  show (2:ℚ) ^ (128 : ℤ) - 2 ^ (128 - ((24:ℕ):ℤ) - 1) ≤ q ↔ _
  norm_num

end F64

namespace Convert

/-- The result, from the text and the double read from it. -/
theorem toF32_of_text [Build] {strtod : Str → Option Float} {v : Var} (hn : v.sign ≠ .nan) {s : Str} {f : Float} (e1 : Text.write v = .ok s)
    (e2 : strtod s = some f) (hf : RoundsTo double (value v) f) :
    (2 ^ 1024 - 2 ^ 970 ≤ |value v| → toF32 strtod v = .ok (.ok (.inf (decide (value v < 0))))) ∧
    (2 ^ 128 - 2 ^ 103 - 2 ^ 74 ≤ |value v| → |value v| < 2 ^ 1024 - 2 ^ 970 → toF32 strtod v = .ok (.error .overflow)) ∧
    (1 / 2 ^ 1075 < |value v| → |value v| ≤ 1 / 2 ^ 150 + 1 / 2 ^ 203 → toF32 strtod v = .ok (.error .overflow)) ∧
    (|value v| ≤ 1 / 2 ^ 1075 → ∃ neg, toF32 strtod v = .ok (.ok (.fin neg 0))) ∧
    (1 / 2 ^ 150 + 1 / 2 ^ 203 < |value v| → |value v| < 2 ^ 128 - 2 ^ 103 - 2 ^ 74 →
      toF32 strtod v = .ok (.ok (.fin (decide (value v < 0)) (single.nearest (double.nearest |value v|))))) := by
  have hx := abs_nonneg (value v)
  have hD := Format.nearest_nonneg (F := double) hx
  have hbig : (2:ℚ) ^ 128 - 2 ^ 103 - 2 ^ 74 < 2 ^ 1024 - 2 ^ 970 := by
    have : (2:ℤ) ^ 128 - 2 ^ 103 - 2 ^ 74 < 2 ^ 1024 - 2 ^ 970 := by decide +kernel
    exact_mod_cast this
  have hsmall : (1:ℚ) / 2 ^ 1075 ≤ 1 / 2 ^ 150 := by
    apply one_div_le_one_div_of_le (by positivity)
    exact pow_le_pow_right₀ (by norm_num) (by norm_num)
  have hsb : (1:ℚ) / 2 ^ 150 + 1 / 2 ^ 203 < 2 ^ 128 - 2 ^ 103 - 2 ^ 74 := by norm_num
  have hun : toF32 strtod v = (let g := F64.castF32 f
      if (g.isInfinite ∧ ¬ f.isInfinite) ∨ (g.isZero ∧ ¬ f.isZero) then .ok (.error .overflow) else .ok (.ok g)) := by
    unfold toF32
    rw [if_neg hn]
    simp only [e1, e2, bind_ok, pure_ok]
  have hfin : |value v| < 2 ^ 1024 - 2 ^ 970 → ∃ neg, f = .fin neg (double.nearest |value v|) ∧
      (double.nearest |value v| ≠ 0 → neg = decide (value v < 0)) := by
    intro hlt
    have : double.nearest |value v| < 2 ^ double.emax := by rw [← not_le, double_overflow hx, not_le]; exact hlt
    rcases hf with rfl | ⟨h1, rfl⟩
    · rw [round_fin this]; exact ⟨_, rfl, fun _ => rfl⟩
    · rw [h1]; exact ⟨_, rfl, fun h => absurd rfl h⟩
  have hpos : (0:ℚ) < 1 / 2 ^ 203 := by positivity
  refine ⟨fun hle => ?_, fun h1 h2 => ?_, fun h1 h2 => ?_, fun h1 => ?_, fun h1 h2 => ?_⟩
  · rw [hun, hf.inf ((double_overflow hx).2 hle)]
    rfl
  · obtain ⟨neg, rfl, -⟩ := hfin h2
    rw [hun]
    dsimp only [F64.castF32]
    rw [round_inf ((single_overflow hD).2 ((double_reaches_single hx).2 h1)), if_pos (.inl ⟨rfl, by simp [Float.isInfinite]⟩)]
  · obtain ⟨neg, rfl, -⟩ := hfin (lt_of_le_of_lt h2 (hsb.trans hbig))
    have h3 := (double_leaves_zero hx).2 h2
    have h4 := (single_zero_iff hD).2 h3
    rw [hun]
    dsimp only [F64.castF32]
    rw [round_fin (by rw [h4]; exact two_pos _), h4, if_pos (.inr ⟨by simp [Float.isZero], by
      simp only [Float.isZero, decide_eq_true_eq]
      exact mt (double_zero_iff hx).1 (not_le.2 h1)⟩)]
  · obtain ⟨neg, rfl, -⟩ := hfin (lt_of_le_of_lt (h1.trans hsmall) ((le_add_of_nonneg_right hpos.le).trans_lt (hsb.trans hbig)))
    rw [(double_zero_iff hx).2 h1] at hun
    refine ⟨neg, ?_⟩
    rw [hun]
    dsimp only [F64.castF32]
    rw [round_fin (by rw [Format.nearest_zero]; exact two_pos _), Format.nearest_zero, if_neg (by simp [Float.isZero, Float.isInfinite])]
  · obtain ⟨neg, rfl, hneg⟩ := hfin (h2.trans hbig)
    have h3 : ¬ double.nearest |value v| ≤ 1 / 2 ^ 150 := mt (double_leaves_zero hx).1 (not_le.2 h1)
    have h4 : single.nearest (double.nearest |value v|) ≠ 0 := mt (single_zero_iff hD).1 h3
    have h5 : double.nearest |value v| ≠ 0 := fun h => h3 (by rw [h]; positivity)
    rw [hun, hneg h5]
    dsimp only [F64.castF32]
    rw [round_fin (by rw [← not_le, single_overflow hD, double_reaches_single hx, not_le]; exact h2),
      if_neg (by simp [Float.isZero, Float.isInfinite, h4])]

/-- The value of the result when there is one. -/
theorem toF32_spec [Build] {strtod : Str → Option Float} (h : StrtodOK strtod) {v : Var} (hd : Digits v.digits) (hn : v.sign ≠ .nan)
    (hst : Stripped v) (h0 : 0 ≤ v.dscale) (hs : HasScale (value v) v.dscale) (hsm : Small v) (hds : v.dscale ≤ 1000000000) :
    (2 ^ 1024 - 2 ^ 970 ≤ |value v| → toF32 strtod v = .ok (.ok (.inf (decide (value v < 0))))) ∧
    (2 ^ 128 - 2 ^ 103 - 2 ^ 74 ≤ |value v| → |value v| < 2 ^ 1024 - 2 ^ 970 → toF32 strtod v = .ok (.error .overflow)) ∧
    (1 / 2 ^ 1075 < |value v| → |value v| ≤ 1 / 2 ^ 150 + 1 / 2 ^ 203 → toF32 strtod v = .ok (.error .overflow)) ∧
    (|value v| ≤ 1 / 2 ^ 1075 → ∃ neg, toF32 strtod v = .ok (.ok (.fin neg 0))) ∧
    (1 / 2 ^ 150 + 1 / 2 ^ 203 < |value v| → |value v| < 2 ^ 128 - 2 ^ 103 - 2 ^ 74 →
      toF32 strtod v = .ok (.ok (.fin (decide (value v < 0)) (single.nearest (double.nearest |value v|))))) := by
  obtain ⟨s, f, e1, e2, hf⟩ := text_spec h hd hn hst h0 hs hsm hds
  exact toF32_of_text hn e1 e2 hf

end Convert
end PgNumeric
