import Verif.Props.DebugSafe
import Verif.Props.LogAcc
import Verif.Proofs.LogCases
import Verif.Props.NoPanic
/-!
# Logarithms to a base that return, and that do not overflow in debug builds (C50)
-/
namespace PgNumeric.Props
open PgNumeric Spec Var

/-- A returned logarithm to a base becomes a stored number. -/
theorem log_finish [Build] {lm : Libm} (hl : LibmOK lm) (fuel : Nat) {u b : Var} (hu : Canonical u) (hb : Canonical b) (hu0 : 0 < value u)
    (hb0 : 0 < value b) (hu1 : value u = 1 ∨ (10:ℚ) ^ (-900:ℤ) ≤ |value u - 1|) (hb1 : (10:ℚ) ^ (-190:ℤ) ≤ |value b - 1|) {v : Var}
    (ev : logCommon lm fuel u b = .ok v) : ∃ r, (do let w ← Var.log lm fuel u b; Num.finishNoOverflow w : M Bin) = .ok r := by
  obtain ⟨t, hw, ht1, ht2, hacc, hsig, hbig⟩ := logCommon_spec hl hu hb hu0 hb0 hu1 hb1 ev
  obtain ⟨r, er, -⟩ := Num.finishNoOverflow_spec hw.digits hw.not_nan hw.dscale rfl hw.l_nonneg hw.l_le' hw.scale
    (log_lim hw hacc hbig) (hw.sm_limit (log_lim hw hacc hbig)).stripM
  exact ⟨r, by rw [(log_checks lm fuel hu hb).2.2.2.2 hu0 hb0, ev]; exact er⟩

/-- A number with at most `k` decimals is one or not very close to it. -/
theorem away_of_scale {x : ℚ} {s k : ℤ} (h : HasScale x s) (h0 : 0 ≤ k) (hs : s ≤ k) (hx : x ≠ 1) : (10:ℚ) ^ (-k) ≤ |x - 1| := by
  have h1 : HasScale (x - 1) k := by
    have := (h.mono hs).sub (HasScale.int 1 h0)
    simpa using this
  exact scale_lower h1 (sub_ne_zero.2 hx)

theorem castR9 {x : ℚ} (h : 9 / 10 < x) : (9 / 10 : ℝ) < (x:ℝ) := by
  have : ((9 / 10 : ℚ) : ℝ) < (x : ℝ) := by exact_mod_cast h
  push_cast at this; exact this

theorem castR11 {x : ℚ} (h : x < 11 / 10) : (x:ℝ) < (11 / 10 : ℝ) := by
  have : (x : ℝ) < ((11 / 10 : ℚ) : ℝ) := by exact_mod_cast h
  push_cast at this; exact this

/-- Near one the logarithm to a base is found, unless a debug build overflows. -/
theorem log_near [Build] {lm : Libm} (hl : LibmOK lm) {fuel : Nat} (hf : 2600 ≤ fuel) {a b : Bin} {x y : ℚ} {s t : Int}
    (ha : Holds a x s) (hb : Holds b y t) (hx9 : 9 / 10 < x) (hx11 : x < 11 / 10) (hy9 : 9 / 10 < y) (hy11 : y < 11 / 10)
    (hx1 : x = 1 ∨ (10:ℚ) ^ (-900:ℤ) ≤ |x - 1|) (hy1 : (10:ℚ) ^ (-190:ℤ) ≤ |y - 1|) :
    (∃ r, Num.log lm fuel a b = .ok r) ∨ (Build.debug = true ∧ Num.log lm fuel a b = .error .overflow ∧ (21 < s ∨ 21 < t)) := by
  obtain ⟨u, hu, rfl, rfl, ea, na, va⟩ := ha.exists_var
  obtain ⟨v, hv, rfl, rfl, eb, nb, vb⟩ := hb.exists_var
  have hu0 : 0 < value u := by linarith
  have hv0 : 0 < value v := by linarith
  have hup := PosVar.of_canonical hu hu0
  have hvp := PosVar.of_canonical hv hv0
  rw [log_unfold lm fuel ea na va eb nb vb]
  obtain ⟨nw, bw, q, en, ebw, hq, h1, h2, h3, h4, h⟩ := logCommon_full hl hu hv hu0 hv0 hx1 hy1 fuel
  have hun := (log_checks lm fuel hu hv).2.2.2.2 hu0 hv0
  rcases h with ⟨w, ew⟩ | ⟨f, h | h, e⟩ | ⟨hdb, e, lb, elb, hn⟩
  · exact .inl (log_finish hl fuel hu hv hu0 hv0 hx1 hy1 ew)
  · rcases lnCommon_near hvp (castR9 hy9) (castR11 hy11) h1 h2 (fuel := fuel) (by omega) with ⟨w, ew⟩ | ⟨hdb, ew, h80⟩
    · rw [h] at ew; cases ew
    · rw [h] at ew; cases ew
      exact .inr ⟨hdb, by rw [hun, e]; rfl, by omega⟩
  · rcases lnCommon_near hup (castR9 hx9) (castR11 hx11) h3 h4 (fuel := fuel) (by omega) with ⟨w, ew⟩ | ⟨hdb, ew, h80⟩
    · rw [h] at ew; cases ew
    · rw [h] at ew; cases ew
      exact .inr ⟨hdb, by rw [hun, e]; rfl, by omega⟩
  · right
    refine ⟨hdb, by rw [hun, e]; rfl, ?_⟩
    by_contra hd
    push Not at hd
    obtain ⟨hd1, hd2⟩ := hd
    have b1 := estimate_bounds hl hu hu0 en
    have b2 := estimate_bounds hl hv hv0 ebw
    have b3 := estimate_lower hl hv hv0 ebw
    obtain ⟨hw, hacc⟩ := lnCommon_spec hvp h1 h2 elb
    have hlogv : |Real.log (value v)| ≤ 2 / 10 := by
      have hv9 := castR9 hy9
      have hv11 := castR11 hy11
      have l1 := Real.log_le_sub_one_of_pos (show (0:ℝ) < (value v : ℝ) by linarith)
      have l2 := Real.one_sub_inv_le_log_of_pos (show (0:ℝ) < (value v : ℝ) by linarith)
      have l3 : ((value v : ℝ))⁻¹ ≤ (9 / 10 : ℝ)⁻¹ := inv_anti₀ (by norm_num) hv9.le
      norm_num at l3
      rw [abs_le]; constructor <;> linarith
    have cB := lnErr_le h1 (by omega) (hlogv.trans (by norm_num))
    have hsm : |(value lb : ℝ)| < 10000 ^ (1:ℤ) := by
      have hT : (10:ℝ) ^ (-(q + (nw - bw) - bw + 8)) ≤ 1 := by
        rw [show (1:ℝ) = 10 ^ (0:ℤ) by norm_num]; exact zpow_le_zpow_right₀ (by norm_num) (by omega)
      have h5 := hacc.trans (mul_le_mul cB hT (by positivity) (by norm_num))
      have h6 := abs_sub_abs_le_abs_sub (value lb : ℝ) (Real.log (value v))
      norm_num at h5 ⊢
      linarith
    have hsq : |value lb| < 10000 ^ (1:ℤ) := by
      have : ((|value lb| : ℚ) : ℝ) < ((10000 ^ (1:ℤ) : ℚ) : ℝ) := by rw [Rat.cast_abs, Rat.cast_zpow]; exact_mod_cast hsm
      exact_mod_cast this
    obtain ⟨-, -, -, hlen⟩ := hw.bounds (by norm_num) hsq
    simp only [ndigits] at hn
    omega

/-- C50: the logarithm of a number between 0.9 and 1.1 to a base between 0.9 and 1.1 always returns, within 2600 rounds of its loops (unless an
operand is extremely close to one): in a release build, and in a debug build if the operands have at most 21 decimals. -/
theorem C50_log_total_near_one [Build] {lm : Libm} (hl : LibmOK lm) {fuel : Nat} (hf : 2600 ≤ fuel) {a b : Bin} {x y : ℚ} {s t : Int}
    (ha : Holds a x s) (hb : Holds b y t) (hx9 : 9 / 10 < x) (hx11 : x < 11 / 10) (hy9 : 9 / 10 < y) (hy11 : y < 11 / 10)
    (hx1 : x = 1 ∨ (10:ℚ) ^ (-900:ℤ) ≤ |x - 1|) (hy1 : (10:ℚ) ^ (-190:ℤ) ≤ |y - 1|) (hd : Build.debug = false ∨ (s ≤ 21 ∧ t ≤ 21)) :
    ∃ r, Num.log lm fuel a b = .ok r := by
  rcases log_near hl hf ha hb hx9 hx11 hy9 hy11 hx1 hy1 with h | ⟨h1, -, h2⟩
  · exact h
  · rcases hd with hd | hd
    · rw [hd] at h1; cases h1
    · omega

/-- Logarithms of short numbers to short bases do not overflow. -/
theorem log_short [Build] {lm : Libm} (hl : LibmOK lm) (fuel : Nat) {u v : Var} (hu : Canonical u) (hv : Canonical v)
    (hx : 0 < value u) (hy : 0 < value v) (hx1 : value u = 1 ∨ (10:ℚ) ^ (-900:ℤ) ≤ |value u - 1|) (hyaw : (10:ℚ) ^ (-190:ℤ) ≤ |value v - 1|)
    (hx2 : value u < 10 ^ 136) (hy2 : value v < 10 ^ 136) (hs : u.dscale ≤ 13) (ht : v.dscale ≤ 13) :
    (do let w ← Var.log lm fuel u v; Num.finishNoOverflow w : M Bin) ≠ .error .overflow := by
  have hup := PosVar.of_canonical hu hx
  have hvp := PosVar.of_canonical hv hy
  obtain ⟨nw, bw, q, en, ebw, hq, h1, h2, h3, h4, h⟩ := logCommon_full hl hu hv hx hy hx1 hyaw fuel
  have b1 := estimate_bounds hl hu hx en
  have b2 := estimate_bounds hl hv hy ebw
  have b3 := estimate_lower hl hv hy ebw
  have b4 := estimate_lower hl hu hx en
  have d1 := hu.dscale_nonneg
  have d2 := hv.dscale_nonneg
  have e136 : ((10:ℚ) ^ 136) = 10000 ^ (34:ℤ) := by norm_num
  rw [e136] at hx2 hy2
  rcases h with ⟨w, ew⟩ | ⟨f, h | h, e⟩ | ⟨hdb, -, lb, elb, hn⟩
  · obtain ⟨r, hr⟩ := log_finish hl fuel hu hv hx hy hx1 hyaw ew
    rw [hr]; intro h; cases h
  · rcases lnCommon_cases hvp h1 h2 fuel with ⟨w, ew⟩ | ew | ⟨-, ew⟩
    · rw [h] at ew; cases ew
    · rw [h] at ew; cases ew
      rw [(log_checks lm fuel hu hv).2.2.2.2 hx hy, e]; intro h; cases h
    · exact absurd ew (lnCommon_short hvp h1 (by omega) fuel hy2 (by omega))
  · rcases lnCommon_cases hup h3 h4 fuel with ⟨w, ew⟩ | ew | ⟨-, ew⟩
    · rw [h] at ew; cases ew
    · rw [h] at ew; cases ew
      rw [(log_checks lm fuel hu hv).2.2.2.2 hx hy, e]; intro h; cases h
    · exact absurd ew (lnCommon_short hup h3 (by omega) fuel hx2 (by omega))
  · exfalso
    obtain ⟨hw, hacc⟩ := lnCommon_spec hvp h1 h2 elb
    have hlogv := log_canon_le hvp
    have cB := lnErr_le h1 (by omega) hlogv
    have hsm : |(value lb : ℝ)| < 10000 ^ (2:ℤ) := by
      have hT : (10:ℝ) ^ (-(q + (nw - bw) - bw + 8)) ≤ 1 := by
        rw [show (1:ℝ) = 10 ^ (0:ℤ) by norm_num]; exact zpow_le_zpow_right₀ (by norm_num) (by omega)
      have h5 := hacc.trans (mul_le_mul cB hT (by positivity) (by norm_num))
      have h6 := abs_sub_abs_le_abs_sub (value lb : ℝ) (Real.log (value v))
      norm_num at h5 ⊢
      linarith
    have hsq : |value lb| < 10000 ^ (2:ℤ) := by
      have : ((|value lb| : ℚ) : ℝ) < ((10000 ^ (2:ℤ) : ℚ) : ℝ) := by rw [Rat.cast_abs, Rat.cast_zpow]; exact_mod_cast hsm
      exact_mod_cast this
    obtain ⟨-, -, -, hlen⟩ := hw.bounds (by norm_num) hsq
    simp only [ndigits] at hn
    omega

/-- C50: the logarithm of a positive number to a base other than one, both below `10^136` and with at most 13 decimals, never panics and never
overflows, in debug builds as well: it returns a result as accurate as promised, or runs for ever. -/
theorem C50_log_debug_safe [Build] {lm : Libm} (hl : LibmOK lm) (fuel : Nat) {a b : Bin} {x y : ℚ} {s t : Int}
    (ha : Holds a x s) (hb : Holds b y t) (hx : 0 < x) (hy : 0 < y) (hx2 : x < 10 ^ 136) (hy2 : y < 10 ^ 136) (hs : s ≤ 13) (ht : t ≤ 13)
    (hy1 : y ≠ 1) :
    (∃ r z q, Num.log lm fuel a b = .ok r ∧ Holds r z q ∧ max s t ≤ q ∧ |(z:ℝ) - Real.logb y x| ≤ (51 / 100) * 10 ^ (-q) ∧
      (q = 1000 ∨ |(z:ℝ) - Real.logb y x| ≤ |Real.logb y x| / 10 ^ 14)) ∨
    Num.log lm fuel a b = .error .diverge := by
  have hx1 : x = 1 ∨ (10:ℚ) ^ (-900:ℤ) ≤ |x - 1| := by
    by_cases h : x = 1
    · exact .inl h
    · exact .inr (away_of_scale ha.bounds.1 (by norm_num) (by omega) h)
  have hyaw : (10:ℚ) ^ (-190:ℤ) ≤ |y - 1| := away_of_scale hb.bounds.1 (by norm_num) (by omega) hy1
  rcases C54_log_never_panics hl fuel ha hb hx hy hx1 hyaw with ⟨r, hr⟩ | h | ⟨-, h⟩
  · obtain ⟨z, q, h1, h2, h3, h4, h5⟩ := C50_log_accuracy hl fuel ha hb hx hy hx1 hyaw hr
    exact .inl ⟨r, z, q, hr, h1, by omega, h4, h5⟩
  · exact .inr h
  · obtain ⟨u, hu, rfl, rfl, ea, na, va⟩ := ha.exists_var
    obtain ⟨v, hv, rfl, rfl, eb, nb, vb⟩ := hb.exists_var
    rw [log_unfold lm fuel ea na va eb nb vb] at h
    exact absurd h (log_short hl fuel hu hv hx hy hx1 hyaw hx2 hy2 hs ht)

/-- C50: the same for `log2` and `log10`. -/
theorem C50_log2_log10_debug_safe [Build] {lm : Libm} (hl : LibmOK lm) (fuel : Nat) {a : Bin} {x : ℚ} {s : Int}
    (ha : Holds a x s) (hx : 0 < x) (hx2 : x < 10 ^ 136) (hs : s ≤ 13) :
    ((∃ r, Num.log2 lm fuel a = .ok r) ∨ Num.log2 lm fuel a = .error .diverge) ∧
    ((∃ r, Num.log10 lm fuel a = .ok r) ∨ Num.log10 lm fuel a = .error .diverge) := by
  have hx1 : x = 1 ∨ (10:ℚ) ^ (-900:ℤ) ≤ |x - 1| := by
    by_cases h : x = 1
    · exact .inl h
    · exact .inr (away_of_scale ha.bounds.1 (by norm_num) (by omega) h)
  obtain ⟨u, hu, rfl, rfl, ea, na, va⟩ := ha.exists_var
  have h2 : value Var.two = 2 := by simp [value, mag, Var.two]
  have h10 : value Var.ten = 10 := by simp [value, mag, Var.ten]
  unfold Num.log2 Num.log10
  simp only [ea, na, va, bind_ok, Bool.false_eq_true, if_false]
  constructor
  · have hno := log_short hl fuel hu two_canonical hx (by rw [h2]; norm_num) hx1 (by rw [h2]; norm_num) hx2 (by rw [h2]; norm_num) hs (by simp [Var.two])
    rcases log_never_panics hl fuel hu two_canonical hx (by rw [h2]; norm_num) hx1 (by rw [h2]; norm_num) with h | h | ⟨-, h⟩
    exacts [.inl h, .inr h, absurd h hno]
  · have hno := log_short hl fuel hu ten_canonical hx (by rw [h10]; norm_num) hx1 (by rw [h10]; norm_num) hx2 (by rw [h10]; norm_num) hs (by simp [Var.ten])
    rcases log_never_panics hl fuel hu ten_canonical hx (by rw [h10]; norm_num) hx1 (by rw [h10]; norm_num) with h | h | ⟨-, h⟩
    exacts [.inl h, .inr h, absurd h hno]

/-- The hypotheses are met by `1.02` to the base `1.05`, in a debug build, and by `10^30` to the base `2.5`. -/
example (e : Bool) {lm : Libm} (hl : LibmOK lm) : ∃ a b r, @Holds ⟨true, e⟩ a (102 / 100) 2 ∧ @Holds ⟨true, e⟩ b (105 / 100) 2 ∧
    @Num.log ⟨true, e⟩ lm 2600 a b = .ok r := by
  let _ : Build := ⟨true, e⟩
  obtain ⟨a, ha⟩ := witness (x := 102 / 100) (s := 2) 102 (by norm_num) (by norm_num) (by norm_num) (by norm_num [abs_lt])
  obtain ⟨b, hb⟩ := witness (x := 105 / 100) (s := 2) 105 (by norm_num) (by norm_num) (by norm_num) (by norm_num [abs_lt])
  obtain ⟨r, hr⟩ := C50_log_total_near_one hl (le_refl 2600) ha hb (by norm_num) (by norm_num) (by norm_num) (by norm_num)
    (.inr (away_of_scale ha.bounds.1 (by norm_num) (by norm_num) (by norm_num)))
    (away_of_scale hb.bounds.1 (by norm_num) (by norm_num) (by norm_num)) (.inr ⟨by norm_num, by norm_num⟩)
  exact ⟨a, b, r, ha, hb, hr⟩

example (e : Bool) : ∃ a b, @Holds ⟨true, e⟩ a (10 ^ 30) 0 ∧ @Holds ⟨true, e⟩ b (5 / 2) 1 := by
  let _ : Build := ⟨true, e⟩
  obtain ⟨a, ha⟩ := witness (x := 10 ^ 30) (s := 0) (10 ^ 30) (by norm_num) (by norm_num) (by norm_num) (by norm_num [abs_lt])
  obtain ⟨b, hb⟩ := witness (x := 5 / 2) (s := 1) 25 (by norm_num) (by norm_num) (by norm_num) (by norm_num [abs_lt])
  exact ⟨a, b, ha, hb⟩

end PgNumeric.Props
