import Verif.Model.RealClient
import Verif.Props.Client
import Verif.Props.NoPanic
import Verif.Props.SqrtTotal
import Verif.Props.PowSafe
import Verif.Props.Exp
import Verif.Props.PowInt
/-!
# Programs that also take roots, logarithms, exponentials and powers (C68)
-/
namespace PgNumeric.Props
open PgNumeric Spec Var

/-- A call does one of the things it may do, or runs on, which only some calls may. -/
def Lawful [Build] (m : M (Option Bin)) (P : Outcome → Prop) (hang : Prop) : Prop :=
  (∃ r v, m = .ok (some r) ∧ Represents r v ∧ P (.number v)) ∨ (m = .ok none ∧ P .none) ∨
  (∃ msg, m = .error (.panic msg) ∧ P (.panic msg)) ∨ (m = .error .overflow ∧ P .overflow) ∨ (m = .error .diverge ∧ hang)

theorem lawful_num [Build] {m : M (Option Bin)} {P : Outcome → Prop} {hang : Prop} {r : Bin} {x : ℚ} {s : ℤ} (h : m = .ok (some r))
    (hr : Holds r x s) (hP : P (.number (.num x s))) : Lawful m P hang := .inl ⟨r, .num x s, h, hr, hP⟩

theorem lawful_nan [Build] {m : M (Option Bin)} {P : Outcome → Prop} {hang : Prop} {r : Bin} (h : m = .ok (some r))
    (hr : IsNaN r) (hP : P (.number .nan)) : Lawful m P hang := .inl ⟨r, .nan, h, hr, hP⟩

theorem lawful_none [Build] {m : M (Option Bin)} {P : Outcome → Prop} {hang : Prop} (h : m = .ok none) (hP : P .none) : Lawful m P hang :=
  .inr (.inl ⟨h, hP⟩)

theorem lawful_panic [Build] {m : M (Option Bin)} {P : Outcome → Prop} {hang : Prop} {msg : String} (h : m = .error (.panic msg))
    (hP : P (.panic msg)) : Lawful m P hang := .inr (.inr (.inl ⟨msg, h, hP⟩))

theorem lawful_overflow [Build] {m : M (Option Bin)} {P : Outcome → Prop} {hang : Prop} (h : m = .error .overflow) (hP : P .overflow) :
    Lawful m P hang := .inr (.inr (.inr (.inl ⟨h, hP⟩)))

theorem lawful_hang [Build] {m : M (Option Bin)} {P : Outcome → Prop} {hang : Prop} (h : m = .error .diverge) (hP : hang) :
    Lawful m P hang := .inr (.inr (.inr (.inr ⟨h, hP⟩)))

theorem some_ok {m : M Bin} {r : Bin} (h : m = .ok r) : (do let r ← m; pure (some r) : M (Option Bin)) = .ok (some r) := by rw [h]; rfl

theorem some_error {m : M Bin} {f : Fault} (h : m = .error f) : (do let r ← m; pure (some r) : M (Option Bin)) = .error f := by rw [h]; rfl

theorem NoPanic.lawful [Build] {m : M Bin} {P : Outcome → Prop} {hang : Prop} (h : NoPanic m)
    (h1 : ∀ r, m = .ok r → ∃ x s, Holds r x s ∧ P (.number (.num x s))) (h2 : Build.debug = true → m = .error .overflow → P .overflow) (h3 : m = .error .diverge → hang) :
    Lawful (do let r ← m; pure (some r)) P hang := by
  rcases h with ⟨r, h⟩ | h | ⟨hd, h⟩
  · obtain ⟨x, s, hr, hP⟩ := h1 r h
    exact lawful_num (some_ok h) hr hP
  · exact lawful_hang (some_error h) (h3 h)
  · exact lawful_overflow (some_error h) (h2 hd h)

theorem sqrt_zero [Build] {b : Bin} {s : Int} (hb : Holds b 0 s) (fuel : Nat) : ∃ r, Num.sqrt fuel b = .ok r := by
  obtain ⟨u, hu, hux, rfl, ea, na, va⟩ := hb.exists_var
  obtain ⟨hsg, hsq⟩ := sqrt_unfold hu hux.ge fuel
  obtain ⟨hq0, hq1⟩ := sqrtScale_bounds (x := value u) hu.dscale_nonneg
  have hd := (stripped_zero_iff hu.digits hu.stripped).1 hux
  have hz : sqrtCommon fuel u (sqrtScale (value u) u.dscale) = .ok ⟨0, sqrtScale (value u) u.dscale, .pos, []⟩ := by
    unfold sqrtCommon
    rw [dassert_ok hsg, hd, bind_ok, fits_ok (by fits_tac), bind_ok]
    exact zeroScaled_ok hq0 (by omega)
  unfold Num.sqrt
  simp only [ea, bind_ok, na, Bool.false_eq_true, if_false, va]
  rw [if_neg (by rw [hsg]; simp), hsq, hz]
  generalize sqrtScale (value u) u.dscale = q at *
  obtain ⟨r', er, -⟩ := Num.finishNoOverflow_spec (u := ⟨0, q, .pos, []⟩) (s := q) (x := 0) Digits.nil (by simp)
    rfl (by simp [value]) hq0 (by omega) ⟨0, by simp⟩ (by rw [abs_zero]; exact lt_of_le_of_lt (abs_nonneg _) hu.abs_lt)
    (Small.stripM ⟨by simp, by simp, by simp⟩)
  exact ⟨r', er⟩

theorem sqrt_long [Build] {fuel : Nat} {a : Bin} {x : ℚ} {s : Int} (ha : Holds a x s) (hx : 0 < x) (h : Num.sqrt fuel a = .error .overflow) :
    LongRoot x s := by
  intro k hk
  by_contra hcon
  rcases C34_sqrt_debug_safe ha hx hk (by omega) fuel with ⟨r, y, h', -⟩ | h' <;> rw [h] at h' <;> cases h'

theorem ln_long [Build] {lm : Libm} (hl : LibmOK lm) {fuel : Nat} {a : Bin} {x : ℚ} {s : Int} (ha : Holds a x s) (hx : 0 < x)
    (h : Num.ln lm fuel a = .error .overflow) : LongLog 38 x s := by
  by_contra hcon
  unfold LongLog at hcon
  push Not at hcon
  rcases C49_ln_debug_safe hl fuel ha hx hcon.1 hcon.2 with ⟨r, y, t, h', -⟩ | h' <;> rw [h] at h' <;> cases h'

theorem log_long [Build] {lm : Libm} (hl : LibmOK lm) {fuel : Nat} {a b : Bin} {x y : ℚ} {s t : Int} (ha : Holds a x s) (hb : Holds b y t)
    (hx : 0 < x) (hy : 0 < y) (hy1 : y ≠ 1) (h : Num.log lm fuel a b = .error .overflow) : LongLog 13 x s ∨ LongLog 13 y t := by
  by_contra hcon
  unfold LongLog at hcon
  push Not at hcon
  rcases C50_log_debug_safe hl fuel ha hb hx hy hcon.1.1 hcon.2.1 hcon.1.2 hcon.2.2 hy1 with ⟨r, y, t, h', -⟩ | h' <;> rw [h] at h' <;> cases h'

theorem sqrt_lawful [Build] (fuel : Nat) (hf : 60 ≤ fuel) {a : Bin} {x : ℚ} {s : Int} (ha : Holds a x s) :
    Lawful (do let r ← Num.sqrt fuel a; pure (some r)) (May1 .sqrt (.num x s)) (Fun1.MayHang .sqrt (.num x s)) := by
  rcases lt_trichotomy x 0 with hx | rfl | hx
  · exact lawful_panic (some_error (C34_sqrt_negative ha hx fuel)) (.sqrtNegative hx)
  · obtain ⟨r, h⟩ := sqrt_zero ha fuel
    obtain ⟨y, hr, hacc⟩ := C34_sqrt_accuracy ha le_rfl h
    exact lawful_num (some_ok h) hr (.sqrt le_rfl hacc)
  · by_cases hh : x < 10 ^ (-2000:ℤ) ∨ |Int.fract (√(x:ℝ) * 10 ^ (sqrtScale x s + 8)) - 1 / 4| ≤ 1 / 10 ^ 8
    · rcases sqrt_outcomes ha hx fuel with ⟨r, y, h, hr, hacc⟩ | ⟨h, -⟩ | ⟨h', h⟩ | ⟨hd, h⟩
      · exact lawful_num (some_ok h) hr (.sqrt hx.le hacc)
      · exact lawful_hang (some_error h) ⟨hx, hh⟩
      · exact lawful_panic (some_error h) (.sqrtTiny hx h')
      · exact lawful_overflow (some_error h) (.sqrtOverflow hd hx (sqrt_long ha hx h))
    · push Not at hh
      rcases C53_sqrt_terminates ha hh.1 hh.2 hf with ⟨r, y, h, hr, hacc⟩ | ⟨hd, h⟩
      · exact lawful_num (some_ok h) hr (.sqrt hx.le hacc)
      · exact lawful_overflow (some_error h) (.sqrtOverflow hd hx (sqrt_long ha hx h))

theorem relative {y : ℚ} {r : ℝ} {q : ℤ} {e : ℝ} (hr : 0 ≤ r) (h : q = 1000 ∨ |(y:ℝ) - r| ≤ r / e) : q = 1000 ∨ Relative y r (1 / e) := by
  rcases h with h | h
  · exact .inl h
  · exact .inr (by rw [Relative, abs_of_nonneg hr, mul_one_div]; exact h)

theorem relative' {y : ℚ} {r : ℝ} {q : ℤ} {e : ℝ} (h : q = 1000 ∨ |(y:ℝ) - r| ≤ |r| / e) : q = 1000 ∨ Relative y r (1 / e) := by
  rcases h with h | h
  · exact .inl h
  · exact .inr (by rw [Relative, mul_one_div]; exact h)

/-- Near one the logarithm is found. -/
theorem ln_near [Build] {lm : Libm} (hl : LibmOK lm) {fuel : Nat} (hf : 600 ≤ fuel) {a : Bin} {x : ℚ} {s : Int}
    (ha : Holds a x s) (h9 : 9 / 10 < x) (h11 : x < 11 / 10) : (∃ r, Num.ln lm fuel a = .ok r) ∨ (Build.debug = true ∧ Num.ln lm fuel a = .error .overflow) := by
  obtain ⟨u, hu, rfl, rfl, ea, na, va⟩ := ha.exists_var
  have hx : 0 < value u := by linarith
  have hp := PosVar.of_canonical hu hx
  obtain ⟨w, ew, -, -⟩ := estimate_spec hl hu hx
  obtain ⟨hw1, hw2⟩ := estimate_bounds hl hu hx ew
  rw [ln_unfold lm fuel ea na va, (ln_checks lm fuel hu).2.2 hx]
  simp only [ew, bind_ok, NUMERIC_MIN_SIG_DIGITS, NUMERIC_MIN_DISPLAY_SCALE, NUMERIC_MAX_DISPLAY_SCALE]
  obtain ⟨t, ht⟩ : ∃ t, t = min (max (max (16 - w) u.dscale) 0) 1000 := ⟨_, rfl⟩
  rw [← ht, fits_ok (by fits_tac), bind_ok]
  rcases lnCommon_near hp (R := t) (by
      have : ((9 / 10 : ℚ) : ℝ) < (value u : ℝ) := by exact_mod_cast h9
      push_cast at this; exact this) (by
      have : (value u : ℝ) < ((11 / 10 : ℚ) : ℝ) := by exact_mod_cast h11
      push_cast at this; exact this) (by omega) (by omega) (fuel := fuel) (by omega) with ⟨y, ey⟩ | ⟨hd, ey, -⟩
  · obtain ⟨hw, hacc⟩ := lnCommon_spec hp (by omega) (by omega) ey
    obtain ⟨r, er, -⟩ := Num.finishNoOverflow_spec hw.digits hw.not_nan hw.dscale rfl hw.l_nonneg hw.l_le' hw.scale
      (ln_lim hp (by omega) (by omega) hacc) (hw.sm_limit (ln_lim hp (by omega) (by omega) hacc)).stripM
    exact .inl ⟨r, by rw [ey]; exact er⟩
  · exact .inr ⟨hd, by rw [ey]; rfl⟩

theorem ln_lawful [Build] {lm : Libm} (hl : LibmOK lm) (fuel : Nat) (hf : 600 ≤ fuel) {a : Bin} {x : ℚ} {s : Int} (ha : Holds a x s) :
    Lawful (do let r ← Num.ln lm fuel a; pure (some r)) (May1 .ln (.num x s)) (Fun1.MayHang .ln (.num x s)) := by
  rcases le_or_gt x 0 with hx | hx
  · exact lawful_panic (some_error (C43_ln_domain lm fuel ha hx)) (.logDomain trivial hx)
  · have h1 : ∀ r, Num.ln lm fuel a = .ok r → ∃ y t, Holds r y t ∧ May1 .ln (.num x s) (.number (.num y t)) := by
      intro r h
      obtain ⟨y, t, hr, h1, h2, hacc⟩ := C49_ln_accuracy lm fuel ha hx h
      exact ⟨y, t, hr, .ln hx h1 h2 hacc⟩
    by_cases hh : x ≤ 9 / 10 ∨ 11 / 10 ≤ x
    · exact (C54_ln_never_panics hl fuel ha hx).lawful h1 (fun hd h => .logOverflow trivial hd hx (ln_long hl ha hx h)) (fun _ => ⟨hx, hh⟩)
    · push Not at hh
      rcases ln_near hl hf ha hh.1 hh.2 with ⟨r, h⟩ | ⟨hd, h⟩
      · obtain ⟨y, t, hr, hm⟩ := h1 r h
        exact lawful_num (some_ok h) hr hm
      · exact lawful_overflow (some_error h) (.logOverflow trivial hd hx (ln_long hl ha hx h))

theorem log2_10_lawful [Build] {lm : Libm} (hl : LibmOK lm) (fuel : Nat) {a : Bin} {x : ℚ} {s : Int} (ha : Holds a x s)
    (hx1 : 0 < x → x = 1 ∨ Away x 900) :
    Lawful (do let r ← Num.log2 lm fuel a; pure (some r)) (May1 .log2 (.num x s)) (Fun1.MayHang .log2 (.num x s)) ∧
    Lawful (do let r ← Num.log10 lm fuel a; pure (some r)) (May1 .log10 (.num x s)) (Fun1.MayHang .log10 (.num x s)) := by
  rcases le_or_gt x 0 with hx | hx
  · exact ⟨lawful_panic (some_error (C43_log2_log10_domain lm fuel ha hx).1) (.logDomain trivial hx),
      lawful_panic (some_error (C43_log2_log10_domain lm fuel ha hx).2) (.logDomain trivial hx)⟩
  · have hx1 := hx1 hx
    constructor
    · have hn : NoPanic (Num.log2 lm fuel a) := by
        obtain ⟨u, hu, rfl, rfl, ea, na, va⟩ := ha.exists_var
        unfold Num.log2
        simp only [ea, na, va, bind_ok, Bool.false_eq_true, if_false]
        have h2 : value Var.two = 2 := by simp [value, mag, Var.two]
        exact log_never_panics hl fuel hu two_canonical hx (by rw [h2]; norm_num) hx1 (by rw [h2]; norm_num)
      refine hn.lawful (fun r h => ?_) (fun hd h => .logOverflow trivial hd hx ?_) (fun _ => hx)
      swap
      · by_contra hcon
        unfold LongLog at hcon
        push Not at hcon
        rcases (C50_log2_log10_debug_safe hl fuel ha hx hcon.1 hcon.2).1 with ⟨r, h'⟩ | h' <;> rw [h] at h' <;> cases h'
      obtain ⟨z, q, hr, q1, q2, q3, q4⟩ := C50_log2_accuracy hl fuel ha hx hx1 h
      exact ⟨z, q, hr, .log2 hx q1 q2 q3 (relative' q4)⟩
    · have hn : NoPanic (Num.log10 lm fuel a) := by
        obtain ⟨u, hu, rfl, rfl, ea, na, va⟩ := ha.exists_var
        unfold Num.log10
        simp only [ea, na, va, bind_ok, Bool.false_eq_true, if_false]
        have h2 : value Var.ten = 10 := by simp [value, mag, Var.ten]
        exact log_never_panics hl fuel hu ten_canonical hx (by rw [h2]; norm_num) hx1 (by rw [h2]; norm_num)
      refine hn.lawful (fun r h => ?_) (fun hd h => .logOverflow trivial hd hx ?_) (fun _ => hx)
      swap
      · by_contra hcon
        unfold LongLog at hcon
        push Not at hcon
        rcases (C50_log2_log10_debug_safe hl fuel ha hx hcon.1 hcon.2).2 with ⟨r, h'⟩ | h' <;> rw [h] at h' <;> cases h'
      obtain ⟨z, q, hr, q1, q2, q3, q4⟩ := C50_log10_accuracy hl fuel ha hx hx1 h
      exact ⟨z, q, hr, .log10 hx q1 q2 q3 (relative' q4)⟩

theorem exp_lawful [Build] {lm : Libm} (hl : LibmOK lm) {fuel : Nat} (hf : 4200 ≤ fuel) {a : Bin} {x : ℚ} {s : Int} (ha : Holds a x s) :
    Lawful (Num.exp lm fuel a) (May1 .exp (.num x s)) False := by
  rcases C51_exp_all hl hf ha with ⟨hx, r, y, t, h, hr, h1, h2, h3, h4⟩ | ⟨hx, h⟩
  · exact lawful_num h hr (.exp hx h1 h2 h3 (relative (Real.exp_pos _).le h4))
  · exact lawful_none h (.expNone hx)

theorem fun1_lawful [Build] {lm : Libm} (hl : LibmOK lm) {fuel : Nat} (hf : 4200 ≤ fuel) (f : Fun1) {a : Bin} {u : Val} (ha : Represents a u)
    (hf1 : f.Legal u) : Lawful (callFun1 lm fuel f a) (May1 f u) (f.MayHang u) := by
  cases u with
  | nan =>
    obtain ⟨⟨r1, h1, n1⟩, ⟨r2, h2, n2⟩, ⟨r3, h3, n3⟩, -⟩ := C43_nan lm fuel ha
    obtain ⟨r4, h4, n4⟩ := C34_sqrt_nan ha fuel
    obtain ⟨r5, h5, n5⟩ := C51_exp_nan lm fuel ha
    cases f with
    | sqrt => exact lawful_nan (some_ok h4) n4 .nan
    | ln => exact lawful_nan (some_ok h1) n1 .nan
    | log2 => exact lawful_nan (some_ok h2) n2 .nan
    | log10 => exact lawful_nan (some_ok h3) n3 .nan
    | exp => exact lawful_nan h5 n5 .nan
  | num x s =>
    cases f with
    | sqrt => exact sqrt_lawful fuel (by omega) ha
    | ln => exact ln_lawful hl fuel (by omega) ha
    | log2 => exact (log2_10_lawful hl fuel ha hf1).1
    | log10 => exact (log2_10_lawful hl fuel ha hf1).2
    | exp => exact exp_lawful hl hf ha

theorem log_lawful [Build] {lm : Libm} (hl : LibmOK lm) (fuel : Nat) (hf : 2600 ≤ fuel) {a b : Bin} {x y : ℚ} {s t : Int} (ha : Holds a x s) (hb : Holds b y t)
    (hL : 0 < x → 0 < y → (x = 1 ∨ Away x 900) ∧ Away y 190) :
    Lawful (do let r ← Num.log lm fuel a b; pure (some r)) (May2 .log (.num x s) (.num y t)) (Fun2.MayHang .log (.num x s) (.num y t)) := by
  by_cases hd : x ≤ 0 ∨ y ≤ 0
  · have h := C43_log_domain lm fuel ha hb hd
    by_cases hz : x = 0 ∨ (0 < x ∧ y = 0)
    · rw [if_pos hz] at h
      exact lawful_panic (some_error h) (.logZero hz)
    · rw [if_neg hz] at h
      refine lawful_panic (some_error h) (.logNegative ?_)
      push Not at hz
      rcases lt_trichotomy x 0 with hx | hx | hx
      · exact .inl hx
      · exact absurd hx hz.1
      · refine .inr ⟨hx, lt_of_le_of_ne ?_ (hz.2 hx)⟩
        rcases hd with hd | hd
        · linarith
        · exact hd
  · push Not at hd
    obtain ⟨h1, h2⟩ := hL hd.1 hd.2
    have hy1 : y ≠ 1 := by
      rintro rfl
      unfold Away at h2
      rw [sub_self, abs_zero] at h2
      exact absurd h2 (not_le.2 (T_zpow_pos _))
    refine (C54_log_never_panics hl fuel ha hb hd.1 hd.2 h1 h2).lawful (fun r h => ?_)
      (fun hD h => .logOverflow hD hd.1 hd.2 (log_long hl ha hb hd.1 hd.2 hy1 h)) (fun h => ⟨hd.1, hd.2, ?_⟩)
    swap
    · by_contra hcon
      push Not at hcon
      obtain ⟨c1, c2, c3, c4⟩ := hcon
      rcases log_near hl hf ha hb c1 c2 c3 c4 h1 h2 with ⟨r, h'⟩ | ⟨-, h', -⟩ <;> rw [h] at h' <;> cases h'
    obtain ⟨z, q, hr, q1, q2, q3, q4⟩ := C50_log_accuracy hl fuel ha hb hd.1 hd.2 h1 h2 h
    exact ⟨z, q, hr, .log hd.1 hd.2 q1 q2 q3 (relative' q4)⟩

theorem pow_int_lawful [Build] {lm : Libm} (hl : LibmOK lm) (fuel : Nat) {a b : Bin} {x : ℚ} {k : ℤ} {s t : Int} (ha : Holds a x s)
    (hb : Holds b k t) (hx : x ≠ 0) (hk : IsI32 k) (hk2 : k ≠ -2147483648) {hang : Prop} :
    Lawful (Num.pow lm fuel a b) (May2 .pow (.num x s) (.num k t)) hang := by
  obtain ⟨k1, k2⟩ := hk
  rcases (by omega : k = 0 ∨ k = 1 ∨ k = -1 ∨ k = 2 ∨ 3 ≤ k ∨ k ≤ -2) with rfl | rfl | rfl | rfl | h3 | h2
  · rw [Int.cast_zero] at hb ⊢
    obtain ⟨r, h, hr⟩ := C33_pow_zero lm fuel ha hb
    exact lawful_num h hr .powZero
  · rw [Int.cast_one] at hb ⊢
    obtain ⟨h1, h2⟩ := C33_pow_one lm fuel ha hb
    by_cases hlim : |roundHalfAway x (powerScale s)| < limit
    · obtain ⟨r, h, hr⟩ := h1 hlim
      exact lawful_num h hr (.powOne hlim)
    · exact lawful_none (h2 (not_lt.1 hlim)) (.powOneNone (not_lt.1 hlim))
  · have : ((-1 : ℤ) : ℚ) = -1 := by norm_num
    rw [this] at hb ⊢
    obtain ⟨r, h, hr⟩ := C33_pow_neg_one lm fuel ha hx hb
    exact lawful_num h hr (.powInverse hx)
  · have : ((2 : ℤ) : ℚ) = 2 := by norm_num
    rw [this] at hb ⊢
    obtain ⟨y, hacc, -, h1, h2⟩ := C55_square lm fuel ha hb hx
    by_cases hlim : |y| < limit
    · obtain ⟨r, h, hr⟩ := h1 hlim
      exact lawful_num h hr (.powSquare hx hacc hlim)
    · exact lawful_none (h2 (not_lt.1 hlim)) (.powSquareNone hx hacc (not_lt.1 hlim))
  · obtain ⟨n, rfl⟩ := Int.eq_ofNat_of_zero_le (by omega : 0 ≤ k)
    rw [Int.cast_natCast] at hb ⊢
    have hn1 : 3 ≤ n := by omega
    have hn2 : n < 2 ^ 31 := by omega
    have hlp := leadPart_pos ha hx
    obtain ⟨u, hu, rfl, rfl, -, -, va⟩ := ha.exists_var
    obtain ⟨c, hc, hcx, -, -, -, vb⟩ := hb.exists_var
    obtain ⟨p0, p1⟩ := powerScale_bounds hu.dscale_nonneg
    have hpow := pow_int lm fuel hu hc (k := n) (by rw [hcx]; norm_num) ⟨by omega, by omega⟩ hx
    rcases powerInt_pos hl hu hx hn1 hn2 (s := powerScale u.dscale) (by omega) (by omega) with
      ⟨v, ev, v1, v2, v3, v4, v5, v6, vl, v7, -, v8⟩ | ⟨h, ev⟩
    · have heq : Num.pow lm fuel a b = Num.finish v := by
        rw [pow_unfold lm fuel va vb, hpow, ev]
        simp only [bind_ok, if_neg v2]
      have hfin := Num.finish_loose v1 v2 v3 rfl (by omega) (by omega) v4 v5 v6 vl
      by_cases hlim : |value v| < limit
      · obtain ⟨r, er, hr⟩ := hfin.1 hlim
        rcases v8 with h | ⟨h0, h, -⟩
        · refine lawful_num (heq.trans er) hr (.powLarge hx hn1 hn2 (h.trans (mul_le_mul_of_nonneg_right ?_ (T_zpow_pos _).le)))
          have : 0 ≤ (|value u| / leadPart (value u)) ^ n := by
            have := hlp.1
            have := abs_nonneg (value u)
            positivity
          generalize (|value u| / leadPart (value u)) ^ n = R at *
          norm_num
          linarith
        · rw [h0] at hr
          exact lawful_num (heq.trans er) hr (.powVanishes hx hn1 hn2 h)
      · refine lawful_none (heq.trans (hfin.2 (not_lt.1 hlim))) (.powLargeNone hn1 hn2 ?_)
        have := limit_big
        have hL2 : (10:ℚ) ^ 40 ≤ limit := by unfold limit; exact pow_le_pow_right₀ (by norm_num) (by norm_num)
        have h := (not_lt.1 hlim).trans v7
        generalize |value u ^ n| = X at *
        generalize limit = L at *
        norm_num at *
        linarith
    · refine lawful_none ?_ (.powLargeNone hn1 hn2 ?_)
      · rw [pow_unfold lm fuel va vb, hpow, ev]
        rfl
      · refine le_trans (mul_le_mul_of_nonneg_right ?_ ?_) h
        · norm_num
        · exact (abs_nonneg (value u)).trans hu.abs_lt.le
  · obtain ⟨n, hn⟩ := Int.eq_ofNat_of_zero_le (by omega : 0 ≤ -k)
    obtain rfl : k = -(n:ℤ) := by omega
    have : ((-(n:ℤ) : ℤ) : ℚ) = -(n:ℚ) := by push_cast; rfl
    rw [this] at hb ⊢
    have hn1 : 2 ≤ n := by omega
    have hn2 : n < 2 ^ 31 := by omega
    rcases C55_negative_power hl fuel ha hb hx hn1 hn2 with ⟨r, y, h, hr, hacc⟩ | ⟨hlim, h⟩ | ⟨hd, hlong, h⟩
    · exact lawful_num h hr (.powNegative hx hn1 hn2 hacc)
    · exact lawful_none h (.powNegativeNone hx hn1 hn2 hlim)
    · exact lawful_overflow h (.powNegativeOverflow hd hx hn1 hn2 hlong)

theorem pow_real_lawful [Build] {lm : Libm} (hl : LibmOK lm) {fuel : Nat} (hf : 4200 ≤ fuel) {a b : Bin} {x y : ℚ} {s t : Int}
    (ha : Holds a x s) (hb : Holds b y t) (hx : 0 < x) (hx1 : x = 1 ∨ (10:ℚ) ^ (-980:ℤ) ≤ |x - 1|) (hi : ¬ IntExponent y) :
    Lawful (Num.pow lm fuel a b) (May2 .pow (.num x s) (.num y t)) (Fun2.MayHang .pow (.num x s) (.num y t)) := by
  have hy : ∀ k : ℤ, y = k → ¬ IsI32 k := fun k h h' => hi ⟨k, h, h'⟩
  have hpos : (0:ℝ) < (x:ℝ) := by exact_mod_cast hx
  rcases pow_real_cases hl hf ha hb hx hx1 hy with ⟨r, z, q, h, hr⟩ | h | ⟨hh, h⟩ | ⟨hd, hlong, hfar, h⟩
  · rcases lt_or_ge (y * Real.log x) (-2290) with ht | ht
    · exact lawful_num h hr (.powTiny hx hi ht)
    rcases le_or_gt (y * Real.log x) 5999 with hb' | hb'
    · obtain ⟨r', z', q', e, hr', q1, q2, q3, q4⟩ := C52_pow_accuracy hl hf ha hb hx hx1 hy ht hb' h
      cases e
      exact lawful_num h hr' (.powReal hx hi hb' q1 q2 q3 (relative (Real.rpow_nonneg hpos.le _) q4))
    · rcases lt_or_ge (y * Real.log x) 6001 with hb6 | hb6
      · exact lawful_num h hr (.powHugeNumber hx hi hb' hb6)
      · rcases hx1 with rfl | hx1
        · norm_num at hb'
        · cases C52_pow_overflow hl hf ha hb hx hx1 hy hb6 h
  · rcases lt_or_ge (y * Real.log x) (-2290) with ht | ht
    · exact lawful_none h (.powTinyNone hx hi ht)
    rcases le_or_gt (y * Real.log x) 5999 with hb' | hb'
    · obtain ⟨r', z', q', e, -⟩ := C52_pow_accuracy hl hf ha hb hx hx1 hy ht hb' h
      cases e
    · exact lawful_none h (.powHuge hx hi hb')
  · exact lawful_hang h ⟨hx, hh, hi⟩
  · exact lawful_overflow h (.powOverflow hd hx hi hlong hfar)

theorem pow_lawful [Build] {lm : Libm} (hl : LibmOK lm) {fuel : Nat} (hf : 4200 ≤ fuel) {a b : Bin} {x y : ℚ} {s t : Int}
    (ha : Holds a x s) (hb : Holds b y t) (hL : Fun2.Legal .pow (.num x s) (.num y t)) :
    Lawful (Num.pow lm fuel a b) (May2 .pow (.num x s) (.num y t)) (Fun2.MayHang .pow (.num x s) (.num y t)) := by
  obtain ⟨l1, l2, l3⟩ := hL
  rcases eq_or_ne x 0 with rfl | hx
  · rcases lt_trichotomy y 0 with hy | rfl | hy
    · exact lawful_panic (C33_zero_negative_panics lm fuel ha hb hy) (.powZeroNegative hy)
    · obtain ⟨r, h, hr⟩ := C33_pow_zero lm fuel ha hb
      exact lawful_num h hr .powZero
    · obtain ⟨r, q, h, hr, q1, q2⟩ := C33_zero_base hl fuel ha hb hy
      by_cases hi : IntExponent y
      · cases q1 hi
        exact lawful_num h hr (.powZeroBase hy hi)
      · cases q2 hi
        exact lawful_num h hr (.powZeroBaseReal hy hi)
  by_cases hi : IntExponent y
  · obtain ⟨k, rfl, hk⟩ := hi
    exact pow_int_lawful hl fuel ha hb hx hk (fun h => hx (l1 (by rw [h]; norm_num)))
  rcases lt_or_gt_of_ne hx with hx | hx
  · have hy : ∀ n : ℤ, y ≠ n := fun n h => hi (l2 hx ⟨n, h⟩)
    exact lawful_panic (C33_negative_fraction_panics lm fuel ha hb hx hy) (.powComplex hx hy)
  · exact pow_real_lawful hl hf ha hb hx (l3 hx hi) hi

theorem fun2_lawful [Build] {lm : Libm} (hl : LibmOK lm) {fuel : Nat} (hf : 4200 ≤ fuel) (f : Fun2) {a b : Bin} {u v : Val}
    (ha : Represents a u) (hb : Represents b v) (hL : f.Legal u v) : Lawful (callFun2 lm fuel f a b) (May2 f u v) (f.MayHang u v) := by
  have den : ∀ {b : Bin} {v : Val}, Represents b v → Denotes b v.key := by
    intro b v hb
    cases v with
    | nan => exact .inl ⟨hb, rfl⟩
    | num y t => exact .inr ⟨y, t, hb, rfl⟩
  cases f with
  | log =>
    cases u with
    | nan =>
      obtain ⟨r, h, hr⟩ := ((C43_nan lm fuel ha).2.2.2 (den hb)).1
      exact lawful_nan (some_ok h) hr .logNanLeft
    | num x s =>
      cases v with
      | nan =>
        obtain ⟨r, h, hr⟩ := ((C43_nan lm fuel hb).2.2.2 (den (v := .num x s) ha)).2
        exact lawful_nan (some_ok h) hr .logNanRight
      | num y t => exact log_lawful hl fuel (by omega) ha hb hL
  | pow =>
    cases u with
    | nan =>
      obtain ⟨r, h, hr⟩ := C33_nan_base lm fuel ha (den hb)
      cases v with
      | nan => exact lawful_nan h (by simpa [Val.key] using hr) .powNanBoth
      | num y t =>
        by_cases hy : y = 0
        · subst hy
          exact lawful_num h (by simpa [Val.key] using hr) .powNanZero
        · exact lawful_nan h (by simpa [Val.key, hy] using hr) (.powNanLeft hy)
    | num x s =>
      cases v with
      | nan =>
        obtain ⟨r, h, hr⟩ := C33_nan_exponent lm fuel ha hb
        by_cases hx : x = 1
        · subst hx
          rw [if_pos rfl] at hr
          exact lawful_num h hr .powOneNan
        · rw [if_neg hx] at hr
          exact lawful_nan h hr (.powNanRight hx)
      | num y t => exact pow_lawful hl hf ha hb hL

/-! ## Programs -/

theorem realFresh_sim [Build] {lay : ℕ → Bin → Buf} (hg : GoodLayout lay) {w : World} {l : List Slot} (hI : Inv w l) {m : M (Option Bin)}
    {P : Outcome → Prop} {hang : Prop} (h : Lawful m P hang) :
    (∃ o w', realFresh lay w m = .ok (o.answer, w') ∧ P o ∧ Inv w' (o.owned l)) ∨ (realFresh lay w m = .error .diverge ∧ hang) := by
  rcases h with ⟨r, v, rfl, hr, hP⟩ | ⟨rfl, hP⟩ | ⟨msg, rfl, hP⟩ | ⟨rfl, hP⟩ | ⟨rfl, hh⟩
  · exact .inl ⟨.number v, _, rfl, hP, hI.put hg hr⟩
  · exact .inl ⟨.none, _, rfl, hP, hI⟩
  · exact .inl ⟨.panic msg, _, rfl, hP, hI⟩
  · exact .inl ⟨.overflow, _, rfl, hP, hI⟩
  · exact .inr ⟨rfl, hh⟩

theorem callReal_sim [Build] {lm : Libm} (hl : LibmOK lm) {fuel : Nat} (hf : 4200 ≤ fuel) {lay : ℕ → Bin → Buf} (hg : GoodLayout lay) {w : World}
    {l : List Slot} (hI : Inv w l) {act : RealAct} (ha : act.Legal l) :
    (∃ ans w' l', callReal lm fuel lay w act = .ok (ans, w') ∧ RealStep act l ans l' ∧ Inv w' l') ∨
    (callReal lm fuel lay w act = .error .diverge ∧ act.MayHang l) := by
  cases act with
  | base act =>
    obtain ⟨ans, l', w', h, hs, hI'⟩ := callApi_sim hl hg hI ha
    exact .inl ⟨.plain ans, w', l', by simp only [callReal, h, bind_ok, pure_ok], .base hs, hI'⟩
  | fun1 f i =>
    obtain ⟨u, hu, hL⟩ := ha
    obtain ⟨a, ea, ra⟩ := hI.look hu
    simp only [callReal, ea, bind_ok]
    rcases realFresh_sim hg hI (fun1_lawful hl hf f ra hL) with ⟨o, w', h, hP, hI'⟩ | ⟨h, hh⟩
    · exact .inl ⟨_, _, _, h, .fun1 hu hP, hI'⟩
    · exact .inr ⟨h, u, hu, hh⟩
  | fun2 f i j =>
    obtain ⟨u, v, hu, hv, hL⟩ := ha
    obtain ⟨a, ea, ra⟩ := hI.look hu
    obtain ⟨b, eb, rb⟩ := hI.look hv
    simp only [callReal, ea, eb, bind_ok]
    rcases realFresh_sim hg hI (fun2_lawful hl hf f ra rb hL) with ⟨o, w', h, hP, hI'⟩ | ⟨h, hh⟩
    · exact .inl ⟨_, _, _, h, .fun2 hu hv hP, hI'⟩
    · exact .inr ⟨h, u, v, hu, hv, hh⟩

theorem real_legal_step [Build] {c : RealClient} {l l' : List Slot} {h : List RealAnswer} {act : RealAct} {ans : RealAnswer}
    (hc : c.Legal l h) (e : c h = some act) (hs : RealStep act l ans l') : c.Legal l' (h ++ [ans]) :=
  fun n l'' h'' act' hp => hc (n + 1) l'' h'' act' (.step e hs hp)

theorem playReal_sim [Build] {lm : Libm} (hl : LibmOK lm) {fuel : Nat} (hf : 4200 ≤ fuel) {lay : ℕ → Bin → Buf} (hg : GoodLayout lay)
    {c : RealClient} {n : ℕ} : ∀ {w : World} {l : List Slot} {h : List RealAnswer}, Inv w l → c.Legal l h →
      (∃ w' l' h', playReal lm fuel lay c n (w, h) = .ok (w', h') ∧ RealPlay c n (l, h) (l', h') ∧ Inv w' l') ∨
      (playReal lm fuel lay c n (w, h) = .error .diverge ∧
        ∃ m l' h' act, m < n ∧ RealPlay c m (l, h) (l', h') ∧ c h' = some act ∧ act.MayHang l') := by
  induction n with
  | zero => intro w l h hI _; exact .inl ⟨w, l, h, rfl, .zero, hI⟩
  | succ n ih =>
    intro w l h hI hc
    cases e : c h with
    | none => exact .inl ⟨w, l, h, by simp only [playReal, e, pure_ok], .stop e, hI⟩
    | some act =>
      rcases callReal_sim hl hf hg hI (hc 0 l h act .zero e) with ⟨ans, w1, l1, h1, hs, hI1⟩ | ⟨h1, hh⟩
      · rcases ih hI1 (real_legal_step hc e hs) with ⟨w', l', h', h2, hp, hI'⟩ | ⟨h2, m, l', h', act', hm, hp, ha, hh⟩
        · exact .inl ⟨w', l', h', by simp only [playReal, e, h1, bind_ok]; exact h2, .step e hs hp, hI'⟩
        · exact .inr ⟨by simp only [playReal, e, h1, bind_ok]; exact h2, m + 1, l', h', act', by omega, .step e hs hp, ha, hh⟩
      · exact .inr ⟨by simp only [playReal, e, h1]; rfl, 0, l, h, act, by omega, .zero, e, hh⟩

/-- C68: a program that mixes all calls of C61 with roots, logarithms, exponentials and powers, and decides on each call from the answers so
far. Either all calls return; then every answer is one the specification allows, and every number it owns holds exactly the value
the specification says, in its own live allocation, and nothing else is allocated. Or one of the calls that are not known to return runs on.
There is no other outcome: no out-of-bounds or dangling access, no uncaught fault. -/
theorem C68_client [Build] {lm : Libm} (hl : LibmOK lm) {fuel : Nat} (hf : 4200 ≤ fuel) {lay : ℕ → Bin → Buf} (hg : GoodLayout lay)
    {c : RealClient} (hc : c.Legal [] []) (n : ℕ) :
    (∃ w l h, playReal lm fuel lay c n (start, []) = .ok (w, h) ∧ RealPlay c n ([], []) (l, h) ∧ w.regs.length = l.length ∧
      (∀ (i : ℕ) r s, w.regs[i]? = some r → l[i]? = some s → Agrees w.heap r s) ∧
      (∀ (i j : ℕ) (x y : HBuf) q, w.regs[i]? = some (some x) → w.regs[j]? = some (some y) → x.ptr = some q → y.ptr = some q → i = j) ∧
      (∀ q, w.heap.live q ≠ none ↔ ∃ (i : ℕ) (x : HBuf), w.regs[i]? = some (some x) ∧ x.ptr = some q)) ∨
    (playReal lm fuel lay c n (start, []) = .error .diverge ∧
      ∃ m l h act, m < n ∧ RealPlay c m ([], []) (l, h) ∧ c h = some act ∧ act.MayHang l) := by
  rcases playReal_sim hl hf hg (n := n) Inv.start hc with ⟨w, l, h, e, hp, hI⟩ | h
  · exact .inl ⟨w, l, h, e, hp, hI.len, fun i r s hr hs => (hI.slot hr hs).agrees,
      fun i j x y q h1 h2 h3 h4 => hI.inj h1 h2 h3 h4, hI.noleak⟩
  · exact .inr h

/-- C68: a program that makes no call that may run on always gets its answers. -/
theorem C68_total [Build] {lm : Libm} (hl : LibmOK lm) {fuel : Nat} (hf : 4200 ≤ fuel) {lay : ℕ → Bin → Buf} (hg : GoodLayout lay)
    {c : RealClient} (hc : c.Legal [] []) (ht : ∀ n l h act, RealPlay c n ([], []) (l, h) → c h = some act → ¬ act.MayHang l) (n : ℕ) :
    ∃ w l h, playReal lm fuel lay c n (start, []) = .ok (w, h) ∧ RealPlay c n ([], []) (l, h) := by
  rcases C68_client hl hf hg hc n with ⟨w, l, h, e, hp, -⟩ | ⟨-, m, l, h, act, -, hp, e, hh⟩
  · exact ⟨w, l, h, e, hp⟩
  · exact absurd hh (ht m l h act hp e)

/-! ## Non-vacuity -/

theorem real_invariant [Build] {c : RealClient} {P : List Slot → List RealAnswer → Prop}
    (hstep : ∀ l h act ans l', P l h → c h = some act → RealStep act l ans l' → P l' (h ++ [ans])) {n : ℕ} :
    ∀ {l h l' h'}, RealPlay c n (l, h) (l', h') → P l h → P l' h' := by
  induction n with
  | zero => intro l h l' h' hp h0; cases hp; exact h0
  | succ n ih =>
    intro l h l' h' hp h0
    cases hp with
    | stop => exact h0
    | step e hs hp => exact ih hp (hstep _ _ _ _ _ h0 e hs)

/-- A program that creates 4, takes the square root, the exponential of the root if there is one, and then `4^4`. -/
def demoReal : RealClient
  | [] => some (.base (.int .i32 4))
  | [_] => some (.fun1 .sqrt 0)
  | [_, .plain .number] => some (.fun1 .exp 1)
  | [_, .overflow] => some (.fun2 .pow 0 0)
  | [_, .plain .number, _] => some (.fun2 .pow 0 0)
  | _ => none

/-- The program is legal and makes no call that may run on: it always gets its answers. -/
example [Build] : demoReal.Legal [] [] ∧ ∀ n l h act, RealPlay demoReal n ([], []) (l, h) → demoReal h = some act → ¬ act.MayHang l := by
  have key : ∀ n l h, RealPlay demoReal n ([], []) (l, h) → (h = [] ∧ l = []) ∨ ∃ rest, l = .val (.num 4 0) :: rest ∧ h ≠ [] ∧
      (∀ a, h = [a] → rest = []) ∧ (∀ a, h = [a, .plain .number] → ∃ y t, rest = [.val (.num y t)]) := by
    intro n l h hp
    refine real_invariant (P := fun l h => (h = [] ∧ l = []) ∨ ∃ rest, l = .val (.num 4 0) :: rest ∧ h ≠ [] ∧
      (∀ a, h = [a] → rest = []) ∧ (∀ a, h = [a, .plain .number] → ∃ y t, rest = [.val (.num y t)])) ?_ hp (.inl ⟨rfl, rfl⟩)
    rintro l h act ans l' (⟨rfl, rfl⟩ | ⟨rest, rfl, hne, h1, h2⟩) e hs
    · cases e
      cases hs with
      | base hs =>
        cases hs with
        | int => exact .inr ⟨[], by simp, by simp, fun _ _ => rfl, fun a h => by simp at h⟩
        | look h => cases h
    · right
      have own : ∀ o : Outcome, ∃ r, o.owned (.val (.num 4 0) :: rest) = .val (.num 4 0) :: r := by
        intro o; cases o <;> exact ⟨_, rfl⟩
      match h, e with
      | [a], e =>
        cases e
        cases hs with
        | fun1 hu hm =>
          cases h1 a rfl
          cases hu
          cases hm with
          | sqrt => exact ⟨_, rfl, by simp, fun b hb => by simp at hb, fun b hb => ⟨_, _, rfl⟩⟩
          | sqrtNegative => exact ⟨_, rfl, by simp, fun b hb => by simp at hb, fun b hb => by simp [Outcome.answer] at hb⟩
          | sqrtTiny => exact ⟨_, rfl, by simp, fun b hb => by simp at hb, fun b hb => by simp [Outcome.answer] at hb⟩
          | sqrtOverflow => exact ⟨_, rfl, by simp, fun b hb => by simp at hb, fun b hb => by simp [Outcome.answer] at hb⟩
          | logDomain h => cases h
          | logOverflow h => cases h
      | [a, .plain .number], e =>
        cases e
        cases hs with
        | fun1 =>
          rename_i o _ _
          obtain ⟨r, hr⟩ := own o
          exact ⟨r, hr, by simp, fun b hb => by simp at hb, fun b hb => by simp at hb⟩
      | [a, .overflow], e =>
        cases e
        cases hs with
        | fun2 =>
          rename_i o _ _ _
          obtain ⟨r, hr⟩ := own o
          exact ⟨r, hr, by simp, fun b hb => by simp at hb, fun b hb => by simp at hb⟩
      | [a, .plain .number, b], e =>
        cases e
        cases hs with
        | fun2 =>
          rename_i o _ _ _
          obtain ⟨r, hr⟩ := own o
          exact ⟨r, hr, by simp, fun b hb => by simp at hb, fun b hb => by simp at hb⟩
  have hi : IntExponent 4 := ⟨4, by norm_num, by norm_num, by norm_num⟩
  refine ⟨fun n l h act hp e => ?_, fun n l h act hp e => ?_⟩
  · rcases key n l h hp with ⟨rfl, rfl⟩ | ⟨rest, rfl, -, h1, h2⟩
    · cases e
      exact ⟨by simp [Convert.types], by decide, by decide⟩
    · match h, e with
      | [], e => cases e; exact ⟨by simp [Convert.types], by decide, by decide⟩
      | [a], e => cases e; exact ⟨_, rfl, trivial⟩
      | [a, .plain .number], e =>
        cases e
        obtain ⟨y, t, rfl⟩ := h2 a rfl
        exact ⟨_, rfl, trivial⟩
      | [a, .overflow], e => cases e; exact ⟨_, _, rfl, rfl, by norm_num, by norm_num, fun _ h => absurd hi h⟩
      | [a, .plain .number, b], e => cases e; exact ⟨_, _, rfl, rfl, by norm_num, by norm_num, fun _ h => absurd hi h⟩
  · rcases key n l h hp with ⟨rfl, rfl⟩ | ⟨rest, rfl, -, h1, h2⟩
    · cases e
      exact id
    · match h, e with
      | [], e => cases e; exact id
      | [a], e =>
        cases e
        rintro ⟨u, hu, hh⟩
        cases hu
        obtain ⟨-, hh⟩ := hh
        rcases hh with hh | hh
        · have : (10:ℚ) ^ (-2000:ℤ) ≤ 10 ^ (0:ℤ) := T_zpow_le_iff.2 (by norm_num)
          rw [zpow_zero] at this
          linarith
        · have h4 : √((4:ℚ):ℝ) = 2 := by
            rw [show ((4:ℚ):ℝ) = 2 ^ 2 by norm_num, Real.sqrt_sq (by norm_num)]
          obtain ⟨k, hk⟩ : ∃ k : ℤ, (2:ℝ) * 10 ^ (sqrtScale 4 0 + 8) = k := by
            have : 0 ≤ sqrtScale 4 0 := (sqrtScale_bounds (x := 4) le_rfl).1
            obtain ⟨m, hm⟩ := Int.eq_ofNat_of_zero_le (by omega : 0 ≤ sqrtScale 4 0 + 8)
            exact ⟨2 * 10 ^ m, by rw [hm]; push_cast; rfl⟩
          rw [h4, hk, Int.fract_intCast] at hh
          norm_num [abs_le] at hh
      | [a, .plain .number], e =>
        cases e
        obtain ⟨y, t, rfl⟩ := h2 a rfl
        rintro ⟨u, hu, hh⟩
        cases hu
        exact hh
      | [a, .overflow], e =>
        cases e
        rintro ⟨u, v, hu, hv, hh⟩
        cases hu; cases hv
        exact hh.2.2 hi
      | [a, .plain .number, b], e =>
        cases e
        rintro ⟨u, v, hu, hv, hh⟩
        cases hu; cases hv
        exact hh.2.2 hi

end PgNumeric.Props
