import Verif.Model.ToFloat
import Verif.Proofs.Signed
import Verif.Proofs.Strtod
import Verif.Props.Convert
import Verif.Props.Sci
/-!
# Conversions to floating-point numbers (C56, C57) and round trips (C58)
-/
namespace PgNumeric.Props
open PgNumeric Spec F64

theorem toF64_unfold [Build] (strtod : Str → Option Convert.Float) {a : Bin} {u : Var} (va : a.asVar = .ok u) :
    Num.toF64 strtod a = Convert.toF64 strtod u := by
  unfold Num.toF64; simp only [va, bind_ok]

theorem toF32_unfold [Build] (strtod : Str → Option Convert.Float) {a : Bin} {u : Var} (va : a.asVar = .ok u) :
    Num.toF32 strtod a = Convert.toF32 strtod u := by
  unfold Num.toF32; simp only [va, bind_ok]

/-- C56, C57: NaN becomes NaN. -/
theorem C56_nan [Build] (strtod : Str → Option Convert.Float) {a : Bin} (ha : IsNaN a) :
    Num.toF64 strtod a = .ok (.ok .nan) ∧ Num.toF32 strtod a = .ok (.ok .nan) := by
  obtain ⟨-, -, va⟩ := ha.facts
  rw [toF64_unfold strtod va, toF32_unfold strtod va]
  exact ⟨rfl, rfl⟩

theorem toF64_rounds [Build] {strtod : Str → Option Convert.Float} (h : StrtodOK strtod) {a : Bin} {x : ℚ} {s : Int} (ha : Holds a x s) :
    ∃ f, Num.toF64 strtod a = .ok (.ok f) ∧ RoundsTo double x f := by
  obtain ⟨u, hu, rfl, rfl, -, -, va⟩ := ha.exists_var
  rw [toF64_unfold strtod va]
  exact Convert.toF64_spec h hu.digits hu.not_nan hu.stripped hu.dscale_nonneg hu.scale hu.small (by have := hu.dscale_le; omega)

/-- C56: a number below the overflow threshold becomes the nearest double. -/
theorem C56_nearest [Build] {strtod : Str → Option Convert.Float} (h : StrtodOK strtod) {a : Bin} {x : ℚ} {s : Int} (ha : Holds a x s)
    (hx : |x| < 2 ^ 1024 - 2 ^ 970) : ∃ f y, Num.toF64 strtod a = .ok (.ok f) ∧ FloatIs f y ∧ Nearest IsDouble x y := by
  obtain ⟨f, e, hf⟩ := toF64_rounds h ha
  have hlt : double.nearest |x| < 2 ^ double.emax := by rw [← not_le, double_overflow (abs_nonneg _), not_le]; exact hx
  exact ⟨f, double.signed x, e, hf.value hlt, Format.signed_nearest (by decide) (by decide) hlt⟩

/-- C56: a number at or above the threshold becomes the infinity of its sign. -/
theorem C56_overflow [Build] {strtod : Str → Option Convert.Float} (h : StrtodOK strtod) {a : Bin} {x : ℚ} {s : Int} (ha : Holds a x s)
    (hx : 2 ^ 1024 - 2 ^ 970 ≤ |x|) : Num.toF64 strtod a = .ok (.ok (.inf (decide (x < 0)))) := by
  obtain ⟨f, e, hf⟩ := toF64_rounds h ha
  rw [e, hf.inf ((double_overflow (abs_nonneg _)).2 hx)]

/-- C56: a number that is a double is converted exactly. -/
theorem C56_exact [Build] {strtod : Str → Option Convert.Float} (h : StrtodOK strtod) {a : Bin} {x : ℚ} {s : Int} (ha : Holds a x s)
    (hx : IsDouble x) : ∃ f, Num.toF64 strtod a = .ok (.ok f) ∧ FloatIs f x := by
  have hs : double.signed x = x := Format.signed_self (by decide) hx
  obtain ⟨f, e, hf⟩ := toF64_rounds h ha
  refine ⟨f, e, ?_⟩
  have := hf.value (by
    rw [← Format.abs_signed, hs]
    obtain ⟨m, e, hm, he, hE, rfl⟩ := hx
    rw [abs_mul, abs_of_pos (two_pos e)]
    have h1 : |(m:ℚ)| < 2 ^ ((53:ℕ):ℤ) := by rw [zpow_natCast]; exact_mod_cast hm
    calc |(m:ℚ)| * 2 ^ e < 2 ^ ((53:ℕ):ℤ) * 2 ^ e := mul_lt_mul_of_pos_right h1 (two_pos e)
      _ = 2 ^ (((53:ℕ):ℤ) + e) := by rw [zpow_add₀ (by norm_num)]
      _ ≤ 2 ^ double.emax := two_le (by show _ ≤ (1024:ℤ); omega))
  rwa [hs] at this

/-- C56: in particular every integer up to `2^53` in magnitude. -/
theorem C56_int [Build] {strtod : Str → Option Convert.Float} (h : StrtodOK strtod) {a : Bin} {n : ℤ} {s : Int} (ha : Holds a n s)
    (hn : |n| ≤ 2 ^ 53) : ∃ f, Num.toF64 strtod a = .ok (.ok f) ∧ FloatIs f n := by
  refine C56_exact h ha ?_
  rcases hn.lt_or_eq with hlt | heq
  · exact ⟨n, 0, hlt, by norm_num, by norm_num, by simp⟩
  · rcases (abs_eq (by norm_num)).1 heq with rfl | rfl
    · exact ⟨1, 53, by norm_num, by norm_num, by norm_num, by norm_num⟩
    · exact ⟨-1, 53, by norm_num, by norm_num, by norm_num, by norm_num⟩

/-- C56: the conversion is monotone. -/
theorem C56_monotone [Build] {strtod : Str → Option Convert.Float} (h : StrtodOK strtod) {a b : Bin} {x y : ℚ} {s t : Int}
    (ha : Holds a x s) (hb : Holds b y t) (hxy : x ≤ y) :
    ∃ f g, Num.toF64 strtod a = .ok (.ok f) ∧ Num.toF64 strtod b = .ok (.ok g) ∧ FloatLe f g := by
  obtain ⟨f, ef, hf⟩ := toF64_rounds h ha
  obtain ⟨g, eg, hg⟩ := toF64_rounds h hb
  refine ⟨f, g, ef, eg, ?_⟩
  have hm := Format.signed_mono (F := double) (by decide) hxy
  have hpow := two_pos double.emax
  rcases lt_or_ge (double.nearest |x|) (2 ^ double.emax) with h1 | h1
  · have hfx := hf.value h1
    cases f with
    | nan => exact hfx.elim
    | inf => exact hfx.elim
    | fin c q =>
      rcases lt_or_ge (double.nearest |y|) (2 ^ double.emax) with h2 | h2
      · have hgy := hg.value h2
        cases g with
        | nan => exact hgy.elim
        | inf => exact hgy.elim
        | fin d r =>
          show (if c = true then -q else q) ≤ if d = true then -r else r
          rw [show double.signed x = if c = true then -q else q from hfx, show double.signed y = if d = true then -r else r from hgy] at hm
          exact hm
      · rw [hg.inf h2]
        by_cases hy : y < 0
        · exfalso
          rw [abs_of_neg hy] at h2
          rw [abs_of_neg (by linarith)] at h1
          have := Format.nearest_mono (F := double) (by decide) (a := -y) (b := -x) (by linarith) (by linarith)
          linarith
        · rw [decide_eq_false hy]; trivial
  · rw [hf.inf h1]
    by_cases hx : x < 0
    · rw [decide_eq_true hx]
      rcases lt_or_ge (double.nearest |y|) (2 ^ double.emax) with h2 | h2
      · have hgy := hg.value h2
        cases g with
        | nan => exact hgy.elim
        | inf => exact hgy.elim
        | fin d r => trivial
      · rw [hg.inf h2]; trivial
    · push Not at hx
      rw [decide_eq_false (not_lt.2 hx)]
      rw [abs_of_nonneg hx] at h1
      have := Format.nearest_mono (F := double) (by decide) hx hxy
      rw [hg.inf (by rw [abs_of_nonneg (hx.trans hxy)]; linarith), decide_eq_false (not_lt.2 (hx.trans hxy))]
      trivial

/-- The hypotheses are met: `0.1` is no double, and is converted to the double `3602879701896397·2⁻⁵⁵`; `-10^309` becomes `-∞`. -/
example [Build] : ∃ a b, Holds a (1 / 10) 1 ∧ Holds b (-10 ^ 309) 0 ∧
    (∃ f, Num.toF64 exactStrtod a = .ok (.ok f) ∧ FloatIs f (3602879701896397 / 2 ^ 55)) ∧
    Num.toF64 exactStrtod b = .ok (.ok (.inf true)) := by
  obtain ⟨a, ha⟩ := witness (x := 1 / 10) (s := 1) 1 (by norm_num) (by norm_num) (by norm_num) (by norm_num [abs_lt])
  have h309 : (2:ℚ) ^ 1024 - 2 ^ 970 ≤ 10 ^ 309 := by
    have : (2:ℤ) ^ 1024 - 2 ^ 970 ≤ 10 ^ 309 := by decide +kernel
    exact_mod_cast this
  obtain ⟨b, hb⟩ := exists_holds (x := -10 ^ 309) (s := 0) ⟨-10 ^ 309, by push_cast; rw [mul_one]⟩ (by norm_num) (by norm_num) (by
    rw [abs_neg, abs_of_nonneg (by positivity)]
    exact pow_lt_pow_right₀ (by norm_num) (by norm_num))
  refine ⟨a, b, ha, hb, ?_, ?_⟩
  · obtain ⟨f, y, e, hf, hy⟩ := C56_nearest exactStrtod_ok ha (by
      refine lt_of_lt_of_le ?_ big_limit
      rw [abs_of_pos (by norm_num)]
      exact lt_of_lt_of_le (by norm_num) (one_le_pow₀ (by norm_num)))
    refine ⟨f, e, ?_⟩
    have h1 := hy.2 (3602879701896397 / 2 ^ 55) ⟨3602879701896397, -55, by norm_num, by norm_num, by norm_num, by norm_num⟩
    obtain ⟨⟨m, k, hm, hk, hk2, rfl⟩, -⟩ := hy
    suffices h : (m:ℚ) * 2 ^ k = 3602879701896397 / 2 ^ 55 by rwa [← h]
    rw [show |(3602879701896397 / 2 ^ 55 : ℚ) - 1 / 10| = 1 / 180143985094819840 by norm_num] at h1
    obtain ⟨h2, h3⟩ := abs_le.1 h1
    have hk3 : -56 ≤ k := by
      by_contra hc
      push Not at hc
      have h4 : (2:ℚ) ^ k ≤ 2 ^ (-57:ℤ) := two_le (by omega)
      have h5 : (m:ℚ) < 2 ^ 53 := by exact_mod_cast lt_of_le_of_lt (le_abs_self m) hm
      have h6 := two_pos k
      have : (m:ℚ) * 2 ^ k ≤ 2 ^ 53 * 2 ^ (-57:ℤ) := by nlinarith
      norm_num at this h2
      linarith
    obtain ⟨n, hn⟩ := Format.grid_mul (e := -56) (e' := k) (by omega) m
    rw [hn] at h2 h3 ⊢
    have h4 : n = 7205759403792794 := by
      have h5 : (n:ℚ) < 7205759403792795 := by norm_num at h3 ⊢; linarith
      have h6 : (7205759403792793:ℚ) < n := by norm_num at h2 ⊢; linarith
      have h5 : n < 7205759403792795 := by exact_mod_cast h5
      have h6 : 7205759403792793 < n := by exact_mod_cast h6
      omega
    rw [h4]; norm_num
  · rw [C56_overflow exactStrtod_ok hb (by rw [abs_neg, abs_of_nonneg (by positivity)]; exact h309),
      decide_eq_true (neg_neg_of_pos (by positivity))]

/-! ## C57: to `f32` -/

theorem toF32_rounds [Build] {strtod : Str → Option Convert.Float} (h : StrtodOK strtod) {a : Bin} {x : ℚ} {s : Int} (ha : Holds a x s) :
    (2 ^ 1024 - 2 ^ 970 ≤ |x| → Num.toF32 strtod a = .ok (.ok (.inf (decide (x < 0))))) ∧
    (2 ^ 128 - 2 ^ 103 - 2 ^ 74 ≤ |x| → |x| < 2 ^ 1024 - 2 ^ 970 → Num.toF32 strtod a = .ok (.error .overflow)) ∧
    (1 / 2 ^ 1075 < |x| → |x| ≤ 1 / 2 ^ 150 + 1 / 2 ^ 203 → Num.toF32 strtod a = .ok (.error .overflow)) ∧
    (|x| ≤ 1 / 2 ^ 1075 → ∃ neg, Num.toF32 strtod a = .ok (.ok (.fin neg 0))) ∧
    (1 / 2 ^ 150 + 1 / 2 ^ 203 < |x| → |x| < 2 ^ 128 - 2 ^ 103 - 2 ^ 74 →
      Num.toF32 strtod a = .ok (.ok (.fin (decide (x < 0)) (single.nearest (double.nearest |x|))))) := by
  obtain ⟨u, hu, rfl, rfl, -, -, va⟩ := ha.exists_var
  rw [toF32_unfold strtod va]
  exact Convert.toF32_spec h hu.digits hu.not_nan hu.stripped hu.dscale_nonneg hu.scale hu.small (by have := hu.dscale_le; omega)

/-- C57: the numbers for which the conversion fails: those that become a finite double which no finite single approximates,
and those that become a non-zero double below half the smallest single. -/
theorem C57_error [Build] {strtod : Str → Option Convert.Float} (h : StrtodOK strtod) {a : Bin} {x : ℚ} {s : Int} (ha : Holds a x s)
    (hx : (2 ^ 128 - 2 ^ 103 - 2 ^ 74 ≤ |x| ∧ |x| < 2 ^ 1024 - 2 ^ 970) ∨ (1 / 2 ^ 1075 < |x| ∧ |x| ≤ 1 / 2 ^ 150 + 1 / 2 ^ 203)) :
    Num.toF32 strtod a = .ok (.error .overflow) := by
  rcases hx with ⟨h1, h2⟩ | ⟨h1, h2⟩
  · exact (toF32_rounds h ha).2.1 h1 h2
  · exact (toF32_rounds h ha).2.2.1 h1 h2

/-- C57 (inconsistent): a number still bigger does not fail but gives an infinity, and one still smaller gives zero. -/
theorem C57_extremes [Build] {strtod : Str → Option Convert.Float} (h : StrtodOK strtod) {a : Bin} {x : ℚ} {s : Int} (ha : Holds a x s) :
    (2 ^ 1024 - 2 ^ 970 ≤ |x| → Num.toF32 strtod a = .ok (.ok (.inf (decide (x < 0))))) ∧
    (|x| ≤ 1 / 2 ^ 1075 → ∃ f, Num.toF32 strtod a = .ok (.ok f) ∧ FloatIs f 0) := by
  refine ⟨(toF32_rounds h ha).1, fun hx => ?_⟩
  obtain ⟨neg, e⟩ := (toF32_rounds h ha).2.2.2.1 hx
  exact ⟨_, e, by unfold FloatIs; simp⟩

theorem single_in_range {x : ℚ} (h1 : 1 / 2 ^ 150 + 1 / 2 ^ 203 < |x|) (h2 : |x| < 2 ^ 128 - 2 ^ 103 - 2 ^ 74) :
    double.nearest |x| < 2 ^ double.emax ∧ single.nearest (double.nearest |x|) < 2 ^ single.emax ∧
    (if decide (x < 0) = true then -single.nearest (double.nearest |x|) else single.nearest (double.nearest |x|)) =
      single.signed (double.signed x) := by
  have hx := abs_nonneg x
  have hD := Format.nearest_nonneg (F := double) hx
  have hs : single.nearest (double.nearest |x|) < 2 ^ single.emax := by
    rw [← not_le, single_overflow hD, double_reaches_single hx, not_le]; exact h2
  have h3 : ¬ double.nearest |x| ≤ 1 / 2 ^ 150 := mt (double_leaves_zero hx).1 (not_le.2 h1)
  have hpos : 0 < double.nearest |x| := lt_trans (by positivity) (not_le.1 h3)
  refine ⟨?_, hs, ?_⟩
  · rw [← not_le, double_overflow hx, not_le]
    refine h2.trans ?_
    have : (2:ℤ) ^ 128 - 2 ^ 103 - 2 ^ 74 < 2 ^ 1024 - 2 ^ 970 := by decide +kernel
    exact_mod_cast this
  · by_cases hx0 : x < 0
    · rw [if_pos (by simpa using hx0)]
      have : double.signed x = -double.nearest |x| := by unfold Format.signed; rw [if_pos hx0]
      rw [this, Format.signed_neg, Format.signed_nonneg hD]
    · rw [if_neg (by simpa using hx0)]
      have : double.signed x = double.nearest |x| := by unfold Format.signed; rw [if_neg hx0]
      rw [this, Format.signed_nonneg hD]

/-- C57: in between the result is a single: the single nearest to the double nearest to the number. It is one of the two
singles around the number (no single lies strictly between them). -/
theorem C57_nearest [Build] {strtod : Str → Option Convert.Float} (h : StrtodOK strtod) {a : Bin} {x : ℚ} {s : Int} (ha : Holds a x s)
    (h1 : 1 / 2 ^ 150 + 1 / 2 ^ 203 < |x|) (h2 : |x| < 2 ^ 128 - 2 ^ 103 - 2 ^ 74) :
    ∃ f y, Num.toF32 strtod a = .ok (.ok f) ∧ FloatIs f y ∧ (∃ d, Nearest IsDouble x d ∧ Nearest IsSingle d y) ∧
      ∀ g, IsSingle g → (g ≤ x → g ≤ y) ∧ (x ≤ g → y ≤ g) := by
  obtain ⟨hd, hs, hv⟩ := single_in_range h1 h2
  refine ⟨_, single.signed (double.signed x), (toF32_rounds h ha).2.2.2.2 h1 h2, ?_, ⟨double.signed x, ?_, ?_⟩, ?_⟩
  · unfold FloatIs; exact hv.symm
  · exact Format.signed_nearest (F := double) (by decide) (by decide) hd
  · exact Format.signed_nearest (F := single) (by decide) (by decide) (by rw [Format.abs_signed]; exact hs)
  · intro g hg
    obtain ⟨d1, d2⟩ := Format.signed_faithful (F := double) (x := x) (by decide) (single_rep_double hg)
    obtain ⟨s1, s2⟩ := Format.signed_faithful (F := single) (x := double.signed x) (by decide) hg
    exact ⟨fun h => s1 (d1 h), fun h => s2 (d2 h)⟩

/-- C57: in the normal range the relative error is below `2⁻²⁴·(1 + 2⁻²⁷)`. -/
theorem C57_accuracy [Build] {strtod : Str → Option Convert.Float} (h : StrtodOK strtod) {a : Bin} {x : ℚ} {s : Int} (ha : Holds a x s)
    (h1 : 1 / 2 ^ 126 ≤ |x|) (h2 : |x| < 2 ^ 128 - 2 ^ 103 - 2 ^ 74) :
    ∃ f y, Num.toF32 strtod a = .ok (.ok f) ∧ FloatIs f y ∧ |y - x| ≤ |x| / 2 ^ 24 * (1 + 1 / 2 ^ 27) := by
  have h1' : (1:ℚ) / 2 ^ 150 + 1 / 2 ^ 203 < |x| := lt_of_lt_of_le (by norm_num) h1
  obtain ⟨hd, hs, hv⟩ := single_in_range h1' h2
  refine ⟨_, single.signed (double.signed x), (toF32_rounds h ha).2.2.2.2 h1' h2, by unfold FloatIs; exact hv.symm, ?_⟩
  have hx := abs_nonneg x
  have e1 : |double.signed x - x| ≤ |x| / 2 ^ 53 := by
    rw [Format.signed_err]
    exact Format.nearest_normal (F := double) (le_trans (two_le (b := -126) (by decide)) (le_trans (by norm_num) h1))
  have e0 : 1 / 2 ^ 126 ≤ double.nearest |x| := by
    have hm := Format.nearest_mono (F := double) (by decide) (by positivity) h1
    rwa [Format.nearest_self (F := double) (q := 1 / 2 ^ 126) (by decide) (by positivity) (m := 1) (e := -126) (by decide) (by decide)
      (by norm_num)] at hm
  have e2 : |single.signed (double.signed x) - double.signed x| ≤ |double.signed x| / 2 ^ 24 := by
    rw [Format.signed_err]
    exact Format.nearest_normal (F := single) (by
      rw [Format.abs_signed]
      refine le_trans (le_of_eq ?_) e0
      show (2:ℚ) ^ ((-149:ℤ) + ((24:ℕ):ℤ) - 1) = _
      norm_num)
  have e3 : |double.signed x| ≤ |x| + |double.signed x - x| := by
    have := abs_add_le x (double.signed x - x)
    rwa [add_sub_cancel] at this
  have e4 := abs_sub_le (single.signed (double.signed x)) (double.signed x) x
  generalize |single.signed (double.signed x) - x| = A at *
  generalize |single.signed (double.signed x) - double.signed x| = B at *
  generalize |double.signed x - x| = C at *
  generalize |double.signed x| = D at *
  norm_num at e1 e2 ⊢
  linarith

/-- C57: a number that is a single is converted exactly. -/
theorem C57_exact [Build] {strtod : Str → Option Convert.Float} (h : StrtodOK strtod) {a : Bin} {x : ℚ} {s : Int} (ha : Holds a x s)
    (hx : IsSingle x) : ∃ f, Num.toF32 strtod a = .ok (.ok f) ∧ FloatIs f x := by
  by_cases h0 : x = 0
  · subst h0
    exact (C57_extremes h ha).2 (by rw [abs_zero]; positivity)
  obtain ⟨m, e, hm, he, hE, hxe⟩ := id hx
  have hm0 : 1 ≤ |m| := Int.one_le_abs (by rintro rfl; simp at hxe; exact h0 hxe)
  have habs : |x| = |m| * 2 ^ e := by rw [hxe, abs_mul, abs_of_pos (two_pos e), Int.cast_abs]
  have hlo : (2:ℚ) ^ (-149:ℤ) ≤ |x| := by
    rw [habs]
    have h1 : (1:ℚ) ≤ (|m| : ℤ) := by exact_mod_cast hm0
    have h2 : (2:ℚ) ^ (-149:ℤ) ≤ 2 ^ e := two_le he
    have := two_pos (-149)
    nlinarith
  have hhi : |x| ≤ 2 ^ 128 - 2 ^ 104 := by
    rw [habs]
    have h1 : ((|m| : ℤ) : ℚ) ≤ 2 ^ 24 - 1 := by
      have : |m| ≤ 2 ^ 24 - 1 := by omega
      exact_mod_cast this
    have h2 : (2:ℚ) ^ e ≤ 2 ^ (104:ℤ) := two_le (by push_cast at hE; omega)
    have h3 : (0:ℚ) ≤ (|m| : ℤ) := by positivity
    calc ((|m| : ℤ) : ℚ) * 2 ^ e ≤ (2 ^ 24 - 1) * 2 ^ (104:ℤ) := mul_le_mul h1 h2 (two_pos e).le (by norm_num)
      _ = _ := by norm_num
  obtain ⟨f, y, e', hf, -, hg⟩ := C57_nearest h ha (lt_of_lt_of_le (by norm_num) hlo) (lt_of_le_of_lt hhi (by norm_num))
  obtain ⟨g1, g2⟩ := hg x hx
  have : y = x := le_antisymm (g2 le_rfl) (g1 le_rfl)
  subst this
  exact ⟨f, e', hf⟩

/-- C57 (double rounding): the result need not be the single nearest to the number. `1 + 2⁻²⁴ + 2⁻⁶⁰` becomes 1, although
`1 + 2⁻²³` is nearer. -/
theorem C57_double_rounding [Build] {strtod : Str → Option Convert.Float} (h : StrtodOK strtod) :
    ∃ a, Holds a (1 + 1 / 2 ^ 24 + 1 / 2 ^ 60) 60 ∧ (∃ f, Num.toF32 strtod a = .ok (.ok f) ∧ FloatIs f 1) ∧
      ¬ Nearest IsSingle (1 + 1 / 2 ^ 24 + 1 / 2 ^ 60) 1 := by
  obtain ⟨a, ha⟩ := witness (x := 1 + 1 / 2 ^ 24 + 1 / 2 ^ 60) (s := 60) ((2 ^ 60 + 2 ^ 36 + 1) * 5 ^ 60) (by norm_num) (by norm_num)
    (by norm_num) (by norm_num [abs_lt])
  refine ⟨a, ha, ?_, ?_⟩
  · have habs : |(1 + 1 / 2 ^ 24 + 1 / 2 ^ 60 : ℚ)| = 1 + 1 / 2 ^ 24 + 1 / 2 ^ 60 := abs_of_pos (by norm_num)
    have e := (toF32_rounds h ha).2.2.2.2 (by rw [habs]; norm_num) (by rw [habs]; norm_num)
    refine ⟨_, e, ?_⟩
    have hl : log2 (1 + 1 / 2 ^ 24 + 1 / 2 ^ 60) = 0 := log2_eq (by norm_num) (by norm_num)
    have hd : double.nearest (1 + 1 / 2 ^ 24 + 1 / 2 ^ 60) = 1 + 1 / 2 ^ 24 := by
      rw [Format.nearest_eq (by norm_num)]
      have hu : double.unit (1 + 1 / 2 ^ 24 + 1 / 2 ^ 60) = -52 := by unfold Format.unit; rw [hl]; decide
      rw [hu]
      have : roundEven ((1 + 1 / 2 ^ 24 + 1 / 2 ^ 60) / 2 ^ (-52:ℤ)) = 2 ^ 52 + 2 ^ 28 := by
        unfold roundEven
        have hf : ⌊((1 + 1 / 2 ^ 24 + 1 / 2 ^ 60) / 2 ^ (-52:ℤ) : ℚ)⌋ = 2 ^ 52 + 2 ^ 28 := by
          rw [Int.floor_eq_iff]; norm_num
        simp only [hf]
        rw [if_pos (by norm_num)]
      rw [this]; norm_num
    have hs : single.nearest (1 + 1 / 2 ^ 24) = 1 := by
      have hl : log2 (1 + 1 / 2 ^ 24) = 0 := log2_eq (by norm_num) (by norm_num)
      rw [Format.nearest_eq (by norm_num)]
      have hu : single.unit (1 + 1 / 2 ^ 24) = -23 := by unfold Format.unit; rw [hl]; decide
      rw [hu]
      have : roundEven ((1 + 1 / 2 ^ 24) / 2 ^ (-23:ℤ)) = 2 ^ 23 := by
        have := roundEven_half_down (m := 2 ^ 23) (by decide)
        rw [← this]
        congr 1
        norm_num
      rw [this]; norm_num
    rw [habs, hd, hs]
    show (1:ℚ) = if _ then -1 else 1
    rw [if_neg (by norm_num)]
  · rintro ⟨-, h⟩
    have := h (1 + 1 / 2 ^ 23) ⟨2 ^ 23 + 1, -23, by norm_num, by norm_num, by norm_num, by norm_num⟩
    norm_num [abs_of_neg, abs_of_pos] at this

/-- The hypotheses of the error cases are met by `10^39` and `10^-50`, those of the extremes by `10^400` and `10^-400`. -/
example [Build] {strtod : Str → Option Convert.Float} (h : StrtodOK strtod) :
    ∃ a b c d, Holds a (10 ^ 39) 0 ∧ Holds b (1 / 10 ^ 50) 50 ∧ Holds c (10 ^ 400) 0 ∧ Holds d (1 / 10 ^ 400) 400 ∧
      Num.toF32 strtod a = .ok (.error .overflow) ∧ Num.toF32 strtod b = .ok (.error .overflow) ∧
      Num.toF32 strtod c = .ok (.ok (.inf false)) ∧ ∃ f, Num.toF32 strtod d = .ok (.ok f) ∧ FloatIs f 0 := by
  obtain ⟨a, ha⟩ := witness (x := 10 ^ 39) (s := 0) (10 ^ 39) (by norm_num) (by norm_num) (by norm_num) (by norm_num [abs_lt])
  obtain ⟨b, hb⟩ := witness (x := 1 / 10 ^ 50) (s := 50) 1 (by norm_num) (by norm_num) (by norm_num) (by norm_num [abs_lt])
  obtain ⟨c, hc⟩ := exists_holds (x := 10 ^ 400) (s := 0) ⟨10 ^ 400, by push_cast; rw [mul_one]⟩ (by norm_num) (by norm_num) (by
    rw [abs_of_nonneg (by positivity)]
    exact pow_lt_pow_right₀ (by norm_num) (by norm_num))
  obtain ⟨d, hd⟩ := exists_holds (x := 1 / 10 ^ 400) (s := 400) ⟨1, by
    rw [show (400:ℤ) = ((400:ℕ):ℤ) by rfl, zpow_natCast, one_div, Int.cast_one]
    exact inv_mul_cancel₀ (by positivity)⟩ (by norm_num) (by norm_num) (by
    rw [abs_of_nonneg (by positivity)]
    refine lt_of_le_of_lt (b := 1) ?_ (one_lt_pow₀ (by norm_num) (by norm_num))
    rw [div_le_one (by positivity)]
    exact one_le_pow₀ (by norm_num))
  have hbig : (10:ℚ) ^ 39 < 2 ^ 1024 - 2 ^ 970 := by
    have : (10:ℤ) ^ 39 < 2 ^ 1024 - 2 ^ 970 := by decide +kernel
    exact_mod_cast this
  have hbig2 : (2:ℚ) ^ 1024 - 2 ^ 970 ≤ 10 ^ 400 := by
    have : (2:ℤ) ^ 1024 - 2 ^ 970 ≤ 10 ^ 400 := by decide +kernel
    exact_mod_cast this
  refine ⟨a, b, c, d, ha, hb, hc, hd, C57_error h ha (.inl ⟨?_, ?_⟩), C57_error h hb (.inr ⟨?_, ?_⟩), ?_, ?_⟩
  · rw [abs_of_pos (by positivity)]; norm_num
  · rw [abs_of_pos (by positivity)]; exact hbig
  · rw [abs_of_pos (by positivity)]
    apply one_div_lt_one_div_of_lt (by positivity)
    have : (10:ℤ) ^ 50 < 2 ^ 1075 := by decide +kernel
    exact_mod_cast this
  · rw [abs_of_pos (by positivity)]; norm_num
  · rw [(C57_extremes h hc).1 (by rw [abs_of_pos (by positivity)]; exact hbig2), decide_eq_false (not_lt.2 (by positivity))]
  · refine (C57_extremes h hd).2 ?_
    rw [abs_of_pos (by positivity)]
    apply one_div_le_one_div_of_le (by positivity)
    have : (2:ℤ) ^ 1075 ≤ 10 ^ 400 := by decide +kernel
    exact_mod_cast this

/-! ## C58: round trips -/

theorem dir_mul {x : ℚ} : (if decide (x < 0) = true then (-1:ℚ) else 1) * |x| = x := by
  by_cases h : x < 0
  · rw [if_pos (by simpa using h), abs_of_neg h]; ring
  · rw [if_neg (by simpa using h), abs_of_nonneg (not_lt.1 h)]; ring

theorem zero_round_trip [Build] {P : ℕ} (hP : P = 6 ∨ P = 15) {f : Convert.Float} (hf : FloatIs f 0) :
    ∃ r t, Convert.ofFloat P f = .ok (.ok r) ∧ Holds r 0 t := by
  cases f with
  | nan => exact hf.elim
  | inf => exact hf.elim
  | fin c q =>
    have hq : q = 0 := by
      have : (0:ℚ) = if c = true then -q else q := hf
      split at this <;> linarith
    subst hq
    obtain ⟨r, t, e, -, hr⟩ := C39_finite hP c (q := 0) (.inl rfl)
    refine ⟨r, t, e, cast hr ?_ rfl⟩
    simp [sigRound, sigDigits]

theorem SigDigits_abs {P : ℕ} {x : ℚ} (h : SigDigits P x) : SigDigits P |x| := by
  obtain ⟨n, k, hn, rfl⟩ := h
  exact ⟨|n|, k, by rwa [abs_abs], by rw [abs_mul, abs_of_pos (T_zpow_pos k), Int.cast_abs]⟩

/-- C58: a number with at most 15 significant digits in the range of normal doubles survives the way to `f64` and back. -/
theorem C58_f64_round_trip [Build] {strtod : Str → Option Convert.Float} (h : StrtodOK strtod) {a : Bin} {x : ℚ} {s : Int} (ha : Holds a x s)
    (hs : SigDigits 15 x) (hx : x = 0 ∨ ((10:ℚ) ^ (-307:ℤ) ≤ |x| ∧ |x| ≤ 10 ^ (308:ℤ))) :
    ∃ f r t, Num.toF64 strtod a = .ok (.ok f) ∧ Convert.ofFloat 15 f = .ok (.ok r) ∧ Holds r x t := by
  obtain ⟨f, e, hf⟩ := toF64_rounds h ha
  rcases hx with rfl | ⟨h1, h2⟩
  · obtain ⟨f', e', hf'⟩ := C56_exact h ha ⟨0, 0, by norm_num, by norm_num, by norm_num, by norm_num⟩
    rw [e] at e'; cases e'
    obtain ⟨r, t, er, hr⟩ := zero_round_trip (.inr rfl) hf'
    exact ⟨f, r, t, e, er, hr⟩
  · have hpos : 0 < |x| := lt_of_lt_of_le (T_zpow_pos _) h1
    have hlt : double.nearest |x| < 2 ^ double.emax := by
      rw [← not_le, double_overflow hpos.le, not_le]
      refine lt_of_le_of_lt h2 ?_
      have : (10:ℤ) ^ 308 < 2 ^ 1024 - 2 ^ 970 := by decide +kernel
      rw [show (308:ℤ) = ((308:ℕ):ℤ) by rfl, zpow_natCast]
      exact_mod_cast this
    have hlo : (2:ℚ) ^ (double.emin + double.prec - 1) ≤ |x| := by
      refine le_trans ?_ h1
      show (2:ℚ) ^ ((-1074:ℤ) + ((53:ℕ):ℤ) - 1) ≤ _
      rw [show (-1074:ℤ) + ((53:ℕ):ℤ) - 1 = -((1022:ℕ):ℤ) by norm_num, show (-307:ℤ) = -((307:ℕ):ℤ) by norm_num, zpow_neg, zpow_neg,
        zpow_natCast, zpow_natCast]
      apply inv_anti₀ (by positivity)
      have : (10:ℤ) ^ 307 ≤ 2 ^ 1022 := by decide +kernel
      exact_mod_cast this
    have herr : |double.nearest (|x|) - (|x|)| ≤ |x| / (3 * 10 ^ 15) := by
      refine (Format.nearest_normal (F := double) hlo).trans ?_
      apply div_le_div_of_nonneg_left hpos.le (by norm_num)
      show (3 * 10 ^ 15 : ℚ) ≤ 2 ^ 53
      norm_num
    have hsr := sigRound_restores (by norm_num) hpos (SigDigits_abs hs) herr
    have hD : |x| / 2 ≤ double.nearest |x| ∧ double.nearest |x| ≤ 2 * |x| := by
      have := abs_le.1 herr
      have h3 : |x| / (3 * 10 ^ 15) ≤ |x| / 2 := div_le_div_of_nonneg_left hpos.le (by norm_num) (by norm_num)
      constructor <;> linarith
    have hf' : f = .fin (decide (x < 0)) (double.nearest |x|) := by
      rcases hf with h | ⟨h, -⟩
      · rw [h, round_fin hlt]
      · linarith [hD.1]
    subst hf'
    obtain ⟨r, t, er, -, hr⟩ := C39_finite (.inr rfl) (decide (x < 0)) (q := double.nearest |x|) (.inr ⟨by
      refine le_trans ?_ hD.1
      have h3 : (10:ℚ) ^ (-400:ℤ) * 10 ≤ 10 ^ (-307:ℤ) := by
        rw [← zpow_add_one₀ (by norm_num)]; exact T_zpow_le_iff.2 (by norm_num)
      have := T_zpow_pos (-400)
      linarith, by
      refine lt_of_le_of_lt hD.2 ?_
      have h3 : (10:ℚ) ^ (308:ℤ) * 10 ≤ 10 ^ (400:ℤ) := by
        rw [← zpow_add_one₀ (by norm_num)]; exact T_zpow_le_iff.2 (by norm_num)
      have := T_zpow_pos 308
      generalize (10:ℚ) ^ (400:ℤ) = B at *
      generalize (10:ℚ) ^ (308:ℤ) = C at *
      linarith⟩)
    rw [hsr, dir_mul] at hr
    exact ⟨_, r, t, e, er, hr⟩

/-- C58: and one with at most 6 significant digits in the range of normal singles the way to `f32` and back. -/
theorem C58_f32_round_trip [Build] {strtod : Str → Option Convert.Float} (h : StrtodOK strtod) {a : Bin} {x : ℚ} {s : Int} (ha : Holds a x s)
    (hs : SigDigits 6 x) (hx : x = 0 ∨ ((10:ℚ) ^ (-37:ℤ) ≤ |x| ∧ |x| ≤ 10 ^ (38:ℤ))) :
    ∃ f r t, Num.toF32 strtod a = .ok (.ok f) ∧ Convert.ofFloat 6 f = .ok (.ok r) ∧ Holds r x t := by
  rcases hx with rfl | ⟨h1, h2⟩
  · obtain ⟨f, e, hf⟩ := C57_exact h ha ⟨0, 0, by norm_num, by norm_num, by norm_num, by norm_num⟩
    obtain ⟨r, t, er, hr⟩ := zero_round_trip (.inl rfl) hf
    exact ⟨f, r, t, e, er, hr⟩
  · have hpos : 0 < |x| := lt_of_lt_of_le (T_zpow_pos _) h1
    have hlo : 1 / 2 ^ 126 ≤ |x| := le_trans (by norm_num) h1
    have hlo' : (1:ℚ) / 2 ^ 150 + 1 / 2 ^ 203 < |x| := lt_of_lt_of_le (by norm_num) hlo
    have hhi : |x| < 2 ^ 128 - 2 ^ 103 - 2 ^ 74 := lt_of_le_of_lt h2 (by norm_num)
    have e := (toF32_rounds h ha).2.2.2.2 hlo' hhi
    obtain ⟨f, y, e', hf, hy⟩ := C57_accuracy h ha hlo hhi
    rw [e] at e'; cases e'
    obtain ⟨S, hS⟩ : ∃ S, S = single.nearest (double.nearest |x|) := ⟨_, rfl⟩
    rw [← hS] at e hf
    have hyS : y = if decide (x < 0) = true then -S else S := hf
    have herr : |S - (|x|)| ≤ |x| / (3 * 10 ^ 6) := by
      have : |S - (|x|)| = |y - x| := by
        rw [hyS]
        by_cases h : x < 0
        · rw [if_pos (by simpa using h), abs_of_neg h, ← abs_neg]; congr 1; ring
        · rw [if_neg (by simpa using h), abs_of_nonneg (not_lt.1 h)]
      rw [this]
      refine hy.trans ?_
      generalize |x| = z at hpos ⊢
      norm_num
      linarith
    have hsr := sigRound_restores (by norm_num) hpos (SigDigits_abs hs) herr
    have hD : |x| / 2 ≤ S ∧ S ≤ 2 * |x| := by
      have := abs_le.1 herr
      have h3 : |x| / (3 * 10 ^ 6) ≤ |x| / 2 := div_le_div_of_nonneg_left hpos.le (by norm_num) (by norm_num)
      constructor <;> linarith
    obtain ⟨r, t, er, -, hr⟩ := C39_finite (.inl rfl) (decide (x < 0)) (q := S) (.inr ⟨by
      refine le_trans ?_ hD.1
      have h3 : (10:ℚ) ^ (-400:ℤ) * 10 ≤ 10 ^ (-37:ℤ) := by
        rw [← zpow_add_one₀ (by norm_num)]; exact T_zpow_le_iff.2 (by norm_num)
      have := T_zpow_pos (-400)
      linarith, by
      refine lt_of_le_of_lt hD.2 ?_
      have h3 : (10:ℚ) ^ (38:ℤ) * 10 ≤ 10 ^ (400:ℤ) := by
        rw [← zpow_add_one₀ (by norm_num)]; exact T_zpow_le_iff.2 (by norm_num)
      have := T_zpow_pos 38
      generalize (10:ℚ) ^ (400:ℤ) = B at *
      generalize (10:ℚ) ^ (38:ℤ) = C at *
      linarith⟩)
    rw [hsr, dir_mul] at hr
    exact ⟨_, r, t, e, er, hr⟩

/-- C58 (not a round trip): a double is not restored by the way to numeric and back, because only 15 digits are kept: `1 + 2⁻⁵²`
becomes the numeric 1. -/
theorem C58_f64_lossy [Build] {strtod : Str → Option Convert.Float} (h : StrtodOK strtod) :
    IsDouble (1 + 1 / 2 ^ 52) ∧ ∃ r t, Convert.ofFloat 15 (.fin false (1 + 1 / 2 ^ 52)) = .ok (.ok r) ∧ Holds r 1 t ∧
      ∃ f, Num.toF64 strtod r = .ok (.ok f) ∧ FloatIs f 1 := by
  refine ⟨⟨2 ^ 52 + 1, -52, by norm_num, by norm_num, by norm_num, by norm_num⟩, ?_⟩
  have hsr : sigRound 15 (1 + 1 / 2 ^ 52) = 1 :=
    sigRound_restores (by norm_num) (by norm_num) ⟨1, 0, by norm_num, by norm_num⟩ (by norm_num [abs_of_pos])
  obtain ⟨r, t, er, -, hr⟩ := C39_finite (.inr rfl) false (q := 1 + 1 / 2 ^ 52) (.inr ⟨by
    refine le_trans (b := (10:ℚ) ^ (0:ℤ)) (T_zpow_le_iff.2 (by norm_num)) (by norm_num), by
    refine lt_of_lt_of_le (b := (10:ℚ) ^ (1:ℤ)) (by norm_num) (T_zpow_le_iff.2 (by norm_num))⟩)
  rw [hsr] at hr
  have hr1 : Holds r 1 t := cast hr (by simp) rfl
  exact ⟨r, t, er, hr1, C56_exact h hr1 ⟨1, 0, by norm_num, by norm_num, by norm_num, by norm_num⟩⟩

/-- The hypotheses are met by `-123.456`. -/
example [Build] : ∃ a, Holds a (-123456 / 1000) 3 ∧ SigDigits 6 (-123456 / 1000) ∧ SigDigits 15 (-123456 / 1000) ∧
    (10:ℚ) ^ (-37:ℤ) ≤ |-123456 / 1000| ∧ |(-123456 / 1000 : ℚ)| ≤ 10 ^ (38:ℤ) := by
  obtain ⟨a, ha⟩ := witness (x := -123456 / 1000) (s := 3) (-123456) (by norm_num) (by norm_num) (by norm_num) (by norm_num [abs_lt])
  exact ⟨a, ha, ⟨-123456, -3, by norm_num, by norm_num⟩, ⟨-123456, -3, by norm_num, by norm_num⟩, by norm_num [abs_of_neg], by
    norm_num [abs_of_neg]⟩

end PgNumeric.Props
