import Verif.Proofs.LogCases
import Verif.Props.LogAcc
import Verif.Props.Ln
import Verif.Props.Sqrt
import Verif.Props.PowReal
/-!
# Roots, logarithms and powers of legal arguments never panic (C54)

Allowed outcomes: a result, running on (`diverge` for the number of rounds considered) and, in a debug
build only, an arithmetic overflow. In particular no `expect`, no division by zero, no index out of bounds, no failed assertion.
-/
namespace PgNumeric.Props
open PgNumeric Spec Var

/-- The outcomes allowed: a result, more rounds than considered, or an overflow check of a debug build. -/
def NoPanic [Build] {α : Type} (m : M α) : Prop :=
  (∃ r, m = .ok r) ∨ m = .error .diverge ∨ (Build.debug = true ∧ m = .error .overflow)

/-- C54: the square root of a number of at least `10^-2016` does not panic. -/
theorem C54_sqrt_never_panics [Build] (fuel : Nat) {a : Bin} {x : ℚ} {s : Int} (ha : Holds a x s) (hx : (10:ℚ) ^ (-2016:ℤ) ≤ x) :
    NoPanic (Num.sqrt fuel a) := by
  have hx0 : 0 < x := lt_of_lt_of_le (T_zpow_pos _) hx
  rcases sqrt_outcomes ha hx0 fuel with ⟨r, y, h, -⟩ | ⟨h, -⟩ | ⟨h, -⟩ | h
  · exact .inl ⟨r, h⟩
  · exact .inr (.inl h)
  · exact absurd h (not_lt.2 hx)
  · exact .inr (.inr h)

/-- C54: the natural logarithm of a positive number does not panic. -/
theorem C54_ln_never_panics [Build] {lm : Libm} (hl : LibmOK lm) (fuel : Nat) {a : Bin} {x : ℚ} {s : Int} (ha : Holds a x s)
    (hx : 0 < x) : NoPanic (Num.ln lm fuel a) := by
  obtain ⟨u, hu, rfl, rfl, ea, na, va⟩ := ha.exists_var
  have hp := PosVar.of_canonical hu hx
  obtain ⟨w, ew, -, -⟩ := estimate_spec hl hu hx
  obtain ⟨hw1, hw2⟩ := estimate_bounds hl hu hx ew
  rw [ln_unfold lm fuel ea na va, (ln_checks lm fuel hu).2.2 hx]
  simp only [ew, bind_ok, NUMERIC_MIN_SIG_DIGITS, NUMERIC_MIN_DISPLAY_SCALE, NUMERIC_MAX_DISPLAY_SCALE]
  obtain ⟨t, ht⟩ : ∃ t, t = min (max (max (16 - w) u.dscale) 0) 1000 := ⟨_, rfl⟩
  rw [← ht, fits_ok (by fits_tac), bind_ok]
  rcases lnCommon_cases hp (R := t) (by omega) (by omega) fuel with ⟨y, ey⟩ | ey | ⟨hd, ey⟩
  · obtain ⟨hw, hacc⟩ := lnCommon_spec hp (by omega) (by omega) ey
    obtain ⟨r, er, -⟩ := Num.finishNoOverflow_spec hw.digits hw.not_nan hw.dscale rfl hw.l_nonneg hw.l_le' hw.scale
      (ln_lim hp (by omega) (by omega) hacc) (hw.sm_limit (ln_lim hp (by omega) (by omega) hacc)).stripM
    exact .inl ⟨r, by rw [ey]; exact er⟩
  · exact .inr (.inl (by rw [ey]; rfl))
  · exact .inr (.inr ⟨hd, by rw [ey]; rfl⟩)

theorem log_never_panics [Build] {lm : Libm} (hl : LibmOK lm) (fuel : Nat) {u b : Var} (hu : Canonical u) (hb : Canonical b)
    (hu0 : 0 < value u) (hb0 : 0 < value b) (hu1 : value u = 1 ∨ (10:ℚ) ^ (-900:ℤ) ≤ |value u - 1|)
    (hb1 : (10:ℚ) ^ (-190:ℤ) ≤ |value b - 1|) : NoPanic (do let w ← Var.log lm fuel u b; Num.finishNoOverflow w : M Bin) := by
  have hun := (log_checks lm fuel hu hb).2.2.2.2 hu0 hb0
  rcases logCommon_cases hl hu hb hu0 hb0 hu1 hb1 fuel with ⟨v, ev⟩ | ev | ⟨hd, ev⟩
  · obtain ⟨t, hw, ht1, ht2, hacc, hsig, hbig⟩ := logCommon_spec hl hu hb hu0 hb0 hu1 hb1 ev
    obtain ⟨r, er, -⟩ := Num.finishNoOverflow_spec hw.digits hw.not_nan hw.dscale rfl hw.l_nonneg hw.l_le' hw.scale
      (log_lim hw hacc hbig) (hw.sm_limit (log_lim hw hacc hbig)).stripM
    exact .inl ⟨r, by rw [hun, ev]; exact er⟩
  · exact .inr (.inl (by rw [hun, ev]; rfl))
  · exact .inr (.inr ⟨hd, by rw [hun, ev]; rfl⟩)

/-- C54: a logarithm to a base does not panic when argument and base are not extremely close to one. -/
theorem C54_log_never_panics [Build] {lm : Libm} (hl : LibmOK lm) (fuel : Nat) {a b : Bin} {x y : ℚ} {s t : Int}
    (ha : Holds a x s) (hb : Holds b y t) (hx : 0 < x) (hy : 0 < y) (hx1 : x = 1 ∨ (10:ℚ) ^ (-900:ℤ) ≤ |x - 1|)
    (hy1 : (10:ℚ) ^ (-190:ℤ) ≤ |y - 1|) : NoPanic (Num.log lm fuel a b) := by
  obtain ⟨u, hu, rfl, rfl, ea, na, va⟩ := ha.exists_var
  obtain ⟨v, hv, rfl, rfl, eb, nb, vb⟩ := hb.exists_var
  rw [log_unfold lm fuel ea na va eb nb vb]
  exact log_never_panics hl fuel hu hv hx hy hx1 hy1

/-- C54: a power with an exponent that is not a 32-bit integer does not panic when the base is positive and not extremely close to one. -/
theorem C54_pow_never_panics [Build] {lm : Libm} (hl : LibmOK lm) {fuel : Nat} (hf : 4200 ≤ fuel) {a b : Bin} {x y : ℚ} {s t : Int}
    (ha : Holds a x s) (hb : Holds b y t) (hx : 0 < x) (hx1 : x = 1 ∨ (10:ℚ) ^ (-980:ℤ) ≤ |x - 1|)
    (hy : ∀ k : ℤ, y = k → ¬ IsI32 k) : NoPanic (Num.pow lm fuel a b) := by
  obtain ⟨u, hu, rfl, rfl, -, -, va⟩ := ha.exists_var
  obtain ⟨c, hc, rfl, rfl, -, -, vb⟩ := hb.exists_var
  rw [pow_unfold lm fuel va vb, (pow_checks lm fuel hu hc).2.2 (fun h => by linarith [h.1]) (fun h => by linarith),
    powerCommon_real lm fuel hu hc hy]
  rcases powerReal_ok hl hf hu hx hx1 hc (F := fun f => f = .diverge ∨ (Build.debug = true ∧ f = .overflow)) 
      (fun R h0 h1 _ => by
        rcases lnCommon_cases (PosVar.of_canonical hu hx) h0 h1 fuel with h | h | ⟨h, h'⟩
        · exact .inl h
        · exact .inr ⟨_, .inl rfl, h⟩
        · exact .inr ⟨_, .inr ⟨h, rfl⟩, h'⟩) with ⟨o, ho, hs⟩ | ⟨f, hF, ho⟩
  · left
    rw [ho]
    cases o with
    | none => exact ⟨none, rfl⟩
    | some R =>
      obtain ⟨r1, r2, r3, r4, r5, r6, r7, rl, r8⟩ := hs R rfl
      simp only [bind_ok, if_neg r2]
      obtain ⟨r, er, -⟩ := (Num.finish_loose r1 r2 rfl rfl r4 (by omega) r3 (.inl (by omega)) (by omega) (by omega)).1 r8
      exact ⟨_, er⟩
  · right
    rcases hF with rfl | ⟨hd, rfl⟩
    · exact .inl (by rw [ho]; rfl)
    · exact .inr ⟨hd, by rw [ho]; rfl⟩

/-- The hypotheses are met by base 2.5 and exponent 0.3. -/
example [Build] : ∃ a b, Holds a (5 / 2) 1 ∧ Holds b (3 / 10) 1 ∧ (10:ℚ) ^ (-980:ℤ) ≤ |5 / 2 - 1| ∧
    ∀ k : ℤ, (3 / 10 : ℚ) = k → ¬ IsI32 k := by
  obtain ⟨a, ha⟩ := witness (x := 5 / 2) (s := 1) 25 (by norm_num) (by norm_num) (by norm_num) (by norm_num [abs_lt])
  obtain ⟨b, hb⟩ := witness (x := 3 / 10) (s := 1) 3 (by norm_num) (by norm_num) (by norm_num) (by norm_num [abs_lt])
  refine ⟨a, b, ha, hb, ?_, fun k hk => ?_⟩
  · have : (10:ℚ) ^ (-980:ℤ) ≤ 10 ^ (0:ℤ) := T_zpow_le_iff.2 (by norm_num)
    refine this.trans ?_
    norm_num [abs_le]
  · have : (3:ℚ) = 10 * k := by linarith
    have : (3:ℤ) = 10 * k := by exact_mod_cast this
    omega

end PgNumeric.Props
