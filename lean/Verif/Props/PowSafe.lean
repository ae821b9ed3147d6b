import Verif.Props.LogSafe
import Verif.SpecReal
/-!
# Powers with short operands never overflow, in any build (C52)
-/
namespace PgNumeric.Props
open PgNumeric Spec Var

/-- A logarithm asked for by a power overflows only if the operands are long or the power is large. -/
theorem pow_long [Build] {lm : Libm} (hl : LibmOK lm) {fuel : Nat} {u c : Var} (hu : Canonical u) (hx : 0 < value u) {R : ℤ} (h0 : 0 ≤ R)
    (hq : PowReq lm u c R) (h : lnCommon fuel u R = .error .overflow) : LongPow (value u) (value c) u.dscale c.dscale := by
  obtain ⟨w, v, ew, h1, h2⟩ := hq
  have h3 := estimate_lower hl hu hx ew
  by_contra hcon
  unfold LongPow at hcon
  push Not at hcon
  obtain ⟨g1, g2, g3, g4⟩ := hcon
  have h5 := h2 g4
  refine lnCommon_short (PosVar.of_canonical hu hx) h0 (by omega) fuel ?_ (by omega) h
  refine g1.trans_le (le_of_eq ?_)
  norm_num

/-- A real power does something, or runs on; near one it does not run on. -/
theorem pow_real_cases [Build] {lm : Libm} (hl : LibmOK lm) {fuel : Nat} (hf : 4200 ≤ fuel) {a b : Bin} {x y : ℚ} {s t : Int}
    (ha : Holds a x s) (hb : Holds b y t) (hx : 0 < x) (hx1 : x = 1 ∨ (10:ℚ) ^ (-980:ℤ) ≤ |x - 1|)
    (hy : ∀ k : ℤ, y = k → ¬ IsI32 k) :
    (∃ r z q, Num.pow lm fuel a b = .ok (some r) ∧ Holds r z q) ∨ Num.pow lm fuel a b = .ok none ∨
    ((x ≤ 9 / 10 ∨ 11 / 10 ≤ x) ∧ Num.pow lm fuel a b = .error .diverge) ∨ (Build.debug = true ∧ LongPow x y s t ∧ (x ≤ 9 / 10 ∨ 11 / 10 ≤ x ∨ 80 < s) ∧ Num.pow lm fuel a b = .error .overflow) := by
  obtain ⟨u, hu, rfl, rfl, -, -, va⟩ := ha.exists_var
  obtain ⟨c, hc, rfl, rfl, -, -, vb⟩ := hb.exists_var
  rw [pow_unfold lm fuel va vb, (pow_checks lm fuel hu hc).2.2 (fun h => by linarith [h.1]) (fun h => by linarith),
    powerCommon_real lm fuel hu hc hy]
  rcases powerReal_ok hl hf hu hx hx1 hc
      (F := fun f => ((value u ≤ 9 / 10 ∨ 11 / 10 ≤ value u) ∧ f = .diverge) ∨ (Build.debug = true ∧ LongPow (value u) (value c) u.dscale c.dscale ∧
        (value u ≤ 9 / 10 ∨ 11 / 10 ≤ value u ∨ 80 < u.dscale) ∧ f = .overflow)) 
      (fun R h0 h1 hq => by
        by_cases hh : value u ≤ 9 / 10 ∨ 11 / 10 ≤ value u
        · rcases lnCommon_cases (PosVar.of_canonical hu hx) h0 h1 fuel with h | h | ⟨h, h'⟩
          · exact .inl h
          · exact .inr ⟨_, .inl ⟨hh, rfl⟩, h⟩
          · exact .inr ⟨_, .inr ⟨h, pow_long hl hu hx h0 hq h', by tauto, rfl⟩, h'⟩
        · push Not at hh
          rcases lnCommon_near (PosVar.of_canonical hu hx) (R := R) (by
              have : ((9 / 10 : ℚ) : ℝ) < (value u : ℝ) := by exact_mod_cast hh.1
              push_cast at this; exact this) (by
              have : (value u : ℝ) < ((11 / 10 : ℚ) : ℝ) := by exact_mod_cast hh.2
              push_cast at this; exact this) h0 h1 (fuel := fuel) (by omega) with h | ⟨h, h', h80⟩
          · exact .inl h
          · exact .inr ⟨_, .inr ⟨h, pow_long hl hu hx h0 hq h', .inr (.inr h80), rfl⟩, h'⟩) with ⟨o, ho, hs⟩ | ⟨f, hF, ho⟩
  · rw [ho]
    cases o with
    | none => exact .inr (.inl rfl)
    | some R =>
      obtain ⟨r1, r2, r3, r4, r5, r6, r7, rl, r8⟩ := hs R rfl
      simp only [bind_ok, if_neg r2]
      obtain ⟨r, er, hr⟩ := (Num.finish_loose r1 r2 rfl rfl r4 (by omega) r3 (.inl (by omega)) (by omega) (by omega)).1 r8
      exact .inl ⟨_, _, _, er, hr⟩
  · rcases hF with ⟨hh, rfl⟩ | ⟨hd, hlong, hfar, rfl⟩
    · exact .inr (.inr (.inl ⟨hh, by rw [ho]; rfl⟩))
    · exact .inr (.inr (.inr ⟨hd, hlong, hfar, by rw [ho]; rfl⟩))

/-- C52: the power of a positive number below `10^136`, for an exponent that is not a 32-bit integer, both with at most ten decimals, never
panics and never overflows if the exact power is at most `e^57` (about `10^24.7`), in debug builds as well: it returns a result as accurate
as promised, or runs for ever. -/
theorem C52_pow_debug_safe [Build] {lm : Libm} (hl : LibmOK lm) {fuel : Nat} (hf : 4200 ≤ fuel) {a b : Bin} {x y : ℚ} {s t : Int}
    (ha : Holds a x s) (hb : Holds b y t) (hx : 0 < x) (hx2 : x < 10 ^ 136) (hs : s ≤ 10) (ht : t ≤ 10)
    (hy : ∀ k : ℤ, y = k → ¬ IsI32 k) (h1 : -2290 ≤ (y:ℝ) * Real.log x) (h2 : (y:ℝ) * Real.log x ≤ 57) :
    (∃ r z q, Num.pow lm fuel a b = .ok (some r) ∧ Holds r z q ∧ max s t ≤ q ∧ q ≤ 1000 ∧
      |(z:ℝ) - (x:ℝ) ^ (y:ℝ)| ≤ (52 / 100 + |Real.log x| / 10 ^ 5) * 10 ^ (-q) ∧
      (q = 1000 ∨ |(z:ℝ) - (x:ℝ) ^ (y:ℝ)| ≤ (x:ℝ) ^ (y:ℝ) / 10 ^ 14)) ∨
    Num.pow lm fuel a b = .error .diverge := by
  have hx1 : x = 1 ∨ (10:ℚ) ^ (-980:ℤ) ≤ |x - 1| := by
    by_cases h : x = 1
    · exact .inl h
    right
    obtain ⟨k1, k2, -, -⟩ := ha.bounds
    have h3 := scale_lower (k1.sub (HasScale.mono (s := 0) ⟨1, by norm_num⟩ k2)) (sub_ne_zero.2 h)
    exact le_trans (T_zpow_le_iff.2 (by omega)) h3
  have key : ∀ o, Num.pow lm fuel a b = .ok o → (∃ r z q, Num.pow lm fuel a b = .ok (some r) ∧ Holds r z q ∧ max s t ≤ q ∧ q ≤ 1000 ∧
      |(z:ℝ) - (x:ℝ) ^ (y:ℝ)| ≤ (52 / 100 + |Real.log x| / 10 ^ 5) * 10 ^ (-q) ∧
      (q = 1000 ∨ |(z:ℝ) - (x:ℝ) ^ (y:ℝ)| ≤ (x:ℝ) ^ (y:ℝ) / 10 ^ 14)) := by
    intro o h
    obtain ⟨r, z, q, ho, hr, q1, q2, q3, q4⟩ := C52_pow_accuracy hl hf ha hb hx hx1 hy h1 (by linarith) h
    exact ⟨r, z, q, by rw [h, ho], hr, by omega, q2, q3, q4⟩
  rcases pow_real_cases hl hf ha hb hx hx1 hy with ⟨r, z, q, h, -⟩ | h | ⟨-, h⟩ | ⟨-, hlong, -⟩
  · exact .inl (key _ h)
  · exact .inl (key _ h)
  · exact .inr h
  · rcases hlong with h | h | h | h
    · linarith
    · omega
    · omega
    · linarith

/-- The hypotheses are met by `2.5 ^ 1.5`, in a debug build. -/
example (e : Bool) : ∃ a b, @Holds ⟨true, e⟩ a (5 / 2) 1 ∧ @Holds ⟨true, e⟩ b (3 / 2) 1 ∧ (∀ k : ℤ, (3 / 2 : ℚ) = k → ¬ IsI32 k) ∧
    -2290 ≤ ((3 / 2 : ℚ):ℝ) * Real.log (5 / 2 : ℚ) ∧ ((3 / 2 : ℚ):ℝ) * Real.log (5 / 2 : ℚ) ≤ 57 := by
  let _ : Build := ⟨true, e⟩
  obtain ⟨a, ha⟩ := witness (x := 5 / 2) (s := 1) 25 (by norm_num) (by norm_num) (by norm_num) (by norm_num [abs_lt])
  obtain ⟨b, hb⟩ := witness (x := 3 / 2) (s := 1) 15 (by norm_num) (by norm_num) (by norm_num) (by norm_num [abs_lt])
  have h0 : 0 ≤ Real.log ((5 / 2 : ℚ) : ℝ) := Real.log_nonneg (by norm_num)
  have h1 : Real.log ((5 / 2 : ℚ) : ℝ) ≤ ((5 / 2 : ℚ) : ℝ) - 1 := Real.log_le_sub_one_of_pos (by norm_num)
  refine ⟨a, b, ha, hb, fun k h => ?_, ?_, ?_⟩
  · exfalso
    have h2 : (3:ℚ) = ((2 * k : ℤ) : ℚ) := by push_cast; linarith
    have h3 : (3:ℤ) = 2 * k := by exact_mod_cast h2
    omega
  · push_cast at h0 h1 ⊢; linarith
  · push_cast at h0 h1 ⊢; linarith

end PgNumeric.Props
