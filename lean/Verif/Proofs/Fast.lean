import Verif.Model.Fast
import Verif.Proofs.F64
import Verif.Proofs.Canon
/-!
# Floating-point assisted division: error analysis
-/
namespace PgNumeric
open Spec F64

theorem mag_bound {xs : List Int} {C : ℚ} (hC : 0 ≤ C) (h : ∀ d ∈ xs, |(d:ℚ)| ≤ C) (w : Int) :
    |mag xs w| ≤ C * 10000 ^ (w + 1) / 9999 := by
  induction xs generalizing w with
  | nil => simp only [mag, abs_zero]; have := B_zpow_pos (w + 1); positivity
  | cons d ds ih =>
    rw [mag_cons]
    have h1 := ih (fun x hx => h x (by simp [hx])) (w - 1)
    rw [sub_add_cancel] at h1
    have h2 := h d (by simp)
    have hp := B_zpow_pos w
    have h3 : |(d:ℚ) * 10000 ^ w| ≤ C * 10000 ^ w := by
      rw [abs_mul, abs_of_pos hp]; exact mul_le_mul_of_nonneg_right h2 hp.le
    have h4 : (10000:ℚ) ^ (w + 1) = 10000 * 10000 ^ w := by rw [zpow_add₀ (by norm_num)]; ring
    rw [h4]
    calc _ ≤ |(d:ℚ) * 10000 ^ w| + |mag ds (w - 1)| := abs_add_le _ _
      _ ≤ C * 10000 ^ w + C * 10000 ^ w / 9999 := by linarith
      _ = _ := by ring

/-- Like `mag_bound`, with the bound counted in multiples of 9999. -/
theorem mag_bound9 {xs : List Int} {m : Int} (hm : 0 ≤ m) (h : ∀ d ∈ xs, |d| ≤ m * 9999) (w : Int) :
    |mag xs w| ≤ m * 10000 ^ (w + 1) := by
  have hm' : (0:ℚ) ≤ m := by exact_mod_cast hm
  have := mag_bound (xs := xs) (C := (m : ℚ) * 9999) (by positivity) (fun d hd => by
    have := h d hd
    exact_mod_cast this) w
  calc _ ≤ _ := this
    _ = _ := by ring

/-! ## The approximation of a digit string -/

/-- The exact counterpart of `fapprox`. -/
def wapprox : Nat → ℚ → List Int → ℚ
  | 0, g, _ => g
  | k + 1, g, [] => wapprox k (g * 10000) []
  | k + 1, g, d :: ds => wapprox k (g * 10000 + d) ds

theorem wapprox_eq (k : Nat) (g : ℚ) (ds : List Int) :
    wapprox k g ds = g * 10000 ^ k + mag (ds.take k) ((k : Int) - 1) := by
  induction k generalizing g ds with
  | zero => simp [wapprox]
  | succ k ih =>
    cases ds with
    | nil => rw [wapprox, ih]; simp only [List.take_nil, mag]; ring
    | cons d ds =>
      rw [wapprox, ih, List.take_succ_cons, mag_cons]
      rw [show ((k + 1 : ℕ) : ℤ) - 1 = (k : ℤ) by push_cast; ring, zpow_natCast]
      ring

theorem fstep_err {f g G d : ℚ} {j : ℚ} (hj3 : j ≤ 3) (hg : |g| ≤ G) (hf : |f - g| ≤ j * 4 * u * G)
    (hd : |d| ≤ G * 10000) :
    |F64.add (F64.mul f 10000) d - (g * 10000 + d)| ≤ (j + 1) * 4 * u * (G * 10000) := by
  have hu := u_small
  have hu0 := u_pos
  have hG : 0 ≤ G := (abs_nonneg _).trans hg
  unfold F64.add F64.mul
  have e1 := rnd_err (f * 10000)
  generalize rnd (f * 10000) = a at *
  have e2 := rnd_err (a + d)
  generalize rnd (a + d) = b at *
  have hjG : j * 4 * u * G ≤ 12 * u * G := by
    have : 0 ≤ u * G := by positivity
    nlinarith
  have huG : u * G ≤ 12 / 10 ^ 17 * G := mul_le_mul_of_nonneg_right hu hG
  have huG0 : 0 ≤ u * G := by positivity
  have hfb : |f| ≤ 1001 / 1000 * G := by
    have : |f| ≤ |f - g| + |g| := by
      calc |f| = |(f - g) + g| := by ring_nf
        _ ≤ _ := abs_add_le _ _
    linarith
  have hfB : |f * 10000| = |f| * 10000 := by rw [abs_mul]; norm_num
  rw [hfB] at e1
  have ha1 : |a - f * 10000| ≤ u * (1001 / 1000 * G * 10000) :=
    e1.trans (mul_le_mul_of_nonneg_left (by linarith) hu0.le)
  have hab : |a + d| ≤ 2002 / 1000 * G * 10000 := by
    have : |a + d| ≤ |a - f * 10000| + |f * 10000| + |d| := by
      calc |a + d| = |(a - f * 10000) + f * 10000 + d| := by ring_nf
        _ ≤ _ := (abs_add_le _ _).trans (by linarith [abs_add_le (a - f * 10000) (f * 10000)])
    rw [hfB] at this
    linarith
  have hb1 : |b - (a + d)| ≤ u * (2002 / 1000 * G * 10000) := e2.trans (mul_le_mul_of_nonneg_left hab hu0.le)
  have : |b - (g * 10000 + d)| ≤ |b - (a + d)| + |a - f * 10000| + |f - g| * 10000 := by
    calc |b - (g * 10000 + d)| = |(b - (a + d)) + (a - f * 10000) + (f - g) * 10000| := by ring_nf
      _ ≤ |(b - (a + d)) + (a - f * 10000)| + |(f - g) * 10000| := abs_add_le _ _
      _ ≤ _ := by
        rw [abs_mul, show |(10000:ℚ)| = 10000 by norm_num]
        linarith [abs_add_le (b - (a + d)) (a - f * 10000)]
  linarith

theorem fstep0_err {f g G : ℚ} {j : ℚ} (hj3 : j ≤ 3) (hg : |g| ≤ G) (hf : |f - g| ≤ j * 4 * u * G) :
    |F64.mul f 10000 - g * 10000| ≤ (j + 1) * 4 * u * (G * 10000) := by
  have hu := u_small
  have hu0 := u_pos
  have hG : 0 ≤ G := (abs_nonneg _).trans hg
  unfold F64.mul
  have e1 := rnd_err (f * 10000)
  generalize rnd (f * 10000) = a at *
  have hjG : j * 4 * u * G ≤ 12 * u * G := by
    have : 0 ≤ u * G := by positivity
    nlinarith
  have huG : u * G ≤ 12 / 10 ^ 17 * G := mul_le_mul_of_nonneg_right hu hG
  have huG0 : 0 ≤ u * G := by positivity
  have hfb : |f| ≤ 1001 / 1000 * G := by
    have : |f| ≤ |f - g| + |g| := by
      calc |f| = |(f - g) + g| := by ring_nf
        _ ≤ _ := abs_add_le _ _
    linarith
  have hfB : |f * 10000| = |f| * 10000 := by rw [abs_mul]; norm_num
  rw [hfB] at e1
  have ha1 : |a - f * 10000| ≤ u * (1001 / 1000 * G * 10000) :=
    e1.trans (mul_le_mul_of_nonneg_left (by linarith) hu0.le)
  have : |a - g * 10000| ≤ |a - f * 10000| + |f - g| * 10000 := by
    calc |a - g * 10000| = |(a - f * 10000) + (f - g) * 10000| := by ring_nf
      _ ≤ _ := by
        refine (abs_add_le _ _).trans ?_
        rw [abs_mul, show |(10000:ℚ)| = 10000 by norm_num]
  linarith

theorem fapprox_err (k : Nat) {f g G D : ℚ} {j : ℚ} {ds : List Int} (hj : 0 ≤ j) (hjk : j + k ≤ 3) (hD0 : 0 ≤ D)
    (hD : ∀ d ∈ ds, |(d:ℚ)| ≤ D) (hG : |g| + D / 9999 ≤ G) (hf : |f - g| ≤ j * 4 * u * G) :
    |Var.fapprox k f ds - wapprox k g ds| ≤ (j + k) * 4 * u * (G * 10000 ^ k) := by
  induction k generalizing f g G j ds with
  | zero => simpa [Var.fapprox, wapprox] using hf
  | succ k ih =>
    push_cast at hjk
    have hk : (0:ℚ) ≤ k := by positivity
    have hgG : |g| ≤ G := by have : 0 ≤ D / 9999 := by positivity
                             linarith
    have hd' : ∀ d : ℚ, |d| ≤ D → |d| ≤ G * 10000 := by
      intro d hd
      have : D ≤ 9999 * G := by
        have := abs_nonneg g
        linarith
      have : 0 ≤ G := (abs_nonneg _).trans hgG
      linarith
    cases ds with
    | nil =>
      rw [Var.fapprox, wapprox]
      have := ih (f := F64.mul f NBASE) (g := g * 10000) (G := G * 10000) (j := j + 1) (ds := []) (by linarith) (by linarith)
        (by simp) (by rw [abs_mul, show |(10000:ℚ)| = 10000 by norm_num]; have : 0 ≤ D / 9999 := by positivity
                      linarith) (by
          have := fstep0_err (by linarith) hgG hf
          exact_mod_cast this)
      push_cast
      rw [pow_succ]
      calc _ ≤ _ := this
        _ = _ := by ring
    | cons d ds =>
      rw [Var.fapprox, wapprox]
      have := ih (f := F64.add (F64.mul f NBASE) d) (g := g * 10000 + d) (G := G * 10000) (j := j + 1) (ds := ds)
        (by linarith) (by linarith) (fun x hx => hD x (by simp [hx])) (by
          have h1 := hD d (by simp)
          have h2 := abs_add_le (g * 10000) (d:ℚ)
          rw [abs_mul, show |(10000:ℚ)| = 10000 by norm_num] at h2
          linarith) (by
          have := fstep_err (by linarith) hgG hf (hd' d (hD d (by simp)))
          exact_mod_cast this)
      push_cast
      rw [pow_succ]
      calc _ ≤ _ := this
        _ = _ := by ring

/-! ## The divisor -/

theorem divisor_inv {v0 : Int} {vs : List Int} (hd : Digits (v0 :: vs)) (h0 : v0 ≠ 0) :
    1 ≤ mag (v0 :: vs) 0 ∧ mag (v0 :: vs) 0 < 10000 ∧
    |F64.div 1 (Var.fapprox 3 v0 vs) * (mag (v0 :: vs) 0 * 10 ^ 12) - 1| ≤ 3 / 10 ^ 12 := by
  have hV1 : 1 ≤ mag (v0 :: vs) 0 := by simpa using mag_ge_of_head hd h0 0
  have hV2 : mag (v0 :: vs) 0 < 10000 := by simpa using mag_lt hd 0
  refine ⟨hV1, hV2, ?_⟩
  obtain ⟨hv0, hvs⟩ := Digits.cons.1 hd
  have hv0' : (0:ℚ) ≤ v0 := by exact_mod_cast hv0.1
  have hsplit : mag (v0 :: vs) 0 = wapprox 3 v0 vs / 10 ^ 12 + mag (vs.drop 3) (-1 - (vs.take 3).length) := by
    rw [wapprox_eq, mag_cons]
    have e := mag_append (vs.take 3) (vs.drop 3) (-1)
    rw [List.take_append_drop] at e
    rw [show (0:ℤ) - 1 = -1 by norm_num, e]
    have e2 := mag_shift (vs.take 3) (-1) 3
    norm_num at e2 ⊢
    rw [← e2]; ring
  have htail0 : 0 ≤ mag (vs.drop 3) (-1 - (vs.take 3).length) := mag_nonneg (hvs.drop 3) _
  have htail1 : mag (vs.drop 3) (-1 - (vs.take 3).length) ≤ 1 / 10 ^ 12 := by
    by_cases hl : 3 ≤ vs.length
    · have := mag_lt (hvs.drop 3) (-1 - (vs.take 3).length)
      rw [List.length_take, min_eq_left hl] at this ⊢
      norm_num at this ⊢
      exact this.le
    · rw [List.drop_eq_nil_of_le (by omega)]; simp [mag]
  generalize mag (vs.drop 3) (-1 - (vs.take 3).length) = T at *
  have herr := fapprox_err 3 (f := v0) (g := v0) (G := 2 * mag (v0 :: vs) 0) (D := 9999) (j := 0) (ds := vs) le_rfl
    (by norm_num) (by norm_num) (fun d hd => by
      have := hvs d hd
      rw [abs_of_nonneg (by exact_mod_cast this.1)]
      have : d ≤ 9999 := by omega
      exact_mod_cast this) (by
      rw [abs_of_nonneg hv0']
      have : (v0:ℚ) ≤ mag (v0 :: vs) 0 := by
        rw [mag_cons]
        have := mag_nonneg hvs (0 - 1)
        simpa using this
      linarith) (by simp)
  generalize Var.fapprox 3 v0 vs = fd at *
  generalize wapprox 3 v0 vs = W at *
  generalize mag (v0 :: vs) 0 = V at *
  have hu := u_small
  have hu0 := u_pos
  have hW : W = (V - T) * 10 ^ 12 := by rw [hsplit]; ring
  have e1 := rnd_err (1 / fd)
  unfold F64.div
  generalize rnd (1 / fd) = s at *
  -- t = fd / (V 10^12)
  obtain ⟨t, ht⟩ : ∃ t, fd = t * (V * 10 ^ 12) := ⟨fd / (V * 10 ^ 12), by field_simp⟩
  have hV0 : 0 < V := by linarith
  have ht1 : |t - 1| ≤ 102 / 10 ^ 14 := by
    have : |t - 1| * (V * 10 ^ 12) ≤ 102 / 10 ^ 14 * (V * 10 ^ 12) := by
      rw [← abs_of_pos (show 0 < V * 10 ^ 12 by positivity), ← abs_mul, abs_of_pos (show 0 < V * 10 ^ 12 by positivity)]
      have e3 : (t - 1) * (V * 10 ^ 12) = (fd - W) - T * 10 ^ 12 := by rw [ht, hW]; ring
      rw [e3]
      have h1 : |T * 10 ^ 12| ≤ 1 := by rw [abs_of_nonneg (by positivity)]; linarith
      have h2 : |fd - W| ≤ 24 * (12 / 10 ^ 17) * (V * 10 ^ 12) := by
        refine herr.trans ?_
        have : u * (V * 10 ^ 12) ≤ 12 / 10 ^ 17 * (V * 10 ^ 12) := mul_le_mul_of_nonneg_right hu (by positivity)
        norm_num at this ⊢
        linarith
      have h3 := abs_sub (fd - W) (T * 10 ^ 12)
      norm_num at h1 h2 h3 ⊢
      linarith
    exact le_of_mul_le_mul_right this (by positivity)
  rw [abs_le] at ht1
  have htpos : 0 < t := by norm_num at ht1; linarith
  have hfd : 0 < fd := by rw [ht]; positivity
  rw [abs_of_pos (by positivity : 0 < 1 / fd)] at e1
  have hst : |s * (V * 10 ^ 12) * t - 1| ≤ u := by
    have e4 : s * (V * 10 ^ 12) * t - 1 = (s - 1 / fd) * fd := by
      rw [sub_mul, one_div, inv_mul_cancel₀ hfd.ne', ht]; ring
    rw [e4, abs_mul, abs_of_pos hfd]
    calc _ ≤ u * (1 / fd) * fd := mul_le_mul_of_nonneg_right e1 hfd.le
      _ = u := by field_simp
  generalize s * (V * 10 ^ 12) = S at *
  rw [abs_le] at hst ⊢
  constructor
  · by_contra hc
    push Not at hc
    nlinarith [ht1.1, ht1.2, hst.1]
  · by_contra hc
    push Not at hc
    nlinarith [ht1.1, ht1.2, hst.2]

theorem fdigit_spec [Build] {φ : ℚ} (h : |φ| ≤ 2000000000) :
    ∃ q : Int, Var.fdigit φ = .ok q ∧ 0 ≤ φ - q ∧ φ - q ≤ 1 := by
  rw [abs_le] at h
  unfold Var.fdigit
  split
  · rename_i h0
    rw [toI32_nonneg h0 (by linarith)]
    exact ⟨_, rfl, by linarith [Int.floor_le φ], by linarith [Int.lt_floor_add_one φ]⟩
  · rename_i h0
    push Not at h0
    rw [toI32_neg h0 (by linarith)]
    have h1 := Int.le_ceil φ
    have h2 := Int.ceil_lt_add_one φ
    have h3 : -2000000000 ≤ ⌈φ⌉ := by
      have : (-2000000000 : ℚ) ≤ (⌈φ⌉ : ℚ) := by linarith
      exact_mod_cast this
    have h4 : ⌈φ⌉ ≤ 0 := Int.ceil_le.2 (by exact_mod_cast h0.le)
    refine ⟨_, i32_ok (by omega) (by omega), ?_, ?_⟩ <;> push_cast <;> linarith

/-- The quotient digit estimate is at most one too small and hardly too large. -/
theorem festimate_spec [Build] {V inv : ℚ} (hV1 : 1 ≤ V) (hinv : |inv * (V * 10 ^ 12) - 1| ≤ 3 / 10 ^ 12)
    {x : Int} {xs : List Int} (hxs : ∀ d ∈ xs, |d| ≤ 214748 * 9999) (hR : |mag (x :: xs) 0| ≤ 30000 * V) :
    ∃ q : Int, Var.festimate inv x xs = .ok q ∧ -(1 / 10 ^ 6) ≤ mag (x :: xs) 0 / V - q ∧
      mag (x :: xs) 0 / V - q ≤ 1 + 1 / 10 ^ 6 := by
  have hV0 : 0 < V := by linarith
  have hxs' : ∀ d ∈ xs, |(d:ℚ)| ≤ 214748 * 9999 := fun d hd => by have := hxs d hd; exact_mod_cast this
  have hsplit : mag (x :: xs) 0 = wapprox 3 x xs / 10 ^ 12 + mag (xs.drop 3) (-1 - (xs.take 3).length) := by
    rw [wapprox_eq, mag_cons]
    have e := mag_append (xs.take 3) (xs.drop 3) (-1)
    rw [List.take_append_drop] at e
    rw [show (0:ℤ) - 1 = -1 by norm_num, e]
    have e2 := mag_shift (xs.take 3) (-1) 3
    norm_num at e2 ⊢
    rw [← e2]; ring
  have hx : |(x:ℚ)| ≤ 30000 * V + 214748 := by
    have h1 := mag_bound9 (xs := xs) (m := 214748) (by norm_num) hxs (-1)
    have h2 : (x:ℚ) = mag (x :: xs) 0 - mag xs (-1) := by rw [mag_cons]; norm_num
    rw [h2]
    have := abs_sub (mag (x :: xs) 0) (mag xs (-1))
    norm_num at h1
    linarith
  have htail : |mag (xs.drop 3) (-1 - (xs.take 3).length)| ≤ 214748 / 10 ^ 12 := by
    by_cases hl : 3 ≤ xs.length
    · have := mag_bound9 (xs := xs.drop 3) (m := 214748) (by norm_num) (fun d hd => hxs d (List.mem_of_mem_drop hd))
        (-1 - (xs.take 3).length)
      rw [List.length_take, min_eq_left hl] at this ⊢
      norm_num at this ⊢
      exact this
    · rw [List.drop_eq_nil_of_le (by omega)]; simp only [mag, abs_zero]; norm_num
  have herr := fapprox_err 3 (f := x) (g := x) (G := 500000 * V) (D := 214748 * 9999) (j := 0) (ds := xs) le_rfl
    (by norm_num) (by norm_num) hxs' (by linarith) (by simp)
  unfold Var.festimate F64.mul
  generalize mag (xs.drop 3) (-1 - (xs.take 3).length) = T at *
  generalize Var.fapprox 3 x xs = f at *
  generalize wapprox 3 x xs = W at *
  generalize mag (x :: xs) 0 = R at *
  have hu := u_small
  have hu0 := u_pos
  obtain ⟨ρ, rfl⟩ : ∃ ρ, R = ρ * V := ⟨R / V, by field_simp⟩
  obtain ⟨r, rfl⟩ : ∃ r, f = r * (V * 10 ^ 12) := ⟨f / (V * 10 ^ 12), by field_simp⟩
  obtain ⟨τ, rfl⟩ : ∃ τ, T = τ * V := ⟨T / V, by field_simp⟩
  have hρ : |ρ| ≤ 30000 := by
    rw [abs_mul, abs_of_pos hV0] at hR
    exact le_of_mul_le_mul_right hR hV0
  have hτ : |τ| ≤ 214748 / 10 ^ 12 := by
    rw [abs_mul, abs_of_pos hV0] at htail
    have : |τ| ≤ |τ| * V := by nlinarith [abs_nonneg τ]
    linarith
  have hW : W = (ρ - τ) * (V * 10 ^ 12) := by
    have : ρ * V - τ * V = W / 10 ^ 12 := by linarith
    field_simp at this ⊢
    linarith
  have hr : |r - (ρ - τ)| ≤ 1 / 10 ^ 9 := by
    have e : r * (V * 10 ^ 12) - W = (r - (ρ - τ)) * (V * 10 ^ 12) := by rw [hW]; ring
    rw [e, abs_mul, abs_of_pos (show 0 < V * 10 ^ 12 by positivity)] at herr
    refine le_of_mul_le_mul_right (herr.trans ?_) (show 0 < V * 10 ^ 12 by positivity)
    have : u * V ≤ 12 / 10 ^ 17 * V := mul_le_mul_of_nonneg_right hu hV0.le
    norm_num at this ⊢
    linarith
  have e : r * (V * 10 ^ 12) * inv = r * (inv * (V * 10 ^ 12)) := by ring
  rw [e]
  generalize inv * (V * 10 ^ 12) = S at *
  have e1 := rnd_err (r * S)
  generalize rnd (r * S) = φ at *
  have hrρ : |r - ρ| ≤ 22 / 10 ^ 8 := by
    rw [abs_le] at hr hτ ⊢
    norm_num at hr hτ ⊢
    constructor <;> linarith
  have hrb : |r| ≤ 30001 := by
    rw [abs_le] at hrρ hρ ⊢
    norm_num at hrρ ⊢
    constructor <;> linarith
  have hrS : |r * S - r| ≤ 30001 * (3 / 10 ^ 12) := by
    have : r * S - r = r * (S - 1) := by ring
    rw [this, abs_mul]
    exact mul_le_mul hrb hinv (abs_nonneg _) (by norm_num)
  have hrSb : |r * S| ≤ 30002 := by
    rw [abs_le] at hrS hrb ⊢
    norm_num at hrS ⊢
    constructor <;> linarith
  have hφ1 : |φ - r * S| ≤ 12 / 10 ^ 17 * 30002 :=
    e1.trans (mul_le_mul hu hrSb (abs_nonneg _) (by norm_num))
  have hφ : |φ - ρ| ≤ 1 / 10 ^ 6 := by
    rw [abs_le] at hφ1 hrS hrρ ⊢
    norm_num at hφ1 hrS hrρ ⊢
    constructor <;> linarith
  have hφb : |φ| ≤ 2000000000 := by
    rw [abs_le] at hφ hρ ⊢
    norm_num at hφ ⊢
    constructor <;> linarith
  obtain ⟨q, eq, h1, h2⟩ := fdigit_spec hφb
  rw [mul_div_assoc, div_self hV0.ne', mul_one]
  rw [abs_le] at hφ
  exact ⟨q, eq, by linarith, by linarith⟩

/-! ## Carry propagation and subtraction -/

theorem signedCarry_spec [Build] (ds : List Int) (h : ∀ d ∈ ds, |d| ≤ 214748 * 9999) :
    ∃ ds' c, Var.signedCarry ds = .ok (ds', c) ∧ ds'.length = ds.length ∧ Digits ds' ∧ |c| ≤ 214748 ∧
      ∀ w, mag ds w = mag ds' w + c * 10000 ^ (w + 1) := by
  induction ds with
  | nil => exact ⟨[], 0, rfl, rfl, Digits.nil, by norm_num, fun w => by simp [mag]⟩
  | cons d ds ih =>
    obtain ⟨ds', c, e, hl, hd, hc, hm⟩ := ih (fun x hx => h x (by simp [hx]))
    have h1 := h d (by simp)
    rw [abs_le] at h1 hc
    have key : ∀ c' r : Int, d + c = r + c' * 10000 → 0 ≤ r → r < 10000 →
        (∀ w, mag (d :: ds) w = mag (r :: ds') w + c' * 10000 ^ (w + 1)) := by
      intro c' r he h0 h1 w
      rw [mag_cons, mag_cons, hm (w - 1), sub_add_cancel, zpow_add₀ (by norm_num : (10000:ℚ) ≠ 0)]
      have : (d:ℚ) + c = r + c' * 10000 := by exact_mod_cast he
      linear_combination (10000:ℚ) ^ w * this
    unfold Var.signedCarry
    simp only [e, bind_ok]
    rw [i32_ok (x := d + c) (by omega) (by omega)]
    simp only [bind_ok]
    by_cases h0 : d + c < 0
    · rw [if_pos h0, i32_ok (x := -(d + c)) (by omega) (by omega)]
      simp only [bind_ok, NBASE]
      rw [i32_ok (by omega) (by omega)]
      simp only [bind_ok]
      rw [i32_ok (by omega) (by omega)]
      simp only [bind_ok, pure_ok]
      refine ⟨_, _, rfl, by simp [hl], Digits.cons.2 ⟨by omega, hd⟩, by rw [abs_le]; omega, ?_⟩
      exact key _ _ (by ring) (by omega) (by omega)
    · rw [if_neg h0]
      by_cases h2 : d + c ≥ NBASE
      · rw [if_pos h2]
        simp only [NBASE] at *
        refine ⟨_, _, rfl, by simp [hl], Digits.cons.2 ⟨by omega, hd⟩, by rw [abs_le]; omega, ?_⟩
        exact key _ _ (by ring) (by omega) (by omega)
      · rw [if_neg h2]
        simp only [NBASE] at *
        refine ⟨_, _, rfl, by simp [hl], Digits.cons.2 ⟨by omega, hd⟩, by norm_num, ?_⟩
        exact key _ _ (by ring) (by omega) (by omega)

/-- How large digits can be after a few subtractions of a short divisor: the next `K` digits have been touched at most `K`, `K − 1`, … times. -/
def Few : Nat → List Int → Prop
  | _, [] => True
  | K, d :: ds => |d| ≤ (1 + 10006 * K) * 9999 ∧ Few (K - 1) ds

theorem Few.mono {xs : List Int} : ∀ {K K' : Nat}, Few K xs → K ≤ K' → Few K' xs := by
  induction xs with
  | nil => intro K K' _ _; simp [Few]
  | cons d ds ih => intro K K' h hk; exact ⟨h.1.trans (by omega), ih h.2 (by omega)⟩

theorem Few.all {xs : List Int} : ∀ {K : Nat}, Few K xs → ∀ d ∈ xs, |d| ≤ (1 + 10006 * (K:Int)) * 9999 := by
  induction xs with
  | nil => intro K _ d hd; simp at hd
  | cons x xs ih =>
    intro K h d hd
    rcases List.mem_cons.1 hd with rfl | hd
    · exact h.1
    · exact (ih h.2 d hd).trans (by omega)

theorem Few.zero {xs : List Int} (h : ∀ d ∈ xs, |d| ≤ 9999) (K : Nat) : Few K xs := by
  refine Few.mono (K := 0) ?_ (Nat.zero_le _)
  induction xs with
  | nil => simp [Few]
  | cons d ds ih => exact ⟨(h d (by simp)).trans (by norm_num), ih fun y hy => h y (by simp [hy])⟩

theorem Few.tail {d : Int} {ds : List Int} {K : Nat} (h : Few K (d :: ds)) : Few (K - 1) ds := h.2

theorem subRow_tail_spec [Build] {q m : Int} (hq : |q| ≤ 20000) (hm : m + |q| ≤ 214748) :
    ∀ (xs vs : List Int), (∀ d ∈ xs, |d| ≤ m * 9999) → Digits vs →
    ∃ xs', Var.subRow q xs vs = .ok xs' ∧ xs'.length = xs.length ∧ (∀ d ∈ xs', |d| ≤ (m + |q|) * 9999) ∧
      (∀ w, mag xs' w = mag xs w - q * mag (vs.take xs.length) w) ∧
      (|q| ≤ 10006 → Few (vs.length - 1) xs → Few vs.length xs') := by
  intro xs
  induction xs with
  | nil =>
    intro vs _ _
    exact ⟨[], by unfold Var.subRow; simp [pure_ok], rfl, by simp, fun w => by simp [mag], fun _ _ => by simp [Few]⟩
  | cons d ds ih =>
    intro vs hx hv
    have hq0 := abs_nonneg q
    cases vs with
    | nil =>
      refine ⟨d :: ds, by unfold Var.subRow; simp [pure_ok], rfl, fun y hy => ?_, fun w => by simp [mag], fun _ h => h⟩
      have := hx y hy
      nlinarith
    | cons v vs =>
      obtain ⟨hv0, hvs⟩ := Digits.cons.1 hv
      obtain ⟨xs', e, hl, hb, hm', hB⟩ := ih vs (fun y hy => hx y (by simp [hy])) hvs
      have hd := hx d (by simp)
      have hp : |q * v| ≤ |q| * 9999 := by
        rw [abs_mul, abs_of_nonneg hv0.1]
        exact mul_le_mul_of_nonneg_left (by omega) hq0
      have hr : |d - q * v| ≤ (m + |q|) * 9999 := by
        have := abs_sub d (q * v)
        linarith
      have hr' := hr
      rw [abs_le] at hp hr'
      unfold Var.subRow
      rw [i32_ok (by nlinarith) (by nlinarith)]
      simp only [bind_ok]
      rw [i32_ok (by nlinarith) (by nlinarith)]
      simp only [bind_ok, e, pure_ok]
      refine ⟨_, rfl, by simp [hl], fun y hy => ?_, fun w => ?_, fun h6 h => ⟨?_, ?_⟩⟩
      · rcases List.mem_cons.1 hy with rfl | hy
        exacts [hr, hb y hy]
      · simp only [List.length_cons, List.take_succ_cons, mag_cons, hm']
        push_cast; ring
      · have h1 := h.1
        have h2 := abs_sub d (q * v)
        have h3 : |q * v| ≤ 10006 * 9999 := (abs_le.2 hp).trans (by omega)
        simp only [List.length_cons, Nat.add_sub_cancel] at h1 ⊢
        push_cast
        linarith
      · simp only [List.length_cons, Nat.add_sub_cancel]
        exact hB h6 h.2

/-- Subtracting from the whole window: the leading entry needs a separate bound. -/
theorem subRow_spec [Build] {q m x v0 : Int} {xs vs : List Int} (hq : |q| ≤ 20000) (hm : m + |q| ≤ 214748)
    (hxs : ∀ d ∈ xs, |d| ≤ m * 9999) (hv : Digits (v0 :: vs)) (hx : |x| ≤ 1000000000) :
    ∃ xs', Var.subRow q (x :: xs) (v0 :: vs) = .ok ((x - q * v0) :: xs') ∧ xs'.length = xs.length ∧
      (∀ d ∈ xs', |d| ≤ (m + |q|) * 9999) ∧
      mag ((x - q * v0) :: xs') 0 = mag (x :: xs) 0 - q * mag ((v0 :: vs).take (xs.length + 1)) 0 ∧
      (|q| ≤ 10006 → Few (vs.length - 1) xs → Few vs.length xs') := by
  obtain ⟨hv0, hvs⟩ := Digits.cons.1 hv
  obtain ⟨xs', e, hl, hb, hm', hB⟩ := subRow_tail_spec hq hm xs vs hxs hvs
  have hp : |q * v0| ≤ |q| * 9999 := by
    rw [abs_mul, abs_of_nonneg hv0.1]
    exact mul_le_mul_of_nonneg_left (by omega) (abs_nonneg _)
  rw [abs_le] at hp hx
  refine ⟨xs', ?_, hl, hb, ?_, hB⟩
  · unfold Var.subRow
    rw [i32_ok (by linarith) (by linarith)]
    simp only [bind_ok]
    rw [i32_ok (by linarith) (by linarith)]
    simp only [bind_ok, e, pure_ok]
  · simp only [List.take_succ_cons, mag_cons, hm']
    push_cast; ring

theorem divMaxDig_eq : Var.divMaxDig = 214748 := by decide

/-- One step: the new window stands for the old value minus the quotient digit times the (cut off) divisor. -/
theorem fastStep_spec [Build] {v0 : Int} {vs : List Int} (hv : Digits (v0 :: vs)) {inv : ℚ}
    (hV1 : 1 ≤ mag (v0 :: vs) 0) (hV2 : mag (v0 :: vs) 0 < 10000)
    (hinv : |inv * (mag (v0 :: vs) 0 * 10 ^ 12) - 1| ≤ 3 / 10 ^ 12)
    {x m : Int} {xs : List Int} (hm1 : 1 ≤ m) (hm2 : m ≤ 214748) (hxs : ∀ d ∈ xs, |d| ≤ m * 9999)
    (hR : |mag (x :: xs) 0| ≤ 10004 * mag (v0 :: vs) 0) :
    ∃ q x' xs' m', Var.fastStep (v0 :: vs) inv x xs m = .ok (q, x' :: xs', m') ∧ xs'.length = xs.length ∧
      1 ≤ m' ∧ m' ≤ 214748 ∧ (∀ d ∈ xs', |d| ≤ m' * 9999) ∧ |q| ≤ 10006 ∧
      mag (x' :: xs') 0 = mag (x :: xs) 0 - q * mag ((v0 :: vs).take (xs.length + 1)) 0 ∧
      -(1 / 10 ^ 6) ≤ mag (x :: xs) 0 / mag (v0 :: vs) 0 - q ∧
      mag (x :: xs) 0 / mag (v0 :: vs) 0 - q ≤ 1 + 1 / 10 ^ 6 ∧
      m' ≤ m + 10006 ∧ (Few (vs.length - 1) xs → Few vs.length xs') := by
  have hV0 : 0 < mag (v0 :: vs) 0 := by linarith
  have big : ∀ {ys : List Int} {k : Int}, k ≤ 214748 → (∀ d ∈ ys, |d| ≤ k * 9999) → ∀ d ∈ ys, |d| ≤ 214748 * 9999 := by
    intro ys k hk h d hd
    have := h d hd
    omega
  have hρ : |mag (x :: xs) 0 / mag (v0 :: vs) 0| ≤ 10004 := by
    rw [abs_div, abs_of_pos hV0, div_le_iff₀ hV0]; exact hR
  have qb : ∀ {q : Int}, -(1 / 10 ^ 6) ≤ mag (x :: xs) 0 / mag (v0 :: vs) 0 - q →
      mag (x :: xs) 0 / mag (v0 :: vs) 0 - q ≤ 1 + 1 / 10 ^ 6 → |q| ≤ 10006 := by
    intro q h1 h2
    have h3 := abs_le.1 hρ
    rw [abs_le]
    norm_num at h1 h2
    have a : ((-10006 : ℤ) : ℚ) ≤ q := by push_cast; linarith
    have b : (q:ℚ) ≤ ((10006 : ℤ) : ℚ) := by push_cast; linarith
    exact ⟨by exact_mod_cast a, by exact_mod_cast b⟩
  have xb : ∀ {y : Int} {ys : List Int}, (∀ d ∈ ys, |d| ≤ 214748 * 9999) → |mag (y :: ys) 0| ≤ 10004 * mag (v0 :: vs) 0 →
      |y| ≤ 1000000000 := by
    intro y ys hys hR
    have h1 := mag_bound9 (xs := ys) (m := 214748) (by norm_num) hys (-1)
    have h2 : (y:ℚ) = mag (y :: ys) 0 - mag ys (-1) := by rw [mag_cons]; norm_num
    have : |(y:ℚ)| ≤ 1000000000 := by
      rw [h2]
      have := abs_sub (mag (y :: ys) 0) (mag ys (-1))
      norm_num at h1
      linarith
    exact_mod_cast this
  obtain ⟨q, eq, hq1, hq2⟩ := festimate_spec hV1 hinv (big hm2 hxs) (hR.trans (by linarith))
  have hqb := qb hq1 hq2
  have hq0 := abs_nonneg q
  unfold Var.fastStep
  simp only [eq, bind_ok]
  by_cases hz : q = 0
  · rw [if_pos hz]
    refine ⟨q, x, xs, m, rfl, rfl, hm1, hm2, hxs, hqb, ?_, hq1, hq2, by omega, fun h => h.mono (by omega)⟩
    rw [hz]; simp
  · rw [if_neg hz, i32_ok (by omega) (by omega)]
    simp only [bind_ok]
    rw [divMaxDig_eq]
    by_cases hn : m + |q| > 214748
    · rw [if_pos hn]
      obtain ⟨ys, c, ec, hl, hd, hc, hmag⟩ := signedCarry_spec xs (big hm2 hxs)
      have hys : ∀ d ∈ ys, |d| ≤ 1 * 9999 := fun d h => by
        have := hd d h
        rw [abs_of_nonneg this.1]; omega
      have hsame : mag ((x + c) :: ys) 0 = mag (x :: xs) 0 := by
        rw [mag_cons, mag_cons, hmag]; push_cast; norm_num; ring
      have hxx := xb (big hm2 hxs) hR
      rw [← hsame] at hR hq1 hq2 hρ qb ⊢
      obtain ⟨q', eq', hq1', hq2'⟩ := festimate_spec hV1 hinv (big (by norm_num) hys) (hR.trans (by linarith))
      have hqb' := qb hq1' hq2'
      have hq0' := abs_nonneg q'
      simp only [ec, bind_ok]
      rw [i32_ok (x := x + c) (by rw [abs_le] at hc hxx; omega) (by rw [abs_le] at hc hxx; omega)]
      simp only [bind_ok, eq']
      rw [i32_ok (by omega) (by omega)]
      simp only [bind_ok]
      by_cases hz' : q' = 0
      · rw [if_pos hz']
        refine ⟨q', x + c, ys, 1 + |q'|, rfl, hl, by omega, by omega, fun d h => ?_, hqb', ?_, hq1', hq2', by omega,
          fun _ => Few.zero (fun d h => by have := hys d h; omega) _⟩
        · have := hys d h; omega
        · rw [hz']; simp
      · rw [if_neg hz']
        obtain ⟨zs, e, hl', hb, hmz, hB⟩ := subRow_spec (m := 1) (hqb'.trans (by norm_num)) (by omega) hys hv
          (xb (big (by norm_num) hys) hR)
        simp only [e, bind_ok, pure_ok]
        refine ⟨q', _, zs, 1 + |q'|, rfl, by omega, by omega, by omega, hb, hqb', ?_, hq1', hq2', by omega,
          fun _ => hB hqb' (Few.zero (fun d h => by have := hys d h; omega) _)⟩
        rw [hmz, hl]
    · rw [if_neg hn]
      obtain ⟨zs, e, hl', hb, hmz, hB⟩ := subRow_spec (m := m) (hqb.trans (by norm_num)) (by omega) hxs hv
        (xb (big hm2 hxs) hR)
      simp only [e, bind_ok, pure_ok]
      exact ⟨q, _, zs, m + |q|, rfl, hl', by omega, by omega, hb, hqb, hmz, hq1, hq2, by omega, hB hqb⟩

/-! ## The loop -/

/-- Folding a digit into the next: the intermediate product may overflow, which is a panic in a debug build and
cancels in a release build. -/
theorem fold_spec [Build] {x d : Int} (h1 : -2147483648 ≤ d + x * 10000) (h2 : d + x * 10000 ≤ 2147483647) :
    (do let p ← i32 (x * NBASE); i32 (d + p)) = .ok (d + x * 10000) ∨
    (Build.debug = true ∧ 214748 < |x| ∧ i32 (x * NBASE) = .error .overflow) := by
  by_cases h : -2147483648 ≤ x * NBASE ∧ x * NBASE ≤ 2147483647
  · left
    rw [i32_ok h.1 h.2]
    simp only [bind_ok, NBASE]
    exact i32_ok h1 h2
  · cases hb : Build.debug
    · left
      have e : i32 (x * NBASE) = .ok (Int.bmod (x * NBASE) 4294967296) := by
        unfold i32; rw [if_neg h, hb]; rfl
      rw [e]
      simp only [bind_ok, NBASE]
      have hm : Int.bmod (x * 10000) 4294967296 % 4294967296 = (x * 10000) % 4294967296 := Int.bmod_emod
      generalize Int.bmod (x * 10000) 4294967296 = p at *
      unfold i32
      by_cases hp : -2147483648 ≤ d + p ∧ d + p ≤ 2147483647
      · rw [if_pos hp]
        have : d + p = d + x * 10000 := by omega
        rw [this]; rfl
      · rw [if_neg hp, hb]
        have : Int.bmod (d + p) 4294967296 = d + x * 10000 := by
          have hb2 : (d + p) % 4294967296 = (d + x * 10000) % 4294967296 := by omega
          have h3 : (((4294967296:ℕ) : ℤ)) = 4294967296 := rfl
          rw [Int.bmod_def, h3, hb2]
          split <;> omega
        rw [this]; rfl
    · right
      refine ⟨rfl, ?_, ?_⟩
      · by_contra hc
        push Not at hc
        rw [abs_le] at hc
        apply h
        simp only [NBASE]
        omega
      · unfold i32; rw [if_neg h, hb]; rfl

theorem take_diff {v : List Int} (hv : Digits v) (k : Nat) :
    0 ≤ mag v 0 - mag (v.take k) 0 ∧ mag v 0 - mag (v.take k) 0 ≤ 10000 ^ (1 - (k:ℤ)) := by
  have e := mag_append (v.take k) (v.drop k) 0
  rw [List.take_append_drop] at e
  have e2 : mag v 0 - mag (v.take k) 0 = mag (v.drop k) (0 - (v.take k).length) := by linarith
  rw [e2]
  refine ⟨mag_nonneg (hv.drop k) _, ?_⟩
  by_cases hl : k ≤ v.length
  · have := (mag_lt (hv.drop k) (0 - (v.take k).length)).le
    rw [List.length_take, min_eq_left hl] at this ⊢
    rw [show (0:ℤ) - k + 1 = 1 - k by ring] at this
    exact this
  · rw [List.drop_eq_nil_of_le (by omega)]
    simp only [mag]; exact (B_zpow_pos _).le

theorem fastLoop_spec [Build] {v0 : Int} {vs : List Int} (hv : Digits (v0 :: vs)) {inv : ℚ}
    (hV1 : 1 ≤ mag (v0 :: vs) 0) (hV2 : mag (v0 :: vs) 0 < 10000)
    (hinv : |inv * (mag (v0 :: vs) 0 * 10 ^ 12) - 1| ≤ 3 / 10 ^ 12) (n : Nat) :
    ∀ (x m : Int) (xs : List Int), xs.length = n → 1 ≤ m → m ≤ 214748 → (∀ d ∈ xs, |d| ≤ m * 9999) →
    |mag (x :: xs) 0| ≤ (if n = 0 then 30000 else 10004) * mag (v0 :: vs) 0 →
    (∃ qs, Var.fastLoop (v0 :: vs) inv n (x :: xs) m = .ok qs ∧ qs.length = n + 1 ∧ (∀ q ∈ qs, |q| ≤ 30002) ∧
      |mag qs 0 - mag (x :: xs) 0 / mag (v0 :: vs) 0| ≤ (2 + 10006 * n) * 10000 ^ (-(n:ℤ))) ∨
    (Build.debug = true ∧ Var.fastLoop (v0 :: vs) inv n (x :: xs) m = .error .overflow ∧
      ¬ (vs.length ≤ 20 ∧ Few (vs.length - 1) xs) ∧ ¬ m + 10006 * n ≤ 204746) := by
  have hV0 : 0 < mag (v0 :: vs) 0 := by linarith
  induction n with
  | zero =>
    intro x m xs hl _ _ _ hR
    left
    have hxs : xs = [] := List.length_eq_zero_iff.1 hl
    subst hxs
    rw [if_pos rfl] at hR
    obtain ⟨q, eq, h1, h2⟩ := festimate_spec (xs := []) hV1 hinv (by simp) hR
    refine ⟨[q], ?_, rfl, ?_, ?_⟩
    · unfold Var.fastLoop
      simp only [getM_ok (l := [x]) (i := 0) (by simp), List.getElem_cons_zero, bind_ok, eq, pure_ok]
    · intro q' hq'
      simp only [List.mem_singleton] at hq'
      subst hq'
      have hρ : |mag [x] 0 / mag (v0 :: vs) 0| ≤ 30000 := by
        rw [abs_div, abs_of_pos hV0, div_le_iff₀ hV0]; exact hR
      have h3 := abs_le.1 hρ
      rw [abs_le]
      norm_num at h1 h2
      have a : ((-30002 : ℤ) : ℚ) ≤ q' := by push_cast; linarith
      have b : (q':ℚ) ≤ ((30002 : ℤ) : ℚ) := by push_cast; linarith
      exact ⟨by exact_mod_cast a, by exact_mod_cast b⟩
    · have e : mag [q] 0 = q := by simp [mag]
      rw [e, abs_le]
      norm_num at h1 h2 ⊢
      constructor <;> linarith
  | succ n ih =>
    intro x m xs hl hm1 hm2 hxs hR
    rw [if_neg (by omega)] at hR
    obtain ⟨q, x', xs', m', e, hl', hm1', hm2', hxs', hq, hmag, h1, h2, hmm, hB⟩ :=
      fastStep_spec hv hV1 hV2 hinv hm1 hm2 hxs hR
    rw [hl] at hl' hmag
    obtain ⟨d, ds, rfl⟩ : ∃ d ds, xs' = d :: ds := by
      cases xs' with
      | nil => simp at hl'
      | cons d ds => exact ⟨d, ds, rfl⟩
    have hlds : ds.length = n := by simpa using hl'
    obtain ⟨t0, t1⟩ := take_diff hv (n + 1 + 1)
    set V := mag (v0 :: vs) 0 with hVdef
    set Vt := mag ((v0 :: vs).take (n + 1 + 1)) 0
    set R := mag (x :: xs) 0
    have hBn := B_zpow_pos (-(n:ℤ))
    have hBle : (10000:ℚ) ^ (-(n:ℤ)) ≤ 1 := by
      rw [show (1:ℚ) = 10000 ^ (0:ℤ) by norm_num, B_zpow_le_iff]; omega
    have t1' : V - Vt ≤ 10000 ^ (-(n:ℤ)) / 10000 := by
      have : (10000:ℚ) ^ (1 - ((n + 1 + 1 : ℕ) : ℤ)) = 10000 ^ (-(n:ℤ)) / 10000 := by
        rw [show 1 - ((n + 1 + 1 : ℕ) : ℤ) = -(n:ℤ) - 1 by push_cast; ring, zpow_sub₀ (by norm_num)]; norm_num
      rwa [this] at t1
    have hqQ : |(q:ℚ)| ≤ 10006 := by exact_mod_cast hq
    have hcut : |q * (V - Vt)| ≤ 10006 * (10000 ^ (-(n:ℤ)) / 10000) := by
      rw [abs_mul, abs_of_nonneg t0]
      exact mul_le_mul hqQ t1' t0 (by norm_num)
    have hrem : |R - q * V| ≤ (1 + 1 / 10 ^ 6) * V := by
      have e1 : R - q * V = (R / V - q) * V := by field_simp
      rw [e1, abs_mul, abs_of_pos hV0]
      refine mul_le_mul_of_nonneg_right ?_ hV0.le
      rw [abs_le]; constructor <;> [norm_num at h1 ⊢; skip] <;> linarith
    have hnew : mag ((d + x' * 10000) :: ds) 0 = 10000 * (R - q * V) + 10000 * (q * (V - Vt)) := by
      have hs := mag_shift (x' :: d :: ds) 0 1
      rw [mag_cons (d := x'), mag_cons (d := d)] at hs
      rw [mag_cons (d := x'), mag_cons (d := d)] at hmag
      rw [mag_cons]
      have hs2 := mag_shift ds (0 - 1 - 1) 1
      norm_num at hs hs2 hmag ⊢
      rw [← hs2]
      linear_combination 10000 * hmag
    have hRnew : |mag ((d + x' * 10000) :: ds) 0| ≤ (if n = 0 then 30000 else 10004) * V := by
      rw [hnew]
      have h3 := abs_add_le (10000 * (R - q * V)) (10000 * (q * (V - Vt)))
      rw [abs_mul, abs_mul 10000 (q * (V - Vt)), show |(10000:ℚ)| = 10000 by norm_num] at h3
      split
      · clear_value V Vt R
        generalize |(q:ℚ) * (V - Vt)| = A at *
        generalize (10000:ℚ) ^ (-(n:ℤ)) = E at *
        norm_num at hrem
        linarith
      · rename_i hn0
        have : (10000:ℚ) ^ (-(n:ℤ)) ≤ 1 / 10000 := by
          rw [show (1 / 10000:ℚ) = 10000 ^ (-1:ℤ) by norm_num, B_zpow_le_iff]; omega
        clear_value V Vt R
        generalize |(q:ℚ) * (V - Vt)| = A at *
        generalize (10000:ℚ) ^ (-(n:ℤ)) = E at *
        norm_num at hrem
        linarith
    have hdd : |d| ≤ m' * 9999 := hxs' d (by simp)
    have hdsb : ∀ y ∈ ds, |y| ≤ m' * 9999 := fun y hy => hxs' y (by simp [hy])
    have hrange : |d + x' * 10000| ≤ 400000000 := by
      have hb := mag_bound9 (xs := ds) (m := m') (by omega) hdsb (-1)
      have e2 : ((d + x' * 10000 : ℤ) : ℚ) = mag ((d + x' * 10000) :: ds) 0 - mag ds (-1) := by
        rw [mag_cons]; push_cast; norm_num
      have : |((d + x' * 10000 : ℤ) : ℚ)| ≤ 400000000 := by
        rw [e2]
        have h3 := abs_sub (mag ((d + x' * 10000) :: ds) 0) (mag ds (-1))
        have h4 : (if n = 0 then (30000:ℚ) else 10004) ≤ 30000 := by split <;> norm_num
        have h5 : (if n = 0 then (30000:ℚ) else 10004) * V ≤ 30000 * 10000 :=
          mul_le_mul h4 hV2.le hV0.le (by norm_num)
        have h6 : (m':ℚ) ≤ 214748 := by exact_mod_cast hm2'
        norm_num at hb
        linarith
      exact_mod_cast this
    rw [abs_le] at hrange
    have hfold := fold_spec (x := x') (d := d) (by omega) (by omega)
    have hunf : Var.fastLoop (v0 :: vs) inv (n + 1) (x :: xs) m = (do
        let p ← i32 (x' * NBASE)
        let d ← i32 (d + p)
        let qs ← Var.fastLoop (v0 :: vs) inv n (d :: ds) m'
        pure (q :: qs)) := by
      rw [Var.fastLoop]
      simp only [getM_ok (l := x :: xs) (i := 0) (by simp), List.getElem_cons_zero, bind_ok, List.tail_cons, e,
        getM_ok (l := x' :: d :: ds) (i := 0) (by simp), getM_ok (l := x' :: d :: ds) (i := 1) (by simp),
        List.getElem_cons_succ]
    have hxm : ∀ k : Int, 0 ≤ k → (∀ y ∈ d :: ds, |y| ≤ k * 9999) → |x'| ≤ 10001 + k := by
      intro k hk hy
      have hb := mag_bound9 (xs := d :: ds) hk hy (-1)
      have e2 : ((x' : ℤ) : ℚ) = mag (x' :: d :: ds) 0 - mag (d :: ds) (-1) := by
        rw [mag_cons (d := x')]; norm_num
      have e3 : mag (x' :: d :: ds) 0 = (R - q * V) + q * (V - Vt) := by rw [hmag]; ring
      have : |((x' : ℤ) : ℚ)| < 10002 + k := by
        rw [e2]
        have h3 := abs_sub (mag (x' :: d :: ds) 0) (mag (d :: ds) (-1))
        have h4 := abs_add_le (R - q * V) (q * (V - Vt))
        rw [← e3] at h4
        norm_num at hb hrem
        generalize |mag (x' :: d :: ds) 0| = X at *
        generalize |(q:ℚ) * (V - Vt)| = A at *
        clear_value V Vt R
        generalize (10000:ℚ) ^ (-(n:ℤ)) = E at *
        linarith
      have : |x'| < 10002 + k := by exact_mod_cast this
      omega
    have hsafe : 214748 < |x'| → ¬ (vs.length ≤ 20 ∧ Few (vs.length - 1) xs) ∧ ¬ m + 10006 * ((n + 1 : ℕ) : ℤ) ≤ 204746 := by
      intro hx
      refine ⟨fun ⟨hk, hBx⟩ => ?_, fun hmn => ?_⟩
      · have := hxm (1 + 10006 * (vs.length : ℤ)) (by omega) (hB hBx).all
        omega
      · have := hxm m' (by omega) hxs'
        push_cast at hmn
        omega
    rcases hfold with hf | ⟨hb, hbig, hf⟩
    · have hunf2 : Var.fastLoop (v0 :: vs) inv (n + 1) (x :: xs) m = (do
          let qs ← Var.fastLoop (v0 :: vs) inv n ((d + x' * 10000) :: ds) m'
          pure (q :: qs)) := by
        rw [hunf]
        have : (do
            let p ← i32 (x' * NBASE)
            let d ← i32 (d + p)
            let qs ← Var.fastLoop (v0 :: vs) inv n (d :: ds) m'
            pure (q :: qs)) = (do
            let d ← (do
              let p ← i32 (x' * NBASE)
              i32 (d + p))
            let qs ← Var.fastLoop (v0 :: vs) inv n (d :: ds) m'
            pure (q :: qs)) := by
          cases i32 (x' * NBASE) <;> rfl
        rw [this, hf]
        rfl
      rcases ih (d + x' * 10000) m' ds hlds hm1' hm2' hdsb hRnew with ⟨qs, eqs, hql, hqb, hqm⟩ | ⟨hb, ee, hs1, hs2⟩
      · left
        refine ⟨q :: qs, by rw [hunf2, eqs]; rfl, by simp [hql], fun y hy => ?_, ?_⟩
        · rcases List.mem_cons.1 hy with rfl | hy
          · exact hq.trans (by norm_num)
          · exact hqb y hy
        · have e3 : mag (q :: qs) 0 - R / V =
              (mag qs 0 - mag ((d + x' * 10000) :: ds) 0 / V) / 10000 + q * (V - Vt) / V := by
            have hs := mag_shift qs (-1) 1
            rw [mag_cons, hnew]
            norm_num at hs ⊢
            rw [← hs]; field_simp; ring
          rw [e3]
          have h3 := abs_add_le ((mag qs 0 - mag ((d + x' * 10000) :: ds) 0 / V) / 10000) (q * (V - Vt) / V)
          have h4 : |(mag qs 0 - mag ((d + x' * 10000) :: ds) 0 / V) / 10000| ≤ (2 + 10006 * n) * 10000 ^ (-(n:ℤ)) / 10000 := by
            rw [abs_div, show |(10000:ℚ)| = 10000 by norm_num]
            exact div_le_div_of_nonneg_right hqm (by norm_num)
          have h5 : |q * (V - Vt) / V| ≤ 10006 * (10000 ^ (-(n:ℤ)) / 10000) := by
            rw [abs_div, abs_of_pos hV0, div_le_iff₀ hV0]
            have : 0 ≤ 10006 * ((10000:ℚ) ^ (-(n:ℤ)) / 10000) := by positivity
            nlinarith
          have h6 : (10000:ℚ) ^ (-((n + 1 : ℕ) : ℤ)) = 10000 ^ (-(n:ℤ)) / 10000 := by
            rw [show -((n + 1 : ℕ) : ℤ) = -(n:ℤ) - 1 by push_cast; ring, zpow_sub₀ (by norm_num)]; norm_num
          rw [h6]
          push_cast
          calc _ ≤ _ := h3
            _ ≤ (2 + 10006 * (n:ℚ)) * 10000 ^ (-(n:ℤ)) / 10000 + 10006 * (10000 ^ (-(n:ℤ)) / 10000) := by linarith
            _ = _ := by ring
      · right
        exact ⟨hb, by rw [hunf2, ee]; rfl, fun ⟨hk, hBx⟩ => hs1 ⟨hk, (hB hBx).tail⟩, fun hmn => hs2 (by push_cast at hmn; omega)⟩
    · right
      exact ⟨hb, by rw [hunf, hf]; rfl, hsafe hbig⟩

/-! ## The whole division -/

/-- The error of `n` estimated digits is below the weight of the second digit. -/
theorem fast_eta {n : Nat} (h : 4 ≤ n) : (2 + 10006 * (n:ℚ)) * 10000 ^ (-(n:ℤ)) < 10000 ^ (-2:ℤ) := by
  induction n, h using Nat.le_induction with
  | base => norm_num
  | succ n hn ih =>
    have h6 : (10000:ℚ) ^ (-((n + 1 : ℕ) : ℤ)) = 10000 ^ (-(n:ℤ)) / 10000 := by
      rw [show -((n + 1 : ℕ) : ℤ) = -(n:ℤ) - 1 by push_cast; ring, zpow_sub₀ (by norm_num)]; norm_num
    rw [h6]
    have hB := B_zpow_pos (-(n:ℤ))
    refine lt_of_le_of_lt ?_ ih
    push_cast
    have hn' : (4:ℚ) ≤ n := by exact_mod_cast hn
    rw [mul_div_assoc']
    rw [div_le_iff₀ (by norm_num)]
    nlinarith

/-- What the fast division returns: the exact quotient, moved by less than `10^-10` units of the requested scale,
then rounded (or truncated). In a debug build it may instead panic on an intermediate overflow. -/
theorem divFast_full [Build] (a b : Var) (s : Int) (rnd : Bool) (ha : Digits a.digits) (hb : Digits b.digits)
    (na : a.sign ≠ .nan) (nb : b.sign ≠ .nan) (hb0 : b.digits ≠ []) (hbh : b.digits.head? ≠ some 0)
    (hah : a.digits.head? ≠ some 0)
    (hs0 : 0 ≤ s) (hs1 : s ≤ 20000) (hz : a.digits ≠ [] ∨ s ≤ 16383) (hwa : |a.weight| ≤ 200000) (hwb : |b.weight| ≤ 200000)
    (hla : a.digits.length ≤ 200000) :
    (∃ u x, Var.divFastCommon a b s rnd = .ok (some u) ∧ |x - value a / value b| ≤ 10 ^ (-s) / 10 ^ 10 ∧
      AddOK u s (if rnd then roundHalfAway x s else truncTo x s)) ∨
    (Build.debug = true ∧ Var.divFastCommon a b s rnd = .error .overflow ∧ 21 < b.ndigits ∧
      20 < Var.fastDigits (a.weight - b.weight + 1) s a.ndigits) := by
  obtain ⟨v0, vs, hbd⟩ := List.exists_cons_of_ne_nil hb0
  have hv0 : v0 ≠ 0 := by rw [hbd] at hbh; simpa using hbh
  rw [abs_le] at hwa hwb
  have hTs := T_zpow_pos (-s)
  unfold Var.divFastCommon
  rw [dassert_ok na, dassert_ok nb]
  simp only [bind_ok, hbd]
  rw [if_neg hv0]
  by_cases haz : a.ndigits = 0
  · have : a.digits = [] := List.length_eq_zero_iff.1 (by unfold Var.ndigits at haz; omega)
    rw [if_pos haz, zeroScaled_ok hs0 (hz.resolve_left (fun h => h this))]
    have hva : value a = 0 := by unfold value; rw [this]; cases a.sign <;> simp
    refine .inl ⟨_, 0, rfl, ?_, ?_⟩
    · rw [hva, zero_div, sub_zero, abs_zero]; positivity
    · rw [roundHalfAway_of_nonneg le_rfl, truncTo_of_nonneg le_rfl, rmag_zero, tmag_zero, ite_self]
      exact AddOK.zero
  rw [if_neg haz]
  have hane : a.digits ≠ [] := fun h => haz (by simp [Var.ndigits, h])
  obtain ⟨x0, xs, hxd⟩ := List.exists_cons_of_ne_nil hane
  have hx0 : x0 ≠ 0 := by rw [hxd] at hah; simpa using hah
  rw [i32_ok (by omega) (by omega)]
  simp only [bind_ok]
  set rw' : Int := a.weight - b.weight + 1 with hrw
  obtain ⟨N, hN⟩ := Int.eq_ofNat_of_zero_le (a := Var.fastDigits rw' s a.ndigits)
    (by unfold Var.fastDigits; simp only [DEC_DIGITS, DIV_GUARD_DIGITS]; omega)
  have hN4 : 4 ≤ N := by unfold Var.fastDigits at hN; simp only [DEC_DIGITS, DIV_GUARD_DIGITS] at hN; omega
  have hNs : 4 * (rw' - N) ≤ -s - 20 := by
    unfold Var.fastDigits at hN; simp only [DEC_DIGITS, DIV_GUARD_DIGITS] at hN; omega
  have hNl : a.digits.length ≤ N := by
    unfold Var.fastDigits Var.ndigits at hN; simp only [DEC_DIGITS, DIV_GUARD_DIGITS] at hN; omega
  have hNu : N ≤ 900000 := by
    unfold Var.fastDigits Var.ndigits at hN; simp only [DEC_DIGITS, DIV_GUARD_DIGITS] at hN; omega
  rw [hN]
  kill_fits
  simp only [bind_ok, Int.toNat_natCast]
  rw [hbd] at hb
  obtain ⟨hV1, hV2, hinv⟩ := divisor_inv hb hv0
  have hV0 : 0 < mag (v0 :: vs) 0 := by linarith
  set rest := a.digits ++ List.replicate (N - a.digits.length) 0 with hrest
  have hrd : Digits rest := by
    intro d hd
    rcases List.mem_append.1 hd with h | h
    · exact ha d h
    · rw [(List.mem_replicate.1 h).2]; exact ⟨by norm_num, by norm_num⟩
  have hrl : rest.length = N := by rw [hrest, List.length_append, List.length_replicate]; omega
  have hrm : mag (0 :: rest) 0 = mag a.digits (-1) := by
    rw [mag_cons, hrest, mag_append]
    have : mag (List.replicate (N - a.digits.length) 0) (0 - 1 - (a.digits.length : ℤ)) = 0 := by
      have := mag_bound (xs := List.replicate (N - a.digits.length) 0) (C := 0) le_rfl
        (fun d hd => by rw [(List.mem_replicate.1 hd).2]; simp) (0 - 1 - (a.digits.length : ℤ))
      simpa using this
    rw [this]; norm_num
  have hR0 := mag_nonneg ha (-1)
  have hR1 : mag a.digits (-1) < 1 := by simpa using mag_lt ha (-1)
  have hRl : (1:ℚ) / 10000 ≤ mag a.digits (-1) := by
    rw [hxd] at ha ⊢
    have := mag_ge_of_head ha hx0 (-1)
    norm_num at this ⊢; exact this
  have hloop := fastLoop_spec hb hV1 hV2 hinv N 0 1 rest hrl le_rfl (by norm_num) (fun d hd => by
      have := hrd d hd
      rw [abs_of_nonneg this.1]; have := this.2; omega) (by
      rw [hrm, abs_of_nonneg hR0, if_neg (by omega)]; linarith)
  rcases hloop with ⟨qs, eq, hql, hqb, hqm⟩ | ⟨hdbg, ee, hs1, hs2⟩
  swap
  · right
    refine ⟨hdbg, by rw [ee]; rfl, ?_, ?_⟩
    · by_contra hc
      refine hs1 ⟨by simp only [Var.ndigits, hbd, List.length_cons] at hc; omega, Few.zero (fun d hd => ?_) _⟩
      have := hrd d hd
      rw [abs_of_nonneg this.1]; have := this.2; omega
    · omega
  left
  rw [eq]
  simp only [bind_ok]
  obtain ⟨ds, c, ec, hdl, hdd, hcb, hcm⟩ := signedCarry_spec qs (fun d hd => (hqb d hd).trans (by norm_num))
  rw [ec]
  simp only [bind_ok]
  rw [hrm] at hqm
  have heta := fast_eta hN4
  have hq1 : (10000:ℚ) ^ (-2:ℤ) ≤ mag a.digits (-1) / mag (v0 :: vs) 0 := by
    rw [le_div_iff₀ hV0]
    have : (10000:ℚ) ^ (-2:ℤ) * mag (v0 :: vs) 0 ≤ 10000 ^ (-2:ℤ) * 10000 :=
      mul_le_mul_of_nonneg_left hV2.le (by positivity)
    norm_num at this ⊢
    linarith
  have hq2 : mag a.digits (-1) / mag (v0 :: vs) 0 ≤ 1 := by
    rw [div_le_one hV0]; linarith
  have hdn := mag_nonneg hdd 0
  have hdlt : mag ds 0 < 10000 := by simpa using mag_lt hdd 0
  have hc0 : c = 0 := by
    have h0 := hcm 0
    have h1 := abs_le.1 hqm
    generalize (2 + 10006 * (N:ℚ)) * 10000 ^ (-(N:ℤ)) = η at *
    generalize mag a.digits (-1) / mag (v0 :: vs) 0 = ρ at *
    norm_num at h0 heta hq1
    have hcl : (-1:ℚ) < c := by
      by_contra hh; push Not at hh
      linarith
    have hcu : (c:ℚ) < 1 := by
      by_contra hh; push Not at hh
      linarith
    have : (-1:ℤ) < c := by exact_mod_cast hcl
    have : c < (1:ℤ) := by exact_mod_cast hcu
    omega
  subst hc0
  rw [dassert_ok rfl]
  simp only [bind_ok]
  set sg := if a.sign = b.sign then Sign.pos else Sign.neg with hsg
  have hsgn : sg ≠ .nan := by rw [hsg]; split <;> simp
  have hmd : mag ds 0 = mag qs 0 := by have := hcm 0; simpa using this.symm
  have hsh : mag ds rw' = mag ds 0 * 10000 ^ rw' := by
    have := mag_shift ds 0 rw'
    simpa [mul_comm] using this.symm
  have hma : mag a.digits a.weight / mag (v0 :: vs) b.weight =
      mag a.digits (-1) / mag (v0 :: vs) 0 * 10000 ^ rw' := by
    have e1 := mag_shift a.digits (-1) (a.weight + 1)
    have e2 := mag_shift (v0 :: vs) 0 b.weight
    rw [show -1 + (a.weight + 1) = a.weight by ring] at e1
    rw [zero_add] at e2
    rw [← e1, ← e2, hrw, show a.weight - b.weight + 1 = (a.weight + 1) - b.weight by ring, zpow_sub₀ B_ne]
    have := (B_zpow_pos b.weight).ne'
    field_simp
  have hval : |value ⟨rw', 0, sg, ds⟩ - value a / value b| ≤ 10 ^ (-s) / 10 ^ 10 := by
    have hsgnval : value ⟨rw', 0, sg, ds⟩ - value a / value b =
        (if a.sign = b.sign then 1 else -1) * (mag ds rw' - mag a.digits a.weight / mag (v0 :: vs) b.weight) := by
      rw [value_div_sign _ _ na nb, hbd]
      by_cases hh : a.sign = b.sign
      · rw [if_pos hh] at hsg
        rw [if_pos hh, hsg]; simp only [value]; ring
      · rw [if_neg hh] at hsg
        rw [if_neg hh, hsg]; simp only [value]; ring
    rw [hsgnval, abs_mul]
    have : |(if a.sign = b.sign then (1:ℚ) else -1)| = 1 := by split <;> norm_num
    rw [this, one_mul, hsh, hma, hmd, ← sub_mul, abs_mul, abs_of_pos (B_zpow_pos rw')]
    have hNq : (N:ℚ) ≤ 900000 := by exact_mod_cast hNu
    calc _ ≤ (2 + 10006 * (N:ℚ)) * 10000 ^ (-(N:ℤ)) * 10000 ^ rw' :=
          mul_le_mul_of_nonneg_right hqm (B_zpow_pos _).le
      _ = (2 + 10006 * (N:ℚ)) * 10 ^ (4 * (rw' - N)) := by
          rw [mul_assoc, ← zpow_add₀ B_ne, B_eq_T]; congr 2; ring
      _ ≤ 10 ^ 10 * 10 ^ (-s - 20) := by
          refine mul_le_mul ?_ ?_ (T_zpow_pos _).le (by norm_num)
          · linarith
          · exact zpow_le_zpow_right₀ (by norm_num) hNs
      _ = 10 ^ (-s) / 10 ^ 10 := by
          rw [zpow_sub₀ (by norm_num)]; norm_num; ring
  cases rnd with
  | true =>
    obtain ⟨u, eu, ud, un, us, uv⟩ := roundCommon_spec ⟨rw', 0, sg, ds⟩ s hdd hsgn (by simp only; omega) (by omega)
    have est := round_stripM eu (by simp only; omega) (by simp only; omega)
    refine ⟨_, _, ?_, hval, strip_digits ud, strip_sign un, strip_stripped _, by simp [us], by
      rw [strip_value, uv]; rfl⟩
    simp only [if_true, eu, est, bind_ok, pure_ok]
  | false =>
    obtain ⟨u, eu, ud, un, us, uv, -⟩ := truncCommon_spec ⟨rw', 0, sg, ds⟩ s hdd hsgn (by simp only; omega) (by omega)
    have est := trunc_stripM eu (by simp only; omega) (by simp only; omega)
    refine ⟨_, _, ?_, hval, strip_digits ud, strip_sign un, strip_stripped _, by simp [us], by
      rw [strip_value, uv]; rfl⟩
    simp only [Bool.false_eq_true, if_false, eu, est, bind_ok, pure_ok]

/-- `divFast_full` without the circumstances of the overflow. -/
theorem divFast_wide [Build] (a b : Var) (s : Int) (rnd : Bool) (ha : Digits a.digits) (hb : Digits b.digits)
    (na : a.sign ≠ .nan) (nb : b.sign ≠ .nan) (hb0 : b.digits ≠ []) (hbh : b.digits.head? ≠ some 0)
    (hah : a.digits.head? ≠ some 0)
    (hs0 : 0 ≤ s) (hs1 : s ≤ 20000) (hz : a.digits ≠ [] ∨ s ≤ 16383) (hwa : |a.weight| ≤ 200000) (hwb : |b.weight| ≤ 200000)
    (hla : a.digits.length ≤ 200000) :
    (∃ u x, Var.divFastCommon a b s rnd = .ok (some u) ∧ |x - value a / value b| ≤ 10 ^ (-s) / 10 ^ 10 ∧
      AddOK u s (if rnd then roundHalfAway x s else truncTo x s)) ∨
    (Build.debug = true ∧ Var.divFastCommon a b s rnd = .error .overflow) := by
  rcases divFast_full a b s rnd ha hb na nb hb0 hbh hah hs0 hs1 hz hwa hwb hla with h | ⟨h1, h2, -⟩
  exacts [.inl h, .inr ⟨h1, h2⟩]

theorem divFast_spec [Build] (a b : Var) (s : Int) (rnd : Bool) (ha : Digits a.digits) (hb : Digits b.digits)
    (na : a.sign ≠ .nan) (nb : b.sign ≠ .nan) (hb0 : b.digits ≠ []) (hbh : b.digits.head? ≠ some 0)
    (hah : a.digits.head? ≠ some 0)
    (hs0 : 0 ≤ s) (hs1 : s ≤ 16383) (hwa : |a.weight| ≤ 200000) (hwb : |b.weight| ≤ 200000)
    (hla : a.digits.length ≤ 200000) :
    (∃ u x, Var.divFastCommon a b s rnd = .ok (some u) ∧ |x - value a / value b| ≤ 10 ^ (-s) / 10 ^ 10 ∧
      AddOK u s (if rnd then roundHalfAway x s else truncTo x s)) ∨
    (Build.debug = true ∧ Var.divFastCommon a b s rnd = .error .overflow) :=
  divFast_wide a b s rnd ha hb na nb hb0 hbh hah hs0 (by omega) (.inr hs1) hwa hwb hla

end PgNumeric
