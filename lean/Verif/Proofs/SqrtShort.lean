import Verif.Proofs.Sqrt
import Verif.Proofs.Canon
/-!
# Square roots whose iterates stay short never overflow

The divisor of every Newton step is the current iterate. As long as iterates have at most 21 digit groups, the fast division does not overflow
(`divFast_full`), in debug builds as well.
-/
namespace PgNumeric
open Spec Var

theorem SqrtInv.weight_lt {A : ℚ} {K j : ℤ} {r : Var} (h : SqrtInv A K r) (hne : r.digits ≠ []) (hl : value r < 10000 ^ j) : r.weight < j := by
  have hp := (h.pos hne).2
  obtain ⟨d, ds, hd⟩ := List.exists_cons_of_ne_nil hne
  have hh := h.head
  have hdg := h.digits
  rw [hp, hd] at hl
  rw [hd] at hh hdg
  have := mag_ge_of_head hdg (by simpa using hh) r.weight
  exact B_zpow_lt_iff.1 (lt_of_le_of_lt this hl)

/-- One step from `r` with `r + A/r ≤ 5B`, where `A ≤ B²`: the next iterate `r'` is at most `2.9 B` and `A/r'` at most `2 B`. -/
theorem newton_bounds {A B U r q x r' : ℚ} (hA : 0 < A) (hB : 0 < B) (hAB : A ≤ B ^ 2) (hU : 0 < U) (hAU : 4 * U ^ 2 ≤ A) (hr : 0 < r)
    (hsum : r + A / r ≤ 5 * B) (hq : |q - A / r| ≤ (1 / 2 + 1 / 10 ^ 10) * U) (hx : |x - (r + q) / 2| ≤ 1 / 10000 * U)
    (hr' : |r' - x| ≤ U / 2) : 0 < r' ∧ r' ≤ 29 / 10 * B ∧ A / r' ≤ 2 * B := by
  rw [abs_le] at hq hx hr'
  have hUB : U ≤ B / 2 := by
    by_contra hc
    push Not at hc
    nlinarith
  set m := (r + A / r) / 2 with hm
  have hm0 : 0 < m := by rw [hm]; positivity
  have hmA : A ≤ m ^ 2 := by
    have e : m ^ 2 - A = ((r - A / r) / 2) ^ 2 := by rw [hm]; field_simp; ring
    nlinarith [sq_nonneg ((r - A / r) / 2)]
  have hmU : 2 * U ≤ m := by
    by_contra hc
    push Not at hc
    nlinarith
  have h1 : m - 9 / 10 * U ≤ r' := by norm_num at hq hx; linarith [hq.1, hx.1, hr'.1]
  have h2 : r' ≤ m + 9 / 10 * U := by norm_num at hq hx; linarith [hq.2, hx.2, hr'.2]
  have h3 : m / 2 ≤ r' := by linarith
  have hp : 0 < r' := by linarith
  refine ⟨hp, by linarith, ?_⟩
  rw [div_le_iff₀ hp]
  by_contra hc
  push Not at hc
  have h4 : A ≤ 4 * r' ^ 2 := by nlinarith
  -- A > 2 B r', so A² > 4 B² r'² ≥ A · A
  have h5 : 0 < 2 * B * r' := by positivity
  have h6 : (2 * B * r') ^ 2 < A ^ 2 := by nlinarith
  have h7 : A ^ 2 ≤ (2 * B * r') ^ 2 := by
    calc A ^ 2 = A * A := by ring
      _ ≤ B ^ 2 * (4 * r' ^ 2) := mul_le_mul hAB h4 hA.le (by positivity)
      _ = _ := by ring
  linarith

theorem sqrtLoop_short [Build] {a : Var} (ha : PosVar a) {K : ℤ} (hK0 : 1 ≤ K) (hK : K ≤ 150000)
    {L : Int} (hL0 : 0 ≤ L) (hL1 : L ≤ 16383) (hKL : value a * 10 ^ L < 10000 ^ K / 10000) {h : ℤ}
    (hAB : value a ≤ ((10000:ℚ) ^ (h + 1)) ^ 2) (hAU : 4 * ((10:ℚ) ^ (-L)) ^ 2 ≤ value a) (hh : h + 2 + (L + 3) / 4 ≤ 21) (fuel : Nat) :
    ∀ {r : Var}, SqrtInv (value a) K r → r.digits ≠ [] → value r + value a / value r ≤ 5 * 10000 ^ (h + 1) → r.ndigits ≤ 21 →
    sqrtLoop a L fuel r ≠ .error .overflow := by
  have hU := T_zpow_pos (-L)
  induction fuel with
  | zero => intro r _ _ _ _ hc; cases hc
  | succ fuel ih =>
    intro r hr hne hsum hn
    obtain ⟨hrp, -⟩ := hr.pos hne
    rcases sqrtStep_full ha hK0 hK hL0 hL1 hKL hr hne with ⟨r', q, x, e, hq, hx, hv, hr', hst, -, -, -⟩ | ⟨-, -, hc⟩
    swap
    · omega
    have hun : sqrtLoop a L (fuel + 1) r = if cmpCommon r' r = 0 then .ok r' else sqrtLoop a L fuel r' := by
      rw [sqrtLoop, e]; rfl
    rw [hun]
    split
    · intro hc; cases hc
    obtain ⟨b1, b2, b3⟩ := newton_bounds (r' := value r') ha.pos (B_zpow_pos (h + 1)) hAB hU hAU hrp hsum hq hx (by
      rw [hv]
      have := roundHalfAway_err x L
      linarith)
    have hne' : r'.digits ≠ [] := fun h0 => by
      have := (stripped_zero_iff hr'.digits hst).2 h0
      linarith
    have hB := B_zpow_pos (h + 1)
    have hlt : value r' < 10000 ^ (h + 2) := by
      rw [show h + 2 = h + 1 + 1 by ring, zpow_add₀ B_ne (h + 1) 1, zpow_one]
      linarith
    have hw := hr'.weight_lt hne' hlt
    have hlen := stripped_len hr'.digits hst hne' (s := L) (by rw [hv]; exact roundHalfAway_hasScale _ _)
    exact ih hr' hne' (by linarith) (by omega)

/-- The first guess: with its quotient it is below `5 · 10000^(h+1)`. -/
theorem sqrtGuess_sum {a : Var} (ha : PosVar a) {d : Int} {ds : List Int} (hd : a.digits = d :: ds) :
    value a ≤ ((10000:ℚ) ^ (a.weight.tdiv 2 + 1)) ^ 2 ∧
    value (sqrtGuess a.weight d) + value a / value (sqrtGuess a.weight d) ≤ 5 * 10000 ^ (a.weight.tdiv 2 + 1) := by
  have hdd := ha.digits
  rw [hd] at hdd
  have hd0 := (Digits.cons.1 hdd).1
  have hd1 : d ≠ 0 := by have := ha.head; rw [hd] at this; simpa using this
  have htw := tdiv2_bounds a.weight
  set h := a.weight.tdiv 2 with hh
  set g : Int := if d / 2 = 0 then 1 else d / 2 with hg
  have hg1 : 1 ≤ g := by rw [hg]; split <;> omega
  have hg2 : g ≤ 5000 := by rw [hg]; split <;> omega
  have hg4 : d + 1 ≤ 4 * g := by rw [hg]; split <;> omega
  have hval : value (sqrtGuess a.weight d) = g * 10000 ^ h := by simp [sqrtGuess, value, mag, hg, hh]
  have hgq : (1:ℚ) ≤ g := by exact_mod_cast hg1
  have hgq2 : (g:ℚ) ≤ 5000 := by exact_mod_cast hg2
  have hgq4 : (d:ℚ) + 1 ≤ 4 * g := by exact_mod_cast hg4
  have hp := B_zpow_pos h
  have hB1 : (10000:ℚ) ^ (h + 1) = 10000 * 10000 ^ h := by rw [zpow_add₀ B_ne, zpow_one]; ring
  have hA : value a ≤ (d + 1) * 10000 ^ a.weight := by
    rw [ha.value_eq, hd, mag_cons]
    have := (mag_lt (Digits.cons.1 hdd).2 (a.weight - 1)).le
    rw [show a.weight - 1 + 1 = a.weight by ring] at this
    linarith
  have hw : (10000:ℚ) ^ a.weight ≤ 10000 ^ h * 10000 ^ (h + 1) := by
    rw [← zpow_add₀ B_ne]; exact B_zpow_le_iff.2 (by omega)
  constructor
  · have := ha.lt
    rw [← zpow_natCast, ← zpow_mul]
    exact this.le.trans (B_zpow_le_iff.2 (by push_cast; omega))
  · rw [hval]
    have h1 : value a / (g * 10000 ^ h) ≤ 4 * 10000 ^ (h + 1) := by
      rw [div_le_iff₀ (by positivity)]
      have hB := B_zpow_pos (h + 1)
      calc value a ≤ (d + 1) * 10000 ^ a.weight := hA
        _ ≤ (4 * g) * (10000 ^ h * 10000 ^ (h + 1)) := mul_le_mul hgq4 hw (B_zpow_pos _).le (by positivity)
        _ = _ := by ring
    have h2 : (g:ℚ) * 10000 ^ h ≤ 10000 ^ (h + 1) := by
      rw [hB1]; exact mul_le_mul_of_nonneg_right (by linarith) hp.le
    linarith

theorem sqrt_room {a : Var} (ha : PosVar a) {s : Int} (hs1 : s ≤ 16375) : value a * 10 ^ (s + 8) < (10000:ℚ) ^ (100000:ℤ) / 10000 := by
  have hw := ha.weight_le
  have h1 : value a < 10000 ^ (33001:ℤ) := lt_of_lt_of_le ha.lt (B_zpow_le_iff.2 (by omega))
  have e : (10000:ℚ) ^ (100000:ℤ) / 10000 = 10000 ^ (99999:ℤ) := by
    rw [show (100000:ℤ) = 99999 + 1 by norm_num, zpow_add₀ B_ne, zpow_one, mul_div_assoc, div_self B_ne, mul_one]
  rw [e]
  calc value a * 10 ^ (s + 8) < 10000 ^ (33001:ℤ) * 10 ^ (s + 8) := mul_lt_mul_of_pos_right h1 (T_zpow_pos _)
    _ ≤ 10000 ^ (33001:ℤ) * 10000 ^ (5000 : ℤ) := by
        refine mul_le_mul_of_nonneg_left ?_ (B_zpow_pos _).le
        rw [B_eq_T]; exact T_zpow_le_iff.2 (by omega)
    _ = 10000 ^ (38001:ℤ) := by rw [← zpow_add₀ B_ne]; norm_num
    _ ≤ _ := B_zpow_le_iff.2 (by norm_num)

/-- A square root whose iterates have at most 21 digit groups does not overflow. -/
theorem sqrtCommon_short [Build] {a : Var} (ha : PosVar a) {s : Int} (hs0 : 0 ≤ s) (hs1 : s ≤ 16375) (fuel : Nat)
    (hAU : 4 * ((10:ℚ) ^ (-(s + 8))) ^ 2 ≤ value a) (hh : a.weight.tdiv 2 + 2 + (s + 11) / 4 ≤ 21) :
    sqrtCommon fuel a s ≠ .error .overflow := by
  obtain ⟨d, ds, hd⟩ := List.exists_cons_of_ne_nil ha.ne
  have hsg := ha.sign
  obtain ⟨hi, hi2⟩ := sqrtGuess_inv ha hd
  obtain ⟨h1, h2⟩ := sqrtGuess_sum ha hd
  have hKL := sqrt_room ha hs1
  have hloop := sqrtLoop_short ha (K := 100000) (by norm_num) (by norm_num) (L := s + 8) (by omega) (by omega) hKL h1 hAU (by omega) fuel hi hi2
    h2 (by simp [sqrtGuess, ndigits])
  have hun : sqrtCommon fuel a s = (do
      let r ← sqrtLoop a (s + 8) fuel (sqrtGuess a.weight d)
      roundCommon r s) := by
    unfold sqrtCommon
    rw [dassert_ok hsg, hd, fits_ok (by fits_tac)]
    rfl
  rcases sqrtCommon_spec ha hs0 hs1 fuel with ⟨u, -, e, -⟩ | e | ⟨-, e⟩ | ⟨hdb, e⟩
  · rw [e]; intro hc; cases hc
  · rw [e]; intro hc; cases hc
  · rw [e]; intro hc; cases hc
  · rw [hun] at e ⊢
    rcases sqrtLoop_spec ha (K := 100000) (by norm_num) (by norm_num) (L := s + 8) (by omega) (by omega) hKL fuel hi hi2 with
      ⟨u, eu, hu⟩ | eu | ⟨-, eu⟩ | ⟨-, eu⟩
    · obtain ⟨w, ew, -⟩ := roundCommon_spec u s hu.digits hu.not_nan ⟨by have := hu.small.lo; omega, by have := hu.small.hi; omega⟩
        ⟨by omega, by omega⟩
      rw [eu, bind_ok, ew] at e; cases e
    · rw [eu] at e; cases e
    · rw [eu] at e; cases e
    · exact absurd eu hloop

end PgNumeric
