import Verif.Proofs.Exp
import Mathlib.Analysis.Complex.Exponential
/-!
# The exponential: the power series
-/
namespace PgNumeric
open Spec Var

/-- The first `n` terms of the exponential series. -/
noncomputable def expSum (X : ℝ) (n : ℕ) : ℝ := ∑ j ∈ Finset.range n, X ^ j / j.factorial

theorem expSum_succ (X : ℝ) (n : ℕ) : expSum X (n + 1) = expSum X n + X ^ n / n.factorial := by
  unfold expSum; rw [Finset.sum_range_succ]

theorem expSum_two (X : ℝ) : expSum X 2 = 1 + X := by
  unfold expSum; simp [Finset.sum_range_succ]

theorem unit_small7 {l : ℤ} (hl : 7 ≤ l) : (10:ℝ) ^ (-l) ≤ 1 / 10 ^ 7 := by
  have : (10:ℝ) ^ (-l) ≤ 10 ^ (-7:ℤ) := zpow_le_zpow_right₀ (by norm_num) (by omega)
  norm_num at this ⊢
  exact this

theorem expSum_tail {X : ℝ} (hX : |X| ≤ 1) {k : ℕ} (hk : 2 ≤ k) :
    |Real.exp X - expSum X k| ≤ 3 / 2 * |X ^ k / k.factorial| := by
  have h := Real.exp_bound hX (n := k) (by omega)
  change |Real.exp X - expSum X k| ≤ _ at h
  refine h.trans ?_
  have hk2 : (2:ℝ) ≤ k := by exact_mod_cast hk
  have hf : (0:ℝ) < k.factorial := by exact_mod_cast k.factorial_pos
  rw [abs_div, abs_pow, abs_of_pos hf]
  have e : |X| ^ k * ((k.succ : ℝ) / (k.factorial * k)) = (k + 1) / k * (|X| ^ k / k.factorial) := by
    rw [Nat.succ_eq_add_one]; push_cast; field_simp
  rw [e]
  apply mul_le_mul_of_nonneg_right _ (by positivity)
  rw [div_le_div_iff₀ (by linarith) (by norm_num)]
  linarith

/-- A term of the series is small. -/
theorem term_small {X : ℝ} (hX : |X| ≤ 101 / 10000) {k : ℕ} (hk : 1 ≤ k) : |X ^ k / k.factorial| ≤ 101 / 10000 := by
  have hf : (1:ℝ) ≤ k.factorial := by exact_mod_cast k.factorial_pos
  rw [abs_div, abs_pow, abs_of_pos (by linarith : (0:ℝ) < k.factorial)]
  refine (div_le_self (by positivity) hf).trans ?_
  calc |X| ^ k ≤ |X| ^ 1 := pow_le_pow_of_le_one (abs_nonneg _) (by linarith) hk
    _ ≤ _ := by rw [pow_one]; exact hX

/-- The exponential series: the loop stops and its sum is within `l + 1` units of the exponential. -/
theorem expSeries_spec [Build] {x : Var} {m l : Int} (hl0 : 7 ≤ l) (hl1 : l ≤ 4100) (hx : Wide x m)
    (hX : |(value x : ℝ)| ≤ 101 / 10000) (fuel : Nat) :
    ∀ {k : ℕ} {ni elem result : Var} {m' : Int}, l + 2 < fuel + k → 2 ≤ k → (k:ℤ) ≤ l + 1 → Work ni 0 → value ni = k → Work elem l →
      Wide result m' →
      |(value elem : ℝ) - (value x : ℝ) ^ k / k.factorial| ≤ 10 ^ (-l) →
      (3 ≤ k → value elem ≠ 0 → 8 / 10 * (10:ℝ) ^ (-l) ≤ |(value x : ℝ)| ^ k) →
      |(value result : ℝ) - expSum (value x) k| ≤ (k - 2) * 10 ^ (-l) →
      ∃ S m'', expSeries x l fuel ni elem result = .ok S ∧ Wide S m'' ∧
        |(value S : ℝ) - Real.exp (value x)| ≤ (l + 1) * 10 ^ (-l) := by
  have hU : (0:ℝ) < 10 ^ (-l) := by positivity
  have hU1 := unit_small7 hl0
  induction fuel with
  | zero => intro k ni elem result m' h1 h2 h3; push_cast at h1; omega
  | succ fuel ih =>
    intro k ni elem result m' hf hk2 hkl hni hniv helem hres hee hbig hre
    rw [expSeries]
    by_cases he0 : elem.ndigits = 0
    · rw [if_pos he0]
      refine ⟨result, m', rfl, hres, ?_⟩
      have hed : elem.digits = [] := List.length_eq_zero_iff.1 (by unfold ndigits at he0; omega)
      have hez : (value elem : ℝ) = 0 := by rw [helem.zero_iff.1 hed]; norm_num
      rw [hez, zero_sub, abs_neg] at hee
      have ht := expSum_tail (X := value x) (by linarith) hk2
      have h1 := abs_sub_le (value result : ℝ) (expSum (value x) k) (Real.exp (value x))
      rw [abs_sub_comm (expSum _ _)] at h1
      have hkl' : (k:ℝ) ≤ l + 1 := by exact_mod_cast hkl
      generalize (10:ℝ) ^ (-l) = U at *
      nlinarith
    · rw [if_neg he0]
      have hed : elem.digits ≠ [] := fun hc => he0 (by unfold ndigits; rw [hc]; rfl)
      have hez : value elem ≠ 0 := fun hc => hed (helem.zero_iff.2 hc)
      have hkl2 : (k:ℤ) ≤ l := by
        rcases Nat.lt_or_ge k 3 with h | h
        · omega
        · have h9 := hbig h hez
          by_contra hc
          push Not at hc
          have h1 : |(value x : ℝ)| ^ k ≤ (1 / 10) ^ k := pow_le_pow_left₀ (abs_nonneg _) (by linarith) k
          have h2 : ((1:ℝ) / 10) ^ k = 10 ^ (-(k:ℤ)) := by rw [zpow_neg, zpow_natCast, one_div, inv_pow]
          have h3 : (10:ℝ) ^ (-(k:ℤ)) ≤ 10 ^ (-l - 1) := zpow_le_zpow_right₀ (by norm_num) (by omega)
          rw [zpow_sub₀ (by norm_num), zpow_one] at h3
          linarith
      have helems : |(value elem : ℝ)| < 1 := by
        have h1 := abs_sub_abs_le_abs_sub (value elem : ℝ) ((value x : ℝ) ^ k / k.factorial)
        have h2 := term_small hX (k := k) (by omega)
        linarith
      obtain ⟨-, -, eln, -⟩ := helem.small helems
      have hesm : Small elem := helem.smR (helems.le.trans (by norm_num))
      have hxsm : Small x := hx.smR (hX.trans (by norm_num))
      have hk4 : (k:ℝ) ≤ 4100 := by
        have : (k:ℤ) ≤ 4100 := by omega
        exact_mod_cast this
      have hnsm : Small ni := by
        refine hni.smR ?_
        rw [hniv]; push_cast
        rw [abs_of_nonneg (by positivity)]
        norm_num
        linarith
      have hr1 : |(value result : ℝ) - 1| ≤ 1 / 2 := by
        have ht := expSum_tail (X := value x) (by linarith) hk2
        have ht2 := term_small hX (k := k) (by omega)
        have h1 := abs_sub_le (value result : ℝ) (expSum (value x) k) (Real.exp (value x))
        rw [abs_sub_comm (expSum _ _)] at h1
        have h2 := Real.abs_exp_sub_one_le (x := (value x : ℝ)) (by linarith)
        have h3 := abs_sub_le (value result : ℝ) (Real.exp (value x)) 1
        have h5 : ((k:ℝ) - 2) * 10 ^ (-l) ≤ 4100 * (1 / 10 ^ 7) :=
          mul_le_mul (by linarith) hU1 hU.le (by norm_num)
        have h6 := hre.trans h5
        generalize (value x : ℝ) ^ k / (k.factorial : ℝ) = t at *
        norm_num at h6 ⊢
        linarith
      have hrsm : Small result := by
        refine hres.smR ?_
        have h4 := abs_sub_abs_le_abs_sub (value result : ℝ) 1
        rw [abs_one] at h4
        norm_num at hr1 ⊢
        linarith
      have hsum : value result + value elem ≠ 0 := by
        have h1 := abs_sub_abs_le_abs_sub (value elem : ℝ) ((value x : ℝ) ^ k / k.factorial)
        have h2 := term_small hX (k := k) (by omega)
        have h3 : |(value elem : ℝ)| ≤ 2 / 100 := by linarith
        have h4 : (0:ℝ) < value result + value elem := by
          have := (abs_le.1 hr1).1
          have := (abs_le.1 h3).1
          linarith
        intro h0
        have : ((value result + value elem : ℚ) : ℝ) = 0 := by rw [h0]; norm_num
        push_cast at this
        linarith
      obtain ⟨res', er, hres', hrv⟩ := hres.add_ne helem.toWide hrsm hesm hsum
      obtain ⟨u, eu, hu, hue⟩ := helem.toWide.mul hx (l := l) (by omega) (by omega) hesm hxsm (n := 1025) (by omega)
      obtain ⟨ni', eni, hni', hniv'⟩ := hni.add (Work.of_canonical one_canonical) hnsm one_small
      rw [show max (0:ℤ) one.dscale = 0 by decide] at hni'
      rw [hniv, one_value] at hniv'
      have hniR : (value ni' : ℝ) = k + 1 := by rw [hniv']; push_cast; ring
      have hk2' : (2:ℝ) ≤ k := by exact_mod_cast hk2
      have hni0 : (0:ℝ) < value ni' := by rw [hniR]; linarith
      have hn0 : value ni' ≠ 0 := by intro h0; rw [h0] at hni0; norm_num at hni0
      have hnb : |value ni'| < 10000 ^ (33001:ℤ) := by
        apply lt_big
        rw [hniv', abs_of_pos (by positivity)]
        have : (k:ℤ) ≤ 4100 := by omega
        have : (k:ℚ) ≤ 4100 := by exact_mod_cast this
        norm_num
        linarith
      -- the product against the exact one
      have hue' : |(value u : ℝ) - (value x : ℝ) ^ (k + 1) / k.factorial| ≤ 62 / 100 * 10 ^ (-l) := by
        have h1 := abs_sub_le (value u : ℝ) (value elem * value x) ((value x : ℝ) ^ (k + 1) / k.factorial)
        have e : (value elem : ℝ) * value x - (value x : ℝ) ^ (k + 1) / k.factorial =
            (value elem - (value x : ℝ) ^ k / k.factorial) * value x := by rw [pow_succ]; ring
        rw [e, abs_mul] at h1
        have h2 := mul_le_mul hee hX (abs_nonneg _) hU.le
        push_cast at hue
        generalize (10:ℝ) ^ (-l) = U at *
        norm_num at hue
        linarith
      have hus : |(value u : ℝ)| < 1 := by
        have h1 := abs_sub_abs_le_abs_sub (value u : ℝ) ((value x : ℝ) ^ (k + 1) / k.factorial)
        have h2 : |(value x : ℝ) ^ (k + 1) / k.factorial| ≤ 101 / 10000 := by
          have := term_small hX (k := k) (by omega)
          rw [pow_succ, mul_div_right_comm, abs_mul]
          have h0 := abs_nonneg ((value x : ℝ) ^ k / k.factorial)
          nlinarith [abs_nonneg (value x : ℝ)]
        linarith
      obtain ⟨-, -, -, hub⟩ := hu.small hus
      have hnd : ni'.ndigits ≤ 21 := by
        have := (hni'.bounds (k := 2) (by norm_num) (by
          rw [hniv', abs_of_pos (by positivity)]
          have : (k:ℤ) ≤ 4101 := by omega
          have : (k:ℚ) ≤ 4101 := by exact_mod_cast this
          norm_num
          linarith)).2.2.2
        simp only [ndigits]; omega
      obtain ⟨e, y, ee, he, hev, hy, hee2⟩ := hu.divFast_short hni' (l := l) (by omega) (by omega) hn0 hub hnb hnd
      simp only [er, eu, eni, ee, bind_ok, expect, pure_ok]
      have hfac : ((k + 1).factorial : ℝ) = (k + 1) * k.factorial := by rw [Nat.factorial_succ]; push_cast; ring
      have hk0 : (0:ℝ) < k + 1 := by linarith
      have hdiv : |(value u : ℝ) / value ni' - (value x : ℝ) ^ (k + 1) / (k + 1).factorial| ≤ 21 / 100 * 10 ^ (-l) := by
        have e1 : (value x : ℝ) ^ (k + 1) / (k + 1).factorial = (value x : ℝ) ^ (k + 1) / k.factorial / (k + 1) := by
          rw [hfac, div_div, mul_comm]
        rw [e1, hniR, ← sub_div, abs_div, abs_of_pos hk0, div_le_iff₀ hk0]
        have : 3 * (10:ℝ) ^ (-l) ≤ (k + 1) * 10 ^ (-l) := mul_le_mul_of_nonneg_right (by linarith) hU.le
        linarith
      apply ih (k := k + 1) (by push_cast at hf ⊢; omega) (by omega) (by push_cast; omega) hni' (by rw [hniv']; push_cast; ring) he hres'
      · have h1 := abs_sub_le (value e : ℝ) (value u / value ni') ((value x : ℝ) ^ (k + 1) / (k + 1).factorial)
        generalize (10:ℝ) ^ (-l) = U at *
        linarith
      · intro _ hne
        rw [hev] at hne
        have h1 := round_ne_zero hne
        have h2 := abs_sub_abs_le_abs_sub (y:ℝ) (value u / value ni')
        have h3 : |(value u : ℝ) / value ni'| ≤ |(value u : ℝ)| / 3 := by
          rw [abs_div, abs_of_pos hni0]
          exact div_le_div_of_nonneg_left (abs_nonneg _) (by norm_num) (by rw [hniR]; linarith)
        have h4 := abs_sub_abs_le_abs_sub (value u : ℝ) ((value x : ℝ) ^ (k + 1) / k.factorial)
        have h5 : |(value x : ℝ) ^ (k + 1) / k.factorial| ≤ |(value x : ℝ)| ^ (k + 1) := by
          have hf : (1:ℝ) ≤ k.factorial := by exact_mod_cast k.factorial_pos
          rw [abs_div, abs_pow, abs_of_pos (by linarith : (0:ℝ) < k.factorial)]
          exact div_le_self (by positivity) hf
        generalize (10:ℝ) ^ (-l) = U at *
        generalize |(value x : ℝ)| ^ (k + 1) = P at *
        norm_num at hy
        linarith
      · rw [expSum_succ, hrv]
        push_cast
        have e1 : (value result : ℝ) + value elem - (expSum (value x) k + (value x : ℝ) ^ k / k.factorial) =
          (value result - expSum (value x) k) + (value elem - (value x : ℝ) ^ k / k.factorial) := by ring
        rw [e1]
        refine (abs_add_le _ _).trans ?_
        linarith

end PgNumeric
