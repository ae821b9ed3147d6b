import Verif.Proofs.Work
import Verif.Model.Power
import Mathlib.Analysis.SpecialFunctions.Log.Deriv
/-!
# The power series of the natural logarithm
-/
namespace PgNumeric
open Spec Var

/-- Half of `log ((1+z)/(1-z))`. -/
noncomputable def halfLog (z : ℝ) : ℝ := (Real.log (1 + z) - Real.log (1 - z)) / 2

/-- The first `n` terms of its series. -/
noncomputable def halfSum (z : ℝ) (n : ℕ) : ℝ := ∑ j ∈ Finset.range n, z ^ (2 * j + 1) / (2 * j + 1)

theorem halfSum_succ (z : ℝ) (n : ℕ) : halfSum z (n + 1) = halfSum z n + z ^ (2 * n + 1) / (2 * n + 1) := by
  unfold halfSum; rw [Finset.sum_range_succ]

theorem halfLog_tail {z : ℝ} (hz : |z| ≤ 527 / 10000) (n : ℕ) :
    |halfLog z - halfSum z n| ≤ 1003 / 1000 * (|z| ^ (2 * n + 1) / (2 * n + 1)) := by
  have hz1 : |z| < 1 := by linarith
  have h := Real.hasSum_log_sub_log_of_abs_lt_one hz1
  have h' : HasSum (fun k : ℕ => z ^ (2 * k + 1) / (2 * k + 1)) (halfLog z) := by
    have h3 := h.mul_right (1 / 2)
    have e1 : (fun k : ℕ => z ^ (2 * k + 1) / (2 * (k:ℝ) + 1)) = fun k : ℕ => 2 * (1 / (2 * (k:ℝ) + 1)) * z ^ (2 * k + 1) * (1 / 2) := by
      ext k; ring
    have e2 : halfLog z = (Real.log (1 + z) - Real.log (1 - z)) * (1 / 2) := by unfold halfLog; ring
    rw [e1, e2]; exact h3
  have h2 := (hasSum_nat_add_iff' n).2 h'
  set q : ℝ := z ^ 2 with hq
  have hq0 : 0 ≤ q := by positivity
  have hq1 : q ≤ 28 / 10000 := by
    rw [hq, ← sq_abs]; nlinarith [abs_nonneg z]
  have hg : HasSum (fun k : ℕ => |z| ^ (2 * n + 1) / (2 * n + 1) * q ^ k) (|z| ^ (2 * n + 1) / (2 * n + 1) * (1 - q)⁻¹) :=
    (hasSum_geometric_of_lt_one hq0 (by linarith)).mul_left _
  have hb : ∀ k : ℕ, ‖z ^ (2 * (k + n) + 1) / (2 * ((k + n : ℕ) : ℝ) + 1)‖ ≤ |z| ^ (2 * n + 1) / (2 * n + 1) * q ^ k := by
    intro k
    rw [Real.norm_eq_abs, abs_div, abs_pow, abs_of_pos (by positivity : (0:ℝ) < 2 * ((k + n : ℕ) : ℝ) + 1)]
    have e : |z| ^ (2 * (k + n) + 1) = |z| ^ (2 * n + 1) * q ^ k := by
      rw [hq, ← sq_abs, ← pow_mul, ← pow_add]; congr 1; ring
    rw [e, div_mul_eq_mul_div]
    apply div_le_div_of_nonneg_left (by positivity) (by positivity)
    push_cast
    have : (0:ℝ) ≤ k := by positivity
    linarith
  have := h2.norm_le_of_bounded hg hb
  rw [Real.norm_eq_abs] at this
  refine this.trans ?_
  rw [mul_comm]
  apply mul_le_mul_of_nonneg_right _ (by positivity)
  rw [inv_le_comm₀ (by linarith) (by norm_num)]
  norm_num
  linarith

theorem halfLog_lip {z w : ℝ} (hz : |z| ≤ 527 / 10000) (hw : |w| ≤ 527 / 10000) : |halfLog z - halfLog w| ≤ 106 / 100 * |z - w| := by
  have h1 := abs_le.1 hz
  have h2 := abs_le.1 hw
  have a := log_lip (a := 1 + z) (b := 1 + w) (m := 947 / 1000) (by norm_num) (by linarith) (by linarith)
  have b := log_lip (a := 1 - z) (b := 1 - w) (m := 947 / 1000) (by norm_num) (by linarith) (by linarith)
  rw [show 1 + z - (1 + w) = z - w by ring] at a
  rw [show 1 - z - (1 - w) = -(z - w) by ring, abs_neg] at b
  unfold halfLog
  have e : (Real.log (1 + z) - Real.log (1 - z)) / 2 - (Real.log (1 + w) - Real.log (1 - w)) / 2 =
    ((Real.log (1 + z) - Real.log (1 + w)) - (Real.log (1 - z) - Real.log (1 - w))) / 2 := by ring
  rw [e, abs_div, abs_of_pos (by norm_num : (0:ℝ) < 2)]
  have := abs_sub (Real.log (1 + z) - Real.log (1 + w)) (Real.log (1 - z) - Real.log (1 - w))
  have h0 := abs_nonneg (z - w)
  rw [div_le_iff₀ (by norm_num)]
  have e2 : |z - w| / (947 / 1000) = 1000 / 947 * |z - w| := by ring
  rw [e2] at a b
  linarith

theorem unit_small {l : ℤ} (hl : 8 ≤ l) : (10:ℝ) ^ (-l) ≤ 1 / 10 ^ 8 := by
  have : (10:ℝ) ^ (-l) ≤ 10 ^ (-8:ℤ) := zpow_le_zpow_right₀ (by norm_num) (by omega)
  norm_num at this ⊢
  exact this

theorem pow_ten_ge {z : ℝ} {n : ℕ} {l : ℤ} (hz : |z| ≤ 1 / 10) (h : 8 / 10 * (10:ℝ) ^ (-l) ≤ |z| ^ n) : (n:ℤ) ≤ l := by
  by_contra hc
  push Not at hc
  have h1 : |z| ^ n ≤ (1 / 10) ^ n := pow_le_pow_left₀ (abs_nonneg _) hz n
  have h2 : ((1:ℝ) / 10) ^ n = 10 ^ (-(n:ℤ)) := by rw [zpow_neg, zpow_natCast, one_div, inv_pow]
  have h3 : (10:ℝ) ^ (-(n:ℤ)) ≤ 10 ^ (-l - 1) := zpow_le_zpow_right₀ (by norm_num) (by omega)
  rw [zpow_sub₀ (by norm_num), zpow_one] at h3
  have : (0:ℝ) < 10 ^ (-l) := by positivity
  linarith

/-- A working variable with magnitude below one. -/
theorem Wide.small {v : Var} {l : Int} (h : Wide v l) (hv : |(value v : ℝ)| < 1) :
    -((l + 3) / 4) ≤ v.weight ∧ v.weight ≤ 0 ∧ (v.digits.length : ℤ) ≤ (l + 3) / 4 ∧ |value v| < 10000 ^ (33001:ℤ) := by
  have hq : |value v| < 1 := by exact_mod_cast hv
  obtain ⟨h1, h2, -, h3⟩ := h.bounds (k := 0) le_rfl (by simpa using hq)
  refine ⟨h1, h2, by omega, lt_big (lt_trans hq ?_)⟩
  norm_num

theorem Work.small {v : Var} {l : Int} (h : Work v l) (hv : |(value v : ℝ)| < 1) :
    -((l + 3) / 4) ≤ v.weight ∧ v.weight ≤ 0 ∧ (v.digits.length : ℤ) ≤ (l + 3) / 4 ∧ |value v| < 10000 ^ (33001:ℤ) :=
  h.toWide.small hv

theorem lnSeries_spec [Build] {x : Var} {l : Int} (hl0 : 8 ≤ l) (hl1 : l ≤ 5008) (hx : Work x l) {z : ℝ} (hz : |z| ≤ 527 / 10000)
    (hxz : |(value x : ℝ) - z ^ 2| ≤ 63 / 100 * 10 ^ (-l)) (fuel : Nat) :
    ∀ {i : ℕ} {ni xx result : Var}, Work ni 0 → value ni = 2 * i + 1 → Work xx l → Work result l → 2 * (i:ℤ) ≤ l →
      |(value xx : ℝ) - z ^ (2 * i + 1)| ≤ 67 / 100 * 10 ^ (-l) →
      |(value result : ℝ) - halfSum z (i + 1)| ≤ i * (73 / 100 * 10 ^ (-l)) →
      (∃ S, lnSeries x l fuel ni xx result = .ok S ∧ Work S l ∧
        |(value S : ℝ) - halfLog z| ≤ (37 / 100 * l + 74 / 100) * 10 ^ (-l)) ∨
      (2 * ((i:ℤ) + fuel) ≤ l ∧ lnSeries x l fuel ni xx result = .error .diverge) := by
  induction fuel with
  | zero => intro i ni xx result _ _ _ _ hil _ _; exact .inr ⟨by push_cast; omega, rfl⟩
  | succ fuel ih =>
    intro i ni xx result hni hniv hxx hres hil hxe hre
    have hU : (0:ℝ) < 10 ^ (-l) := by positivity
    have hU1 := unit_small hl0
    have hz1 : |z| ≤ 1 := by linarith
    have hpow : ∀ n : ℕ, 1 ≤ n → |z ^ n| ≤ 527 / 10000 := by
      intro n hn
      rw [abs_pow]
      calc |z| ^ n ≤ |z| ^ 1 := pow_le_pow_of_le_one (abs_nonneg _) hz1 hn
        _ ≤ _ := by rw [pow_one]; exact hz
    have hz2 : |z ^ 2| ≤ 28 / 10000 := by rw [abs_pow]; nlinarith [abs_nonneg z]
    have hxxs : |(value xx : ℝ)| < 1 := by
      have := abs_sub_abs_le_abs_sub (value xx : ℝ) (z ^ (2 * i + 1))
      have := hpow (2 * i + 1) (by omega)
      linarith
    have hxs : |(value x : ℝ)| ≤ 29 / 10000 := by
      have := abs_sub_abs_le_abs_sub (value x : ℝ) (z ^ 2)
      linarith
    obtain ⟨-, -, xxl, xxb⟩ := hxx.small hxxs
    have hsum : ∀ n : ℕ, |halfSum z n| ≤ 2 / 10 := by
      intro n
      have h2 := halfLog_tail hz n
      have h3 := halfLog_tail hz 0
      have h4 : halfSum z 0 = 0 := by unfold halfSum; simp
      rw [h4, sub_zero] at h3
      have h5 : |z| ^ (2 * n + 1) / (2 * (n : ℝ) + 1) ≤ 527 / 10000 := by
        have := hpow (2 * n + 1) (by omega)
        rw [abs_pow] at this
        refine le_trans (div_le_self (by positivity) ?_) this
        have : (0:ℝ) ≤ n := by positivity
        linarith
      have h6 : |z| ^ (2 * 0 + 1) / (2 * ((0:ℕ):ℝ) + 1) ≤ 527 / 10000 := by norm_num; linarith
      have h7 := abs_sub_abs_le_abs_sub (halfSum z n) (halfLog z)
      rw [abs_sub_comm (halfSum z n)] at h7
      linarith
    have hi0 : (0:ℝ) ≤ i := by positivity
    have hi5 : (i:ℝ) ≤ 3000 := by
      have : i ≤ 3000 := by omega
      exact_mod_cast this
    have hress : |(value result : ℝ)| < 1 := by
      have h1 := abs_sub_abs_le_abs_sub (value result : ℝ) (halfSum z (i + 1))
      have h2 := hsum (i + 1)
      have h8 : (i : ℝ) * (73 / 100 * 10 ^ (-l)) ≤ 1 / 10 ^ 3 := by
        calc (i : ℝ) * (73 / 100 * 10 ^ (-l)) ≤ 3000 * (73 / 100 * (1 / 10 ^ 8)) := by
              apply mul_le_mul hi5 _ (by positivity) (by norm_num)
              linarith
          _ ≤ _ := by norm_num
      linarith
    have nism : Small ni := hni.smR (by
      rw [hniv]; push_cast; rw [abs_of_nonneg (by linarith)]; norm_num; linarith)
    -- the three operations
    obtain ⟨ni', eni, hni', hniv'⟩ := hni.add (two_powOK.work rfl) nism two_small
    rw [max_self] at hni'
    rw [hniv, two_powOK.value] at hniv'
    have hniv'' : value ni' = 2 * ((i + 1 : ℕ) : ℚ) + 1 := by rw [hniv']; push_cast; ring
    obtain ⟨xx', exx, hxx', hxe'⟩ := hxx.mul hx (l := l) (by omega) (by omega) (hxx.sm xxb)
      (hx.smR (by norm_num at hxs ⊢; linarith)) (n := 1253) (by omega)
    have hxxe : |(value xx' : ℝ) - z ^ (2 * (i + 1) + 1)| ≤ 67 / 100 * 10 ^ (-l) := by
      have e : (value xx : ℝ) * value x - z ^ (2 * (i + 1) + 1) =
          (value xx - z ^ (2 * i + 1)) * value x + z ^ (2 * i + 1) * (value x - z ^ 2) := by
        rw [show 2 * (i + 1) + 1 = (2 * i + 1) + 2 by ring, pow_add]; ring
      have h1 : |(value xx : ℝ) * value x - z ^ (2 * (i + 1) + 1)| ≤ 67 / 100 * 10 ^ (-l) * (29 / 10000) + 527 / 10000 * (63 / 100 * 10 ^ (-l)) := by
        rw [e]
        refine (abs_add_le _ _).trans ?_
        rw [abs_mul, abs_mul]
        apply add_le_add
        · exact mul_le_mul hxe hxs (abs_nonneg _) (by positivity)
        · exact mul_le_mul (hpow _ (by omega)) hxz (abs_nonneg _) (by norm_num)
      have h2 := abs_sub_le (value xx' : ℝ) (value xx * value x) (z ^ (2 * (i + 1) + 1))
      push_cast at hxe'
      linarith
    have hxx's : |(value xx' : ℝ)| < 1 := by
      have := abs_sub_abs_le_abs_sub (value xx' : ℝ) (z ^ (2 * (i + 1) + 1))
      have := hpow (2 * (i + 1) + 1) (by omega)
      linarith
    obtain ⟨-, -, -, hxxb⟩ := hxx'.small hxx's
    have hnR : (value ni' : ℝ) = 2 * ((i + 1 : ℕ) : ℝ) + 1 := by rw [hniv'']; push_cast; ring
    have hn3 : (3:ℝ) ≤ value ni' := by
      rw [hnR]; push_cast
      have : (0:ℝ) ≤ i := by positivity
      linarith
    have hn0 : value ni' ≠ 0 := by
      intro h0; rw [h0] at hn3; norm_num at hn3
    have hnb : |value ni'| < 10000 ^ (33001:ℤ) := by
      apply lt_big
      rw [hniv'', abs_of_pos (by positivity)]
      have : (i:ℤ) ≤ 5008 := by omega
      have : (i:ℚ) ≤ 5008 := by exact_mod_cast this
      push_cast
      norm_num
      linarith
    have hnl : ni'.ndigits ≤ 21 := by
      obtain ⟨-, -, -, h3⟩ := hni'.bounds (k := 1) (by norm_num) (by
        rw [hniv'', abs_of_pos (by positivity)]
        have : i ≤ 2504 := by omega
        have : (i:ℚ) ≤ 2504 := by exact_mod_cast this
        push_cast
        norm_num
        linarith)
      simp only [ndigits]
      omega
    obtain ⟨e, y, ee, he, hev, hy, hee⟩ := hxx'.divFast_short hni' (l := l) (by omega) (by omega) hn0 hxxb hnb hnl
    have hun : lnSeries x l (fuel + 1) ni xx result = (if e.ndigits = 0 then pure result
        else do
          let result ← addCommon result e
          fits [l * 2, result.weight - l * 2 / DEC_DIGITS]
          if e.weight < result.weight - l * 2 / DEC_DIGITS then pure result
          else lnSeries x l fuel ni' xx' result) := by
      rw [lnSeries]
      simp only [eni, exx, ee, bind_ok, expect, pure_ok]
    rw [hun]
    -- the exact term
    set t : ℝ := z ^ (2 * (i + 1) + 1) / (2 * ((i + 1 : ℕ) : ℝ) + 1) with ht
    have hni0 : (0:ℝ) < value ni' := by linarith
    have hxt : |(value xx' : ℝ) / value ni' - t| ≤ 67 / 300 * 10 ^ (-l) := by
      rw [ht, ← hnR, ← sub_div, abs_div, abs_of_pos hni0, div_le_iff₀ hni0]
      calc _ ≤ 67 / 100 * (10:ℝ) ^ (-l) := hxxe
        _ = 67 / 300 * 10 ^ (-l) * 3 := by ring
        _ ≤ _ := mul_le_mul_of_nonneg_left hn3 (by positivity)
    have het : |(value e : ℝ) - t| ≤ 73 / 100 * 10 ^ (-l) := by
      have := abs_sub_le (value e : ℝ) (value xx' / value ni') t
      generalize (10:ℝ) ^ (-l) = T at *
      linarith
    have hi2 : (i:ℝ) ≤ l / 2 := by
      have : 2 * (i:ℝ) ≤ l := by exact_mod_cast hil
      linarith
    by_cases he0 : e.ndigits = 0
    · rw [if_pos he0]
      left
      have hed : e.digits = [] := List.length_eq_zero_iff.1 (by unfold ndigits at he0; omega)
      have hez : (value e : ℝ) = 0 := by rw [he.zero_iff.1 hed]; norm_num
      rw [hez, zero_sub, abs_neg] at het
      refine ⟨result, rfl, hres, ?_⟩
      have htail := halfLog_tail hz (i + 1)
      have e1 : |z| ^ (2 * (i + 1) + 1) / (2 * ((i + 1 : ℕ) : ℝ) + 1) = |t| := by
        rw [ht, abs_div, abs_pow, abs_of_pos (by positivity : (0:ℝ) < 2 * ((i + 1 : ℕ) : ℝ) + 1)]
      rw [e1] at htail
      have h1 := abs_sub_le (value result : ℝ) (halfSum z (i + 1)) (halfLog z)
      rw [abs_sub_comm (halfSum z (i + 1))] at h1
      have h2 : (i:ℝ) * (73 / 100 * 10 ^ (-l)) ≤ l / 2 * (73 / 100 * 10 ^ (-l)) := mul_le_mul_of_nonneg_right hi2 (by positivity)
      -- sharpen the last term
      have h3 : |t| ≤ (1 / 2 + 1 / 10 ^ 10 + 67 / 300) * 10 ^ (-l) := by
        have := abs_sub_le t (value xx' / value ni' : ℝ) (value e)
        rw [hez, sub_zero, sub_zero, abs_sub_comm] at this
        rw [hez, zero_sub, abs_neg] at hee
        linarith
      nlinarith
    · rw [if_neg he0]
      have hed : e.digits ≠ [] := fun hc => he0 (by unfold ndigits; rw [hc]; rfl)
      have hez : value e ≠ 0 := fun hc => hed (he.zero_iff.2 hc)
      have hes : |(value e : ℝ)| < 1 := by
        have h1 := abs_sub_abs_le_abs_sub (value e : ℝ) t
        have h2 : |t| ≤ 527 / 10000 := by
          rw [ht, abs_div]
          have := hpow (2 * (i + 1) + 1) (by omega)
          refine le_trans (div_le_self (abs_nonneg _) ?_) this
          rw [← hnR, abs_of_pos hni0]; linarith
        linarith
      obtain ⟨res', er, hres', hrv⟩ := hres.add he (hres.sm (hres.small hress).2.2.2) (he.sm (he.small hes).2.2.2)
      rw [max_self] at hres'
      simp only [er, bind_ok]
      have hre' : |(value res' : ℝ) - halfSum z (i + 1 + 1)| ≤ ((i + 1 : ℕ) : ℝ) * (73 / 100 * 10 ^ (-l)) := by
        rw [halfSum_succ, ← ht, hrv]
        push_cast
        have e1 : (value result : ℝ) + value e - (halfSum z (i + 1) + t) = (value result - halfSum z (i + 1)) + (value e - t) := by ring
        rw [e1]
        refine (abs_add_le _ _).trans ?_
        linarith
      -- the index stays below half the scale
      have hbig : 8 / 10 * (10:ℝ) ^ (-l) ≤ |z| ^ (2 * (i + 1) + 1) := by
        rw [hev] at hez
        have h1 := round_ne_zero hez
        have h2 := abs_sub_abs_le_abs_sub (y:ℝ) (value xx' / value ni')
        have h3 : |(value xx' : ℝ) / value ni'| ≤ |(value xx' : ℝ)| / 3 := by
          rw [abs_div, abs_of_pos hni0]
          exact div_le_div_of_nonneg_left (abs_nonneg _) (by norm_num) hn3
        have h4 := abs_sub_abs_le_abs_sub (value xx' : ℝ) (z ^ (2 * (i + 1) + 1))
        rw [abs_pow] at h4
        generalize (10:ℝ) ^ (-l) = T at *
        linarith
      have hidx := pow_ten_ge (by linarith : |z| ≤ 1 / 10) hbig
      push_cast at hidx
      -- the weight test never stops the loop
      have hres's : |(value res' : ℝ)| < 1 := by
        have h1 := abs_sub_abs_le_abs_sub (value res' : ℝ) (halfSum z (i + 1 + 1))
        have h2 := hsum (i + 1 + 1)
        have h8 : ((i + 1 : ℕ) : ℝ) * (73 / 100 * 10 ^ (-l)) ≤ 1 / 10 ^ 3 := by
          have a1 : ((i + 1 : ℕ) : ℝ) ≤ 3000 := by
            have : i + 1 ≤ 3000 := by omega
            exact_mod_cast this
          calc ((i + 1 : ℕ) : ℝ) * (73 / 100 * 10 ^ (-l)) ≤ 3000 * (73 / 100 * (1 / 10 ^ 8)) := by
                apply mul_le_mul a1 _ (by positivity) (by norm_num)
                linarith
            _ ≤ _ := by norm_num
        linarith
      obtain ⟨rw1, rw2, -, -⟩ := hres'.small hres's
      rw [fits_ok (by simp only [DEC_DIGITS]; fits_tac), bind_ok]
      obtain ⟨ew1, -, -, -⟩ := he.small hes
      rw [if_neg (by simp only [DEC_DIGITS]; omega)]
      rcases ih (i := i + 1) hni' (by rw [hniv'']) hxx' hres' (by push_cast; omega) hxxe hre' with h | ⟨h1, h2⟩
      · exact .inl h
      · exact .inr ⟨by push_cast at h1 ⊢; omega, h2⟩

end PgNumeric
