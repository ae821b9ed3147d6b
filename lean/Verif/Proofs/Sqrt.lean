import Verif.Model.Sqrt
import Verif.Proofs.Fast
import Verif.Proofs.RoundErr
import Verif.Proofs.Api2
/-!
# The Newton loop of the square root
-/
namespace PgNumeric
open Spec Var

/-- A positive working variable: what `sqrt_common` and `ln_common` need of their argument. -/
structure PosVar (a : Var) : Prop where
  digits : Digits a.digits
  sign : a.sign = .pos
  head : a.digits.head? ≠ some 0
  ne : a.digits ≠ []
  weight_ge : -4097 ≤ a.weight
  weight_le : a.weight ≤ 33000
  len : a.digits.length ≤ 190000
  dscale_nonneg : 0 ≤ a.dscale
  dscale_le : a.dscale ≤ 16383
  scale : HasScale (value a) a.dscale

theorem PosVar.not_nan {a : Var} (h : PosVar a) : a.sign ≠ .nan := by rw [h.sign]; decide

theorem PosVar.small {a : Var} (h : PosVar a) : Small a :=
  ⟨by have := h.weight_ge; omega, by have := h.weight_le; omega, by have := h.len; omega⟩

theorem PosVar.value_eq {a : Var} (h : PosVar a) : value a = mag a.digits a.weight := by unfold value; rw [h.sign]

theorem PosVar.pos {a : Var} (h : PosVar a) : 0 < value a := by
  rw [h.value_eq]; exact mag_pos_of_head h.digits h.ne h.head _

theorem PosVar.ge {a : Var} (h : PosVar a) : (10000:ℚ) ^ a.weight ≤ value a := by
  rw [h.value_eq]
  obtain ⟨d, ds, hd⟩ := List.exists_cons_of_ne_nil h.ne
  have hh := h.head
  have hdg := h.digits
  rw [hd] at hh hdg ⊢
  exact mag_ge_of_head hdg (by simpa using hh) a.weight

theorem PosVar.lt {a : Var} (h : PosVar a) : value a < (10000:ℚ) ^ (a.weight + 1) := by
  rw [h.value_eq]; exact mag_lt h.digits _

theorem PosVar.of_canonical {a : Var} (ha : Canonical a) (hpos : 0 < value a) : PosVar a := by
  have hane : a.digits ≠ [] := by
    intro h
    have := (stripped_zero_iff ha.digits ha.stripped).2 h
    linarith
  have hsg : a.sign = .pos := by
    have hm := mag_nonneg ha.digits a.weight
    have hn := ha.not_nan
    cases hs : a.sign
    · rfl
    · unfold value at hpos; rw [hs] at hpos; simp only at hpos; linarith
    · exact absurd hs hn
  have hal := ha.len hane
  have h1 := ha.weight_le
  have h2 := ha.weight_ge
  have h3 := ha.dscale_le
  have h4 := ha.dscale_nonneg
  simp only [ndigits] at hal
  exact ⟨ha.digits, hsg, ha.stripped.1, hane, by omega, by omega, by omega, h4, h3, ha.scale⟩

/-- Loop invariant: an iterate with dividend `A`; `K` bounds the weights. -/
structure SqrtInv (A : ℚ) (K : ℤ) (r : Var) : Prop where
  digits : Digits r.digits
  not_nan : r.sign ≠ .nan
  head : r.digits.head? ≠ some 0
  signOK : SignOK r
  dscale_nonneg : 0 ≤ r.dscale
  dscale_le : r.dscale ≤ 16383
  nonneg : 0 ≤ value r
  weight_ge : -100000 ≤ r.weight
  lt : value r < 10000 ^ K
  wide : HasScale (value r) 100000
  small : Small r
  quot : r.digits ≠ [] → A / value r < 10000 ^ K / 10000

theorem SqrtInv.pos {A : ℚ} {K : ℤ} {r : Var} (h : SqrtInv A K r) (hne : r.digits ≠ []) :
    0 < value r ∧ value r = mag r.digits r.weight := by
  have hm := mag_pos_of_head h.digits hne h.head r.weight
  have hv := h.nonneg
  unfold value at *
  cases hs : r.sign <;> rw [hs] at hv <;> simp only at hv ⊢
  · exact ⟨hm, trivial⟩
  · linarith
  · exact ⟨hm, trivial⟩

theorem SqrtInv.weight_le {A : ℚ} {K : ℤ} {r : Var} (h : SqrtInv A K r) (hne : r.digits ≠ []) : r.weight < K := by
  have hp := (h.pos hne).2
  have hl := h.lt
  obtain ⟨d, ds, hd⟩ := List.exists_cons_of_ne_nil hne
  have hh := h.head
  have hdg := h.digits
  rw [hp, hd] at hl
  rw [hd] at hh hdg
  have := mag_ge_of_head hdg (by simpa using hh) r.weight
  exact B_zpow_lt_iff.1 (lt_of_le_of_lt this hl)

theorem zeroPointFive_ok : Digits zeroPointFive.digits ∧ zeroPointFive.sign ≠ .nan ∧ value zeroPointFive = 1 / 2 := by
  refine ⟨?_, by simp [zeroPointFive], ?_⟩
  · intro d hd
    simp [zeroPointFive] at hd; subst hd; norm_num
  · simp [value, mag, zeroPointFive]; norm_num

theorem zeroPointFive_small : Small zeroPointFive := by constructor <;> simp [zeroPointFive]

/-- One Newton step: `q` is the rounded quotient, `x` the (slightly perturbed) mean before rounding. -/
theorem sqrtStep_full [Build] {a : Var} (ha : PosVar a) {K : ℤ} (hK0 : 1 ≤ K) (hK : K ≤ 150000)
    {L : Int} (hL0 : 0 ≤ L) (hL1 : L ≤ 16383) (hKL : value a * 10 ^ L < 10000 ^ K / 10000)
    {r : Var} (hr : SqrtInv (value a) K r) (hne : r.digits ≠ []) :
    (∃ r' q x, sqrtStep a r L = .ok r' ∧ |q - value a / value r| ≤ (1 / 2 + 1 / 10 ^ 10) * 10 ^ (-L) ∧
      |x - (value r + q) / 2| ≤ 1 / 10000 * 10 ^ (-L) ∧ value r' = roundHalfAway x L ∧
      SqrtInv (value a) K r' ∧ Stripped r' ∧ r'.dscale = L ∧ HasScale q L ∧
      (HasScale (value r) L → x = (value r + q) / 2)) ∨
    (Build.debug = true ∧ sqrtStep a r L = .error .overflow ∧ 21 < r.ndigits) := by
  have hU := T_zpow_pos (-L)
  have hU1 : (10:ℚ) ^ (-L) ≤ 1 := by
    rw [show (1:ℚ) = 10 ^ (0:ℤ) by norm_num, T_zpow_le_iff]; omega
  obtain ⟨hrp, hrm⟩ := hr.pos hne
  have hrw := hr.weight_le hne
  have hwa := ha.weight_le
  have hwa2 := ha.weight_ge
  have hane := ha.ne
  have hpos := ha.pos
  have hal := ha.len
  have hrw2 := hr.weight_ge
  have hall : a.digits.length ≤ 200000 := by omega
  rcases divFast_full a r L true ha.digits hr.digits ha.not_nan hr.not_nan hne hr.head ha.head hL0 (by omega) (.inr (by omega))
    (by rw [abs_le]; omega) (by rw [abs_le]; omega) hall with ⟨u, y, eu, hy, hu⟩ | ⟨hd, ee, hn, -⟩
  swap
  · right
    refine ⟨hd, ?_, hn⟩
    unfold sqrtStep
    rw [ee]; rfl
  left
  rw [if_pos rfl] at hu
  have hq : |value u - value a / value r| ≤ (1 / 2 + 1 / 10 ^ 10) * 10 ^ (-L) := by
    rw [hu.value]
    have h1 := roundHalfAway_err y L
    have h2 := abs_sub_le (roundHalfAway y L) y (value a / value r)
    generalize (10:ℚ) ^ (-L) = U at *
    linarith
  have husc : HasScale (value u) L := by rw [hu.value]; exact roundHalfAway_hasScale _ _
  have haq : 0 < value a / value r := div_pos hpos hrp
  have hK1 : (1:ℚ) ≤ 10000 ^ K := by
    rw [show (1:ℚ) = 10000 ^ (0:ℤ) by norm_num, B_zpow_le_iff]; omega
  have hub : |value u| < 10000 ^ (K + 1) := by
    have h3 := abs_le.1 hq
    have h4 := hr.quot hne
    rw [zpow_add₀ B_ne, zpow_one]
    generalize (10:ℚ) ^ (-L) = U at *
    generalize (10000:ℚ) ^ K = C at *
    rw [abs_lt]
    constructor <;> linarith
  have husm : Small u := hu.small (roundHalfAway_hasScale _ _) (by omega)
    (by rw [← hu.value]; exact lt_huge_of_zpow hub (by omega))
  obtain ⟨w, ew, hw⟩ := addCommon_spec r u hr.small husm hr.digits hu.digits hr.not_nan hu.not_nan hr.signOK
    ⟨hr.dscale_nonneg, hr.dscale_le⟩ ⟨by rw [hu.dscale]; omega, by rw [hu.dscale]; omega⟩
  have hwsm : Small w := Small.of_stripped hw.digits hw.stripped (s := 100000)
    (by rw [hw.value]; exact hr.wide.add (husc.mono (by omega))) (by norm_num) (by
      rw [hw.value]
      refine lt_huge_of_zpow (abs_add_lt_zpow (j := K + 1) (k := K + 1) ?_ hub) (by omega)
      rw [abs_of_nonneg hr.nonneg]
      exact lt_of_lt_of_le hr.lt (B_zpow_le_iff.2 (by omega)))
  obtain ⟨p5d, p5n, p5v⟩ := zeroPointFive_ok
  obtain ⟨r', er, hm⟩ := mulCommon_spec w zeroPointFive hwsm zeroPointFive_small L (by omega) hw.digits p5d hw.not_nan p5n hL0 (.inl (by omega))
  obtain ⟨x, hx, hxx, hxe⟩ := hm.round
  rw [hw.value, p5v] at hxe hxx
  have hmin : ((min w.digits.length zeroPointFive.digits.length : ℕ) : ℚ) ≤ 1 := by
    have : min w.digits.length zeroPointFive.digits.length ≤ 1 := by simp [zeroPointFive]
    exact_mod_cast this
  have hxe' : |x - (value r + value u) / 2| ≤ 1 / 10000 * 10 ^ (-L) := by
    rw [abs_sub_comm]
    calc |(value r + value u) / 2 - x| = |(value r + value u) * (1 / 2) - x| := by ring_nf
      _ ≤ _ := hxe
      _ ≤ 1 * (1 / 10000) * 10 ^ (-L) := by gcongr
      _ = _ := by ring
  have hexact : HasScale (value r) L → x = (value r + value u) / 2 := by
    intro hrs
    have hws : HasScale (value w) L := by rw [hw.value]; exact hrs.add husc
    have : w.ndigits + zeroPointFive.ndigits ≤ w.weight + zeroPointFive.weight + 4 + (L + 3) / 4 := by
      simp only [ndigits, zeroPointFive, List.length_cons, List.length_nil]
      by_cases hwe : w.digits = []
      · rw [hwe, (hw.stripped.2.2 hwe).1]; simp; omega
      · have := stripped_len hw.digits hw.stripped hwe hws
        simp only [ndigits] at this
        push_cast
        omega
    rw [hxx this]; ring
  have hsc : HasScale (value r') L := by rw [hx]; exact roundHalfAway_hasScale _ _
  have hlow : -(10:ℚ) ^ (-L) < value r' := by
    rw [hx]
    have h1 := abs_le.1 (roundHalfAway_err x L)
    have h2 := abs_le.1 hxe'
    have h3 := abs_le.1 hq
    generalize (10:ℚ) ^ (-L) = U at *
    linarith
  obtain ⟨n, hn⟩ := hsc
  have hTT : (10:ℚ) ^ L * 10 ^ (-L) = 1 := by rw [← zpow_add₀ (by norm_num)]; simp
  have hTL := T_zpow_pos L
  have hv' : value r' = n * 10 ^ (-L) := by rw [← hn, mul_assoc, hTT, mul_one]
  have hn0 : 0 ≤ n := by
    have : (-1:ℚ) < n := by
      rw [hv'] at hlow
      by_contra hc
      push Not at hc
      have := mul_le_mul_of_nonneg_right hc hU.le
      linarith
    have : (-1:ℤ) < n := by exact_mod_cast this
    omega
  have hn0' : (0:ℚ) ≤ n := by exact_mod_cast hn0
  have hnn : 0 ≤ value r' := by rw [hv']; positivity
  have hKp := B_zpow_pos K
  have hq10 : value a * 10 ^ L = value a / 10 ^ (-L) := by rw [zpow_neg, div_inv_eq_mul]
  have hlt : value r' < 10000 ^ K := by
    have h1 := abs_le.1 (roundHalfAway_err x L)
    have h2 := abs_le.1 hxe'
    have h3 := abs_le.1 hq
    have h4 := hr.quot hne
    have h5 := hr.lt
    have h6 : (10000:ℚ) ≤ 10000 ^ K := by
      calc (10000:ℚ) = 10000 ^ (1:ℤ) := by norm_num
        _ ≤ 10000 ^ K := B_zpow_le_iff.2 hK0
    rw [hx]
    generalize (10:ℚ) ^ (-L) = U at *
    generalize (10000:ℚ) ^ K = C at *
    linarith
  refine ⟨r', value u, x, ?_, hq, hxe', hx, ?_, hm.stripped, hm.dscale, husc, hexact⟩
  · unfold sqrtStep
    rw [eu]
    simp only [bind_ok, expect, pure_ok, ew, er]
  · refine ⟨hm.digits, hm.not_nan, hm.stripped.1, hm.stripped.signOK hm.digits, by rw [hm.dscale]; exact hL0,
      by rw [hm.dscale]; omega, hnn, ?_, hlt, HasScale.mono ⟨n, hn⟩ (by omega),
      Small.of_stripped hm.digits hm.stripped (s := L) ⟨n, hn⟩ (by omega)
        (by rw [abs_of_nonneg hnn]; exact lt_huge_of_zpow hlt (by omega)), ?_⟩
    · have := stripped_weight_ge hm.digits hm.stripped (s := L) ⟨n, hn⟩ (by omega)
      omega
    · intro hne'
      have hn1 : (1:ℚ) ≤ n := by
        have : n ≠ 0 := by
          intro h0
          rw [h0] at hv'
          simp at hv'
          exact hne' ((stripped_zero_iff hm.digits hm.stripped).1 hv')
        have : 1 ≤ n := by omega
        exact_mod_cast this
      have : (10:ℚ) ^ (-L) ≤ value r' := by
        rw [hv']
        have := mul_le_mul_of_nonneg_right hn1 hU.le
        linarith
      calc value a / value r' ≤ value a / 10 ^ (-L) := div_le_div_of_nonneg_left hpos.le hU this
        _ = value a * 10 ^ L := hq10.symm
        _ < _ := hKL

theorem sqrtStep_spec [Build] {a : Var} (ha : PosVar a) {K : ℤ} (hK0 : 1 ≤ K) (hK : K ≤ 150000)
    {L : Int} (hL0 : 0 ≤ L) (hL1 : L ≤ 16383) (hKL : value a * 10 ^ L < 10000 ^ K / 10000)
    {r : Var} (hr : SqrtInv (value a) K r) (hne : r.digits ≠ []) :
    (∃ r' q x, sqrtStep a r L = .ok r' ∧ |q - value a / value r| ≤ (1 / 2 + 1 / 10 ^ 10) * 10 ^ (-L) ∧
      |x - (value r + q) / 2| ≤ 1 / 10000 * 10 ^ (-L) ∧ value r' = roundHalfAway x L ∧
      SqrtInv (value a) K r' ∧ Stripped r' ∧ r'.dscale = L ∧ HasScale q L ∧
      (HasScale (value r) L → x = (value r + q) / 2)) ∨
    (Build.debug = true ∧ sqrtStep a r L = .error .overflow) := by
  rcases sqrtStep_full ha hK0 hK hL0 hL1 hKL hr hne with h | ⟨h1, h2, -⟩
  exacts [.inl h, .inr ⟨h1, h2⟩]

/-- What a converged iterate satisfies. -/
structure SqrtOK (A : ℚ) (L : Int) (r : Var) : Prop where
  digits : Digits r.digits
  not_nan : r.sign ≠ .nan
  pos : 0 < value r
  scale : HasScale (value r) L
  close : |value r - A / value r| ≤ 16 / 10 * 10 ^ (-L)
  stripped : Stripped r
  weight_le : r.weight ≤ 150000
  small : Small r

theorem sqrtLoop_spec [Build] {a : Var} (ha : PosVar a) {K : ℤ} (hK0 : 1 ≤ K) (hK : K ≤ 150000)
    {L : Int} (hL0 : 0 ≤ L) (hL1 : L ≤ 16383) (hKL : value a * 10 ^ L < 10000 ^ K / 10000) (fuel : Nat) :
    ∀ {r : Var}, SqrtInv (value a) K r → r.digits ≠ [] →
    (∃ u, sqrtLoop a L fuel r = .ok u ∧ SqrtOK (value a) L u) ∨
    sqrtLoop a L fuel r = .error .diverge ∨
    (value a < 10 ^ (-L) * 10 ^ (-L) ∧ sqrtLoop a L fuel r = .error (.panic "should not be zero")) ∨
    (Build.debug = true ∧ sqrtLoop a L fuel r = .error .overflow) := by
  have hU := T_zpow_pos (-L)
  induction fuel with
  | zero => intro r _ _; exact .inr (.inl rfl)
  | succ fuel ih =>
    intro r hr hne
    obtain ⟨hrp, -⟩ := hr.pos hne
    rcases sqrtStep_spec ha hK0 hK hL0 hL1 hKL hr hne with ⟨r', q, x, e, hq, hx, hv, hr', hst, -, -, -⟩ | ⟨hd, ee⟩
    swap
    · right; right; right
      refine ⟨hd, ?_⟩
      unfold sqrtLoop
      rw [ee]; rfl
    have hun : sqrtLoop a L (fuel + 1) r = if cmpCommon r' r = 0 then .ok r' else sqrtLoop a L fuel r' := by
      rw [sqrtLoop, e]; rfl
    rw [hun]
    have hcmp : cmpCommon r' r = cmpSign (value r') (value r) :=
      cmpCommon_spec r' r hr'.digits hr.digits hr'.not_nan hr.not_nan
        (fun h => stripped_mag_pos hr'.digits hst h) (fun h => mag_pos_of_head hr.digits h hr.head _)
    by_cases hc : cmpCommon r' r = 0
    · left
      rw [if_pos hc]
      have hveq : value r' = value r := by
        rw [hcmp] at hc
        unfold cmpSign at hc
        split at hc
        · omega
        · split at hc
          · assumption
          · omega
      refine ⟨r', rfl, hr'.digits, hr'.not_nan, by rw [hveq]; exact hrp, by rw [hv]; exact roundHalfAway_hasScale _ _, ?_, hst, ?_, hr'.small⟩
      swap
      · by_cases h0 : r'.digits = []
        · rw [(hst.2.2 h0).1]; norm_num
        · have := hr'.weight_le h0; omega
      have h1 := abs_le.1 (roundHalfAway_err x L)
      rw [← hv, hveq] at h1
      rw [hveq]
      have h2 := abs_le.1 hx
      have h3 := abs_le.1 hq
      generalize (10:ℚ) ^ (-L) = U at *
      rw [abs_le]
      constructor <;> linarith
    · rw [if_neg hc]
      by_cases hne' : r'.digits = []
      · -- the iterate has been rounded to zero
        have hsmall : value a < 10 ^ (-L) * 10 ^ (-L) := by
          by_contra hbig
          push Not at hbig
          have h0 : value r' = 0 := (stripped_zero_iff hr'.digits hst).2 hne'
          have h1 := abs_le.1 (roundHalfAway_err x L)
          rw [← hv, h0] at h1
          have h2 := abs_le.1 hx
          have h3 := abs_le.1 hq
          have h4 : 2 * (10:ℚ) ^ (-L) ≤ value r + value a / value r := by
            have e1 : value r + value a / value r = (value r * value r + value a) / value r := by field_simp
            rw [e1, le_div_iff₀ hrp]
            nlinarith [sq_nonneg (value r - 10 ^ (-L))]
          generalize (10:ℚ) ^ (-L) = U at *
          linarith
        cases fuel with
        | zero => exact .inr (.inl rfl)
        | succ fuel =>
          right; right; left
          refine ⟨hsmall, ?_⟩
          have hdiv : Var.divFastCommon a r' L true = .ok none := by
            unfold Var.divFastCommon
            rw [dassert_ok ha.not_nan, dassert_ok hr'.not_nan, hne']
            rfl
          rw [sqrtLoop]
          unfold sqrtStep
          rw [hdiv]
          rfl
      · exact ih hr' hne'

theorem tdiv2_bounds (w : ℤ) : w - 1 ≤ 2 * w.tdiv 2 ∧ 2 * w.tdiv 2 ≤ w + 1 := by
  rcases le_total 0 w with h | h
  · rw [Int.tdiv_eq_ediv_of_nonneg h]; omega
  · have : w.tdiv 2 = -((-w) / 2) := by
      rw [← Int.tdiv_eq_ediv_of_nonneg (by omega), Int.neg_tdiv, neg_neg]
    rw [this]; omega

/-- The first guess satisfies the loop invariant. -/
theorem sqrtGuess_inv {a : Var} (ha : PosVar a) {d : Int} {ds : List Int} (hd : a.digits = d :: ds) :
    SqrtInv (value a) 100000 (sqrtGuess a.weight d) ∧ (sqrtGuess a.weight d).digits ≠ [] := by
  have hdd := ha.digits
  rw [hd] at hdd
  have hd0 := (Digits.cons.1 hdd).1
  set g : Int := if d / 2 = 0 then 1 else d / 2 with hg
  have hg1 : 1 ≤ g := by rw [hg]; split <;> omega
  have hg2 : g < 10000 := by rw [hg]; split <;> omega
  have hw := ha.weight_le
  have hw2 := ha.weight_ge
  have htw := tdiv2_bounds a.weight
  have htd : a.weight.tdiv 2 ≤ 16500 ∧ -8501 ≤ a.weight.tdiv 2 := by omega
  have hval : value (sqrtGuess a.weight d) = g * 10000 ^ (a.weight.tdiv 2) := by
    simp [sqrtGuess, value, mag, hg]
  have hgq : (1:ℚ) ≤ g := by exact_mod_cast hg1
  have hgq2 : (g:ℚ) < 10000 := by exact_mod_cast hg2
  have hp := B_zpow_pos (a.weight.tdiv 2)
  have hvp : 0 < value (sqrtGuess a.weight d) := by rw [hval]; positivity
  refine ⟨⟨?_, by simp [sqrtGuess], ?_, by simp [SignOK, sqrtGuess], by simp [sqrtGuess], by simp [sqrtGuess],
    hvp.le, by simp only [sqrtGuess]; omega, ?_, ?_, ⟨by simp only [sqrtGuess]; omega, by simp only [sqrtGuess]; omega,
      by simp [sqrtGuess]⟩, ?_⟩, by simp [sqrtGuess]⟩
  · intro x hx
    simp only [sqrtGuess, List.mem_singleton] at hx
    rw [hx]; exact ⟨by omega, by omega⟩
  · simp only [sqrtGuess, List.head?_cons, ne_eq, Option.some.injEq]
    omega
  · rw [hval]
    calc (g:ℚ) * 10000 ^ (a.weight.tdiv 2) < 10000 * 10000 ^ (a.weight.tdiv 2) := mul_lt_mul_of_pos_right hgq2 hp
      _ = 10000 ^ (1 + a.weight.tdiv 2) := by rw [zpow_add₀ B_ne]; norm_num
      _ ≤ _ := B_zpow_le_iff.2 (by omega)
  · rw [hval]
    refine ⟨g * 10 ^ (100000 + 4 * a.weight.tdiv 2).toNat, ?_⟩
    rw [B_eq_T, mul_assoc, ← zpow_add₀ (by norm_num)]
    push_cast
    rw [← zpow_natCast, Int.toNat_of_nonneg (by omega)]
    congr 2; ring
  · intro _
    have h1 : value a < 10000 ^ (a.weight + 1) := by
      have := mag_lt ha.digits a.weight
      rw [← abs_value _ ha.digits] at this
      exact lt_of_le_of_lt (le_abs_self _) this
    rw [div_lt_iff₀ hvp, hval]
    have e : (10000:ℚ) ^ (100000:ℤ) / 10000 = 10000 ^ (99999:ℤ) := by
      rw [show (100000:ℤ) = 99999 + 1 by norm_num, zpow_add₀ B_ne, zpow_one, mul_div_assoc, div_self B_ne, mul_one]
    rw [e]
    calc value a < 10000 ^ (a.weight + 1) := h1
      _ ≤ 10000 ^ (99999 + a.weight.tdiv 2) := B_zpow_le_iff.2 (by omega)
      _ = 10000 ^ (99999:ℤ) * 10000 ^ (a.weight.tdiv 2) := by rw [zpow_add₀ B_ne]
      _ ≤ 10000 ^ (99999:ℤ) * (g * 10000 ^ (a.weight.tdiv 2)) := by
          refine mul_le_mul_of_nonneg_left ?_ (B_zpow_pos _).le
          exact le_mul_of_one_le_left hp.le hgq

/-- `sqrt_common` of a positive number. -/
theorem sqrtCommon_spec [Build] {a : Var} (ha : PosVar a) {s : Int} (hs0 : 0 ≤ s) (hs1 : s ≤ 16375)
    (fuel : Nat) :
    (∃ u ρ, sqrtCommon fuel a s = .ok u ∧ Digits u.digits ∧ u.sign ≠ .nan ∧ u.dscale = s ∧ value u = roundHalfAway ρ s ∧
      0 < ρ ∧ |ρ - value a / ρ| ≤ 16 / 10 * 10 ^ (-(s + 8)) ∧
      ∃ v, roundCommon v s = .ok u ∧ SqrtOK (value a) (s + 8) v) ∨
    sqrtCommon fuel a s = .error .diverge ∨
    (value a < 10 ^ (-(2 * (s + 8))) ∧ sqrtCommon fuel a s = .error (.panic "should not be zero")) ∨
    (Build.debug = true ∧ sqrtCommon fuel a s = .error .overflow) := by
  have hpos := ha.pos
  obtain ⟨d, ds, hd⟩ := List.exists_cons_of_ne_nil ha.ne
  have hsg := ha.sign
  obtain ⟨hi, hi2⟩ := sqrtGuess_inv ha hd
  have hw := ha.weight_le
  have hKL : value a * 10 ^ (s + 8) < (10000:ℚ) ^ (100000:ℤ) / 10000 := by
    have h1 : value a < 10000 ^ (33001:ℤ) := by
      have := mag_lt ha.digits a.weight
      rw [← abs_value _ ha.digits] at this
      refine lt_of_lt_of_le (lt_of_le_of_lt (le_abs_self _) this) (B_zpow_le_iff.2 (by omega))
    have e : (10000:ℚ) ^ (100000:ℤ) / 10000 = 10000 ^ (99999:ℤ) := by
      rw [show (100000:ℤ) = 99999 + 1 by norm_num, zpow_add₀ B_ne, zpow_one, mul_div_assoc, div_self B_ne, mul_one]
    rw [e]
    calc value a * 10 ^ (s + 8) < 10000 ^ (33001:ℤ) * 10 ^ (s + 8) := mul_lt_mul_of_pos_right h1 (T_zpow_pos _)
      _ ≤ 10000 ^ (33001:ℤ) * 10000 ^ (5000 : ℤ) := by
          refine mul_le_mul_of_nonneg_left ?_ (B_zpow_pos _).le
          rw [B_eq_T]; exact T_zpow_le_iff.2 (by omega)
      _ = 10000 ^ (38001:ℤ) := by rw [← zpow_add₀ B_ne]; norm_num
      _ ≤ _ := B_zpow_le_iff.2 (by norm_num)
  have hun : sqrtCommon fuel a s = (do
      let r ← sqrtLoop a (s + 8) fuel (sqrtGuess a.weight d)
      roundCommon r s) := by
    unfold sqrtCommon
    rw [dassert_ok hsg, hd, fits_ok (by fits_tac)]
    rfl
  rw [hun]
  have e2 : (10:ℚ) ^ (-(s + 8)) * 10 ^ (-(s + 8)) = 10 ^ (-(2 * (s + 8))) := by
    rw [← zpow_add₀ (by norm_num)]; congr 1; ring
  have hloop := sqrtLoop_spec ha (K := 100000) (by norm_num) (by norm_num) (L := s + 8) (by omega) (by omega) hKL fuel hi hi2
  rw [e2] at hloop
  rcases hloop with ⟨u, eu, hu⟩ | eu | ⟨hsm, eu⟩ | ⟨hdb, eu⟩
  · left
    obtain ⟨w, ew, wd, wn, ws, wv⟩ := roundCommon_spec u s hu.digits hu.not_nan ⟨by have := hu.small.lo; omega, by have := hu.small.hi; omega⟩
      ⟨by omega, by omega⟩
    exact ⟨w, value u, by rw [eu]; exact ew, wd, wn, ws, wv, hu.pos, hu.close, u, ew, hu⟩
  · right; left; rw [eu]; rfl
  · right; right; left; exact ⟨hsm, by rw [eu]; rfl⟩
  · right; right; right; exact ⟨hdb, by rw [eu]; rfl⟩

end PgNumeric
