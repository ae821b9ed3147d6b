import Verif.Proofs.AddSub
/-! Multiplication: accumulator invariant, exactness, truncation error. -/
namespace PgNumeric
open Spec Var

theorem mulMaxDig_eq : mulMaxDig = 214748 := by decide

/-- Accumulator entries bounded by `m * 9999`. -/
def Bnd (dig : List Int) (m : Int) : Prop := ∀ x ∈ dig, 0 ≤ x ∧ x ≤ m * 9999

theorem Bnd.mono {dig : List Int} {m m' : Int} (h : Bnd dig m) (hm : m ≤ m') : Bnd dig m' := by
  intro x hx
  have := h x hx
  constructor <;> [exact this.1; nlinarith [this.2]]

theorem dval_nonneg_of_bnd {ds : List Int} {m : Int} (h : Bnd ds m) : 0 ≤ dval ds := by
  induction ds with
  | nil => simp
  | cons d ds ih =>
    rw [dval_cons]
    have := ih (fun x hx => h x (by simp [hx]))
    have h0 := (h d (by simp)).1
    positivity

theorem mulCarryPass_spec [Build] (ds : List Int) (h : Bnd ds mulMaxDig) :
    ∃ ds' c, mulCarryPass ds = .ok (ds', c) ∧ Digits ds' ∧ ds'.length = ds.length ∧ 0 ≤ c ∧ c ≤ 214748 ∧
      dval ds' + c * 10000 ^ ds.length = dval ds := by
  induction ds with
  | nil => exact ⟨[], 0, rfl, Digits.nil, rfl, le_rfl, by norm_num, by simp⟩
  | cons d ds ih =>
    obtain ⟨ds', c, e, hd, hl, h0, h1, hv⟩ := ih (fun x hx => h x (by simp [hx]))
    have hb := h d (by simp)
    rw [mulMaxDig_eq] at hb
    unfold mulCarryPass
    rw [e]
    simp only [bind_ok]
    rw [i32_ok (by omega) (by omega)]
    simp only [bind_ok, NBASE]
    by_cases hB : d + c ≥ 10000
    · rw [if_pos hB]
      refine ⟨_, _, rfl, Digits.cons.2 ⟨by omega, hd⟩, by simp [hl], by omega, by omega, ?_⟩
      rw [dval_cons, dval_cons, hl, List.length_cons, pow_succ]
      linear_combination hv
    · rw [if_neg hB]
      refine ⟨_, _, rfl, Digits.cons.2 ⟨by omega, hd⟩, by simp [hl], by omega, by omega, ?_⟩
      rw [dval_cons, dval_cons, hl, List.length_cons, pow_succ]
      linear_combination hv

theorem mag_set (l : List Int) (i : Nat) (h : i < l.length) (x : Int) (w : Int) :
    mag (l.set i x) w = mag l w + ((x : ℚ) - l[i]) * 10000 ^ (w - i) := by
  induction l generalizing i w with
  | nil => simp at h
  | cons d ds ih =>
    cases i with
    | zero => simp only [List.set_cons_zero, mag_cons, List.getElem_cons_zero]; push_cast; rw [sub_zero]; ring
    | succ i =>
      simp only [List.set_cons_succ, mag_cons, List.getElem_cons_succ]
      rw [ih i (by simpa using h)]
      have : w - 1 - (i:Int) = w - ((i + 1 : Nat) : Int) := by push_cast; ring
      rw [this]; ring

theorem mag_take_succ (l : List Int) (k : Nat) (h : k < l.length) (w : Int) :
    mag (l.take (k + 1)) w = mag (l.take k) w + (l[k] : ℚ) * 10000 ^ (w - k) := by
  rw [List.take_add_one, mag_append]
  simp only [List.getElem?_eq_getElem h, Option.toList_some, List.length_take, min_eq_left h.le, mag_cons, mag_nil,
    add_zero]

theorem mulRow_spec [Build] (v2 : List Int) (h2 : Digits v2) (d1 : Int) (hd1 : 0 ≤ d1 ∧ d1 < 10000) (i1 : Nat)
    (m : Int) (hm : 0 ≤ m) (hmd : m + d1 ≤ mulMaxDig) (w : Int) :
    ∀ (k : Nat) (dig : List Int), k ≤ v2.length → i1 + k + 2 ≤ dig.length →
      (∀ (i : Nat) (hi : i < dig.length), 0 ≤ dig[i] ∧ dig[i] ≤ (m + d1) * 9999 ∧ (i < i1 + k + 2 → dig[i] ≤ m * 9999)) →
      ∃ dig', mulRow v2 d1 i1 k dig = .ok dig' ∧ dig'.length = dig.length ∧ Bnd dig' (m + d1) ∧
        mag dig' w = mag dig w + d1 * 10000 ^ (w - i1 - 2) * mag (v2.take k) 0 := by
  intro k
  induction k with
  | zero =>
    intro dig _ _ hb
    refine ⟨dig, rfl, rfl, ?_, by simp⟩
    intro x hx
    obtain ⟨i, hi, rfl⟩ := List.getElem_of_mem hx
    exact ⟨(hb i hi).1, (hb i hi).2.1⟩
  | succ k ih =>
    intro dig hk hl hb
    have hk' : k < v2.length := by omega
    have hi : i1 + k + 2 < dig.length := by omega
    have hx := h2.get hk'
    have ho := hb _ hi
    have ho3 := ho.2.2 (by omega)
    rw [mulMaxDig_eq] at hmd
    have hp1 : d1 * v2[k] ≤ d1 * 9999 := mul_le_mul_of_nonneg_left (by omega) hd1.1
    have hp0 : 0 ≤ d1 * v2[k] := mul_nonneg hd1.1 hx.1
    have hmd2 : (m + d1) * 9999 ≤ 214748 * 9999 := by nlinarith
    unfold mulRow
    rw [getM_ok hk', bind_ok, getM_ok hi, bind_ok, i32_ok (by omega) (by omega), bind_ok,
      i32_ok (by omega) (by nlinarith), bind_ok, setM_ok hi, bind_ok]
    obtain ⟨dig', e, el, eb, em⟩ := ih (dig.set (i1 + k + 2) (dig[i1 + k + 2] + d1 * v2[k])) (by omega)
      (by simp; omega) (by
        intro i hi'
        rw [List.length_set] at hi'
        rw [List.getElem_set]
        split
        · rename_i he
          refine ⟨by omega, by nlinarith, fun h => by omega⟩
        · have := hb i hi'
          exact ⟨this.1, this.2.1, fun h => this.2.2 (by omega)⟩)
    refine ⟨dig', e, by rw [el, List.length_set], eb, ?_⟩
    rw [em, mag_set _ _ hi, mag_take_succ _ _ hk']
    have e1 : (10000:ℚ) ^ (w - ((i1 + k + 2 : Nat) : Int)) = 10000 ^ (w - i1 - 2) * 10000 ^ ((0:Int) - k) := by
      rw [← zpow_add₀ B_ne]; congr 1; push_cast; ring
    rw [e1]
    push_cast
    ring

/-- How many digits of the longer factor row `k` uses. -/
def mulCols (n2 : Nat) (resN : Int) (k : Nat) : Nat := (min ((n2 : Int) - 1) (resN - k - 3) + 1).toNat

/-- The sum of the first `k` rows. -/
def rowSum (v1 v2 : List Int) (resN : Int) (W : Int) : Nat → ℚ
  | 0 => 0
  | k + 1 => rowSum v1 v2 resN W k + (v1.getD k 0 : ℚ) * 10000 ^ (W - k - 2) * mag (v2.take (mulCols v2.length resN k)) 0

theorem getD_get {l : List Int} {k : Nat} (h : k < l.length) : l.getD k 0 = l[k] := by simp [List.getD, h]

theorem rowSum_nonneg {v1 v2 : List Int} (h1 : Digits v1) (h2 : Digits v2) (resN W : Int) (k : Nat) :
    0 ≤ rowSum v1 v2 resN W k := by
  induction k with
  | zero => simp [rowSum]
  | succ k ih =>
    rw [rowSum]
    have hx : (0:ℚ) ≤ ((v1.getD k 0 : Int) : ℚ) := by
      by_cases hk : k < v1.length
      · rw [getD_get hk]; exact_mod_cast (h1.get hk).1
      · simp [List.getD, Nat.not_lt.1 hk]
    have := mag_nonneg (h2.take (mulCols v2.length resN k)) 0
    have := B_zpow_pos (W - k - 2)
    positivity

theorem mag_le_of_carry {ds ds' : List Int} {c W : Int} (hl : ds'.length = ds.length)
    (hv : dval ds' + c * 10000 ^ ds.length = dval ds) :
    mag ds W = mag ds' W + c * 10000 ^ (W + 1) := by
  rw [mag_eq_dval, mag_eq_dval, ← hv, hl]
  push_cast
  rw [add_mul, mul_assoc, ← zpow_natCast, ← zpow_add₀ B_ne]
  congr 3; ring

theorem carry_zero {ds ds' : List Int} {c W : Int} (hl : ds'.length = ds.length) (hd : Digits ds') (hc : 0 ≤ c)
    (hv : dval ds' + c * 10000 ^ ds.length = dval ds) (hlt : mag ds W < 10000 ^ (W + 1)) : c = 0 := by
  have h := mag_le_of_carry (W := W) hl hv
  have h0 := mag_nonneg hd W
  by_contra hne
  have : (1:ℚ) ≤ c := by exact_mod_cast (by omega : (1:Int) ≤ c)
  have := B_zpow_pos (W + 1)
  nlinarith

theorem Spec.Digits.bnd {ds : List Int} (h : Digits ds) : Bnd ds 1 := fun x hx => by
  have := h x hx; omega

theorem mulOuter_spec [Build] (v1 v2 : List Int) (h1 : Digits v1) (h2 : Digits v2)
    (resN : Nat) (W : Int) :
    ∀ (k : Nat) (dig : List Int) (md : Int), k ≤ v1.length → k + 2 ≤ resN → dig.length = resN →
      0 ≤ md → md ≤ mulMaxDig → Bnd dig md → mag dig W + rowSum v1 v2 resN W k < 10000 ^ (W + 1) →
      ∃ dig', mulOuter v1 v2 resN k dig md = .ok dig' ∧ dig'.length = resN ∧ Bnd dig' mulMaxDig ∧
        mag dig' W = mag dig W + rowSum v1 v2 resN W k := by
  intro k
  induction k with
  | zero =>
    intro dig md _ _ hl h0 hm hb _
    exact ⟨dig, rfl, hl, hb.mono hm, by simp [rowSum]⟩
  | succ k ih =>
    intro dig md hk hkr hl h0 hm hb hlt
    have hk' : k < v1.length := by omega
    have hd := h1.get hk'
    unfold mulOuter
    rw [getM_ok hk', bind_ok]
    rw [rowSum, getD_get hk'] at hlt ⊢
    by_cases hz : v1[k] = 0
    · rw [if_pos hz]
      obtain ⟨dig', e, g1, g2, g3⟩ := ih dig md (by omega) (by omega) hl h0 hm hb (by rw [hz] at hlt; simpa using hlt)
      exact ⟨dig', e, g1, g2, by rw [g3, hz]; simp⟩
    · rw [if_neg hz]
      rw [mulMaxDig_eq] at hm ⊢
      rw [i32_ok (by omega) (by omega), bind_ok]
      have hmag2 := mag_nonneg (h2.take (mulCols v2.length resN k)) 0
      have hBp := B_zpow_pos (W - k - 2)
      have hdq : (0:ℚ) ≤ v1[k] := by exact_mod_cast hd.1
      have hterm : 0 ≤ (v1[k] : ℚ) * 10000 ^ (W - k - 2) * mag (v2.take (mulCols v2.length resN k)) 0 := by positivity
      have hrs := rowSum_nonneg h1 h2 resN W k
      -- the state before the row
      have pre : ∃ dig0 m0, mulNormalize dig (md + v1[k]) v1[k] = .ok (dig0, m0 + v1[k]) ∧
          dig0.length = resN ∧ 0 ≤ m0 ∧ m0 + v1[k] ≤ 214748 ∧ Bnd dig0 m0 ∧ mag dig0 W = mag dig W := by
        unfold mulNormalize
        rw [mulMaxDig_eq]
        by_cases hbig : md + v1[k] > 214748
        · rw [if_pos hbig]
          obtain ⟨ds', c, e, hd', hl', hc0, hc1, hv⟩ := mulCarryPass_spec dig (by rw [mulMaxDig_eq]; exact hb.mono hm)
          have hcz := carry_zero (W := W) hl' hd' hc0 hv (by linarith)
          subst hcz
          rw [e]
          simp only [bind_ok, dassert_true]
          refine ⟨ds', 1, rfl, by omega, by omega, by omega, hd'.bnd, ?_⟩
          have := mag_le_of_carry (W := W) hl' hv
          simpa using this.symm
        · rw [if_neg hbig]
          exact ⟨dig, md, rfl, hl, h0, by omega, hb, rfl⟩
      obtain ⟨dig0, m0, e0, l0, n0, u0, b0, g0⟩ := pre
      rw [e0]
      simp only [bind_ok]
      have hcols : mulCols v2.length resN k ≤ v2.length := by unfold mulCols; omega
      have hcols2 : k + mulCols v2.length resN k + 2 ≤ resN := by unfold mulCols; omega
      obtain ⟨dig1, e1, l1, b1, g1⟩ := mulRow_spec v2 h2 v1[k] hd k m0 n0 (by rw [mulMaxDig_eq]; exact u0) W
        (mulCols v2.length resN k) dig0 hcols (by omega) (by
          intro i hi
          have := b0 _ (List.getElem_mem hi)
          refine ⟨this.1, by nlinarith [this.2], fun _ => this.2⟩)
      have e1' : mulRow v2 v1[k] k (min ((v2.length : Int) - 1) ((resN:Int) - k - 3) + 1).toNat dig0 = .ok dig1 := e1
      rw [e1']
      simp only [bind_ok]
      obtain ⟨dig2, e2, l2, b2, g2⟩ := ih dig1 (m0 + v1[k]) (by omega) (by omega) (by omega) (by omega) (by rw [mulMaxDig_eq]; omega) b1
        (by rw [g1, g0]; linarith)
      rw [mulMaxDig_eq] at b2
      exact ⟨dig2, e2, l2, b2, by rw [g2, g1, g0]; ring⟩

/-! ## The row sum against the exact product -/

/-- The exact product as a sum of full rows. -/
theorem mag_take_mul (v1 : List Int) (w1 : Int) (X : ℚ) (k : Nat) (hk : k < v1.length) :
    mag (v1.take (k+1)) w1 * X = mag (v1.take k) w1 * X + (v1[k] : ℚ) * 10000 ^ (w1 - k) * X := by
  rw [mag_take_succ _ _ hk]; ring

theorem row_rescale (x : ℚ) (w1 w2 : Int) (k : Nat) (l : List Int) :
    x * 10000 ^ (w1 + w2 + 2 - k - 2) * mag l 0 = x * 10000 ^ (w1 - k) * mag l w2 := by
  have : mag l w2 = mag l 0 * 10000 ^ w2 := by rw [mag_shift, zero_add]
  rw [this]
  have e : (10000:ℚ) ^ (w1 + w2 + 2 - k - 2) = 10000 ^ (w1 - k) * 10000 ^ w2 := by
    rw [← zpow_add₀ B_ne]; congr 1; ring
  rw [e]; ring

/-- From index `e` on, all digits are zero. -/
def ZeroFrom (l : List Int) (e : Nat) : Prop := ∀ x ∈ l.drop e, x = 0

theorem mag_zeros {l : List Int} (h : ∀ x ∈ l, x = 0) (w : Int) : mag l w = 0 := by
  induction l generalizing w with
  | nil => rfl
  | cons d l ih =>
    rw [mag, h d (by simp), ih (fun x hx => h x (by simp [hx]))]
    simp

theorem ZeroFrom.mono {l : List Int} {e k : Nat} (h : ZeroFrom l e) (hk : e ≤ k) : ZeroFrom l k := by
  intro x hx
  obtain ⟨j, rfl⟩ := Nat.exists_eq_add_of_le hk
  rw [← List.drop_drop] at hx
  exact h x (List.mem_of_mem_drop hx)

theorem ZeroFrom.length (l : List Int) : ZeroFrom l l.length := by
  intro x hx; simp at hx

theorem ZeroFrom.mag_take {l : List Int} {e : Nat} (h : ZeroFrom l e) (w : Int) (b : Nat) (hb : e ≤ b ∨ l.length ≤ b) :
    mag (l.take b) w = mag l w := by
  rcases le_or_gt l.length b with hl | hl
  · rw [List.take_of_length_le hl]
  · have := mag_split l w b hl.le
    rw [mag_zeros (h.mono (by omega)), add_zero] at this
    exact this.symm

theorem rowSum_eff (v1 v2 : List Int) (resN : Nat) (w1 w2 : Int) {e1 e2 : Nat} (z1 : ZeroFrom v1 e1) (z2 : ZeroFrom v2 e2)
    (hN : e1 + e2 + 1 ≤ resN) (k : Nat) (hk : k ≤ v1.length) :
    rowSum v1 v2 resN (w1 + w2 + 2) k = mag (v1.take k) w1 * mag v2 w2 := by
  induction k with
  | zero => simp [rowSum]
  | succ k ih =>
    have hk' : k < v1.length := by omega
    rw [rowSum, ih (by omega), getD_get hk', row_rescale, mag_take_mul _ _ _ _ hk']
    rcases lt_or_ge k e1 with h | h
    · rw [z2.mag_take w2 _ (by unfold mulCols; omega)]
    · have : v1[k] = 0 := z1.mono h _ (List.mem_drop_iff_getElem.2 ⟨0, by simpa using hk', by simp⟩)
      rw [this]; simp

theorem rowSum_bounds (v1 v2 : List Int) (h1 : Digits v1) (h2 : Digits v2) (h20 : v2 ≠ []) (resN : Nat) (w1 w2 : Int)
    (k : Nat) (hk : k ≤ v1.length) (hk2 : k + 2 ≤ resN) :
    rowSum v1 v2 resN (w1 + w2 + 2) k ≤ mag (v1.take k) w1 * mag v2 w2 ∧
    mag (v1.take k) w1 * mag v2 w2 ≤ rowSum v1 v2 resN (w1 + w2 + 2) k + k * (9999 * 10000 ^ (w1 + w2 + 3 - resN)) := by
  induction k with
  | zero => simp [rowSum]
  | succ k ih =>
    have hk' : k < v1.length := by omega
    obtain ⟨i1, i2⟩ := ih (by omega) (by omega)
    rw [rowSum, getD_get hk', row_rescale, mag_take_mul _ _ _ _ hk']
    set b := mulCols v2.length resN k with hb
    have hble : b ≤ v2.length := by rw [hb]; unfold mulCols; omega
    have hsplit := mag_split v2 w2 b hble
    have hd0 := mag_nonneg (h2.drop b) (w2 - b)
    have hx := h1.get hk'
    have hxq : (0:ℚ) ≤ v1[k] := by exact_mod_cast hx.1
    have hxq' : (v1[k] : ℚ) ≤ 9999 := by exact_mod_cast (by omega : v1[k] ≤ 9999)
    have hBp := B_zpow_pos (w1 - k)
    have herr : (v1[k] : ℚ) * 10000 ^ (w1 - k) * mag (v2.drop b) (w2 - b) ≤ 9999 * 10000 ^ (w1 + w2 + 3 - resN) := by
      by_cases hfull : b = v2.length
      · rw [hfull, List.drop_length, mag_nil, mul_zero]
        have := B_zpow_pos (w1 + w2 + 3 - resN)
        positivity
      · have hbe : (b : Int) = resN - k - 2 := by
          have hv : 0 < v2.length := List.length_pos_iff.2 h20
          have : b = (min ((v2.length : Int) - 1) ((resN:Int) - k - 3) + 1).toNat := hb
          omega
        have hlt := (mag_lt (h2.drop b) (w2 - b)).le
        have e : (10000:ℚ) ^ (w1 + w2 + 3 - resN) = 10000 ^ (w1 - k) * 10000 ^ (w2 - b + 1) := by
          rw [← zpow_add₀ B_ne]; congr 1; omega
        rw [e, mul_assoc]
        have h3 : (10000:ℚ) ^ (w1 - k) * mag (v2.drop b) (w2 - b) ≤ 10000 ^ (w1 - k) * 10000 ^ (w2 - b + 1) :=
          mul_le_mul_of_nonneg_left hlt hBp.le
        have h4 : 0 ≤ (10000:ℚ) ^ (w1 - k) * mag (v2.drop b) (w2 - b) := by positivity
        calc _ ≤ 9999 * ((10000:ℚ) ^ (w1 - k) * mag (v2.drop b) (w2 - b)) := mul_le_mul_of_nonneg_right hxq' h4
          _ ≤ _ := by linarith
    rw [hsplit] at i1 i2 ⊢
    have hpos : 0 ≤ (v1[k] : ℚ) * 10000 ^ (w1 - k) * mag (v2.drop b) (w2 - b) := by positivity
    push_cast
    constructor
    · linarith
    · linarith

/-- The unused rows of the shorter factor. -/
theorem rows_beyond (v1 v2 : List Int) (h1 : Digits v1) (h2 : Digits v2) (resN : Nat) (w1 w2 : Int)
    (j : Nat) (hj : resN - 2 + j ≤ v1.length) (hr : 2 ≤ resN) :
    mag (v1.take (resN - 2 + j)) w1 * mag v2 w2 ≤
      mag (v1.take (resN - 2)) w1 * mag v2 w2 + j * (9999 * 10000 ^ (w1 + w2 + 3 - resN)) := by
  induction j with
  | zero => simp
  | succ j ih =>
    have hk' : resN - 2 + j < v1.length := by omega
    rw [← add_assoc, mag_take_mul _ _ _ _ hk']
    have := ih (by omega)
    have hx := h1.get hk'
    have hxq : (0:ℚ) ≤ v1[resN - 2 + j] := by exact_mod_cast hx.1
    have hxq' : (v1[resN - 2 + j] : ℚ) ≤ 9999 := by exact_mod_cast (by omega : v1[resN - 2 + j] ≤ 9999)
    have hlt := (mag_lt h2 w2).le
    have h0 := mag_nonneg h2 w2
    have hBp := B_zpow_pos (w1 - ((resN - 2 + j : Nat) : Int))
    have e : (10000:ℚ) ^ (w1 - ((resN - 2 + j : Nat) : Int)) * 10000 ^ (w2 + 1) ≤ 10000 ^ (w1 + w2 + 3 - resN) := by
      rw [← zpow_add₀ B_ne]; exact B_zpow_le_iff.2 (by omega)
    have h3 : (10000:ℚ) ^ (w1 - ((resN - 2 + j : Nat) : Int)) * mag v2 w2 ≤ 10000 ^ (w1 + w2 + 3 - resN) :=
      (mul_le_mul_of_nonneg_left hlt hBp.le).trans e
    have h4 : 0 ≤ (10000:ℚ) ^ (w1 - ((resN - 2 + j : Nat) : Int)) * mag v2 w2 := by positivity
    have h5 : (v1[resN - 2 + j] : ℚ) * 10000 ^ (w1 - ((resN - 2 + j : Nat) : Int)) * mag v2 w2 ≤
        9999 * 10000 ^ (w1 + w2 + 3 - resN) := by
      rw [mul_assoc]
      calc _ ≤ 9999 * ((10000:ℚ) ^ (w1 - ((resN - 2 + j : Nat) : Int)) * mag v2 w2) := mul_le_mul_of_nonneg_right hxq' h4
        _ ≤ _ := by linarith
    push_cast
    push_cast at h5
    linarith

theorem mulCore [Build] (v1 v2 : List Int) (w1 w2 : Int) (h1 : Digits v1) (h2 : Digits v2)
    (h20 : v2 ≠ []) (resN : Nat) (hr : 3 ≤ resN) :
    ∃ dig ds, mulOuter v1 v2 resN (min ((v1.length : Int) - 1) ((resN : Int) - 3) + 1).toNat (List.replicate resN 0) 0 = .ok dig ∧
      mulCarryPass dig = .ok (ds, 0) ∧ Digits ds ∧ ds.length = resN ∧
      mag ds (w1 + w2 + 2) ≤ mag v1 w1 * mag v2 w2 ∧
      mag v1 w1 * mag v2 w2 ≤ mag ds (w1 + w2 + 2) + v1.length * (9999 * 10000 ^ (w1 + w2 + 3 - resN)) ∧
      (∀ e1 e2, ZeroFrom v1 e1 → ZeroFrom v2 e2 → 1 ≤ e2 → e1 + e2 + 1 ≤ resN → mag ds (w1 + w2 + 2) = mag v1 w1 * mag v2 w2) := by
  set K := (min ((v1.length : Int) - 1) ((resN : Int) - 3) + 1).toNat with hK
  have hK1 : K ≤ v1.length := by omega
  have hK2 : K + 2 ≤ resN := by omega
  have hm1 := mag_nonneg h1 w1
  have hm2 := mag_nonneg h2 w2
  obtain ⟨b1, b2⟩ := rowSum_bounds v1 v2 h1 h2 h20 resN w1 w2 K hK1 hK2
  have htake : mag (v1.take K) w1 ≤ mag v1 w1 := by
    rw [mag_split v1 w1 K hK1]
    have := mag_nonneg (h1.drop K) (w1 - K)
    linarith
  have hS : rowSum v1 v2 resN (w1 + w2 + 2) K ≤ mag v1 w1 * mag v2 w2 :=
    b1.trans (mul_le_mul_of_nonneg_right htake hm2)
  have hP : mag v1 w1 * mag v2 w2 < 10000 ^ (w1 + w2 + 2 + 1) := by
    have l1 := mag_lt h1 w1
    have l2 := mag_lt h2 w2
    have e : (10000:ℚ) ^ (w1 + w2 + 2 + 1) = 10000 * (10000 ^ (w1 + 1) * 10000 ^ (w2 + 1)) := by
      rw [← zpow_add₀ B_ne, ← zpow_one_add₀ B_ne]; congr 1; ring
    have h3 : mag v1 w1 * mag v2 w2 ≤ 10000 ^ (w1 + 1) * 10000 ^ (w2 + 1) :=
      mul_le_mul l1.le l2.le hm2 (B_zpow_pos _).le
    have := mul_pos (B_zpow_pos (w1+1)) (B_zpow_pos (w2+1))
    rw [e]; linarith
  obtain ⟨dig, e, hl, hb, hv⟩ := mulOuter_spec v1 v2 h1 h2 resN (w1 + w2 + 2) K (List.replicate resN 0) 0
    hK1 hK2 (by simp) le_rfl (by rw [mulMaxDig_eq]; norm_num)
    (by intro x hx; rw [List.eq_of_mem_replicate hx]; simp)
    (by rw [mag_replicate]; linarith)
  rw [mag_replicate, zero_add] at hv
  obtain ⟨ds, c, e2, hd, hl2, hc0, -, hdv⟩ := mulCarryPass_spec dig hb
  have hcz := carry_zero (W := w1 + w2 + 2) hl2 hd hc0 hdv (by rw [hv]; linarith)
  subst hcz
  have hmag := mag_le_of_carry (W := w1 + w2 + 2) hl2 hdv
  have hmag' : mag ds (w1 + w2 + 2) = rowSum v1 v2 resN (w1 + w2 + 2) K := by
    rw [← hv, hmag]; simp
  refine ⟨dig, ds, e, e2, hd, hl2.trans hl, by rw [hmag']; exact hS, ?_, ?_⟩
  · rw [hmag']
    have hBp := B_zpow_pos (w1 + w2 + 3 - resN)
    by_cases hKf : K = v1.length
    · have : v1.take K = v1 := by rw [hKf]; exact List.take_length
      rw [this, hKf] at b2
      rw [hKf]; exact b2
    · have hKe : K = resN - 2 := by omega
      obtain ⟨j, hj⟩ : ∃ j, v1.length = resN - 2 + j := ⟨v1.length - (resN - 2), by omega⟩
      have hb3 := rows_beyond v1 v2 h1 h2 resN w1 w2 j (by omega) (by omega)
      rw [← hj, List.take_length, ← hKe] at hb3
      have hlen : (v1.length : ℚ) = K + j := by rw [hKe]; exact_mod_cast hj
      rw [hlen, add_mul]
      linarith
  · intro e1 e2 z1 z2 he hN
    rw [hmag', rowSum_eff v1 v2 resN w1 w2 z1 z2 hN K hK1, z1.mag_take w1 K (by omega)]

/-- Value of a product from its magnitude. -/
theorem value_mul_sign (a b : Var) (na : a.sign ≠ .nan) (nb : b.sign ≠ .nan) :
    value a * value b = (if a.sign = b.sign then 1 else -1) * (mag a.digits a.weight * mag b.digits b.weight) := by
  unfold value
  cases ha : a.sign <;> cases hb : b.sign <;> simp_all

/-- The outcome of an internal product at scale `r`. -/
structure MulOK (u : Var) (r : Int) (P : ℚ) (n : ℕ) (exact : Prop) : Prop where
  digits : Digits u.digits
  not_nan : u.sign ≠ .nan
  stripped : Stripped u
  dscale : u.dscale = r
  round : ∃ x : ℚ, value u = roundHalfAway x r ∧ (exact → x = P) ∧ |P - x| ≤ n * (1 / 10000) * 10 ^ (-r)

/-- The significant digits of the factors reach at most as deep as the digits that are computed, so the product is exact. -/
def MulDeep (v1 v2 : Var) (r : Int) : Prop :=
  ∃ e1 e2 : Nat, ZeroFrom v1.digits e1 ∧ ZeroFrom v2.digits e2 ∧ 1 ≤ e1 ∧ 1 ≤ e2 ∧ e1 ≤ v1.digits.length ∧ e2 ≤ v2.digits.length ∧
    (e1 : Int) + e2 ≤ v1.weight + v2.weight + 4 + (r + 3) / 4

theorem MulDeep.symm {v1 v2 : Var} {r : Int} (h : MulDeep v1 v2 r) : MulDeep v2 v1 r := by
  obtain ⟨e1, e2, z1, z2, h1, h2, h3, h4, h5⟩ := h
  exact ⟨e2, e1, z2, z1, h2, h1, h4, h3, by omega⟩

theorem MulDeep.of_len {v1 v2 : Var} {r : Int} (h1 : v1.digits ≠ []) (h2 : v2.digits ≠ [])
    (h : v1.ndigits + v2.ndigits ≤ v1.weight + v2.weight + 4 + (r + 3) / 4) : MulDeep v1 v2 r := by
  have l1 : 0 < v1.digits.length := List.length_pos_iff.2 h1
  have l2 : 0 < v2.digits.length := List.length_pos_iff.2 h2
  exact ⟨_, _, .length _, .length _, l1, l2, le_rfl, le_rfl, h⟩

theorem mulOrdered [Build] (v1 v2 : Var) (sm1 : Small v1) (sm2 : Small v2) (r : Int) (hr1 : r ≤ 300000000) (h1 : Digits v1.digits) (h2 : Digits v2.digits)
    (n1 : v1.sign ≠ .nan) (n2 : v2.sign ≠ .nan) (h10 : v1.digits ≠ []) (h20 : v2.digits ≠ []) (hr0 : 0 ≤ r)
    (hrl : r ≤ 16383 ∨ 0 ≤ v1.weight + v2.weight + 2 + (r + 3) / 4) :
    ∃ u, (do
      let resSign := if v1.sign = v2.sign then Sign.pos else Sign.neg
      let resWeight := v1.weight + v2.weight + 2
      fits [v1.weight + v2.weight, resWeight, v1.ndigits + v2.ndigits, v1.ndigits + v2.ndigits + 1, resWeight + 1,
        r + DEC_DIGITS, r + DEC_DIGITS - 1, resWeight + 1 + (r + DEC_DIGITS - 1) / DEC_DIGITS,
        resWeight + 1 + (r + DEC_DIGITS - 1) / DEC_DIGITS + MUL_GUARD_DIGITS]
      let resN := min (v1.ndigits + v2.ndigits + 1)
        (resWeight + 1 + (r + DEC_DIGITS - 1) / DEC_DIGITS + MUL_GUARD_DIGITS)
      if resN < 3 then zeroScaled r
      else
        let bound := min (v1.ndigits - 1) (resN - 3)
        let dig ← mulOuter v1.digits v2.digits resN (bound + 1).toNat (List.replicate resN.toNat 0) 0
        let (ds, carry) ← mulCarryPass dig
        dassert (carry = 0)
        let r ← roundCommon ⟨resWeight, 0, resSign, ds⟩ r
        stripM r : M Var) = .ok u ∧
      MulOK u r (value v1 * value v2) v1.digits.length (MulDeep v1 v2 r) := by
  have l1 : 0 < v1.digits.length := List.length_pos_iff.2 h10
  have l2 : 0 < v2.digits.length := List.length_pos_iff.2 h20
  obtain ⟨wa1, wa2, wa3⟩ := sm1
  obtain ⟨wb1, wb2, wb3⟩ := sm2
  simp only
  kill_fits
  simp only [bind_ok]
  simp only [ndigits, DEC_DIGITS, MUL_GUARD_DIGITS] at hrl ⊢
  have hc1 : 4 * ((r + 4 - 1) / 4) ≥ r := by omega
  have hceq : (r + 4 - 1) / 4 = (r + 3) / 4 := by congr 1; ring
  rw [hceq] at hc1 ⊢
  clear hceq
  generalize hcd : (r + 3) / 4 = c at *
  set resN : Int := min ((v1.digits.length : Int) + v2.digits.length + 1) (v1.weight + v2.weight + 2 + 1 + c + 2) with hRN
  have hTr := T_zpow_pos (-r)
  have hcp : ∀ k : Int, (10000:ℚ) ^ (-c + k) ≤ 10 ^ (-r) * 10000 ^ k := by
    intro k
    rw [zpow_add₀ B_ne]
    refine mul_le_mul_of_nonneg_right ?_ (B_zpow_pos k).le
    rw [B_eq_T]; exact T_zpow_le_iff.2 (by omega)
  by_cases hsm : resN < 3
  · rw [if_pos hsm, zeroScaled_ok hr0 (by omega)]
    refine ⟨_, rfl, Digits.nil, by simp, by simp [Stripped], rfl, 0, ?_, ?_, ?_⟩
    · rw [roundHalfAway_of_nonneg le_rfl, rmag_zero]; rfl
    · rintro ⟨e1, e2, -, -, g1, g2, g3, g4, g5⟩
      rw [hcd] at g5
      omega
    · rw [sub_zero, abs_mul, abs_value _ h1, abs_value _ h2]
      have hm1 := mag_nonneg h1 v1.weight
      have hm2 := mag_nonneg h2 v2.weight
      have h3 : mag v1.digits v1.weight * mag v2.digits v2.weight ≤ 10000 ^ (v1.weight + 1) * 10000 ^ (v2.weight + 1) :=
        mul_le_mul (mag_lt h1 _).le (mag_lt h2 _).le hm2 (B_zpow_pos _).le
      rw [← zpow_add₀ B_ne] at h3
      have h4 : (10000:ℚ) ^ (v1.weight + 1 + (v2.weight + 1)) ≤ 10000 ^ (-c + (-1)) := B_zpow_le_iff.2 (by omega)
      have h5 := hcp (-1)
      have h6 : (10000:ℚ) ^ (-1 : Int) = 1 / 10000 := by norm_num
      rw [h6] at h5
      have h7 : (1:ℚ) ≤ v1.digits.length := by exact_mod_cast l1
      have h8 : (10:ℚ) ^ (-r) * (1/10000) ≤ v1.digits.length * ((1/10000) * 10 ^ (-r)) := by
        have : 0 ≤ (1:ℚ)/10000 * 10 ^ (-r) := by positivity
        nlinarith
      rw [mul_assoc]
      linarith
  · rw [if_neg hsm]
    obtain ⟨N, hN⟩ := Int.eq_ofNat_of_zero_le (a := resN) (by omega)
    rw [hN]
    simp only [Int.toNat_natCast]
    obtain ⟨dig, ds, e1, e2, hd, hlen, hS1, hS2, hS3⟩ := mulCore v1.digits v2.digits v1.weight v2.weight h1 h2 h20 N
      (by omega)
    rw [e1]
    simp only [bind_ok]
    rw [e2]
    simp only [bind_ok, dassert_true]
    set sg := if v1.sign = v2.sign then Sign.pos else Sign.neg with hsg
    have hsgn : sg ≠ .nan := by rw [hsg]; split <;> simp
    obtain ⟨u, eu, ud, un, us, uv⟩ := roundCommon_spec ⟨v1.weight + v2.weight + 2, 0, sg, ds⟩ r hd hsgn
      (by simp only; omega) (by omega)
    rw [eu]
    simp only [bind_ok]
    rw [round_stripM eu (by simp only; omega) (by simp only; omega)]
    have hv : value ⟨v1.weight + v2.weight + 2, 0, sg, ds⟩ = (if v1.sign = v2.sign then 1 else -1) * mag ds (v1.weight + v2.weight + 2) := by
      by_cases hh : v1.sign = v2.sign <;> simp [value, hsg, hh]
    refine ⟨_, rfl, strip_digits ud, strip_sign un, strip_stripped _, by simp [us], ?_⟩
    refine ⟨value ⟨v1.weight + v2.weight + 2, 0, sg, ds⟩, by rw [strip_value, uv], ?_, ?_⟩
    · rintro ⟨e1, e2, z1, z2, g1, g2, g3, g4, g5⟩
      rw [hcd] at g5
      have := hS3 e1 e2 z1 z2 g2 (by omega)
      rw [value_mul_sign _ _ n1 n2, ← this, hv]
    · rw [value_mul_sign _ _ n1 n2, hv, ← mul_sub, abs_mul]
      have habs : |(if v1.sign = v2.sign then 1 else -1 : ℚ)| = 1 := by split <;> simp
      rw [habs, one_mul, abs_of_nonneg (by linarith)]
      by_cases hx : (N:Int) = (v1.digits.length : Int) + v2.digits.length + 1
      · have := hS3 _ _ (.length _) (.length _) l2 (by omega)
        rw [this, sub_self]
        positivity
      · have hNe : v1.weight + v2.weight + 3 - (N:Int) = -c + (-2) := by omega
        rw [hNe] at hS2
        have h5 := hcp (-2)
        have h6 : (10000:ℚ) ^ (-2 : Int) = 1 / 100000000 := by norm_num
        rw [h6] at h5
        have h7 : (0:ℚ) ≤ v1.digits.length := by positivity
        have h8 : 9999 * (10000:ℚ) ^ (-c + -2) ≤ 1 / 10000 * 10 ^ (-r) := by linarith
        have h9 := mul_le_mul_of_nonneg_left h8 h7
        linarith

theorem mulCommon_deep [Build] (a b : Var) (sma : Small a) (smb : Small b) (r : Int) (hr1 : r ≤ 300000000) (ha : Digits a.digits) (hb : Digits b.digits)
    (na : a.sign ≠ .nan) (nb : b.sign ≠ .nan) (hr0 : 0 ≤ r)
    (hrl : r ≤ 16383 ∨ (a.digits ≠ [] ∧ b.digits ≠ [] ∧ 0 ≤ a.weight + b.weight + 2 + (r + 3) / 4)) :
    ∃ u, mulCommon a b r = .ok u ∧
      MulOK u r (value a * value b) (min a.digits.length b.digits.length) (MulDeep a b r) := by
  unfold mulCommon
  rw [dassert_ok na, dassert_ok nb]
  simp only [bind_ok]
  have hzero : ∀ v : Var, v.digits = [] → value v = 0 := by
    intro v hv; unfold value; rw [hv]; cases v.sign <;> simp
  by_cases hz : a.digits = [] ∨ b.digits = []
  · have hP : value a * value b = 0 := by
      rcases hz with hz | hz <;> rw [hzero _ hz] <;> simp
    have hr : r ≤ 16383 := by
      rcases hrl with h | ⟨h1, h2, -⟩
      · exact h
      · exact absurd hz (by simp [h1, h2])
    rw [if_pos]
    · rw [zeroScaled_ok hr0 hr]
      refine ⟨_, rfl, Digits.nil, by simp, by simp [Stripped], rfl, 0, ?_, fun _ => hP.symm, ?_⟩
      · rw [roundHalfAway_of_nonneg le_rfl, rmag_zero]; rfl
      · rw [hP, sub_zero, abs_zero]
        have := T_zpow_pos (-r)
        positivity
    · simp only [ndigits]
      split <;> rcases hz with hz | hz <;> simp [hz]
  · push Not at hz
    have l1 : 0 < a.digits.length := List.length_pos_iff.2 hz.1
    have l2 : 0 < b.digits.length := List.length_pos_iff.2 hz.2
    by_cases hgt : a.ndigits > b.ndigits
    · simp only [hgt, if_true]
      rw [if_neg (by simp only [ndigits]; omega)]
      have := mulOrdered b a smb sma r hr1 hb ha nb na hz.2 hz.1 hr0 (by
        rcases hrl with h | ⟨-, -, h⟩
        · exact .inl h
        · right; omega)
      obtain ⟨u, e, m1, m2, m3, m4, m5⟩ := this
      refine ⟨u, e, m1, m2, m3, m4, ?_⟩
      simp only [ndigits] at hgt
      rw [min_eq_right (by omega : b.digits.length ≤ a.digits.length), mul_comm (value a)]
      obtain ⟨x, x1, x2, x3⟩ := m5
      exact ⟨x, x1, fun h => x2 h.symm, x3⟩
    · simp only [hgt, if_false]
      rw [if_neg (by simp only [ndigits]; omega)]
      have := mulOrdered a b sma smb r hr1 ha hb na nb hz.1 hz.2 hr0 (by
        rcases hrl with h | ⟨-, -, h⟩
        · exact .inl h
        · right; omega)
      obtain ⟨u, e, m1, m2, m3, m4, m5⟩ := this
      refine ⟨u, e, m1, m2, m3, m4, ?_⟩
      simp only [ndigits] at hgt
      rw [min_eq_left (by omega : a.digits.length ≤ b.digits.length)]
      exact m5

theorem mulCommon_spec [Build] (a b : Var) (sma : Small a) (smb : Small b) (r : Int) (hr1 : r ≤ 300000000) (ha : Digits a.digits) (hb : Digits b.digits)
    (na : a.sign ≠ .nan) (nb : b.sign ≠ .nan) (hr0 : 0 ≤ r)
    (hrl : r ≤ 16383 ∨ (a.digits ≠ [] ∧ b.digits ≠ [] ∧ 0 ≤ a.weight + b.weight + 2 + (r + 3) / 4)) :
    ∃ u, mulCommon a b r = .ok u ∧
      MulOK u r (value a * value b) (min a.digits.length b.digits.length)
        (a.ndigits + b.ndigits ≤ a.weight + b.weight + 4 + (r + 3) / 4) := by
  obtain ⟨u, eu, h⟩ := mulCommon_deep a b sma smb r hr1 ha hb na nb hr0 hrl
  refine ⟨u, eu, h.digits, h.not_nan, h.stripped, h.dscale, ?_⟩
  obtain ⟨x, x1, x2, x3⟩ := h.round
  refine ⟨x, x1, fun hl => ?_, x3⟩
  by_cases hz : a.digits = [] ∨ b.digits = []
  · have hm : min a.digits.length b.digits.length = 0 := by rcases hz with hz | hz <;> simp [hz]
    rw [hm] at x3
    simp only [Nat.cast_zero, zero_mul, abs_nonpos_iff] at x3
    linarith
  · push Not at hz
    exact x2 (.of_len hz.1 hz.2 hl)

end PgNumeric
