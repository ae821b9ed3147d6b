import Verif.Proofs.Stored
/-!
# Arithmetic on variables read from any stored form
-/
namespace PgNumeric
open Spec Var

theorem stripTrail_append (m : List Int) : ∃ z, m = stripTrail m ++ z ∧ ∀ x ∈ z, x = 0 := by
  induction m with
  | nil => exact ⟨[], rfl, by simp⟩
  | cons d ds ih =>
    obtain ⟨z, hz, h0⟩ := ih
    rw [stripTrail]
    cases hs : stripTrail ds with
    | nil =>
      rw [hs, List.nil_append] at hz
      by_cases hd : d = 0
      · refine ⟨d :: ds, by simp [hd], ?_⟩
        intro x hx
        rcases List.mem_cons.1 hx with rfl | hx
        · exact hd
        · exact h0 x (hz ▸ hx)
      · exact ⟨ds, by simp [hd], by rw [hz]; exact h0⟩
    | cons a l =>
      rw [hs] at hz
      exact ⟨z, by simpa using hz, h0⟩

/-- The significant digits of a stored number reach no deeper than its scale. -/
theorem Loose.depth {v : Var} (h : Loose v) (hne : v.digits ≠ []) :
    ∃ e, ZeroFrom v.digits e ∧ 1 ≤ e ∧ e ≤ v.digits.length ∧ (e : Int) ≤ v.weight + 1 + (v.dscale + 3) / 4 := by
  set m := v.digits.dropWhile (· = 0) with hm
  have hsp : v.digits.takeWhile (· = 0) ++ m = v.digits := List.takeWhile_append_dropWhile
  obtain ⟨z, hz, hz0⟩ := stripTrail_append m
  have hv0 : value v ≠ 0 := by
    intro h0
    have := abs_value v h.digits
    rw [h0, abs_zero] at this
    exact absurd this (h.pos hne).ne
  have hst : strip v = if stripTrail m = [] then ⟨0, v.dscale, .pos, []⟩ else
      ⟨v.weight - ((v.digits.takeWhile (· = 0)).length : Int), v.dscale, v.sign, stripTrail m⟩ := by
    unfold strip; rw [stripLead_loose]
  have hsne : (strip v).digits ≠ [] := fun hh => hv0 (by
    rw [← strip_value v]; exact (stripped_zero_iff (strip_digits h.digits) (strip_stripped v)).2 hh)
  have htr : stripTrail m ≠ [] := by
    intro hh; rw [if_pos hh] at hst; rw [hst] at hsne; exact hsne rfl
  rw [if_neg htr] at hst
  have hl := stripped_len (strip_digits h.digits) (strip_stripped v) hsne (s := v.dscale) (by rw [strip_value]; exact h.scale)
  rw [hst] at hl
  simp only [ndigits] at hl
  have hlp := List.length_pos_iff.2 htr
  have hlen : (v.digits.takeWhile (· = 0)).length + (stripTrail m).length + z.length = v.digits.length := by
    have l1 := congrArg List.length hsp
    have l2 := congrArg List.length hz
    rw [List.length_append] at l1 l2
    omega
  refine ⟨(v.digits.takeWhile (· = 0)).length + (stripTrail m).length, ?_, by omega, by omega, by push_cast; omega⟩
  intro x hx
  have hx' : x ∈ (v.digits.takeWhile (· = 0) ++ (stripTrail m ++ z)).drop ((v.digits.takeWhile (· = 0)).length + (stripTrail m).length) := by
    rw [← hz, hsp]; exact hx
  rw [← List.append_assoc, ← List.length_append, List.drop_left] at hx'
  exact hz0 x hx'

theorem Loose.value_zero_iff {v : Var} (h : Loose v) : value v = 0 ↔ v.digits = [] := by
  constructor
  · intro h0
    by_contra hne
    have := abs_value v h.digits
    rw [h0, abs_zero] at this
    exact absurd this (h.pos hne).ne
  · intro h0; unfold value; rw [h0]; cases v.sign <;> simp [mag]

/-- A stripped number as a stored one. -/
theorem AddOK.depth {u : Var} {s : Int} {x : ℚ} (h : AddOK u s x) (hsc : HasScale x s) (hne : u.digits ≠ []) :
    ∃ e, ZeroFrom u.digits e ∧ 1 ≤ e ∧ e ≤ u.digits.length ∧ (e : Int) ≤ u.weight + 1 + (s + 3) / 4 := by
  have := stripped_len h.digits h.stripped hne (s := s) (by rw [h.value]; exact hsc)
  simp only [ndigits] at this
  exact ⟨_, .length _, List.length_pos_iff.2 hne, le_rfl, this⟩

/-- Exact multiplication of factors whose significant digits reach no deeper than their scales. -/
theorem mul_deep [Build] {a b : Var} {s t : Int} (sma : Small a) (smb : Small b) (ha : Digits a.digits) (hb : Digits b.digits)
    (na : a.sign ≠ .nan) (nb : b.sign ≠ .nan)
    (da : a.digits ≠ [] → ∃ e, ZeroFrom a.digits e ∧ 1 ≤ e ∧ e ≤ a.digits.length ∧ (e : Int) ≤ a.weight + 1 + (s + 3) / 4)
    (db : b.digits ≠ [] → ∃ e, ZeroFrom b.digits e ∧ 1 ≤ e ∧ e ≤ b.digits.length ∧ (e : Int) ≤ b.weight + 1 + (t + 3) / 4)
    (hs : HasScale (value a) s) (ht : HasScale (value b) t) (hr0 : 0 ≤ s + t) (hr1 : s + t ≤ 300000000)
    (hz : s + t ≤ 16383 ∨ (a.digits ≠ [] ∧ b.digits ≠ [])) :
    ∃ u, mulCommon a b (s + t) = .ok u ∧ AddOK u (s + t) (value a * value b) := by
  have deep : a.digits ≠ [] → b.digits ≠ [] → MulDeep a b (s + t) := by
    intro h1 h2
    obtain ⟨e, z1, e1, e2, e3⟩ := da h1
    obtain ⟨f, z2, f1, f2, f3⟩ := db h2
    exact ⟨e, f, z1, z2, e1, f1, e2, f2, by omega⟩
  have hrl : s + t ≤ 16383 ∨ (a.digits ≠ [] ∧ b.digits ≠ [] ∧ 0 ≤ a.weight + b.weight + 2 + (s + t + 3) / 4) := by
    rcases hz with h | ⟨h1, h2⟩
    · exact .inl h
    · obtain ⟨e, f, -, -, e1, f1, -, -, h3⟩ := deep h1 h2
      exact .inr ⟨h1, h2, by omega⟩
  obtain ⟨u, eu, hu⟩ := mulCommon_deep a b sma smb (s + t) hr1 ha hb na nb hr0 hrl
  refine ⟨u, eu, hu.digits, hu.not_nan, hu.stripped, hu.dscale, ?_⟩
  obtain ⟨x, hx, hex, herr⟩ := hu.round
  by_cases h0 : a.digits = [] ∨ b.digits = []
  · have hP : value a * value b = 0 := by
      have z : ∀ v : Var, v.digits = [] → value v = 0 := fun v h0 => by unfold value; rw [h0]; cases v.sign <;> simp [mag]
      rcases h0 with h | h
      · rw [z _ h, zero_mul]
      · rw [z _ h, mul_zero]
    have hmin : min a.digits.length b.digits.length = 0 := by
      rcases h0 with h | h <;> simp [h]
    rw [hmin, hP] at herr
    simp at herr
    rw [hx, herr, hP, rmag_eq_self_iff ⟨0, by simp⟩]
  · push Not at h0
    rw [hx, hex (deep h0.1 h0.2), rmag_eq_self_iff (hs.mul ht)]

theorem mul_loose [Build] {a b : Var} (ha : Loose a) (hb : Loose b)
    (hz : a.dscale + b.dscale ≤ 16383 ∨ (a.digits ≠ [] ∧ b.digits ≠ [])) :
    ∃ u, mulCommon a b (a.dscale + b.dscale) = .ok u ∧ AddOK u (a.dscale + b.dscale) (value a * value b) := by
  have := ha.dscale_nonneg; have := ha.dscale_le; have := hb.dscale_nonneg; have := hb.dscale_le
  exact mul_deep ha.small hb.small ha.digits hb.digits ha.not_nan hb.not_nan ha.depth hb.depth ha.scale hb.scale (by omega) (by omega) hz

/-! ## Division -/

theorem firstDigit_mag {ds : List Int} (h : Digits ds) (hne : ∃ d ∈ ds, d ≠ 0) (w : Int) :
    Num.Leading (mag ds w) (firstDigit ds w).1 (firstDigit ds w).2 := by
  induction ds generalizing w with
  | nil => obtain ⟨d, hd, -⟩ := hne; simp at hd
  | cons d ds ih =>
    by_cases hd0 : d = 0
    · obtain ⟨e, he, hn⟩ := hne
      have : e ∈ ds := by
        rcases List.mem_cons.1 he with rfl | he
        · exact absurd hd0 hn
        · exact he
      have := ih (fun x hx => h x (by simp [hx])) ⟨e, this, hn⟩ (w - 1)
      have em : mag (d :: ds) w = mag ds (w - 1) := by rw [mag, hd0]; simp
      rw [em]
      simpa [firstDigit, hd0] using this
    · have hm := mag_head_bounds h w
      have hdr := h d (by simp)
      simp only [firstDigit, if_pos hd0]
      refine ⟨by omega, by omega, ?_, ?_⟩ <;> rw [abs_of_nonneg (mag_nonneg h w)]
      · exact hm.1
      · exact hm.2

theorem Loose.firstDigit_eq {v : Var} (hv : Loose v) :
    firstDigit v.digits v.weight = (leadDigit (value v), leadWeight (value v)) := by
  by_cases h0 : value v = 0
  · rw [hv.value_zero_iff.1 h0, h0, Num.lead_zero.1, Num.lead_zero.2]; rfl
  · have hne : ∃ d ∈ v.digits, d ≠ 0 := by
      rcases hv.zero with h | h
      · exact absurd (hv.value_zero_iff.2 h.1) h0
      · exact h
    have hl := firstDigit_mag hv.digits hne v.weight
    have : Num.Leading (value v) (firstDigit v.digits v.weight).1 (firstDigit v.digits v.weight).2 := by
      obtain ⟨h1, h2, h3, h4⟩ := hl
      rw [abs_of_nonneg (mag_nonneg hv.digits _)] at h3 h4
      exact ⟨h1, h2, by rw [abs_value v hv.digits]; exact h3, by rw [abs_value v hv.digits]; exact h4⟩
    obtain ⟨e1, e2⟩ := Num.leading_unique this (Num.leading_lead h0)
    rw [← e1, ← e2]

theorem selectDivScale_loose {u v : Var} (hu : Loose u) (hv : Loose v) :
    selectDivScale u v = quotientScale (value u) (value v) u.dscale v.dscale := by
  unfold selectDivScale quotientScale
  rw [hu.firstDigit_eq, hv.firstDigit_eq]
  have := hu.dscale_nonneg
  simp only [NUMERIC_MIN_DISPLAY_SCALE, NUMERIC_MAX_DISPLAY_SCALE, NUMERIC_MIN_SIG_DIGITS, DEC_DIGITS]
  split <;> omega

theorem div_loose [Build] {a b : Var} (ha : Loose a) (hb : Loose b) (hb0 : b.digits ≠ []) (hbh : b.digits.head? ≠ some 0) :
    (∃ u, Var.checkedDiv a b = .ok (some u) ∧ AddOK u (quotientScale (value a) (value b) a.dscale b.dscale)
      (roundHalfAway (value a / value b) (quotientScale (value a) (value b) a.dscale b.dscale))) ∧
    (∃ u, divCommon a b 0 false = .ok (some u) ∧ AddOK u 0 (truncTo (value a / value b) 0)) := by
  constructor
  · have hs := selectDivScale_bounds a b
    obtain ⟨u, eu, hu⟩ := divCommon_spec a b ha.small hb.small (selectDivScale a b) (by omega) true ha.digits hb.digits ha.not_nan hb.not_nan
      hb0 hbh hs.1 (.inl (by omega))
    rw [if_pos rfl] at hu
    refine ⟨u, ?_, by rw [← selectDivScale_loose ha hb]; exact hu⟩
    unfold Var.checkedDiv
    rw [dassert_ok ha.not_nan, dassert_ok hb.not_nan, divScaleFits_ok ha.small hb.small]
    exact eu
  · obtain ⟨u, eu, hu⟩ := divCommon_spec a b ha.small hb.small 0 (by omega) false ha.digits hb.digits ha.not_nan hb.not_nan
      hb0 hbh (by omega) (.inl (by omega))
    exact ⟨u, eu, by simpa using hu⟩

/-- A divisor whose first group is zero counts as zero. -/
theorem div_lead_zero [Build] {a b : Var} (ha : Loose a) (hb : Loose b) (hbh : b.digits = [] ∨ b.digits.head? = some 0) :
    Var.checkedDiv a b = .ok none ∧ Var.checkedDivTrunc a b = .ok none ∧ modCommon a b = .ok none := by
  have key : ∀ s r, divCommon a b s r = .ok none := by
    intro s r
    unfold divCommon
    rw [dassert_ok ha.not_nan, dassert_ok hb.not_nan, bind_ok, bind_ok, if_pos]
    · rfl
    · rcases hbh with h | h
      · left; simp [ndigits, h]
      · right
        cases hd : b.digits with
        | nil => simp
        | cons d l => rw [hd] at h; simpa using h
  refine ⟨?_, ?_, ?_⟩
  · unfold Var.checkedDiv
    rw [dassert_ok ha.not_nan, dassert_ok hb.not_nan, divScaleFits_ok ha.small hb.small]
    exact key _ _
  · unfold Var.checkedDivTrunc
    rw [dassert_ok ha.not_nan, dassert_ok hb.not_nan]
    exact key _ _
  · unfold modCommon
    rw [dassert_ok ha.not_nan, dassert_ok hb.not_nan, bind_ok, bind_ok, key]
    rfl

theorem mod_loose [Build] {a b : Var} (ha : Loose a) (hb : Loose b) (hbn : b.digits ≠ []) (hbh : b.digits.head? ≠ some 0) :
    ∃ u, modCommon a b = .ok (some u) ∧ AddOK u (max a.dscale b.dscale)
      (value a - truncTo (value a / value b) 0 * value b) := by
  obtain ⟨q, eq, hq⟩ := (div_loose ha hb hbn hbh).2
  have hb0 : value b ≠ 0 := fun h => hbn (hb.value_zero_iff.1 h)
  have hqs : HasScale (value q) 0 := by rw [hq.value]; exact truncTo_hasScale _ _
  have hqb : |truncTo (value a / value b) 0| < 10000 ^ (36864 : Int) := by
    have h1 := abs_truncTo_le (value a / value b) 0
    have h2 : (10:ℚ) ^ (-(16383 : Int)) ≤ |value b| := HasScale.abs_ge (hb.scale.mono hb.dscale_le) hb0
    have h3 := ha.abs_lt
    rw [limit_eq] at h3
    have hbp : 0 < |value b| := abs_pos.2 hb0
    have h4 : |value a / value b| < 10000 ^ (36864 : Int) := by
      rw [abs_div, div_lt_iff₀ hbp]
      have h5 : (10000:ℚ) ^ (36864 : Int) * 10 ^ (-(16383:Int)) ≤ 10000 ^ (36864 : Int) * |value b| :=
        mul_le_mul_of_nonneg_left h2 (B_zpow_pos _).le
      have h6 : (10000:ℚ) ^ (32768 : Int) ≤ 10000 ^ (36864 : Int) * 10 ^ (-(16383:Int)) := by
        rw [B_eq_T, B_eq_T, ← zpow_add₀ (by norm_num : (10:ℚ) ≠ 0)]
        exact T_zpow_le_iff.2 (by norm_num)
      exact lt_of_lt_of_le h3 (h6.trans h5)
    exact lt_of_le_of_lt h1 h4
  have hqsm : Small q := hq.small (truncTo_hasScale _ _) (by norm_num) (lt_huge_of_zpow hqb (by norm_num))
  have hpv : |truncTo (value a / value b) 0 * value b| ≤ |value a| := by
    rw [abs_mul]
    have h1 := abs_truncTo_le (value a / value b) 0
    have hbp : 0 < |value b| := abs_pos.2 hb0
    rw [abs_div, le_div_iff₀ hbp] at h1
    exact h1
  obtain ⟨p, ep, hp⟩ := mul_deep hqsm hb.small hq.digits hb.digits hq.not_nan hb.not_nan (hq.depth (truncTo_hasScale _ _)) hb.depth hqs hb.scale
    (by have := hb.dscale_nonneg; omega) (by have := hb.dscale_le; omega) (.inl (by have := hb.dscale_le; omega))
  rw [zero_add] at ep hp
  have hpsm : Small p := hp.small (by rw [← zero_add b.dscale]; exact hqs.mul hb.scale) (by have := hb.dscale_le; omega)
    (by rw [hq.value]; exact lt_huge (lt_of_le_of_lt hpv ha.abs_lt))
  obtain ⟨r, er, hr⟩ := subCommon_spec a p ha.small hpsm ha.digits hp.digits ha.not_nan hp.not_nan ha.signOK
    ⟨ha.dscale_nonneg, ha.dscale_le⟩ (by rw [hp.dscale]; exact ⟨hb.dscale_nonneg, hb.dscale_le⟩)
  refine ⟨r, ?_, ?_⟩
  · unfold modCommon
    rw [dassert_ok ha.not_nan, dassert_ok hb.not_nan]
    simp only [bind_ok, eq, ep, er]
    rfl
  · rw [hp.dscale, hp.value, hq.value] at hr
    exact hr

/-! ## Ceiling and floor -/

theorem cmp_same_sign {a b : Var} (ha : Digits a.digits) (hb : Digits b.digits) (na : a.sign ≠ .nan) (nb : b.sign ≠ .nan)
    (za : a.digits ≠ [] → 0 < mag a.digits a.weight) (hs : b.digits = [] ∨ (b.sign = a.sign ∧ a.digits ≠ [])) :
    cmpCommon a b = cmpSign (value a) (value b) := by
  rcases hs with h | ⟨h, hne⟩
  · exact cmpCommon_spec a b ha hb na nb za (fun hne => absurd h hne)
  · by_cases hbe : b.digits = []
    · exact cmpCommon_spec a b ha hb na nb za (fun hne => absurd hbe hne)
    · have l1 : a.ndigits ≠ 0 := by simp [ndigits, hne]
      have l2 : b.ndigits ≠ 0 := by simp [ndigits, hbe]
      unfold cmpCommon
      rw [if_neg l1, if_neg l2, h]
      cases hsa : a.sign with
      | nan => exact absurd hsa na
      | pos =>
        rw [if_pos rfl, if_neg (by simp), cmpAbs_spec a b ha hb]
        simp [value, h, hsa]
      | neg =>
        rw [if_neg (by simp), if_neg (by simp), cmpAbs_spec b a hb ha]
        simp only [value, h, hsa]
        unfold cmpSign
        simp only [neg_lt_neg_iff, neg_inj, eq_comm]

theorem trunc0_loose [Build] {v : Var} (hv : Loose v) :
    ∃ u, truncCommon v 0 = .ok u ∧ Digits u.digits ∧ u.sign ≠ .nan ∧ u.dscale = 0 ∧
      value u = truncTo (value v) 0 ∧ u.weight ≤ 32767 ∧ -32767 ≤ u.weight ∧ cmpCommon v u = cmpSign (value v) (value u) ∧ Small u ∧
      (u.sign = v.sign ∨ u.digits = [] ∧ u.sign = .pos) := by
  have hsm := hv.small
  have hlo := hsm.lo
  have hhi := hsm.hi
  have hln := hsm.len
  obtain ⟨u, eu, ud, un, us, uv, h1, hul, h3, h4, h5⟩ := truncCommon_spec v 0 hv.digits hv.not_nan (by omega) (by omega)
  have hw1 := hv.hi
  have hw2 := hv.lo
  have hw : u.weight = v.weight ∨ u.weight = 0 := by
    rcases h3 with h | h
    · exact .inl h
    · rcases h1 h with h' | h'
      · exact .inr h'.1
      · left; rw [h']
  refine ⟨u, eu, ud, un, us, uv, by omega, by omega, ?_, ⟨by omega, by omega, by omega⟩, ?_⟩
  · refine cmp_same_sign hv.digits ud hv.not_nan un hv.pos ?_
    by_cases hne : u.digits = []
    · exact .inl hne
    · refine .inr ⟨h4 hne, fun h => ?_⟩
      rw [h] at hul
      exact hne (List.length_eq_zero_iff.1 (by simpa using hul))
  · by_cases hne : u.digits = []
    · rcases h1 hne with h' | h'
      · exact .inr ⟨hne, h'.2⟩
      · left; rw [h']
    · exact .inl (h4 hne)

theorem ceil_loose [Build] {v : Var} (hv : Loose v) :
    ∃ u, ceilCommon v = .ok u ∧ IntOK u ⌈value v⌉ := by
  obtain ⟨r, er, rd, rn, rs, rv, rw1, rw2, rc, rsm, rsg⟩ := trunc0_loose hv
  have rlen := rsm.len
  have hlim := hv.abs_lt
  unfold ceilCommon
  rw [dassert_ok hv.not_nan]
  simp only [bind_ok, er, rc, ne_eq, cmpSign_eq_zero]
  split
  · rename_i hc
    obtain ⟨hpos, hne⟩ := hc
    have h0 := value_sign_pos hv.digits hpos
    rw [truncTo_zero_pos h0] at rv
    rw [rv] at hne
    have rpos : r.sign = .pos := by
      rcases rsg with h | h
      · rw [h, hpos]
      · exact h.2
    obtain ⟨u, eu, hu⟩ := addCommon_spec r one rsm one_small rd one_digits rn (by simp [one]) (by intro h; rw [rpos] at h; cases h)
      (by rw [rs]; omega) (by simp [one])
    have hfl : |((⌊value v⌋ : ℤ) : ℚ)| < limit := by
      rw [← truncTo_zero_pos h0]; exact lt_of_le_of_lt (abs_truncTo_le _ _) hlim
    refine ⟨u, eu, AddOK.intOK ?_ ?_⟩
    rotate_left
    · rw [ceil_eq_floor_add_one hne]
      push_cast
      exact huge_add hfl one_lt_limit
    rw [rs, rv, one_value] at hu
    rw [ceil_eq_floor_add_one hne]
    simpa [one] using hu
  · rename_i hc
    refine ⟨r, rfl, rd, rn, rs, ?_, .inl rw1, rw2, by omega⟩
    rcases sign_pos_or_neg hv.not_nan with hpos | hneg
    · have h0 := value_sign_pos hv.digits hpos
      rw [truncTo_zero_pos h0] at rv
      have : value v = (⌊value v⌋ : ℤ) := by
        by_contra hcon
        exact hc ⟨hpos, by rw [rv]; exact hcon⟩
      rw [rv, ceil_int this]
    · rw [rv, truncTo_zero_neg (value_sign_neg hv.digits hneg)]

/-- Subtracting one from a truncated non-positive number, whose digits may all be zero. -/
theorem sub_one_loose [Build] {r : Var} (rsm : Small r) (rd : Digits r.digits) (rs : r.dscale = 0)
    (rsg : r.sign = .neg ∨ r.digits = [] ∧ r.sign = .pos) :
    ∃ u, subCommon r one = .ok u ∧ AddOK u 0 (value r - 1) := by
  rcases rsg with h | ⟨h, h'⟩
  · obtain ⟨u, eu, ud, -, ust, us, um⟩ := addAbs_spec r one rsm one_small rd one_digits (by simp [h]) (by simp [one])
    refine ⟨{ u with sign := .neg }, ?_, ?_⟩
    · unfold subCommon
      rw [dassert_ok (by simp [h]), dassert_ok (by simp [one])]
      simp only [bind_ok, h, reduceCtorEq, if_false]
      rw [if_neg (by simp [one]), eu]
      rfl
    · have hm1 : mag one.digits one.weight = 1 := by simp [one, mag]
      rw [hm1] at um
      have hp := mag_nonneg rd r.weight
      have := AddOK.mk' .neg ud ust us um (.inr ⟨rfl, by linarith⟩)
      have e1 : max r.dscale one.dscale = 0 := by rw [rs]; rfl
      rw [e1] at this
      have e2 : value r - 1 = -(mag r.digits r.weight + 1) := by simp [value, h]; ring
      rw [e2]
      simpa using this
  · obtain ⟨u, eu, hu⟩ := subCommon_spec r one rsm one_small rd one_digits (by simp [h']) (by simp [one]) (by intro h; rw [h'] at h; cases h)
      (by rw [rs]; omega) (by simp [one])
    rw [rs, one_value] at hu
    exact ⟨u, eu, by simpa [one] using hu⟩

theorem floor_loose [Build] {v : Var} (hv : Loose v) :
    ∃ u, floorCommon v = .ok u ∧ IntOK u ⌊value v⌋ := by
  obtain ⟨r, er, rd, rn, rs, rv, rw1, rw2, rc, rsm, rsg⟩ := trunc0_loose hv
  have rlen := rsm.len
  have hlim := hv.abs_lt
  unfold floorCommon
  rw [dassert_ok hv.not_nan]
  simp only [bind_ok, er, rc, ne_eq, cmpSign_eq_zero]
  split
  · rename_i hc
    obtain ⟨hneg, hne⟩ := hc
    have h0 := value_sign_neg hv.digits hneg
    rw [truncTo_zero_neg h0] at rv
    rw [rv] at hne
    obtain ⟨u, eu, hu⟩ := sub_one_loose rsm rd rs (by rw [← hneg]; exact rsg)
    have hfl : |((⌈value v⌉ : ℤ) : ℚ)| < limit := by
      rw [← truncTo_zero_neg h0]; exact lt_of_le_of_lt (abs_truncTo_le _ _) hlim
    refine ⟨u, eu, AddOK.intOK ?_ ?_⟩
    rotate_left
    · rw [floor_eq_ceil_sub_one hne]
      push_cast
      exact huge_sub hfl one_lt_limit
    rw [rv] at hu
    rw [floor_eq_ceil_sub_one hne]
    simpa using hu
  · rename_i hc
    refine ⟨r, rfl, rd, rn, rs, ?_, .inl rw1, rw2, by omega⟩
    rcases sign_pos_or_neg hv.not_nan with hpos | hneg
    · rw [rv, truncTo_zero_pos (value_sign_pos hv.digits hpos)]
    · have h0 := value_sign_neg hv.digits hneg
      rw [truncTo_zero_neg h0] at rv
      have : value v = (⌈value v⌉ : ℤ) := by
        by_contra hcon
        exact hc ⟨hneg, by rw [rv]; exact hcon⟩
      rw [rv, floor_int this]

theorem signum_loose {v : Var} (h : Loose v) :
    Canonical (Var.signum v) ∧ value (Var.signum v) = (if value v < 0 then -1 else if value v = 0 then 0 else 1) ∧
      (Var.signum v).dscale = 0 := by
  unfold Var.signum
  split
  · rename_i hz
    have hne : v.digits = [] := by
      apply List.length_eq_zero_iff.1; simp only [ndigits] at hz; omega
    have hz := h.value_zero_iff.2 hne
    refine ⟨zero_canonical (by omega) (by omega), ?_, rfl⟩
    rw [hz]; simp [value, zero]
  · rename_i hz
    have hne : v.digits ≠ [] := by intro hh; simp [ndigits, hh] at hz
    have hp := h.pos hne
    refine ⟨one_canonical.withSign h.not_nan (by simp [one]), ?_, rfl⟩
    rcases sign_pos_or_neg h.not_nan with hs | hs
    · have : 0 < value v := by simp [value, hs, hp]
      rw [if_neg (by linarith), if_neg (by linarith)]
      simp [value, hs, one, mag]
    · have : value v < 0 := by simp [value, hs, hp]
      rw [if_pos this]
      simp [value, hs, one, mag]

end PgNumeric
