import Verif.Proofs.Canon
/-!
# Rounding API, ceil, floor, sign operations, the scale of a quotient
-/
namespace PgNumeric
open Spec Var

/-- `make_result` on a result that may carry leading or trailing zero digits. -/
theorem makeResult_loose [Build] {u : Var} {s : Int} {x : ℚ} (hd : Digits u.digits) (hn : u.sign ≠ .nan)
    (hds : u.dscale = s) (hv : value u = x) (hs0 : 0 ≤ s) (hs1 : s ≤ 16383) (hsc : HasScale x s)
    (hw : u.weight ≤ 32767 ∨ ∃ d ds, u.digits = d :: ds ∧ d ≠ 0) (hw2 : -32767 ≤ u.weight)
    (hlen : (u.digits.length : Int) ≤ 1000000000) :
    (|x| < limit → makeResult u = .ok (some (strip u)) ∧ Canonical (strip u)) ∧
    (limit ≤ |x| → makeResult u = .ok none) := by
  have hok : AddOK (strip u) s x := ⟨strip_digits hd, strip_sign hn, strip_stripped _, by simp [hds], by rw [strip_value, hv]⟩
  unfold makeResult
  rw [dassert_ok hn, dassert_ok (by rw [hds]; exact hs0 : u.dscale ≥ 0), hds]
  simp only [bind_ok]
  have habs : |x| = mag u.digits u.weight := by rw [← hv, abs_value u hd]
  constructor
  · intro hl
    have hw' : u.weight ≤ 32767 := by
      rcases hw with h | ⟨d, ds, h, h0⟩
      · exact h
      · rw [habs, h, limit_eq] at hl
        rw [h] at hd
        have := B_zpow_lt_iff.1 (lt_of_le_of_lt (mag_ge_of_head hd h0 _) hl)
        omega
    rw [if_neg (by simp only [NUMERIC_WEIGHT_MAX, NUMERIC_WEIGHT_MIN, NUMERIC_DSCALE_MAX]; omega)]
    rw [stripM_ok (by omega) (by omega)]
    exact ⟨rfl, hok.canonical hs0 hs1 hsc hl⟩
  · intro hl
    rw [if_pos]; rfl
    left
    by_contra hcon
    simp only [NUMERIC_WEIGHT_MAX] at hcon
    rw [habs, limit_eq] at hl
    have := B_zpow_lt_iff.1 (lt_of_le_of_lt hl (mag_lt hd _))
    omega

theorem carryUp_sign [Build] (ds : List Int) (c : Int) (h : Digits ds) (hc : c = 0 ∨ c = 1) {ds' : List Int} {c' : Int}
    (e : carryUp ds c = .ok (ds', c')) : c' = 0 ∨ c' = 1 := by
  obtain ⟨a, b, e', _, hb, _⟩ := carryUp_spec ds c h hc
  rw [e] at e'
  cases e'; exact hb

/-- Where the leading digit of a rounded variable can be. -/
theorem roundCommon_weight [Build] (v : Var) (s : Int) (_h : Digits v.digits) (hn : v.sign ≠ .nan) {u : Var}
    (hu : roundCommon v s = .ok u) :
    u.weight = v.weight ∨ u.weight = 0 ∨ (u.weight = v.weight + 1 ∧ ∃ d ds, u.digits = d :: ds ∧ d ≠ 0) := by
  unfold roundCommon at hu
  rw [dassert_ok hn] at hu
  simp only [bind_ok] at hu
  simp only [bind, Except.bind, pure, Except.pure] at hu
  split at hu
  · cases hu
  split at hu
  · cases hu; right; left; rfl
  · split at hu
    · repeat' split at hu
      all_goals first
        | (cases hu; done)
        | (cases hu; left; rfl)
        | (cases hu; right; right; exact ⟨rfl, _, _, rfl, by omega⟩)
    · cases hu; left; rfl

theorem clampScale_bounds (s : Int) : -1000 ≤ clampScale s ∧ clampScale s ≤ 1000 := by
  unfold clampScale; simp only [NUMERIC_MAX_DISPLAY_SCALE]; omega

theorem value_withDscale (v : Var) (s : Int) : value { v with dscale := s } = value v := rfl

theorem stripM_withDscale {v : Var} (s : Int) (h : stripM v = .ok (strip v)) :
    stripM { v with dscale := s } = .ok (strip { v with dscale := s }) := by
  unfold stripM at h ⊢
  cases hf : fits [(stripLead v.digits v.weight).2] with
  | error f => rw [hf] at h; cases h
  | ok x => rfl

theorem round_spec [Build] {v : Var} (hv : Canonical v) (s : Int) :
    ∃ u, Var.round v s = .ok u ∧ Digits u.digits ∧ u.sign ≠ .nan ∧ u.dscale = max (clampScale s) 0 ∧
      value u = roundHalfAway (value v) (clampScale s) ∧
      (u.weight ≤ 32767 ∨ ∃ d ds, u.digits = d :: ds ∧ d ≠ 0) ∧ -32767 ≤ u.weight ∧
      (u.digits.length : Int) ≤ 1000000000 := by
  have hcs := clampScale_bounds s
  have hsm := hv.small
  have hlo := hsm.lo
  have hhi := hsm.hi
  have hln := hsm.len
  obtain ⟨u, eu, ud, un, us, uv⟩ := roundCommon_spec v (clampScale s) hv.digits hv.not_nan (by omega) (by omega)
  have hsh := (roundCommon_shape v _ eu).1
  have hw := roundCommon_weight v _ hv.digits hv.not_nan eu
  have h1 := hv.weight_le
  have h2 := hv.weight_ge
  refine ⟨if clampScale s < 0 then { u with dscale := 0 } else u, ?_, ?_⟩
  · unfold Var.round
    rw [dassert_ok hv.not_nan]
    simp only [bind_ok, eu, pure_ok]
  · have hw' : (u.weight ≤ 32767 ∨ ∃ d ds, u.digits = d :: ds ∧ d ≠ 0) ∧ -32767 ≤ u.weight ∧
        (u.digits.length : Int) ≤ 1000000000 := by
      rcases hw with h | h | ⟨h, h'⟩
      · exact ⟨.inl (by omega), by omega, by omega⟩
      · exact ⟨.inl (by omega), by omega, by omega⟩
      · exact ⟨.inr h', by omega, by omega⟩
    split
    · refine ⟨ud, un, ?_, by rw [value_withDscale, uv], hw'⟩
      simp only; omega
    · refine ⟨ud, un, by omega, uv, hw'⟩

theorem trunc_spec [Build] {v : Var} (hv : Canonical v) (s : Int) :
    ∃ u, Var.trunc v s = .ok u ∧ Digits u.digits ∧ u.sign ≠ .nan ∧ u.dscale = max (clampScale s) 0 ∧
      value u = truncTo (value v) (clampScale s) ∧ stripM u = .ok (strip u) := by
  have hcs := clampScale_bounds s
  have hsm := hv.small
  have hlo := hsm.lo
  have hhi := hsm.hi
  have hln := hsm.len
  obtain ⟨u, eu, ud, un, us, uv, -⟩ := truncCommon_spec v (clampScale s) hv.digits hv.not_nan (by omega) (by omega)
  have hst := trunc_stripM eu (by omega) (by omega)
  refine ⟨if clampScale s < 0 then { u with dscale := 0 } else u, ?_, ?_⟩
  · unfold Var.trunc
    rw [dassert_ok hv.not_nan]
    simp only [bind_ok, eu, pure_ok]
  · split
    · refine ⟨ud, un, ?_, by rw [value_withDscale, uv], stripM_withDscale 0 hst⟩
      simp only; omega
    · refine ⟨ud, un, by omega, uv, hst⟩

theorem hasScale_round (x : ℚ) (s : Int) : HasScale (roundHalfAway x s) (max s 0) :=
  (roundHalfAway_hasScale x s).mono (by omega)

theorem hasScale_trunc (x : ℚ) (s : Int) : HasScale (truncTo x s) (max s 0) :=
  (truncTo_hasScale x s).mono (by omega)

/-! ## ceil and floor -/

theorem truncTo_zero_pos {x : ℚ} (h : 0 ≤ x) : truncTo x 0 = (⌊x⌋ : ℤ) := by
  rw [truncTo_of_nonneg h]; simp [tmag]

theorem truncTo_zero_neg {x : ℚ} (h : x ≤ 0) : truncTo x 0 = (⌈x⌉ : ℤ) := by
  have : x = -(-x) := by ring
  rw [this, truncTo_neg, truncTo_of_nonneg (by linarith)]
  simp [tmag, Int.floor_neg]

theorem one_value : value one = 1 := by simp [value, one, mag]

theorem value_sign_pos {v : Var} (h : Digits v.digits) (hs : v.sign = .pos) : 0 ≤ value v := by
  simp [value, hs, mag_nonneg h]

theorem value_sign_neg {v : Var} (h : Digits v.digits) (hs : v.sign = .neg) : value v ≤ 0 := by
  simp [value, hs, mag_nonneg h]

theorem sign_pos_or_neg {v : Var} (h : v.sign ≠ .nan) : v.sign = .pos ∨ v.sign = .neg := by
  cases hs : v.sign <;> simp_all

theorem one_digits : Digits one.digits := by
  intro d hd; simp [one] at hd; omega

theorem one_small : Small one := ⟨by simp [one], by simp [one], by simp [one]⟩

theorem one_lt_limit : |(1:ℚ)| < limit := by
  rw [limit_eq, abs_one]
  exact lt_of_le_of_lt (zpow_zero _).ge (B_zpow_lt_iff.2 (by norm_num))

theorem mag_pos_of_head {ds : List Int} (h : Digits ds) (hne : ds ≠ []) (hh : ds.head? ≠ some 0) (w : Int) :
    0 < mag ds w := by
  obtain ⟨d, l, rfl⟩ := List.exists_cons_of_ne_nil hne
  exact lt_of_lt_of_le (B_zpow_pos _) (mag_ge_of_head h (head_ne_zero hh) _)

/-- What `ceil`, `floor` guarantee of their result before `make_result`. -/
structure IntOK (u : Var) (n : ℤ) : Prop where
  digits : Digits u.digits
  not_nan : u.sign ≠ .nan
  dscale : u.dscale = 0
  value : value u = n
  weight : u.weight ≤ 32767 ∨ ∃ d ds, u.digits = d :: ds ∧ d ≠ 0
  weight_ge : -32767 ≤ u.weight
  len : (u.digits.length : Int) ≤ 1000000000

theorem AddOK.intOK {u : Var} {n : ℤ} (h : AddOK u 0 (n : ℚ)) (hl : |(n : ℚ)| < huge) : IntOK u n where
  len := by
    have := (h.small (Spec.HasScale.int n le_rfl) (by norm_num) hl).len
    omega
  digits := h.digits
  not_nan := h.not_nan
  dscale := h.dscale
  value := h.value
  weight := by
    by_cases hne : u.digits = []
    · left; rw [(h.stripped.2.2 hne).1]; omega
    · right
      obtain ⟨d, l, hl⟩ := List.exists_cons_of_ne_nil hne
      have := h.stripped.1
      rw [hl] at this
      exact ⟨d, l, hl, head_ne_zero this⟩
  weight_ge := by
    have := stripped_weight_ge h.digits h.stripped (s := 0) (by rw [h.value]; exact Spec.HasScale.int n (by omega)) (by omega)
    omega

theorem trunc0_facts [Build] {v : Var} (hv : Canonical v) :
    ∃ u, truncCommon v 0 = .ok u ∧ Digits u.digits ∧ u.sign ≠ .nan ∧ u.dscale = 0 ∧
      value u = truncTo (value v) 0 ∧ (u.digits ≠ [] → 0 < mag u.digits u.weight) ∧ SignOK u ∧
      u.weight ≤ 32767 ∧ -32767 ≤ u.weight ∧ cmpCommon v u = cmpSign (value v) (value u) ∧ Small u := by
  have hsm := hv.small
  have hlo := hsm.lo
  have hhi := hsm.hi
  have hln := hsm.len
  obtain ⟨u, eu, ud, un, us, uv, h1, hul, h3, h4, h5⟩ := truncCommon_spec v 0 hv.digits hv.not_nan (by omega) (by omega)
  have hpos : u.digits ≠ [] → 0 < mag u.digits u.weight := fun hne =>
    mag_pos_of_head ud hne (h5 (by norm_num) hv.stripped.1) _
  have hw1 := hv.weight_le
  have hw2 := hv.weight_ge
  have hw : u.weight = v.weight ∨ u.weight = 0 := by
    rcases h3 with h | h
    · exact .inl h
    · rcases h1 h with h' | h'
      · exact .inr h'.1
      · left; rw [h']
  refine ⟨u, eu, ud, un, us, uv, hpos, ?_, by omega, by omega, ?_, ⟨by omega, by omega, by omega⟩⟩
  · intro hneg
    by_cases hne : u.digits = []
    · exfalso
      rcases h1 hne with h' | h'
      · rw [h'.2] at hneg; cases hneg
      · have : v.digits = [] := by rw [h'] at hne; exact hne
        have hp := (hv.stripped.2.2 this).2
        rw [h'] at hneg
        simp [hp] at hneg
    · exact hpos hne
  · exact cmpCommon_spec v u hv.digits ud hv.not_nan un
      (fun hne => stripped_mag_pos hv.digits hv.stripped hne) hpos

theorem cmpSign_eq_zero {x y : ℚ} : cmpSign x y = 0 ↔ x = y := by
  rcases cmpSign_cases x y with ⟨h, h'⟩ | ⟨h, h'⟩ | ⟨h, h'⟩ <;> rw [h] <;> simp
  · exact h'.ne
  · exact h'
  · exact h'.ne'

theorem ceil_eq_floor_add_one {x : ℚ} (h : x ≠ (⌊x⌋ : ℤ)) : ⌈x⌉ = ⌊x⌋ + 1 := by
  rw [Int.ceil_eq_iff]
  push_cast
  have := Int.floor_le x
  have := Int.lt_floor_add_one x
  constructor
  · rw [add_sub_cancel_right]
    exact lt_of_le_of_ne (Int.floor_le x) (Ne.symm h)
  · linarith

theorem floor_eq_ceil_sub_one {x : ℚ} (h : x ≠ (⌈x⌉ : ℤ)) : ⌊x⌋ = ⌈x⌉ - 1 := by
  rw [Int.floor_eq_iff]
  push_cast
  have h1 := Int.le_ceil x
  have h2 := Int.ceil_lt_add_one x
  constructor
  · linarith
  · rw [sub_add_cancel]; exact lt_of_le_of_ne h1 h

theorem ceil_int {x : ℚ} {n : ℤ} (h : x = n) : ⌈x⌉ = n := by rw [h]; simp
theorem floor_int {x : ℚ} {n : ℤ} (h : x = n) : ⌊x⌋ = n := by rw [h]; simp

theorem ceilCommon_spec [Build] {v : Var} (hv : Canonical v) :
    ∃ u, ceilCommon v = .ok u ∧ IntOK u ⌈value v⌉ := by
  obtain ⟨r, er, rd, rn, rs, rv, rp, rsg, rw1, rw2, rc, rsm⟩ := trunc0_facts hv
  have rlen := rsm.len
  have hlim := hv.abs_lt
  unfold ceilCommon
  rw [dassert_ok hv.not_nan]
  simp only [bind_ok, er, rc, ne_eq, cmpSign_eq_zero]
  split
  · rename_i hc
    obtain ⟨hpos, hne⟩ := hc
    have h0 := value_sign_pos hv.digits hpos
    rw [truncTo_zero_pos h0] at rv
    rw [rv] at hne
    obtain ⟨u, eu, hu⟩ := addCommon_spec r one rsm one_small rd one_digits rn (by simp [one]) rsg (by rw [rs]; omega) (by simp [one])
    have hfl : |((⌊value v⌋ : ℤ) : ℚ)| < limit := by
      rw [← truncTo_zero_pos h0]; exact lt_of_le_of_lt (abs_truncTo_le _ _) hlim
    refine ⟨u, eu, AddOK.intOK ?_ ?_⟩
    rotate_left
    · rw [ceil_eq_floor_add_one hne]
      push_cast
      exact huge_add hfl one_lt_limit
    rw [rs, rv, one_value] at hu
    rw [ceil_eq_floor_add_one hne]
    simpa [one] using hu
  · rename_i hc
    refine ⟨r, rfl, rd, rn, rs, ?_, .inl rw1, rw2, by omega⟩
    rcases sign_pos_or_neg hv.not_nan with hpos | hneg
    · have h0 := value_sign_pos hv.digits hpos
      rw [truncTo_zero_pos h0] at rv
      have : value v = (⌊value v⌋ : ℤ) := by
        by_contra hcon
        exact hc ⟨hpos, by rw [rv]; exact hcon⟩
      rw [rv, ceil_int this]
    · rw [rv, truncTo_zero_neg (value_sign_neg hv.digits hneg)]

theorem floorCommon_spec [Build] {v : Var} (hv : Canonical v) :
    ∃ u, floorCommon v = .ok u ∧ IntOK u ⌊value v⌋ := by
  obtain ⟨r, er, rd, rn, rs, rv, rp, rsg, rw1, rw2, rc, rsm⟩ := trunc0_facts hv
  have rlen := rsm.len
  have hlim := hv.abs_lt
  unfold floorCommon
  rw [dassert_ok hv.not_nan]
  simp only [bind_ok, er, rc, ne_eq, cmpSign_eq_zero]
  split
  · rename_i hc
    obtain ⟨hneg, hne⟩ := hc
    have h0 := value_sign_neg hv.digits hneg
    rw [truncTo_zero_neg h0] at rv
    rw [rv] at hne
    obtain ⟨u, eu, hu⟩ := subCommon_spec r one rsm one_small rd one_digits rn (by simp [one]) rsg (by rw [rs]; omega) (by simp [one])
    have hfl : |((⌈value v⌉ : ℤ) : ℚ)| < limit := by
      rw [← truncTo_zero_neg h0]; exact lt_of_le_of_lt (abs_truncTo_le _ _) hlim
    refine ⟨u, eu, AddOK.intOK ?_ ?_⟩
    rotate_left
    · rw [floor_eq_ceil_sub_one hne]
      push_cast
      exact huge_sub hfl one_lt_limit
    rw [rs, rv, one_value] at hu
    rw [floor_eq_ceil_sub_one hne]
    simpa [one] using hu
  · rename_i hc
    refine ⟨r, rfl, rd, rn, rs, ?_, .inl rw1, rw2, by omega⟩
    rcases sign_pos_or_neg hv.not_nan with hpos | hneg
    · rw [rv, truncTo_zero_pos (value_sign_pos hv.digits hpos)]
    · have h0 := value_sign_neg hv.digits hneg
      rw [truncTo_zero_neg h0] at rv
      have : value v = (⌈value v⌉ : ℤ) := by
        by_contra hcon
        exact hc ⟨hneg, by rw [rv]; exact hcon⟩
      rw [rv, floor_int this]

/-! ## Sign operations -/

theorem one_canonical : Canonical one where
  not_nan := by simp [one]
  digits := one_digits
  stripped := by simp [Stripped, one]
  weight_le := by simp [one]
  dscale_nonneg := by simp [one]
  dscale_le := by simp [one]
  scale := ⟨1, by rw [one_value]; simp [one]⟩

theorem zero_canonical {s : Int} (h0 : 0 ≤ s) (h1 : s ≤ 16383) : Canonical ⟨0, s, .pos, []⟩ where
  not_nan := by simp
  digits := Digits.nil
  stripped := by simp [Stripped]
  weight_le := by simp
  dscale_nonneg := h0
  dscale_le := h1
  scale := ⟨0, by simp [value]⟩

theorem Spec.Canonical.withSign {v : Var} (h : Canonical v) {sg : Sign} (hsg : sg ≠ .nan)
    (hne : v.digits = [] → sg = .pos) : Canonical { v with sign := sg } where
  not_nan := hsg
  digits := h.digits
  stripped := h.stripped.withSign sg hne
  weight_le := h.weight_le
  dscale_nonneg := h.dscale_nonneg
  dscale_le := h.dscale_le
  scale := by
    have : value { v with sign := sg } = value v ∨ value { v with sign := sg } = - value v := by
      have := h.not_nan
      cases hs : v.sign <;> cases sg <;> simp_all [value]
    rcases this with e | e <;> simp only [e]
    · exact h.scale
    · exact h.scale.neg

theorem negate_canonical {v : Var} (h : Canonical v) :
    Canonical (negate v) ∧ value (negate v) = - value v ∧ (negate v).dscale = v.dscale := by
  unfold negate
  split
  · rename_i hp
    have hne : v.digits ≠ [] := by intro hh; simp [ndigits, hh] at hp
    have := h.not_nan
    cases hs : v.sign with
    | pos => exact ⟨h.withSign (by simp) (fun hh => absurd hh hne), by simp [value, hs], rfl⟩
    | neg => exact ⟨h.withSign (by simp) (fun hh => absurd hh hne), by simp [value, hs], rfl⟩
    | nan => exact absurd hs this
  · rename_i hp
    have hne : v.digits = [] := by
      by_contra hh
      exact hp (by have := List.length_pos_iff.2 hh; simp only [ndigits]; omega)
    have hz := (stripped_zero_iff h.digits h.stripped).2 hne
    exact ⟨h, by rw [hz, neg_zero], rfl⟩

theorem abs_canonical {v : Var} (h : Canonical v) :
    Canonical (Var.abs v) ∧ value (Var.abs v) = |value v| ∧ (Var.abs v).dscale = v.dscale := by
  unfold Var.abs
  split
  · rename_i hs
    refine ⟨h.withSign (by simp) (fun _ => rfl), ?_, rfl⟩
    rw [abs_value v h.digits]; rfl
  · rename_i hs
    rcases sign_pos_or_neg h.not_nan with hp | hp
    · exact ⟨h, by rw [abs_of_nonneg (value_sign_pos h.digits hp)], rfl⟩
    · exact absurd hp hs

theorem value_pos_of {v : Var} (h : Canonical v) (hne : v.digits ≠ []) (hs : v.sign = .pos) : 0 < value v := by
  simp [value, hs, stripped_mag_pos h.digits h.stripped hne]

theorem value_neg_of {v : Var} (h : Canonical v) (hne : v.digits ≠ []) (hs : v.sign = .neg) : value v < 0 := by
  simp [value, hs, stripped_mag_pos h.digits h.stripped hne]

theorem signum_canonical {v : Var} (h : Canonical v) :
    Canonical (Var.signum v) ∧ value (Var.signum v) = (if value v < 0 then -1 else if value v = 0 then 0 else 1) ∧
      (Var.signum v).dscale = 0 := by
  unfold Var.signum
  split
  · rename_i hz
    have hne : v.digits = [] := by
      apply List.length_eq_zero_iff.1; simp only [ndigits] at hz; omega
    have hz := (stripped_zero_iff h.digits h.stripped).2 hne
    refine ⟨zero_canonical (by omega) (by omega), ?_, rfl⟩
    rw [hz]; simp [value, zero]
  · rename_i hz
    have hne : v.digits ≠ [] := by intro hh; simp [ndigits, hh] at hz
    refine ⟨one_canonical.withSign h.not_nan (by simp [one]), ?_, rfl⟩
    rcases sign_pos_or_neg h.not_nan with hp | hp
    · have := value_pos_of h hne hp
      rw [if_neg (by linarith), if_neg (by linarith)]
      simp [value, hp, one, mag]
    · have := value_neg_of h hne hp
      rw [if_pos this]
      simp [value, hp, one, mag]

/-! ## The scale of a quotient -/

theorem selectDivScale_bounds (a b : Var) : 0 ≤ selectDivScale a b ∧ selectDivScale a b ≤ 1000 := by
  unfold selectDivScale
  simp only [NUMERIC_MIN_DISPLAY_SCALE, NUMERIC_MAX_DISPLAY_SCALE]
  omega

theorem mag_head_bounds {d : Int} {l : List Int} (h : Digits (d :: l)) (w : Int) :
    (d : ℚ) * 10000 ^ w ≤ mag (d :: l) w ∧ mag (d :: l) w < (d + 1) * 10000 ^ w := by
  rw [mag_cons]
  have h1 := mag_nonneg (Digits.cons.1 h).2 (w - 1)
  have h2 := mag_lt (Digits.cons.1 h).2 (w - 1)
  rw [sub_add_cancel] at h2
  constructor
  · linarith
  · rw [add_mul, one_mul]; linarith

theorem selectDivScale_ge (a b : Var) :
    max (max a.dscale b.dscale) 0 ≤ selectDivScale a b ∨ selectDivScale a b = 1000 := by
  unfold selectDivScale
  simp only [NUMERIC_MIN_DISPLAY_SCALE, NUMERIC_MAX_DISPLAY_SCALE]
  omega

/-- Without the cap, the selected scale makes the quotient at least `10^16` units in the last place. -/
theorem selectDivScale_digits {a b : Var} (ha : Canonical a) (hb : Canonical b) (ha0 : value a ≠ 0) (hb0 : value b ≠ 0)
    (hs : selectDivScale a b < 1000) : (10:ℚ) ^ (16 : ℤ) ≤ |value a / value b| * 10 ^ (selectDivScale a b) := by
  have hane : a.digits ≠ [] := fun h => ha0 ((stripped_zero_iff ha.digits ha.stripped).2 h)
  have hbne : b.digits ≠ [] := fun h => hb0 ((stripped_zero_iff hb.digits hb.stripped).2 h)
  obtain ⟨d1, l1, e1⟩ := List.exists_cons_of_ne_nil hane
  obtain ⟨d2, l2, e2⟩ := List.exists_cons_of_ne_nil hbne
  have hh1 := ha.stripped.1
  have hh2 := hb.stripped.1
  have hD1 := ha.digits
  have hD2 := hb.digits
  rw [abs_div, abs_value a ha.digits, abs_value b hb.digits]
  rw [e1] at hh1 hD1
  rw [e2] at hh2 hD2
  have n1 := head_ne_zero hh1
  have n2 := head_ne_zero hh2
  have r1 := (Digits.cons.1 hD1).1
  have r2 := (Digits.cons.1 hD2).1
  set qw : Int := if d1 ≤ d2 then a.weight - b.weight - 1 else a.weight - b.weight with hqw
  have hsel : 16 - 4 * qw ≤ selectDivScale a b := by
    unfold selectDivScale at hs ⊢
    rw [e1, e2] at hs ⊢
    simp only [firstDigit, if_pos n1, if_pos n2, NUMERIC_MIN_DISPLAY_SCALE, NUMERIC_MAX_DISPLAY_SCALE,
      NUMERIC_MIN_SIG_DIGITS, DEC_DIGITS, ← hqw] at hs ⊢
    omega
  have hq : (10000:ℚ) ^ qw ≤ mag a.digits a.weight / mag b.digits b.weight := by
    rw [e1, e2]
    have hb1 := mag_head_bounds hD2 b.weight
    have ha1 := mag_head_bounds hD1 a.weight
    have hbpos : 0 < mag (d2 :: l2) b.weight := lt_of_lt_of_le (B_zpow_pos _) (mag_ge_of_head hD2 n2 _)
    rw [le_div_iff₀ hbpos]
    by_cases hc : d1 ≤ d2
    · rw [hqw, if_pos hc]
      calc (10000:ℚ) ^ (a.weight - b.weight - 1) * mag (d2 :: l2) b.weight
          ≤ 10000 ^ (a.weight - b.weight - 1) * 10000 ^ (b.weight + 1) :=
            mul_le_mul_of_nonneg_left (mag_lt hD2 _).le (B_zpow_pos _).le
        _ = 10000 ^ a.weight := by rw [← zpow_add₀ B_ne]; congr 1; ring
        _ ≤ _ := mag_ge_of_head hD1 n1 _
    · rw [hqw, if_neg hc]
      have hd : ((d2 + 1 : ℤ) : ℚ) ≤ d1 := by exact_mod_cast (by omega : d2 + 1 ≤ d1)
      push_cast at hd
      calc (10000:ℚ) ^ (a.weight - b.weight) * mag (d2 :: l2) b.weight
          ≤ 10000 ^ (a.weight - b.weight) * ((d2 + 1) * 10000 ^ b.weight) :=
            mul_le_mul_of_nonneg_left hb1.2.le (B_zpow_pos _).le
        _ = (d2 + 1) * 10000 ^ a.weight := by
            rw [mul_left_comm, ← zpow_add₀ B_ne]; congr 2; ring
        _ ≤ d1 * 10000 ^ a.weight := mul_le_mul_of_nonneg_right hd (B_zpow_pos _).le
        _ ≤ _ := ha1.1
  calc (10:ℚ) ^ (16 : ℤ) ≤ 10 ^ (4 * qw + selectDivScale a b) := T_zpow_le_iff.2 (by omega)
    _ = 10000 ^ qw * 10 ^ (selectDivScale a b) := by rw [zpow_add₀ (by norm_num), B_eq_T]
    _ ≤ _ := mul_le_mul_of_nonneg_right hq (T_zpow_pos _).le

theorem firstDigit_weight (ds : List Int) (w : Int) :
    (firstDigit ds w).2 = 0 ∨ w - ds.length ≤ (firstDigit ds w).2 ∧ (firstDigit ds w).2 ≤ w := by
  induction ds generalizing w with
  | nil => left; rfl
  | cons d ds ih =>
    unfold firstDigit
    split
    · right; simp only [List.length_cons]; push_cast; omega
    · rcases ih (w - 1) with h | h
      · exact .inl h
      · right; simp only [List.length_cons]; push_cast; omega

theorem divScaleFits_ok {a b : Var} (ha : Small a) (hb : Small b) : divScaleFits a b = .ok () := by
  unfold divScaleFits
  have h1 := firstDigit_weight a.digits a.weight
  have h2 := firstDigit_weight b.digits b.weight
  obtain ⟨a1, a2, a3⟩ := ha
  obtain ⟨b1, b2, b3⟩ := hb
  apply fits_ok
  fits_tac

theorem checkedDiv_canonical [Build] {a b : Var} (ha : Canonical a) (hb : Canonical b) (hb0 : value b ≠ 0) :
    ∃ u, Var.checkedDiv a b = .ok (some u) ∧
      AddOK u (selectDivScale a b) (roundHalfAway (value a / value b) (selectDivScale a b)) := by
  have h := selectDivScale_bounds a b
  obtain ⟨u, eu, hu⟩ := div_canonical ha hb hb0 (selectDivScale a b) true h.1 (by omega)
  refine ⟨u, ?_, by simpa using hu⟩
  unfold Var.checkedDiv
  rw [dassert_ok ha.not_nan, dassert_ok hb.not_nan, divScaleFits_ok ha.small hb.small]
  exact eu

theorem checkedDivTrunc_canonical [Build] {a b : Var} (ha : Canonical a) (hb : Canonical b) (hb0 : value b ≠ 0) :
    ∃ u, Var.checkedDivTrunc a b = .ok (some u) ∧ AddOK u 0 (truncTo (value a / value b) 0) := by
  obtain ⟨u, eu, hu⟩ := div_canonical ha hb hb0 0 false (by omega) (by omega)
  refine ⟨u, ?_, by simpa using hu⟩
  unfold Var.checkedDivTrunc
  rw [dassert_ok ha.not_nan, dassert_ok hb.not_nan]
  exact eu

theorem checkedDiv_zero [Build] {a b : Var} (ha : Canonical a) (hb : Canonical b) (hb0 : value b = 0) :
    Var.checkedDiv a b = .ok none ∧ Var.checkedDivTrunc a b = .ok none := by
  have hb' := (stripped_zero_iff hb.digits hb.stripped).1 hb0
  unfold Var.checkedDiv Var.checkedDivTrunc
  rw [dassert_ok ha.not_nan, dassert_ok hb.not_nan, divScaleFits_ok ha.small hb.small]
  exact ⟨divCommon_zero a b ha.not_nan hb.not_nan hb' _ _, divCommon_zero a b ha.not_nan hb.not_nan hb' _ _⟩

end PgNumeric
