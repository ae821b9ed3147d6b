import Verif.Proofs.StoredArith
import Verif.Props.Stored
/-!
# More operations on numerics in any stored form (C59)
-/
namespace PgNumeric.Props
open PgNumeric Spec Var Num

/-- The first group as seen in the layout. -/
theorem firstGroup_layout [Build] {b : Bin} {neg : Bool} {w s : Int} {ds : List Int} (h : Layout b neg w s ds) : firstGroup b = ds.head? := by
  obtain ⟨-, -, hs, ⟨h1, h2, h3, h4, h5⟩ | ⟨h1, h2, h3, h4, h5⟩⟩ := h
  · have hm := Int.emod_nonneg w (show (128:Int) ≠ 0 by norm_num)
    have hm' := Int.emod_lt_of_pos w (show (0:Int) < 128 by norm_num)
    unfold firstGroup
    rw [if_pos (by cases neg <;> simp only [Bool.false_eq_true, if_false, if_true] at h4 <;> omega), h5]
  · unfold firstGroup
    rw [if_neg (by cases neg <;> simp only [Bool.false_eq_true, if_false, if_true] at h4 <;> omega), h5]
    rfl

/-- A stored form, its variable and its first group. -/
theorem stored_first [Build] {b : Bin} {x : ℚ} {s : Int} (h : Stored b x s) :
    ∃ v, Loose v ∧ value v = x ∧ v.dscale = s ∧ Num.asBinary b = .ok () ∧ b.isNan = false ∧ b.asVar = .ok v ∧ v.digits.head? = firstGroup b := by
  obtain ⟨neg, w, ds, hl, hd, h0, hx, hsc⟩ := h
  obtain ⟨v, rfl, h1, h2, h3, h4, h5, -⟩ := Bin.stored_layout hl hd h0 hx hsc
  exact ⟨_, h1, h2, rfl, h3, h4, h5, (firstGroup_layout hl).symm⟩

/-- C59: the product of two numbers in any stored form is exact, in canonical form; `None` exactly when it does not fit (a zero product whose
scale does not fit aborts a debug build, as in C11). -/
theorem C59_mul [Build] {a b : Bin} {x y : ℚ} {s t : Int} (ha : Stored a x s) (hb : Stored b y t) :
    (s + t ≤ 16383 → |x * y| < limit → ∃ r, checkedMul a b = .ok (some r) ∧ Holds r (x * y) (s + t)) ∧
    (s + t ≤ 16383 → limit ≤ |x * y| → checkedMul a b = .ok none) ∧
    (16383 < s + t → x * y ≠ 0 → checkedMul a b = .ok none) ∧
    (16383 < s + t → x * y = 0 → checkedMul a b = if Build.debug then .error .assert else .ok none) := by
  obtain ⟨u, hu, rfl, rfl, ea, na, va, -⟩ := Bin.stored_var ha
  obtain ⟨v, hv, rfl, rfl, eb, nb, vb, -⟩ := Bin.stored_var hb
  have h1 := hu.dscale_nonneg; have h2 := hv.dscale_nonneg
  simp only [checkedMul, ea, eb, na, nb, va, vb, bind_ok, Bool.or_self, Bool.false_eq_true, if_false]
  refine ⟨?_, ?_, ?_, ?_⟩
  · intro hs
    obtain ⟨w, ew, hw⟩ := mul_loose hu hv (.inl hs)
    simp only [ew, bind_ok]
    exact (finish_spec hw (by omega) hs (hu.scale.mul hv.scale)).1
  · intro hs
    obtain ⟨w, ew, hw⟩ := mul_loose hu hv (.inl hs)
    simp only [ew, bind_ok]
    exact (finish_spec hw (by omega) hs (hu.scale.mul hv.scale)).2
  · intro hs hne
    have hne' := mul_ne_zero_iff.1 hne
    obtain ⟨w, ew, hw⟩ := mul_loose hu hv (.inr ⟨fun h => hne'.1 (hu.value_zero_iff.2 h), fun h => hne'.2 (hv.value_zero_iff.2 h)⟩)
    simp only [ew, bind_ok]
    exact finish_scale hw.not_nan hw.dscale hs
  · intro hs h0
    rw [mulCommon_zero hu.not_nan hv.not_nan _ ((mul_eq_zero.1 h0).imp hu.value_zero_iff.1 hv.value_zero_iff.1), zeroScaled_big hs]
    cases Build.debug with
    | true => rfl
    | false => exact finish_scale (by simp) rfl hs

/-- C59: division by a number in any stored form whose first group is not zero: the quotient, its scale, the truncated quotient and the
remainder depend only on the values and scales. The dividend may have any form. -/
theorem C59_div [Build] {a b : Bin} {x y : ℚ} {s t : Int} (ha : Stored a x s) (hb : Stored b y t) (hy : y ≠ 0) (hf : firstGroup b ≠ some 0) :
    let q := quotientScale x y s t
    ((|roundHalfAway (x / y) q| < limit → ∃ r, checkedDiv a b = .ok (some r) ∧ Holds r (roundHalfAway (x / y) q) q) ∧
     (limit ≤ |roundHalfAway (x / y) q| → checkedDiv a b = .ok none)) ∧
    ((|truncTo (x / y) 0| < limit → ∃ r, checkedDivTrunc a b = .ok (some r) ∧ Holds r (truncTo (x / y) 0) 0) ∧
     (limit ≤ |truncTo (x / y) 0| → checkedDivTrunc a b = .ok none)) ∧
    ∃ r, checkedRem a b = .ok (some r) ∧ Holds r (x - truncTo (x / y) 0 * y) (max s t) := by
  intro q
  obtain ⟨u, hu, rfl, rfl, ea, na, va, -⟩ := Bin.stored_var ha
  obtain ⟨v, hv, rfl, rfl, eb, nb, vb, hg⟩ := stored_first hb
  have hne : v.digits ≠ [] := fun h => hy (hv.value_zero_iff.2 h)
  have hh : v.digits.head? ≠ some 0 := hg ▸ hf
  obtain ⟨⟨w, ew, hw⟩, ⟨w', ew', hw'⟩⟩ := div_loose hu hv hne hh
  obtain ⟨z, ez, hz⟩ := mod_loose hu hv hne hh
  have hq := quotientScale_bounds (value u) (value v) (t := v.dscale) hu.dscale_nonneg
  have h1 := hu.dscale_nonneg; have h2 := hu.dscale_le; have h3 := hv.dscale_le; have h4 := hv.dscale_nonneg
  have ew'' : Var.checkedDivTrunc u v = .ok (some w') := by
    unfold Var.checkedDivTrunc
    rw [dassert_ok hu.not_nan, dassert_ok hv.not_nan]
    exact ew'
  simp only [Num.checkedDiv, Num.checkedDivTrunc, checkedRem, ea, eb, na, nb, va, vb, ew, ew'', ez, bind_ok, Bool.or_self, Bool.false_eq_true, if_false]
  refine ⟨finish_spec hw hq.1 (by omega) (roundHalfAway_hasScale _ _), finish_spec hw' (by omega) (by omega) (truncTo_hasScale _ _), ?_⟩
  have hsc : HasScale (value u - truncTo (value u / value v) 0 * value v) (max u.dscale v.dscale) := by
    have h1 := (truncTo_hasScale (value u / value v) 0).mul hv.scale
    rw [zero_add] at h1
    exact (hu.scale.mono (by omega)).sub (h1.mono (by omega))
  exact (finish_spec hz (by omega) (by omega) hsc).1 (lt_of_le_of_lt (rem_laws hy).2.1 hu.abs_lt)

/-- C59 (a defect): a divisor stored with a zero first group counts as zero, although it compares and prints as the number it is: the checked
divisions return `None` and the operators panic with "attempt to divide by zero". -/
theorem C59_div_leading_zero [Build] {a b : Bin} {x y : ℚ} {s t : Int} (ha : Stored a x s) (hb : Stored b y t) (hf : firstGroup b = some 0) :
    y ≠ 0 ∧ checkedDiv a b = .ok none ∧ checkedDivTrunc a b = .ok none ∧ checkedRem a b = .ok none ∧
    opDiv a b = .error (.panic "attempt to divide by zero") ∧ opRem a b = .error (.panic "attempt to divide by zero") := by
  obtain ⟨u, hu, rfl, rfl, ea, na, va, -⟩ := Bin.stored_var ha
  obtain ⟨v, hv, rfl, rfl, eb, nb, vb, hg⟩ := stored_first hb
  obtain ⟨h1, h2, h3⟩ := div_lead_zero hu hv (.inr (hg.trans hf))
  refine ⟨fun h => ?_, ?_⟩
  · rw [hv.value_zero_iff.1 h] at hg
    rw [hf] at hg
    simp at hg
  · simp only [Num.checkedDiv, Num.checkedDivTrunc, checkedRem, opDiv, opRem, overflowingDiv, overflowingRem, ea, eb, na, nb, va, vb, h1, h2, h3, bind_ok,
      Bool.or_self, Bool.false_eq_true, if_false, expect]
    exact ⟨rfl, rfl, rfl, rfl, rfl⟩

/-- C59: ceiling, floor, sign and increment of any stored form. -/
theorem C59_small [Build] {a : Bin} {x : ℚ} {s : Int} (ha : Stored a x s) :
    ((|((⌈x⌉ : ℤ) : ℚ)| < limit → ∃ r, Num.ceil a = .ok r ∧ Holds r (⌈x⌉ : ℤ) 0) ∧
     (limit ≤ |((⌈x⌉ : ℤ) : ℚ)| → Num.ceil a = .error (.panic "value overflows numeric format"))) ∧
    ((|((⌊x⌋ : ℤ) : ℚ)| < limit → ∃ r, Num.floor a = .ok r ∧ Holds r (⌊x⌋ : ℤ) 0) ∧
     (limit ≤ |((⌊x⌋ : ℤ) : ℚ)| → Num.floor a = .error (.panic "value overflows numeric format"))) ∧
    (∃ r, Num.signum a = .ok r ∧ Holds r (if x < 0 then -1 else if x = 0 then 0 else 1) 0) ∧
    ((|x + 1| < limit → ∃ r, Num.inc a = .ok r ∧ Holds r (x + 1) s) ∧
     (limit ≤ |x + 1| → Num.inc a = .error (.panic "value overflows numeric format"))) := by
  obtain ⟨v, hv, rfl, rfl, e1, e2, e3, -⟩ := Bin.stored_var ha
  obtain ⟨c, ec, hc⟩ := ceil_loose hv
  obtain ⟨f, ef, hf⟩ := floor_loose hv
  obtain ⟨g1, g2, g3⟩ := signum_loose hv
  have h0 := hv.dscale_nonneg
  have h1 := hv.dscale_le
  obtain ⟨i, ei, hi⟩ := addCommon_spec v one hv.small one_small hv.digits one_digits hv.not_nan (by simp [one]) hv.signOK ⟨h0, h1⟩ (by simp [one])
  have ei' : Var.inc v = .ok i := by unfold Var.inc; rw [dassert_ok hv.not_nan]; exact ei
  have m1 : max v.dscale one.dscale = v.dscale := by simp only [one]; omega
  rw [m1, one_value] at hi
  have hif := finish_spec hi h0 h1 (hv.scale.add (by have := HasScale.int 1 h0; simpa using this))
  simp only [Num.ceil, Num.floor, Num.signum, Num.inc, e1, e2, e3, ec, ef, ei', bind_ok, Bool.false_eq_true, if_false]
  have wrap : ∀ {u : Var} {y : ℚ} {k : Int}, ((|y| < limit → ∃ r, finish u = .ok (some r) ∧ Holds r y k) ∧ (limit ≤ |y| → finish u = .ok none)) →
      (|y| < limit → ∃ r, (finish u >>= expect "value overflows numeric format") = .ok r ∧ Holds r y k) ∧
      (limit ≤ |y| → (finish u >>= expect "value overflows numeric format") = .error (.panic "value overflows numeric format")) := by
    intro u y k h
    constructor
    · intro hl
      obtain ⟨r, er, hr⟩ := h.1 hl
      exact ⟨r, by simp only [er, bind_ok, expect, pure_ok], hr⟩
    · intro hl
      simp only [h.2 hl, bind_ok]; rfl
  exact ⟨wrap (intOK_finish hc), wrap (intOK_finish hf), ⟨_, finishNoOverflow_canonical g1, _, g1, rfl, g2, g3⟩, wrap hif⟩

/-- Non-vacuity: -1.5 with zero groups at both ends: squared it is 2.25, its ceiling is -1 and its floor -2; divided by its long form it gives a
quotient of 1, but nothing can be divided by it. -/
example [Build] : (∃ r, checkedMul paddedForm paddedForm = .ok (some r) ∧ Holds r (9 / 4) 2) ∧
    (∃ r, Num.ceil paddedForm = .ok r ∧ Holds r (-1) 0) ∧ (∃ r, Num.floor paddedForm = .ok r ∧ Holds r (-2) 0) ∧
    (∃ r, checkedDivTrunc paddedForm longForm = .ok (some r) ∧ Holds r 1 0) ∧
    Num.cmp paddedForm longForm = .ok .eq ∧ checkedDiv longForm paddedForm = .ok none := by
  have h1 : Stored longForm (-3 / 2) 1 := by
    refine ⟨true, 0, [1, 5000], ⟨?_, by simp, by norm_num, .inr ⟨by norm_num, by norm_num, by norm_num, by rfl, by rfl⟩⟩, ?_, by simp, ?_, -15, by norm_num⟩
    · show (Bin.decodeLen (Bin.encodeLen 12#32)).toNat = _
      rw [Bin.decode_encode_len (by decide)]; rfl
    · intro d hd; simp at hd; rcases hd with rfl | rfl <;> norm_num
    · simp [mag]; norm_num
  have h2 := paddedForm_stored
  have fl : firstGroup longForm = some 1 := by
    unfold firstGroup longForm; dsimp only; rw [if_neg (by decide)]; rfl
  have fp : firstGroup paddedForm = some 0 := by
    unfold firstGroup paddedForm; dsimp only; rw [if_pos (by decide)]; rfl
  refine ⟨?_, ?_, ?_, ?_, ?_, ?_⟩
  · obtain ⟨r, er, hr⟩ := (C59_mul h2 h2).1 (by norm_num) (lt_limit (by norm_num))
    exact ⟨r, er, cast hr (by norm_num) (by norm_num)⟩
  · have e : ⌈(-3 / 2 : ℚ)⌉ = -1 := by rw [Int.ceil_eq_iff]; norm_num
    obtain ⟨r, er, hr⟩ := (C59_small h2).1.1 (by rw [e]; exact lt_limit (by norm_num))
    exact ⟨r, er, cast hr (by rw [e]; norm_num) rfl⟩
  · have e : ⌊(-3 / 2 : ℚ)⌋ = -2 := by rw [Int.floor_eq_iff]; norm_num
    obtain ⟨r, er, hr⟩ := (C59_small h2).2.1.1 (by rw [e]; exact lt_limit (by norm_num))
    exact ⟨r, er, cast hr (by rw [e]; norm_num) rfl⟩
  · have e : truncTo ((-3 / 2 : ℚ) / (-3 / 2)) 0 = 1 := by
      rw [div_self (by norm_num), truncTo_zero_pos (by norm_num)]; norm_num
    obtain ⟨r, er, hr⟩ := (C59_div h2 h1 (by norm_num) (by rw [fl]; decide)).2.1.1 (by rw [e]; exact lt_limit (by norm_num))
    exact ⟨r, er, cast hr e rfl⟩
  · rw [C59_cmp (.inr ⟨_, _, h2, rfl⟩) (.inr ⟨_, _, h1, rfl⟩), compare_eq_iff_eq.2 rfl]
  · exact (C59_div_leading_zero h1 h2 fp).2.1

end PgNumeric.Props
