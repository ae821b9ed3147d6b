import Verif.Proofs.Api
/-!
# Comparison, hashing, accessors, NaN and operators
-/
namespace PgNumeric
open Spec Var
namespace Num

theorem nan_isNan' [Build] {a : Bin} (h : IsNaN a) : asBinary a = .ok () ∧ a.isNan = true := ⟨h.facts.1, h.facts.2.1⟩

theorem valid_asBinary [Build] {a : Bin} (h : Valid a) : asBinary a = .ok () := by
  rcases h with h | ⟨x, s, h⟩
  · exact h.facts.1
  · obtain ⟨v, -, -, -, e, -⟩ := h.exists_var
    exact e

theorem holds_valid [Build] {a : Bin} {x s} (h : Holds a x s) : Valid a := .inr ⟨x, s, h⟩
theorem nan_valid [Build] {a : Bin} (h : IsNaN a) : Valid a := .inl h

/-- NaN operands of the two-argument functions. -/
theorem binop_nan [Build] {a b : Bin} (ha : Valid a) (hb : Valid b) (h : IsNaN a ∨ IsNaN b) :
    checkedAdd a b = .ok (some Bin.nan) ∧ checkedSub a b = .ok (some Bin.nan) ∧ checkedMul a b = .ok (some Bin.nan) ∧
    checkedDiv a b = .ok (some Bin.nan) ∧ checkedDivTrunc a b = .ok (some Bin.nan) ∧
    checkedRem a b = .ok (some Bin.nan) ∧ overflowingDiv a b = .ok (Bin.nan, false) ∧
    overflowingRem a b = .ok (Bin.nan, false) := by
  have hn : (a.isNan || b.isNan) = true := by
    rcases h with h | h
    · rw [h.facts.2.1]; rfl
    · rw [h.facts.2.1, Bool.or_true]
  refine ⟨?_, ?_, ?_, ?_, ?_, ?_, ?_, ?_⟩
  · unfold checkedAdd; simp only [valid_asBinary ha, valid_asBinary hb, bind_ok, hn, if_true, nan_ok, pure_ok]
  · unfold checkedSub; simp only [valid_asBinary ha, valid_asBinary hb, bind_ok, hn, if_true, nan_ok, pure_ok]
  · unfold checkedMul; simp only [valid_asBinary ha, valid_asBinary hb, bind_ok, hn, if_true, nan_ok, pure_ok]
  · unfold checkedDiv; simp only [valid_asBinary ha, valid_asBinary hb, bind_ok, hn, if_true, nan_ok, pure_ok]
  · unfold checkedDivTrunc; simp only [valid_asBinary ha, valid_asBinary hb, bind_ok, hn, if_true, nan_ok, pure_ok]
  · unfold checkedRem; simp only [valid_asBinary ha, valid_asBinary hb, bind_ok, hn, if_true, nan_ok, pure_ok]
  · unfold overflowingDiv; simp only [valid_asBinary ha, valid_asBinary hb, bind_ok, hn, if_true, nan_ok, pure_ok]
  · unfold overflowingRem; simp only [valid_asBinary ha, valid_asBinary hb, bind_ok, hn, if_true, nan_ok, pure_ok]

theorem unop_nan [Build] {a : Bin} (h : IsNaN a) (n : Int) :
    round a n = .ok Bin.nan ∧ trunc a n = .ok Bin.nan ∧ ceil a = .ok Bin.nan ∧ floor a = .ok Bin.nan ∧
    abs a = .ok Bin.nan ∧ negate a = .ok Bin.nan ∧ signum a = .ok Bin.nan ∧ inc a = .ok Bin.nan := by
  refine ⟨?_, ?_, ?_, ?_, ?_, ?_, ?_, ?_⟩
  · unfold round; simp only [h.facts.1, h.facts.2.1, bind_ok, if_true, nan_ok]
  · unfold trunc; simp only [h.facts.1, h.facts.2.1, bind_ok, if_true, nan_ok]
  · unfold ceil; simp only [h.facts.1, h.facts.2.1, bind_ok, if_true, nan_ok]
  · unfold floor; simp only [h.facts.1, h.facts.2.1, bind_ok, if_true, nan_ok]
  · unfold abs; simp only [h.facts.1, h.facts.2.1, bind_ok, if_true, nan_ok]
  · unfold negate; simp only [h.facts.1, h.facts.2.1, bind_ok, if_true, nan_ok]
  · unfold signum; simp only [h.facts.1, h.facts.2.1, bind_ok, if_true, nan_ok]
  · unfold inc; simp only [h.facts.1, h.facts.2.1, bind_ok, if_true, nan_ok]

/-! ## Comparison -/

theorem cmpCommon_canonical {u v : Var} (hu : Canonical u) (hv : Canonical v) :
    cmpCommon u v = cmpSign (value u) (value v) :=
  cmpCommon_spec u v hu.digits hv.digits hu.not_nan hv.not_nan
    (fun hne => stripped_mag_pos hu.digits hu.stripped hne) (fun hne => stripped_mag_pos hv.digits hv.stripped hne)

theorem cmp_spec [Build] {a b : Bin} {k l : WithTop ℚ} (ha : Denotes a k) (hb : Denotes b l) :
    cmp a b = .ok (compare k l) := by
  unfold cmp
  rcases ha with ⟨ha, rfl⟩ | ⟨x, s, ha, rfl⟩
  · rcases hb with ⟨hb, rfl⟩ | ⟨y, t, hb, rfl⟩
    · simp only [ha.facts.1, hb.facts.1, ha.facts.2.1, hb.facts.2.1, bind_ok, if_true, pure_ok]
      rw [compare_eq_iff_eq.2 rfl]
    · obtain ⟨v, hv, -, -, eb, nb, vb⟩ := hb.exists_var
      simp only [ha.facts.1, ha.facts.2.1, eb, nb, bind_ok, if_true, Bool.false_eq_true, if_false, pure_ok]
      rw [compare_gt_iff_gt.2 (WithTop.coe_lt_top y)]
  · obtain ⟨u, hu, rfl, -, ea, na, va⟩ := ha.exists_var
    rcases hb with ⟨hb, rfl⟩ | ⟨y, t, hb, rfl⟩
    · simp only [ea, na, hb.facts.1, hb.facts.2.1, bind_ok, if_true, Bool.false_eq_true, if_false, pure_ok]
      rw [compare_lt_iff_lt.2 (WithTop.coe_lt_top _)]
    · obtain ⟨v, hv, rfl, -, eb, nb, vb⟩ := hb.exists_var
      simp only [ea, na, va, eb, nb, vb, bind_ok, Bool.false_eq_true, if_false, pure_ok, cmpCommon_canonical hu hv]
      congr 1
      rcases cmpSign_cases (value u) (value v) with ⟨h, h'⟩ | ⟨h, h'⟩ | ⟨h, h'⟩ <;> rw [h]
      · rw [compare_lt_iff_lt.2 (WithTop.coe_lt_coe.2 h')]; rfl
      · rw [compare_eq_iff_eq.2 (by rw [h'])]; rfl
      · rw [compare_gt_iff_gt.2 (WithTop.coe_lt_coe.2 h')]; rfl

theorem denotes_valid [Build] {a : Bin} {k : WithTop ℚ} (h : Denotes a k) : Valid a := by
  rcases h with ⟨h, -⟩ | ⟨x, s, h, -⟩
  · exact .inl h
  · exact .inr ⟨x, s, h⟩

theorem valid_denotes [Build] {a : Bin} (h : Valid a) : ∃ k, Denotes a k := by
  rcases h with h | ⟨x, s, h⟩
  · exact ⟨⊤, .inl ⟨h, rfl⟩⟩
  · exact ⟨x, .inr ⟨x, s, h, rfl⟩⟩

theorem eq_spec [Build] {a b : Bin} {k l : WithTop ℚ} (ha : Denotes a k) (hb : Denotes b l) :
    eq a b = .ok (decide (k = l)) := by
  unfold eq
  simp only [cmp_spec ha hb, bind_ok, pure_ok]
  congr 1
  rcases lt_trichotomy k l with h | h | h
  · rw [compare_lt_iff_lt.2 h, decide_eq_false h.ne]; rfl
  · rw [compare_eq_iff_eq.2 h, decide_eq_true h]; rfl
  · rw [compare_gt_iff_gt.2 h, decide_eq_false h.ne']; rfl

theorem lt_spec [Build] {a b : Bin} {k l : WithTop ℚ} (ha : Denotes a k) (hb : Denotes b l) :
    lt a b = .ok (decide (k < l)) := by
  unfold lt partialCmp
  simp only [cmp_spec ha hb, bind_ok, pure_ok]
  congr 1
  rcases lt_trichotomy k l with h | h | h
  · rw [compare_lt_iff_lt.2 h, decide_eq_true h]; rfl
  · rw [compare_eq_iff_eq.2 h, decide_eq_false (by rw [h]; exact lt_irrefl _)]; rfl
  · rw [compare_gt_iff_gt.2 h, decide_eq_false (not_lt.2 h.le)]; rfl

theorem le_spec [Build] {a b : Bin} {k l : WithTop ℚ} (ha : Denotes a k) (hb : Denotes b l) :
    le a b = .ok (decide (k ≤ l)) := by
  unfold le partialCmp
  simp only [cmp_spec ha hb, bind_ok, pure_ok]
  congr 1
  rcases lt_trichotomy k l with h | h | h
  · rw [compare_lt_iff_lt.2 h, decide_eq_true h.le]; rfl
  · rw [compare_eq_iff_eq.2 h, decide_eq_true h.le]; rfl
  · rw [compare_gt_iff_gt.2 h, decide_eq_false (not_le.2 h)]; rfl

/-! ## Hash -/

theorem takeWhile_zero_head {l : List Int} (h : l.head? ≠ some 0) : l.takeWhile (· = 0) = [] := by
  cases l with
  | nil => rfl
  | cons a l => simp at h; simp [h]

theorem hash_zero [Build] {a : Bin} {s : Int} (h : Holds a 0 s) : hash a = .ok [.u8 0] := by
  obtain ⟨v, hv, h0, -, -, -, e⟩ := h.exists_var
  have hz := (stripped_zero_iff hv.digits hv.stripped).1 h0
  have hw := (hv.stripped.2.2 hz).1
  unfold hash
  simp only [e, bind_ok, if_neg hv.not_nan, hz, hw, ndigits]
  rfl

theorem hash_canonical [Build] {a : Bin} {v : Var} (hv : Canonical v) (hne : v.digits ≠ []) (e : a.asVar = .ok v) :
    hash a = .ok [.slice v.digits, .i32 v.weight, .i8 (if v.sign = .pos then 1 else -1)] := by
  unfold hash
  have h1 := takeWhile_zero_head hv.stripped.1
  have h2 : v.digits.reverse.takeWhile (· = 0) = [] := takeWhile_zero_head (by rw [List.head?_reverse]; exact hv.stripped.2.1)
  have hl := List.length_pos_iff.2 hne
  have hw1 := hv.weight_le
  have hw2 := hv.weight_ge
  have hi : i32 (v.weight - (0:ℕ)) = .ok v.weight := by
    unfold i32; rw [if_pos (by simp; omega)]; simp
  simp only [e, bind_ok, if_neg hv.not_nan, h1, h2, List.length_nil, hi, ndigits]
  rw [if_neg (by simp [hne]), dassert_ok (by omega)]
  simp [sliceM]

theorem hash_spec [Build] {a b : Bin} {k l : WithTop ℚ} (ha : Denotes a k) (hb : Denotes b l) :
    ∃ wa wb, hash a = .ok wa ∧ hash b = .ok wb ∧ (wa = wb ↔ k = l) := by
  have nanCase : ∀ {b : Bin}, IsNaN b → hash b = .ok [] := by
    intro b hb
    unfold hash
    simp only [hb.facts.2.2, bind_ok, Var.nan, if_true, pure_ok]
  have numCase : ∀ {b : Bin} {x : ℚ} {s : Int}, Holds b x s →
      ∃ w, hash b = .ok w ∧ w ≠ [] := by
    intro b x s h
    by_cases h0 : x = 0
    · subst h0; exact ⟨_, hash_zero h, by simp⟩
    · obtain ⟨v, hv, rfl, -, -, -, e⟩ := h.exists_var
      have hne : v.digits ≠ [] := fun hh => h0 ((stripped_zero_iff hv.digits hv.stripped).2 hh)
      exact ⟨_, hash_canonical hv hne e, by simp⟩
  rcases ha with ⟨ha, rfl⟩ | ⟨x, s, ha, rfl⟩
  · rcases hb with ⟨hb, rfl⟩ | ⟨y, t, hb, rfl⟩
    · exact ⟨[], [], nanCase ha, nanCase hb, by simp⟩
    · obtain ⟨w, e, hw⟩ := numCase hb
      exact ⟨[], w, nanCase ha, e, by simpa using Ne.symm hw⟩
  · rcases hb with ⟨hb, rfl⟩ | ⟨y, t, hb, rfl⟩
    · obtain ⟨w, e, hw⟩ := numCase ha
      exact ⟨w, [], e, nanCase hb, by simpa using hw⟩
    · rw [WithTop.coe_inj]
      by_cases hx : x = 0
      · subst hx
        by_cases hy : y = 0
        · subst hy; exact ⟨_, _, hash_zero ha, hash_zero hb, by simp⟩
        · obtain ⟨v, hv, rfl, -, -, -, e⟩ := hb.exists_var
          have hne : v.digits ≠ [] := fun hh => hy ((stripped_zero_iff hv.digits hv.stripped).2 hh)
          exact ⟨_, _, hash_zero ha, hash_canonical hv hne e, by simpa using Ne.symm hy⟩
      · obtain ⟨u, hu, rfl, -, -, -, eu⟩ := ha.exists_var
        have hune : u.digits ≠ [] := fun hh => hx ((stripped_zero_iff hu.digits hu.stripped).2 hh)
        by_cases hy : y = 0
        · subst hy; exact ⟨_, _, hash_canonical hu hune eu, hash_zero hb, by simpa using hx⟩
        · obtain ⟨v, hv, rfl, -, -, -, e⟩ := hb.exists_var
          have hne : v.digits ≠ [] := fun hh => hy ((stripped_zero_iff hv.digits hv.stripped).2 hh)
          refine ⟨_, _, hash_canonical hu hune eu, hash_canonical hv hne e, ?_⟩
          constructor
          · intro h
            simp only [List.cons.injEq, Write.slice.injEq, Write.i32.injEq, Write.i8.injEq, and_true] at h
            obtain ⟨h1, h2, h3⟩ := h
            have hs : u.sign = v.sign := by
              rcases sign_pos_or_neg hu.not_nan with p | p <;> rcases sign_pos_or_neg hv.not_nan with q | q <;>
                rw [p, q] at h3 <;> simp at h3 <;> rw [p, q]
            unfold value
            rw [h1, h2, hs]
          · intro h
            have heq : { u with dscale := 0 } = { v with dscale := 0 } :=
              stripped_unique (a := { u with dscale := 0 }) (b := { v with dscale := 0 }) hu.digits hv.digits hu.not_nan hv.not_nan
                hu.stripped hv.stripped h rfl
            have e1 := congrArg Var.digits heq
            have e2 := congrArg Var.weight heq
            have e3 := congrArg Var.sign heq
            simp only at e1 e2 e3
            rw [e1, e2, e3]

/-! ## Accessors -/

theorem isNegative_spec [Build] {a : Bin} {x : ℚ} {s : Int} (h : Holds a x s) :
    isNegative a = .ok (decide (x < 0)) ∧ isPositive a = .ok (decide (0 ≤ x)) ∧ isNan a = .ok false ∧
    scale a = .ok (some s) := by
  obtain ⟨v, hc, rfl, rfl, rfl⟩ := h
  have hb : asBinary (Bin.encode v) = .ok () := dassert_ok (Bin.encode_len hc.storable)
  have hn := Bin.encode_not_nan hc.storable
  have hs := Bin.encode_sign hc.storable
  have hval : (v.sign = .pos ∧ 0 ≤ value v) ∨ (v.sign = .neg ∧ value v < 0) := by
    rcases sign_pos_or_neg hc.not_nan with p | p
    · exact .inl ⟨p, value_sign_pos hc.digits p⟩
    · right
      refine ⟨p, value_neg_of hc ?_ p⟩
      intro hh
      rw [(hc.stripped.2.2 hh).2] at p; cases p
  refine ⟨?_, ?_, ?_, ?_⟩
  · unfold isNegative Bin.isNegative
    simp only [hb, bind_ok, hs, pure_ok]
    rcases hval with ⟨p, h⟩ | ⟨p, h⟩ <;> rw [p]
    · rw [decide_eq_false (not_lt.2 h)]; decide
    · rw [decide_eq_true h]; decide
  · unfold isPositive Bin.isPositive
    simp only [hb, bind_ok, hs, pure_ok]
    rcases hval with ⟨p, h⟩ | ⟨p, h⟩ <;> rw [p]
    · rw [decide_eq_true h]; decide
    · rw [decide_eq_false (not_le.2 h)]; decide
  · unfold isNan
    simp only [hb, bind_ok, hn, pure_ok]
  · unfold scale
    simp only [hb, bind_ok, hn, pure_ok, Bool.false_eq_true, if_false, Bin.encode_dscale hc.storable]

theorem nan_accessors [Build] {a : Bin} (h : IsNaN a) :
    isNan a = .ok true ∧ scale a = .ok none ∧ isNegative a = .ok false ∧ isPositive a = .ok false := by
  have hf : a.flagBits = Bin.NAN := h.flag
  have hs : a.sign = Bin.NAN := by
    unfold Bin.sign Bin.isShort
    rw [hf]; rfl
  refine ⟨?_, ?_, ?_, ?_⟩
  · unfold isNan; simp only [h.facts.1, h.facts.2.1, bind_ok, pure_ok]
  · unfold scale; simp only [h.facts.1, h.facts.2.1, bind_ok, pure_ok, if_true]
  · unfold isNegative Bin.isNegative; simp only [h.facts.1, bind_ok, pure_ok, hs]; decide
  · unfold isPositive Bin.isPositive; simp only [h.facts.1, bind_ok, pure_ok, hs]; decide

/-! ## Copies -/

theorem toOwned_holds [Build] {a : Bin} {x : ℚ} {s : Int} (h : Holds a x s) : toOwned a = .ok a ∧ clone a = .ok a := by
  obtain ⟨v, hc, rfl, rfl, rfl⟩ := h
  have e := Bin.asVar_encode hc.storable
  constructor
  · unfold toOwned; simp only [e, bind_ok, if_neg hc.not_nan, intoBuf_ok hc.not_nan]
  · unfold clone; simp only [e, bind_ok, intoBuf_ok hc.not_nan]

theorem toOwned_nan [Build] {a : Bin} (h : IsNaN a) : toOwned a = .ok Bin.nan ∧ clone a = .ok Bin.nan := by
  constructor
  · unfold toOwned; simp only [h.facts.2.2, bind_ok, Var.nan, if_true, nan_ok]
  · unfold clone; simp only [h.facts.2.2, bind_ok]; exact nan_ok

/-! ## Operators -/

theorem op_of_checked [Build] {m : M (Option Bin)} {msg : String} :
    (do let r ← m; expect msg r) =
      match m with
      | .ok (some r) => .ok r
      | .ok none => .error (.panic msg)
      | .error e => .error e := by
  cases m with
  | error e => rfl
  | ok o => cases o <;> rfl

end Num
end PgNumeric
