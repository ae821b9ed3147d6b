import Verif.Proofs.Stored
import Verif.Props.Text
import Verif.Model.ToFloat
import Verif.Model.Power
import Verif.Model.Typmod
import Verif.Model.Sqrt
/-!
# Numerics in any stored form (C59)

`Stored b x s` (`Verif/SpecStored.lean`): the words `b` are one of the many stored forms of the number `x` with scale `s`; the API must
not care which.
-/
namespace PgNumeric.Props
open PgNumeric Spec Var Num

/-- C59: the accessors on any stored form. -/
theorem C59_accessors [Build] {b : Bin} {x : ℚ} {s : Int} (h : Stored b x s) :
    isNan b = .ok false ∧ isNegative b = .ok (decide (x < 0)) ∧ isPositive b = .ok (decide (0 ≤ x)) ∧ scale b = .ok (some s) := by
  obtain ⟨v, hv, -, -, e1, e2, -, e4, e5, e6⟩ := Bin.stored_var h
  refine ⟨?_, ?_, ?_, ?_⟩
  · simp only [isNan, e1, bind_ok, pure_ok, e2]
  · simp only [isNegative, e1, bind_ok, pure_ok, e4]
  · simp only [isPositive, e1, bind_ok, pure_ok, e5]
  · simp only [scale, e1, bind_ok, pure_ok, e2, e6, Bool.false_eq_true, if_false]

/-- C59: an owned copy of any stored form is a stored form of the same number with the same scale. -/
theorem C59_to_owned [Build] {b : Bin} {x : ℚ} {s : Int} (h : Stored b x s) :
    ∃ r, toOwned b = .ok r ∧ clone b = .ok r ∧ Stored r x s := by
  obtain ⟨v, hv, rfl, rfl, -, -, e3, -⟩ := Bin.stored_var h
  refine ⟨Bin.encode v, ?_, ?_, Bin.stored_encode hv⟩
  · simp only [toOwned, e3, bind_ok, if_neg hv.not_nan, intoBuf_ok hv.not_nan]
  · simp only [clone, e3, bind_ok, intoBuf_ok hv.not_nan]

/-- C59: comparison looks only at the values, whatever the stored forms; NaN in any form equals NaN and is larger than every number. -/
theorem C59_cmp [Build] {a b : Bin} {k l : WithTop ℚ} (ha : StoredAs a k) (hb : StoredAs b l) : Num.cmp a b = .ok (compare k l) := by
  unfold Num.cmp
  rcases ha with ⟨ha, rfl⟩ | ⟨x, s, ha, rfl⟩
  · rcases hb with ⟨hb, rfl⟩ | ⟨y, t, hb, rfl⟩
    · simp only [ha.facts.1, hb.facts.1, ha.facts.2.1, hb.facts.2.1, bind_ok, if_true, pure_ok]
      rw [compare_eq_iff_eq.2 rfl]
    · obtain ⟨v, hv, -, -, eb, nb, vb, -⟩ := Bin.stored_var hb
      simp only [ha.facts.1, ha.facts.2.1, eb, nb, bind_ok, if_true, Bool.false_eq_true, if_false, pure_ok]
      rw [compare_gt_iff_gt.2 (WithTop.coe_lt_top y)]
  · obtain ⟨u, hu, rfl, -, ea, na, va, -⟩ := Bin.stored_var ha
    rcases hb with ⟨hb, rfl⟩ | ⟨y, t, hb, rfl⟩
    · simp only [hb.facts.1, hb.facts.2.1, ea, na, bind_ok, if_true, Bool.false_eq_true, if_false, pure_ok]
      rw [compare_lt_iff_lt.2 (WithTop.coe_lt_top _)]
    · obtain ⟨v, hv, rfl, -, eb, nb, vb, -⟩ := Bin.stored_var hb
      simp only [ea, eb, na, nb, va, vb, bind_ok, Bool.false_eq_true, if_false, pure_ok]
      rw [cmpCommon_spec u v hu.digits hv.digits hu.not_nan hv.not_nan hu.pos hv.pos]
      unfold cmpSign
      rcases lt_trichotomy (value u) (value v) with h | h | h
      · rw [compare_lt_iff_lt.2 (WithTop.coe_lt_coe.2 h)]; simp [h]
      · rw [compare_eq_iff_eq.2 (by rw [h])]; simp [h]
      · rw [compare_gt_iff_gt.2 (WithTop.coe_lt_coe.2 h)]; simp [h.ne', not_lt.2 h.le]

/-- C59: two stored forms feed the hasher the same data exactly when they compare equal. -/
theorem C59_hash [Build] {a b : Bin} {k l : WithTop ℚ} (ha : StoredAs a k) (hb : StoredAs b l) :
    ∃ wa wb, hash a = .ok wa ∧ hash b = .ok wb ∧ (wa = wb ↔ k = l) := by
  have key : ∀ {c : Bin} {m : WithTop ℚ}, StoredAs c m → ∃ c', Denotes c' m ∧ hash c = hash c' := by
    rintro c m (⟨h, rfl⟩ | ⟨x, s, h, rfl⟩)
    · exact ⟨c, .inl ⟨h, rfl⟩, rfl⟩
    · obtain ⟨v, hv, rfl, rfl, -, -, e3, -⟩ := Bin.stored_var h
      refine ⟨Bin.encode (strip v), .inr ⟨_, _, ⟨strip v, hv.canonical, rfl, hv.addOK.value, rfl⟩, rfl⟩, ?_⟩
      have hl : Loose (strip v) := by
        have hc := hv.canonical
        have hlen := strip_length_le v
        have := hv.len
        refine ⟨hc.not_nan, hc.digits, by have := hc.weight_ge; omega, hc.weight_le, by omega, hc.dscale_nonneg, hc.dscale_le, hc.scale, ?_⟩
        by_cases h0 : (strip v).digits = []
        · exact .inl ⟨h0, (hc.stripped.2.2 h0).2⟩
        · right
          cases hd : (strip v).digits with
          | nil => exact absurd hd h0
          | cons d ds =>
            refine ⟨d, by simp, fun hz => ?_⟩
            have := hc.stripped.1
            rw [hd, hz] at this
            simp at this
      have hss : strip (strip v) = strip v := by
        refine stripped_unique (strip_digits hl.digits) hl.digits (strip_sign hl.not_nan) hl.not_nan (strip_stripped _) (strip_stripped _)
          (strip_value _) (by simp)
      rw [hash_loose hv e3, hash_loose hl (Bin.asVar_encode hl.storable), hss]
  obtain ⟨a', ha', ea⟩ := key ha
  obtain ⟨b', hb', eb⟩ := key hb
  rw [ea, eb]
  exact hash_spec ha' hb'

/-- C59: the sum of two numbers in any stored form is exact, in canonical form; `None` exactly when it does not fit. -/
theorem C59_add [Build] {a b : Bin} {x y : ℚ} {s t : Int} (ha : Stored a x s) (hb : Stored b y t) :
    (|x + y| < limit → ∃ r, checkedAdd a b = .ok (some r) ∧ Holds r (x + y) (max s t)) ∧
    (limit ≤ |x + y| → checkedAdd a b = .ok none) := by
  obtain ⟨u, hu, rfl, rfl, ea, na, va, -⟩ := Bin.stored_var ha
  obtain ⟨v, hv, rfl, rfl, eb, nb, vb, -⟩ := Bin.stored_var hb
  have h1 := hu.dscale_nonneg; have h2 := hu.dscale_le; have h3 := hv.dscale_le; have h4 := hv.dscale_nonneg
  obtain ⟨w, ew, hw⟩ := addCommon_spec u v hu.small hv.small hu.digits hv.digits hu.not_nan hv.not_nan hu.signOK ⟨h1, h2⟩ ⟨h4, h3⟩
  simp only [checkedAdd, ea, eb, na, nb, va, vb, ew, bind_ok, Bool.or_self, Bool.false_eq_true, if_false]
  exact finish_spec hw (by omega) (by omega) ((hu.scale.mono (by omega)).add (hv.scale.mono (by omega)))

/-- C59: the difference of two numbers in any stored form is exact, in canonical form; `None` exactly when it does not fit. -/
theorem C59_sub [Build] {a b : Bin} {x y : ℚ} {s t : Int} (ha : Stored a x s) (hb : Stored b y t) :
    (|x - y| < limit → ∃ r, checkedSub a b = .ok (some r) ∧ Holds r (x - y) (max s t)) ∧
    (limit ≤ |x - y| → checkedSub a b = .ok none) := by
  obtain ⟨u, hu, rfl, rfl, ea, na, va, -⟩ := Bin.stored_var ha
  obtain ⟨v, hv, rfl, rfl, eb, nb, vb, -⟩ := Bin.stored_var hb
  have h1 := hu.dscale_nonneg; have h2 := hu.dscale_le; have h3 := hv.dscale_le; have h4 := hv.dscale_nonneg
  obtain ⟨w, ew, hw⟩ := subCommon_spec u v hu.small hv.small hu.digits hv.digits hu.not_nan hv.not_nan hu.signOK ⟨h1, h2⟩ ⟨h4, h3⟩
  simp only [checkedSub, ea, eb, na, nb, va, vb, ew, bind_ok, Bool.or_self, Bool.false_eq_true, if_false]
  exact finish_spec hw (by omega) (by omega) ((hu.scale.mono (by omega)).sub (hv.scale.mono (by omega)))

/-- C59: negation of any stored form gives the canonical form of the negative. -/
theorem C59_negate [Build] {a : Bin} {x : ℚ} {s : Int} (ha : Stored a x s) : ∃ r, Num.negate a = .ok r ∧ Holds r (-x) s := by
  obtain ⟨v, hv, rfl, rfl, e1, e2, e3, -⟩ := Bin.stored_var ha
  simp only [Num.negate, e1, e2, e3, bind_ok, Bool.false_eq_true, if_false]
  by_cases h0 : v.ndigits > 0
  · have hng : v.negate = ⟨v.weight, v.dscale, if v.sign = .neg then .pos else .neg, v.digits⟩ := by
      have := hv.not_nan
      unfold Var.negate
      rw [if_pos h0]
      rcases hs : v.sign with _ | _ | _ <;> simp_all
    rw [hng]
    refine finishNoOverflow_spec hv.digits (by dsimp only; split <;> simp) rfl ?_ hv.dscale_nonneg hv.dscale_le ?_ (by rw [abs_neg]; exact hv.abs_lt) ?_
    · have := hv.not_nan
      rcases hs : v.sign with _ | _ | _ <;> simp_all [value]
    · obtain ⟨n, hn⟩ := hv.scale
      exact ⟨-n, by rw [neg_mul, hn]; push_cast; rfl⟩
    · exact stripM_ok (by have := hv.lo; have := hv.len; dsimp only; omega) (by have := hv.hi; dsimp only; omega)
  · have hz : v.digits = [] := by
      simp only [ndigits] at h0
      exact List.length_eq_zero_iff.1 (by omega)
    have hng : v.negate = v := by unfold Var.negate; rw [if_neg h0]
    have hx : -value v = value v := by
      unfold value; rw [hz]; cases v.sign <;> simp [mag]
    rw [hng, hx]
    exact finishNoOverflow_spec hv.digits hv.not_nan rfl rfl hv.dscale_nonneg hv.dscale_le hv.scale hv.abs_lt hv.stripM_ok'

/-- C59: the absolute value of any stored form. -/
theorem C59_abs [Build] {a : Bin} {x : ℚ} {s : Int} (ha : Stored a x s) : ∃ r, Num.abs a = .ok r ∧ Stored r |x| s := by
  obtain ⟨v, hv, rfl, rfl, e1, e2, e3, -⟩ := Bin.stored_var ha
  simp only [Num.abs, e1, e2, e3, bind_ok, Bool.false_eq_true, if_false]
  have hval : value v.abs = |value v| := by
    rw [abs_value v hv.digits]
    have := hv.not_nan
    unfold Var.abs value
    rcases hs : v.sign with _ | _ | _ <;> simp_all
  have hl : Loose v.abs := by
    have hc : HasScale |value v| v.dscale := by
      obtain ⟨n, hn⟩ := hv.scale
      exact ⟨|n|, by rw [← abs_of_pos (zpow_pos (by norm_num : (0:ℚ) < 10) v.dscale), ← abs_mul, hn]; push_cast; rfl⟩
    by_cases hs : v.sign = .neg
    · have e : v.abs = { v with sign := .pos } := by unfold Var.abs; rw [if_pos hs]
      rw [e] at hval ⊢
      refine ⟨by simp, hv.digits, hv.lo, hv.hi, hv.len, hv.dscale_nonneg, hv.dscale_le, by rw [hval]; exact hc, ?_⟩
      rcases hv.zero with h | h
      · exact .inl ⟨h.1, rfl⟩
      · exact .inr h
    · have e : v.abs = v := by unfold Var.abs; rw [if_neg hs]
      rw [e]; exact hv
  have hd : v.abs.dscale = v.dscale := by unfold Var.abs; split <;> rfl
  exact ⟨_, intoBuf_ok hl.not_nan, hval ▸ hd ▸ Bin.stored_encode hl⟩

/-- C59: rounding any stored form gives the canonical form of the rounded number. -/
theorem C59_round [Build] {a : Bin} {x : ℚ} {s : Int} (ha : Stored a x s) (n : Int) :
    let k := max (-1000) (min 1000 n)
    (|roundHalfAway x k| < limit → ∃ r, Num.round a n = .ok r ∧ Holds r (roundHalfAway x k) (max k 0)) ∧
    (limit ≤ |roundHalfAway x k| → Num.round a n = .error (.panic "value overflows numeric format")) := by
  intro k
  obtain ⟨v, hv, rfl, rfl, e1, e2, e3, -⟩ := Bin.stored_var ha
  obtain ⟨w, ew, wd, wn, ws, wv, ww, ww2, wl⟩ := round_loose hv n
  rw [clampScale_eq] at ws wv
  have hf := finish_loose wd wn ws wv (by omega) (by omega) (hasScale_round _ _) ww ww2 wl
  simp only [Num.round, e1, e2, e3, ew, bind_ok, Bool.false_eq_true, if_false]
  constructor
  · intro h
    obtain ⟨r, er, hr⟩ := hf.1 h
    exact ⟨r, by simp only [er, bind_ok, expect, pure_ok], hr⟩
  · intro h
    simp only [hf.2 h, bind_ok, expect]
    rfl

/-- C59: truncating any stored form gives the canonical form of the truncated number. -/
theorem C59_trunc [Build] {a : Bin} {x : ℚ} {s : Int} (ha : Stored a x s) (n : Int) :
    let k := max (-1000) (min 1000 n)
    ∃ r, Num.trunc a n = .ok r ∧ Holds r (truncTo x k) (max k 0) := by
  intro k
  obtain ⟨v, hv, rfl, rfl, e1, e2, e3, -⟩ := Bin.stored_var ha
  obtain ⟨w, ew, wd, wn, ws, wv, wst⟩ := trunc_loose hv n
  rw [clampScale_eq] at ws wv
  simp only [Num.trunc, e1, e2, e3, ew, bind_ok, Bool.false_eq_true, if_false]
  exact finishNoOverflow_spec wd wn ws wv (by omega) (by omega) (hasScale_trunc _ _)
    (lt_of_le_of_lt (abs_truncTo_le _ _) hv.abs_lt) wst

/-- Every canonical numeric is a tidy stored form: the theorems of this file extend those on canonical numerics. -/
theorem C59_canonical_is_stored [Build] {a : Bin} {x : ℚ} {s : Int} (h : Holds a x s) : StoredTidy a x s ∧ Stored a x s := by
  obtain ⟨v, hc, rfl, rfl, rfl⟩ := h
  have hsm := hc.small
  have hl : Loose v := by
    refine ⟨hc.not_nan, hc.digits, by have := hc.weight_ge; omega, hc.weight_le, ?_, hc.dscale_nonneg, hc.dscale_le, hc.scale, ?_⟩
    · by_cases h0 : v.digits = []
      · simp [h0]
      · have := stripped_len hc.digits hc.stripped h0 hc.scale
        have := hc.weight_le
        have := hc.dscale_le
        simp only [ndigits] at *
        omega
    · by_cases h0 : v.digits = []
      · exact .inl ⟨h0, (hc.stripped.2.2 h0).2⟩
      · right
        cases hd : v.digits with
        | nil => exact absurd hd h0
        | cons d ds =>
          refine ⟨d, by simp, fun hz => ?_⟩
          have := hc.stripped.1
          rw [hd, hz] at this
          simp at this
  refine ⟨⟨_, _, _, Bin.layout_encode hl, hc.digits, ⟨hc.stripped.1, hc.stripped.2.1, fun h => ?_⟩, ?_, hc.scale⟩, Bin.stored_encode hl⟩
  · have := hc.stripped.2.2 h
    exact ⟨this.1, by simp [this.2]⟩
  · have := hc.not_nan
    unfold value
    cases hh : v.sign <;> simp_all

/-- A tidy stored form reads as the canonical form of the same number. -/
theorem tidy_same [Build] {a a' : Bin} {x : ℚ} {s : Int} (h : StoredTidy a x s) (h' : Holds a' x s) :
    asBinary a = .ok () ∧ asBinary a' = .ok () ∧ a.isNan = false ∧ a'.isNan = false ∧ a.asVar = a'.asVar := by
  obtain ⟨neg, w, ds, hl, hd, ⟨t1, t2, t3⟩, hx, hsc⟩ := h
  obtain ⟨u, hu, hux, hus, ea, na, va⟩ := h'.exists_var
  have h0 : ds = [] ∧ neg = false ∨ ∃ d ∈ ds, d ≠ 0 := by
    by_cases h0 : ds = []
    · exact .inl ⟨h0, (t3 h0).2⟩
    · right
      cases hds : ds with
      | nil => exact absurd hds h0
      | cons d l =>
        refine ⟨d, by simp, fun hz => ?_⟩
        rw [hds, hz] at t1
        simp at t1
  obtain ⟨v, hve, h1, h2, h3, h4, h5, -⟩ := Bin.stored_layout hl hd h0 hx hsc
  refine ⟨h3, ea, h4, na, ?_⟩
  rw [h5, va]
  congr 1
  subst hve
  refine stripped_unique h1.digits hu.digits h1.not_nan hu.not_nan ⟨t1, t2, fun h => ⟨(t3 h).1, ?_⟩⟩ hu.stripped (h2.trans hux.symm) hus.symm
  simp [(t3 h).2]

/-- C59: on a tidy stored form (the long header may stand where the short one would do) every one-operand operation returns the very bytes,
text or number that it returns on the canonical form; so whatever is proved of canonical numerics holds of it. -/
theorem C59_same_results [Build] {a a' : Bin} {x : ℚ} {s : Int} (h : StoredTidy a x s) (h' : Holds a' x s) :
    toOwned a = .ok a' ∧ clone a = .ok a' ∧ Num.negate a = Num.negate a' ∧ Num.abs a = Num.abs a' ∧ Num.signum a = Num.signum a' ∧
    Num.inc a = Num.inc a' ∧ (∀ n, Num.round a n = Num.round a' n) ∧ (∀ n, Num.trunc a n = Num.trunc a' n) ∧
    Num.ceil a = Num.ceil a' ∧ Num.floor a = Num.floor a' ∧ hash a = hash a' ∧ Num.toString a = Num.toString a' ∧
    Num.normalize a = Num.normalize a' ∧ (∀ t, Num.applyTypmod a t = Num.applyTypmod a' t) ∧
    (∀ ty, Convert.toInt ty a = Convert.toInt ty a') ∧ (∀ f, Num.sqrt f a = Num.sqrt f a') ∧
    (∀ lm f, Num.ln lm f a = Num.ln lm f a') ∧ (∀ lm f, Num.log2 lm f a = Num.log2 lm f a') ∧
    (∀ lm f, Num.log10 lm f a = Num.log10 lm f a') ∧ (∀ lm f, Num.exp lm f a = Num.exp lm f a') ∧
    (∀ lm e, Num.sci lm e a = Num.sci lm e a') ∧
    (∀ st, Num.toF64 st a = Num.toF64 st a') ∧ (∀ st, Num.toF32 st a = Num.toF32 st a') := by
  obtain ⟨e1, e2, e3, e4, e5⟩ := tidy_same h h'
  obtain ⟨c1, c2⟩ := toOwned_holds h'
  refine ⟨?_, ?_, ?_, ?_, ?_, ?_, ?_, ?_, ?_, ?_, ?_, ?_, ?_, ?_, ?_, ?_, ?_, ?_, ?_, ?_, ?_, ?_, ?_⟩
  · rw [← c1]; simp only [toOwned, e5]
  · rw [← c2]; simp only [clone, e5]
  · simp only [Num.negate, e1, e2, e3, e4, e5]
  · simp only [Num.abs, e1, e2, e3, e4, e5]
  · simp only [Num.signum, e1, e2, e3, e4, e5]
  · simp only [Num.inc, e1, e2, e3, e4, e5]
  · intro n; simp only [Num.round, e1, e2, e3, e4, e5]
  · intro n; simp only [Num.trunc, e1, e2, e3, e4, e5]
  · simp only [Num.ceil, e1, e2, e3, e4, e5]
  · simp only [Num.floor, e1, e2, e3, e4, e5]
  · simp only [Num.hash, e5]
  · simp only [Num.toString, e5]
  · simp only [Num.normalize, e5]
  · intro t; simp only [Num.applyTypmod, e5]
  · intro t; simp only [Convert.toInt, e5]
  · intro f; simp only [Num.sqrt, e1, e2, e3, e4, e5]
  · intro lm f; simp only [Num.ln, e1, e2, e3, e4, e5]
  · intro lm f; simp only [Num.log2, e1, e2, e3, e4, e5]
  · intro lm f; simp only [Num.log10, e1, e2, e3, e4, e5]
  · intro lm f; simp only [Num.exp, e1, e2, e3, e4, e5]
  · intro lm f; simp only [Num.sci, e5]
  · intro st; simp only [Num.toF64, e5]
  · intro st; simp only [Num.toF32, e5]

/-- C59: the same for the operations with two operands. -/
theorem C59_same_results_binary [Build] {a a' b b' : Bin} {x y : ℚ} {s t : Int} (ha : StoredTidy a x s) (ha' : Holds a' x s)
    (hb : StoredTidy b y t) (hb' : Holds b' y t) :
    checkedAdd a b = checkedAdd a' b' ∧ checkedSub a b = checkedSub a' b' ∧ checkedMul a b = checkedMul a' b' ∧
    Num.checkedDiv a b = Num.checkedDiv a' b' ∧ Num.checkedDivTrunc a b = Num.checkedDivTrunc a' b' ∧ checkedRem a b = checkedRem a' b' ∧
    opAdd a b = opAdd a' b' ∧ opSub a b = opSub a' b' ∧ opMul a b = opMul a' b' ∧ opDiv a b = opDiv a' b' ∧ opRem a b = opRem a' b' ∧
    Num.cmp a b = Num.cmp a' b' ∧ (∀ lm f, Num.log lm f a b = Num.log lm f a' b') ∧ (∀ lm f, Num.pow lm f a b = Num.pow lm f a' b') := by
  obtain ⟨e1, e2, e3, e4, e5⟩ := tidy_same ha ha'
  obtain ⟨f1, f2, f3, f4, f5⟩ := tidy_same hb hb'
  refine ⟨?_, ?_, ?_, ?_, ?_, ?_, ?_, ?_, ?_, ?_, ?_, ?_, ?_, ?_⟩
  · simp only [checkedAdd, e1, e2, e3, e4, e5, f1, f2, f3, f4, f5]
  · simp only [checkedSub, e1, e2, e3, e4, e5, f1, f2, f3, f4, f5]
  · simp only [checkedMul, e1, e2, e3, e4, e5, f1, f2, f3, f4, f5]
  · simp only [Num.checkedDiv, e1, e2, e3, e4, e5, f1, f2, f3, f4, f5]
  · simp only [Num.checkedDivTrunc, e1, e2, e3, e4, e5, f1, f2, f3, f4, f5]
  · simp only [checkedRem, e1, e2, e3, e4, e5, f1, f2, f3, f4, f5]
  · simp only [opAdd, checkedAdd, e1, e2, e3, e4, e5, f1, f2, f3, f4, f5]
  · simp only [opSub, checkedSub, e1, e2, e3, e4, e5, f1, f2, f3, f4, f5]
  · simp only [opMul, checkedMul, e1, e2, e3, e4, e5, f1, f2, f3, f4, f5]
  · simp only [opDiv, overflowingDiv, e1, e2, e3, e4, e5, f1, f2, f3, f4, f5]
  · simp only [opRem, overflowingRem, e1, e2, e3, e4, e5, f1, f2, f3, f4, f5]
  · simp only [Num.cmp, e1, e2, e3, e4, e5, f1, f2, f3, f4, f5]
  · intro lm f; simp only [Num.log, e1, e2, e3, e4, e5, f1, f2, f3, f4, f5]
  · intro lm f; simp only [Num.pow, e5, f5]

/-- C59: bytes from outside. Deserialising the bytes of any stored form gives a stored form of the same number. -/
theorem C59_deserialize [Build] {b : Bin} {x : ℚ} {s : Int} (h : Stored b x s) :
    ∃ r, Num.deserialize (.inr b.asBytes) = .ok (some r) ∧ Stored r x s := by
  obtain ⟨r, hr, -, hs⟩ := C59_to_owned h
  refine ⟨r, ?_, hs⟩
  unfold Num.deserialize
  simp only [Bin.fromBytes_asBytes, hr, bind_ok, pure_ok]

/-- C59 (a defect): deserialising, a safe function, does not check its input. In a release build a length word that is larger than the
bytes makes it read behind them (undefined behaviour), in a debug build it panics. Here: header of a short number, no digits, length word
claiming `n + 1` digits. -/
theorem C59_deserialize_unchecked (e : Bool) (n : ℕ) (hn : n ≤ 90000000) (h : BitVec 16) (hh : h &&& 0xC000#16 = 0x8000#16) :
    let bytes := (Bin.mk (@Bin.encodeLen ⟨false, e⟩ (6#32 + BitVec.ofNat 32 (n + 1) * 2#32)) h []).asBytes
    @Num.deserialize ⟨false, e⟩ (.inr bytes) = .error .oob ∧
    @Num.deserialize ⟨true, e⟩ (.inr bytes) = .error .assert := by
  have hlen : ∀ d, @Bin.len ⟨d, e⟩ (Bin.mk (@Bin.encodeLen ⟨false, e⟩ (6#32 + BitVec.ofNat 32 (n + 1) * 2#32)) h []) = 6 + 2 * (n + 1) := by
    intro d
    have := Bin.len_toNat (k := 6) (n := n + 1) (by omega) (by omega)
    unfold Bin.len
    have e2 := @Bin.decode_encode_len ⟨d, e⟩ (6#32 + BitVec.ofNat 32 (n + 1) * 2#32) (by rw [this]; omega)
    rw [show @Bin.encodeLen ⟨false, e⟩ (6#32 + BitVec.ofNat 32 (n + 1) * 2#32) = @Bin.encodeLen ⟨d, e⟩ (6#32 + BitVec.ofNat 32 (n + 1) * 2#32) from rfl, e2]
    exact this
  intro bytes
  constructor
  · let _ : Build := ⟨false, e⟩
    have hv : (Bin.mk (Bin.encodeLen (6#32 + BitVec.ofNat 32 (n + 1) * 2#32)) h []).asVar = .error .oob := by
      unfold Bin.asVar
      have hd : ∀ p, [Decidable p] → dassert p = .ok () := fun p _ => rfl
      have hf : (Bin.mk (Bin.encodeLen (6#32 + BitVec.ofNat 32 (n + 1) * 2#32)) h []).flagBits = Bin.SHORT := hh
      rw [hd, bind_ok, if_pos hf, hlen false]
      dsimp only
      rw [if_neg (by omega)]
      unfold Bin.readDigits
      rw [if_neg (by simp)]
      rfl
    unfold Num.deserialize
    simp only [bytes, Bin.fromBytes_asBytes]
    unfold Num.toOwned
    rw [hv]
    rfl
  · let _ : Build := ⟨true, e⟩
    have hv : (Bin.mk (@Bin.encodeLen ⟨false, e⟩ (6#32 + BitVec.ofNat 32 (n + 1) * 2#32)) h []).asVar = .error .assert := by
      unfold Bin.asVar
      rw [hlen true]
      have : ¬ (6 + 2 * (n + 1) = (Bin.mk (@Bin.encodeLen ⟨false, e⟩ (6#32 + BitVec.ofNat 32 (n + 1) * 2#32)) h []).size) := by
        unfold Bin.size; simp
      unfold dassert
      simp [this, Build.debug]
      rfl
    unfold Num.deserialize
    simp only [bytes, Bin.fromBytes_asBytes]
    unfold Num.toOwned
    rw [hv]
    rfl

/-- The long-header form of -1.5: scale 1, weight 0, digits 1 and 5000. -/
def longForm [Build] : Bin := ⟨Bin.encodeLen 12#32, 0x4001#16, [0#16, 1#16, 5000#16]⟩

/-- -1.5 with a zero group at either end, in the short header. -/
def paddedForm [Build] : Bin := ⟨Bin.encodeLen 14#32, 0xA081#16, [0#16, 1#16, 5000#16, 0#16]⟩

theorem longForm_tidy [Build] : StoredTidy longForm (-3 / 2) 1 := by
  refine ⟨true, 0, [1, 5000], ⟨?_, by simp, by norm_num, .inr ⟨by norm_num, by norm_num, by norm_num, by rfl, by rfl⟩⟩, ?_, ?_, ?_, -15, by norm_num⟩
  · show (Bin.decodeLen (Bin.encodeLen 12#32)).toNat = _
    rw [Bin.decode_encode_len (by decide)]; rfl
  · intro d hd; simp at hd; rcases hd with rfl | rfl <;> norm_num
  · simp
  · simp [mag]; norm_num

theorem paddedForm_stored [Build] : Stored paddedForm (-3 / 2) 1 := by
  refine ⟨true, 1, [0, 1, 5000, 0], ⟨?_, by simp, by norm_num, .inl ⟨by norm_num, by norm_num, by norm_num, by rfl, by rfl⟩⟩, ?_, ?_, ?_, -15, by norm_num⟩
  · show (Bin.decodeLen (Bin.encodeLen 14#32)).toNat = _
    rw [Bin.decode_encode_len (by decide)]; rfl
  · intro d hd; simp at hd; rcases hd with rfl | rfl | rfl | rfl <;> norm_num
  · simp
  · simp [mag]; norm_num

/-- Non-vacuity: -1.5 in two non-canonical forms compares equal, hashes alike and adds up to -3.0. -/
example [Build] : Num.cmp longForm paddedForm = .ok .eq ∧
    (∃ w, Num.hash longForm = .ok w ∧ Num.hash paddedForm = .ok w) ∧
    ∃ r, checkedAdd longForm paddedForm = .ok (some r) ∧ Holds r (-3) 1 := by
  have h1 : Stored longForm (-3 / 2) 1 := by
    obtain ⟨neg, w, ds, a, b, ⟨c1, c2, c3⟩, d⟩ := longForm_tidy
    refine ⟨neg, w, ds, a, b, ?_, d⟩
    by_cases h0 : ds = []
    · exact .inl ⟨h0, (c3 h0).2⟩
    · right
      cases hds : ds with
      | nil => exact absurd hds h0
      | cons d l => exact ⟨d, by simp, fun hz => by rw [hds, hz] at c1; simp at c1⟩
  have h2 := paddedForm_stored
  refine ⟨?_, ?_, ?_⟩
  · rw [C59_cmp (.inr ⟨_, _, h1, rfl⟩) (.inr ⟨_, _, h2, rfl⟩), compare_eq_iff_eq.2 rfl]
  · obtain ⟨wa, wb, e1, e2, e3⟩ := C59_hash (.inr ⟨_, _, h1, rfl⟩) (.inr ⟨_, _, h2, rfl⟩)
    exact ⟨wa, e1, by rw [e2, e3.2 rfl]⟩
  · obtain ⟨r, er, hr⟩ := (C59_add h1 h2).1 (lt_limit (by norm_num))
    exact ⟨r, er, cast hr (by norm_num) (by norm_num)⟩

/-- The convention that a zero has no digits matters: a zero stored with a zero digit is larger than a plain zero for `cmp`, although
the two hash alike. The stored forms this property speaks of keep a zero's digits empty, as every function of the library does. -/
theorem C59_zero_with_digits [Build] :
    Num.cmp ⟨Bin.encodeLen 8#32, 0x8000#16, [0#16]⟩ Bin.zero = .ok .gt ∧
    Num.hash ⟨Bin.encodeLen 8#32, 0x8000#16, [0#16]⟩ = Num.hash Bin.zero := by
  rename_i inst
  obtain ⟨d, e⟩ := inst
  cases d <;> cases e <;> constructor <;> rfl

end PgNumeric.Props
