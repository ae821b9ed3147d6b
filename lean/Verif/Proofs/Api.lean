import Verif.SpecApi
import Verif.Model.Num
import Verif.Proofs.Binary
/-!
# The API functions on valid numerics
-/
namespace PgNumeric
open Spec Var

theorem Spec.Canonical.storable {v : Var} (h : Canonical v) : Bin.Storable v where
  not_nan := h.not_nan
  digits := h.digits
  weight_ge := by have := h.weight_ge; omega
  weight_le := h.weight_le
  dscale_nonneg := h.dscale_nonneg
  dscale_le := h.dscale_le
  length := by
    by_cases hne : v.digits = []
    · simp [hne]
    · have := h.len hne
      have := h.weight_le
      have := h.dscale_le
      simp only [ndigits] at *
      omega

namespace Num

theorem intoBuf_ok [Build] {v : Var} (h : v.sign ≠ .nan) : Bin.intoBuf v = .ok (Bin.encode v) := by
  unfold Bin.intoBuf
  rw [if_neg (fun hc => h hc.1)]
  rfl

theorem nan_ok [Build] : nan = .ok Bin.nan := by
  unfold nan Bin.intoBuf
  rw [dassert_ok (by rfl), dassert_ok (by rfl), Bin.encode_nan]
  split <;> rfl

theorem zero_ok [Build] : zero = .ok Bin.zero := by
  unfold zero
  rw [intoBuf_ok (by simp [Var.zero]), Bin.encode_zero]

end Num

theorem Spec.Holds.exists_var [Build] {b : Bin} {x : ℚ} {s : Int} (h : Holds b x s) :
    ∃ v, Canonical v ∧ value v = x ∧ v.dscale = s ∧ Num.asBinary b = .ok () ∧ b.isNan = false ∧ b.asVar = .ok v := by
  obtain ⟨v, hc, rfl, rfl, rfl⟩ := h
  refine ⟨v, hc, rfl, rfl, ?_, Bin.encode_not_nan hc.storable, Bin.asVar_encode hc.storable⟩
  unfold Num.asBinary
  exact dassert_ok (Bin.encode_len hc.storable)

theorem Spec.Holds.unique [Build] {b c : Bin} {x : ℚ} {s : Int} (h : Holds b x s) (h' : Holds c x s) : b = c := by
  obtain ⟨v, hc, rfl, rfl, rfl⟩ := h
  obtain ⟨u, hc', rfl, hv, hd⟩ := h'
  rw [hc.unique hc' hv.symm hd.symm]

theorem Spec.Holds.inj [Build] {b : Bin} {x y : ℚ} {s t : Int} (h : Holds b x s) (h' : Holds b y t) : x = y ∧ s = t := by
  obtain ⟨v, -, hv, hd, -, -, e⟩ := h.exists_var
  obtain ⟨u, -, hv', hd', -, -, e'⟩ := h'.exists_var
  rw [e] at e'
  cases e'
  exact ⟨hv.symm.trans hv', hd.symm.trans hd'⟩

theorem Spec.Holds.bounds [Build] {b : Bin} {x : ℚ} {s : Int} (h : Holds b x s) :
    HasScale x s ∧ 0 ≤ s ∧ s ≤ 16383 ∧ |x| < limit := by
  obtain ⟨v, hc, -, rfl, rfl⟩ := h
  exact ⟨hc.scale, hc.dscale_nonneg, hc.dscale_le, hc.abs_lt⟩

theorem Spec.IsNaN.facts [Build] {b : Bin} (h : IsNaN b) :
    Num.asBinary b = .ok () ∧ b.isNan = true ∧ b.asVar = .ok Var.nan := by
  refine ⟨dassert_ok h.len, ?_, ?_⟩
  · unfold Bin.isNan Bin.flagBits
    rw [h.flag]; rfl
  · unfold Bin.asVar Bin.flagBits
    rw [dassert_ok h.len, h.flag]
    rfl

theorem nan_isNaN [Build] : IsNaN Bin.nan where
  flag := by show Bin.NAN &&& 0xC000#16 = 0xC000#16; decide
  len := by
    unfold Bin.len Bin.size Bin.nan
    rw [Bin.decode_encode_len (by decide)]; rfl

theorem Spec.Canonical.holds [Build] {v : Var} (h : Canonical v) : Holds (Bin.encode v) (value v) v.dscale :=
  ⟨v, h, rfl, rfl, rfl⟩

namespace Num

theorem finish_spec [Build] {u : Var} {s : Int} {x : ℚ} (h : AddOK u s x) (hs0 : 0 ≤ s) (hs1 : s ≤ 16383)
    (hsc : HasScale x s) :
    (|x| < limit → ∃ r, finish u = .ok (some r) ∧ Holds r x s) ∧ (limit ≤ |x| → finish u = .ok none) := by
  have hm := makeResult_spec h hs0 hs1 hsc
  unfold finish
  constructor
  · intro hl
    obtain ⟨e, hc⟩ := hm.1 hl
    refine ⟨Bin.encode u, ?_, u, hc, rfl, h.value, h.dscale⟩
    simp only [e, bind_ok, intoBuf_ok hc.not_nan, pure_ok]
  · intro hl
    simp only [hm.2 hl, bind_ok, pure_ok]

theorem finish_scale [Build] {u : Var} {s : Int} (hn : u.sign ≠ .nan) (hd : u.dscale = s) (hs : 16383 < s) :
    finish u = .ok none := by
  unfold finish
  simp only [makeResult_scale hn hd hs, bind_ok, pure_ok]

theorem finish_loose [Build] {u : Var} {s : Int} {x : ℚ} (hd : Digits u.digits) (hn : u.sign ≠ .nan)
    (hds : u.dscale = s) (hv : value u = x) (hs0 : 0 ≤ s) (hs1 : s ≤ 16383) (hsc : HasScale x s)
    (hw : u.weight ≤ 32767 ∨ ∃ d ds, u.digits = d :: ds ∧ d ≠ 0) (hw2 : -32767 ≤ u.weight)
    (hlen : (u.digits.length : Int) ≤ 1000000000) :
    (|x| < limit → ∃ r, finish u = .ok (some r) ∧ Holds r x s) ∧ (limit ≤ |x| → finish u = .ok none) := by
  have hm := makeResult_loose hd hn hds hv hs0 hs1 hsc hw hw2 hlen
  unfold finish
  constructor
  · intro hl
    obtain ⟨e, hc⟩ := hm.1 hl
    refine ⟨Bin.encode (strip u), ?_, strip u, hc, rfl, by rw [strip_value, hv], by rw [strip_dscale, hds]⟩
    simp only [e, bind_ok, intoBuf_ok hc.not_nan, pure_ok]
  · intro hl
    simp only [hm.2 hl, bind_ok, pure_ok]

theorem finishNoOverflow_spec [Build] {u : Var} {s : Int} {x : ℚ} (hd : Digits u.digits) (hn : u.sign ≠ .nan)
    (hds : u.dscale = s) (hv : value u = x) (hs0 : 0 ≤ s) (hs1 : s ≤ 16383) (hsc : HasScale x s) (hl : |x| < limit)
    (hst : stripM u = .ok (strip u)) :
    ∃ r, finishNoOverflow u = .ok r ∧ Holds r x s := by
  have hok : AddOK (strip u) s x := ⟨strip_digits hd, strip_sign hn, strip_stripped _, by simp [hds], by rw [strip_value, hv]⟩
  have hc := hok.canonical hs0 hs1 hsc hl
  refine ⟨Bin.encode (strip u), ?_, strip u, hc, rfl, hok.value, hok.dscale⟩
  unfold finishNoOverflow
  rw [makeResultNoOverflow_ok hn hst]
  simp only [bind_ok, intoBuf_ok hc.not_nan]

theorem finishNoOverflow_canonical [Build] {u : Var} (h : Canonical u) :
    finishNoOverflow u = .ok (Bin.encode u) := by
  unfold finishNoOverflow
  rw [makeResultNoOverflow_ok h.not_nan h.small.stripM, strip_of_canonical h]
  simp only [bind_ok, intoBuf_ok h.not_nan]

/-- The common shape of the two-argument functions. -/
theorem binop_unfold [Build] {α} {a b : Bin} {x y : ℚ} {s t : Int} (ha : Holds a x s) (hb : Holds b y t)
    {n : M α} {f : Var → Var → M α} {P : M α → Prop}
    (h : ∀ u v, Canonical u → Canonical v → value u = x → u.dscale = s → value v = y → v.dscale = t → P (f u v)) :
    P (do
      asBinary a
      asBinary b
      if a.isNan || b.isNan then n
      else
        let x ← a.asVar
        let y ← b.asVar
        f x y) := by
  obtain ⟨u, hu, hux, hus, ea, na, va⟩ := ha.exists_var
  obtain ⟨v, hv, hvx, hvs, eb, nb, vb⟩ := hb.exists_var
  simp only [ea, eb, bind_ok, na, nb, Bool.or_self, Bool.false_eq_true, if_false, va, vb]
  exact h u v hu hv hux hus hvx hvs

theorem unop_unfold [Build] {α} {a : Bin} {x : ℚ} {s : Int} (ha : Holds a x s)
    {n : M α} {f : Var → M α} {P : M α → Prop}
    (h : ∀ u, Canonical u → value u = x → u.dscale = s → P (f u)) :
    P (do
      asBinary a
      if a.isNan then n
      else
        let x ← a.asVar
        f x) := by
  obtain ⟨u, hu, hux, hus, ea, na, va⟩ := ha.exists_var
  simp only [ea, bind_ok, na, Bool.false_eq_true, if_false, va]
  exact h u hu hux hus

theorem checkedAdd_spec [Build] {a b : Bin} {x y : ℚ} {s t : Int} (ha : Holds a x s) (hb : Holds b y t) :
    (|x + y| < limit → ∃ r, checkedAdd a b = .ok (some r) ∧ Holds r (x + y) (max s t)) ∧
    (limit ≤ |x + y| → checkedAdd a b = .ok none) := by
  unfold checkedAdd
  refine binop_unfold ha hb (P := fun m => (|x + y| < limit → ∃ r, m = .ok (some r) ∧ Holds r (x + y) (max s t)) ∧
    (limit ≤ |x + y| → m = .ok none)) ?_
  rintro u v hu hv rfl rfl rfl rfl
  obtain ⟨w, ew, hw⟩ := add_canonical hu hv
  simp only [ew, bind_ok]
  have h1 := hu.dscale_nonneg; have h2 := hu.dscale_le; have h3 := hv.dscale_le
  exact finish_spec hw (by omega) (by omega) ((hu.scale.mono (by omega)).add (hv.scale.mono (by omega)))

theorem checkedSub_spec [Build] {a b : Bin} {x y : ℚ} {s t : Int} (ha : Holds a x s) (hb : Holds b y t) :
    (|x - y| < limit → ∃ r, checkedSub a b = .ok (some r) ∧ Holds r (x - y) (max s t)) ∧
    (limit ≤ |x - y| → checkedSub a b = .ok none) := by
  unfold checkedSub
  refine binop_unfold ha hb (P := fun m => (|x - y| < limit → ∃ r, m = .ok (some r) ∧ Holds r (x - y) (max s t)) ∧
    (limit ≤ |x - y| → m = .ok none)) ?_
  rintro u v hu hv rfl rfl rfl rfl
  obtain ⟨w, ew, hw⟩ := sub_canonical hu hv
  simp only [ew, bind_ok]
  have h1 := hu.dscale_nonneg; have h2 := hu.dscale_le; have h3 := hv.dscale_le
  exact finish_spec hw (by omega) (by omega) ((hu.scale.mono (by omega)).sub (hv.scale.mono (by omega)))

theorem zeroScaled_big [Build] {s : Int} (hs : 16383 < s) :
    zeroScaled s = if Build.debug then .error .assert else .ok ⟨0, s, .pos, []⟩ := by
  unfold zeroScaled dassert
  rw [decide_eq_false (by simp only [NUMERIC_DSCALE_MAX]; omega)]
  cases Build.debug <;> rfl

theorem mulCommon_zero [Build] {a b : Var} (na : a.sign ≠ .nan) (nb : b.sign ≠ .nan) (s : Int)
    (h : a.digits = [] ∨ b.digits = []) : mulCommon a b s = zeroScaled s := by
  unfold mulCommon
  rw [dassert_ok na, dassert_ok nb]
  simp only [bind_ok]
  rw [if_pos]
  rcases h with h | h
  · split <;> simp [ndigits, h]
  · split <;> simp [ndigits, h]

/-- The four outcomes of `checked_mul`. -/
theorem checkedMul_spec [Build] {a b : Bin} {x y : ℚ} {s t : Int} (ha : Holds a x s) (hb : Holds b y t) :
    (s + t ≤ 16383 → |x * y| < limit → ∃ r, checkedMul a b = .ok (some r) ∧ Holds r (x * y) (s + t)) ∧
    (s + t ≤ 16383 → limit ≤ |x * y| → checkedMul a b = .ok none) ∧
    (16383 < s + t → x * y ≠ 0 → checkedMul a b = .ok none) ∧
    (16383 < s + t → x * y = 0 → checkedMul a b = if Build.debug then .error .assert else .ok none) := by
  unfold checkedMul
  refine binop_unfold ha hb (P := fun m =>
    (s + t ≤ 16383 → |x * y| < limit → ∃ r, m = .ok (some r) ∧ Holds r (x * y) (s + t)) ∧
    (s + t ≤ 16383 → limit ≤ |x * y| → m = .ok none) ∧
    (16383 < s + t → x * y ≠ 0 → m = .ok none) ∧
    (16383 < s + t → x * y = 0 → m = if Build.debug then .error .assert else .ok none)) ?_
  rintro u v hu hv rfl rfl rfl rfl
  have h1 := hu.dscale_nonneg; have h2 := hv.dscale_nonneg
  have hu0 := stripped_zero_iff hu.digits hu.stripped
  have hv0 := stripped_zero_iff hv.digits hv.stripped
  refine ⟨?_, ?_, ?_, ?_⟩
  · intro hs
    obtain ⟨w, ew, hw⟩ := mul_canonical hu hv (.inl hs)
    simp only [ew, bind_ok]
    exact (finish_spec hw (by omega) hs (hu.scale.mul hv.scale)).1
  · intro hs
    obtain ⟨w, ew, hw⟩ := mul_canonical hu hv (.inl hs)
    simp only [ew, bind_ok]
    exact (finish_spec hw (by omega) hs (hu.scale.mul hv.scale)).2
  · intro hs hne
    have hne' := mul_ne_zero_iff.1 hne
    obtain ⟨w, ew, hw⟩ := mul_canonical hu hv (.inr ⟨fun h => hne'.1 (hu0.2 h), fun h => hne'.2 (hv0.2 h)⟩)
    simp only [ew, bind_ok]
    exact finish_scale hw.not_nan hw.dscale hs
  · intro hs h0
    rw [mulCommon_zero hu.not_nan hv.not_nan _ ((mul_eq_zero.1 h0).imp hu0.1 hv0.1), zeroScaled_big hs]
    cases Build.debug with
    | true => rfl
    | false => exact finish_scale (by simp) rfl hs

/-! ## Division -/

/-- The base-10000 leading digit `d` and its position `w` of a non-zero rational. -/
def Leading (x : ℚ) (d w : Int) : Prop :=
  1 ≤ d ∧ d ≤ 9999 ∧ (d : ℚ) * 10000 ^ w ≤ |x| ∧ |x| < (d + 1 : ℚ) * 10000 ^ w

theorem leading_lead {x : ℚ} (h0 : x ≠ 0) : Leading x (leadDigit x) (leadWeight x) := by
  have hx : 0 < |x| := abs_pos.2 h0
  have h1 := Int.zpow_log_le_self (b := 10000) (by norm_num) hx
  have h2 := Int.lt_zpow_succ_log_self (b := 10000) (by norm_num) |x|
  have hp := B_zpow_pos (leadWeight x)
  push_cast at h1 h2
  change (10000:ℚ) ^ leadWeight x ≤ |x| at h1
  change |x| < (10000:ℚ) ^ (leadWeight x + 1) at h2
  unfold leadDigit
  have f1 := Int.floor_le (|x| / 10000 ^ leadWeight x)
  have f2 := Int.lt_floor_add_one (|x| / 10000 ^ leadWeight x)
  refine ⟨?_, ?_, ?_, ?_⟩
  · rw [Int.le_floor]; push_cast; rw [le_div_iff₀ hp]; linarith
  · rw [← Int.lt_add_one_iff, Int.floor_lt]; push_cast; rw [div_lt_iff₀ hp]
    rw [zpow_add₀ (by norm_num)] at h2; linarith
  · rwa [le_div_iff₀ hp] at f1
  · rwa [div_lt_iff₀ hp] at f2

theorem leading_unique {x : ℚ} {d w d' w' : Int} (h : Leading x d w) (h' : Leading x d' w') : d = d' ∧ w = w' := by
  obtain ⟨h1, h2, h3, h4⟩ := h
  obtain ⟨h1', h2', h3', h4'⟩ := h'
  have hw : w = w' := by
    have key : ∀ d w d' w' : Int, 1 ≤ d → d ≤ 9999 → (d : ℚ) * 10000 ^ w ≤ |x| → |x| < (d + 1 : ℚ) * 10000 ^ w →
        1 ≤ d' → (d' : ℚ) * 10000 ^ w' ≤ |x| → w' ≤ w := by
      intro d w d' w' h1 h2 h3 h4 h1' h3'
      have e1 : (1:ℚ) ≤ d' := by exact_mod_cast h1'
      have e2 : (d:ℚ) + 1 ≤ 10000 := by exact_mod_cast (by omega : d + 1 ≤ 10000)
      have p1 := B_zpow_pos w
      have p2 := B_zpow_pos w'
      have : (10000:ℚ) ^ w' < 10000 ^ (w + 1) := by
        calc (10000:ℚ) ^ w' ≤ d' * 10000 ^ w' := by nlinarith
          _ ≤ |x| := h3'
          _ < (d + 1) * 10000 ^ w := h4
          _ ≤ 10000 * 10000 ^ w := by nlinarith
          _ = 10000 ^ (w + 1) := by rw [zpow_add₀ (by norm_num)]; ring
      have := B_zpow_lt_iff.1 this
      omega
    have := key d w d' w' h1 h2 h3 h4 h1' h3'
    have := key d' w' d w h1' h2' h3' h4' h1 h3
    omega
  subst hw
  have p := B_zpow_pos w
  refine ⟨?_, rfl⟩
  have a1 : (d : ℚ) < d' + 1 := lt_of_mul_lt_mul_right (lt_of_le_of_lt h3 h4') p.le
  have a2 : (d' : ℚ) < d + 1 := lt_of_mul_lt_mul_right (lt_of_le_of_lt h3' h4) p.le
  have b1 : d < d' + 1 := by exact_mod_cast a1
  have b2 : d' < d + 1 := by exact_mod_cast a2
  omega

theorem firstDigit_leading {v : Var} (hv : Canonical v) (h0 : value v ≠ 0) :
    Leading (value v) (firstDigit v.digits v.weight).1 (firstDigit v.digits v.weight).2 := by
  have hne : v.digits ≠ [] := fun h => h0 ((stripped_zero_iff hv.digits hv.stripped).2 h)
  obtain ⟨d, l, e⟩ := List.exists_cons_of_ne_nil hne
  have hd := hv.digits
  have hs := hv.stripped.1
  rw [e] at hd hs
  have hd0 : d ≠ 0 := head_ne_zero hs
  have hdr := hd d (by simp)
  have hm := mag_head_bounds hd v.weight
  have hab : |value v| = mag (d :: l) v.weight := by rw [abs_value v hv.digits, e]
  rw [e]
  simp only [firstDigit, if_pos hd0]
  exact ⟨by omega, by omega, by rw [hab]; exact hm.1, by rw [hab]; exact hm.2⟩

theorem lead_zero : leadDigit 0 = 0 ∧ leadWeight 0 = 0 := by
  simp [leadDigit, leadWeight]

theorem firstDigit_eq {v : Var} (hv : Canonical v) :
    firstDigit v.digits v.weight = (leadDigit (value v), leadWeight (value v)) := by
  by_cases h0 : value v = 0
  · rw [(stripped_zero_iff hv.digits hv.stripped).1 h0, h0, lead_zero.1, lead_zero.2]; rfl
  · obtain ⟨e1, e2⟩ := leading_unique (firstDigit_leading hv h0) (leading_lead h0)
    rw [← e1, ← e2]

theorem selectDivScale_exact {u v : Var} (hu : Canonical u) (hv : Canonical v) :
    selectDivScale u v = quotientScale (value u) (value v) u.dscale v.dscale := by
  unfold selectDivScale quotientScale
  rw [firstDigit_eq hu, firstDigit_eq hv]
  have := hu.dscale_nonneg
  simp only [NUMERIC_MIN_DISPLAY_SCALE, NUMERIC_MAX_DISPLAY_SCALE, NUMERIC_MIN_SIG_DIGITS, DEC_DIGITS]
  split <;> omega

theorem quotientScale_bounds (x y : ℚ) {s t : Int} (h : 0 ≤ s) : 0 ≤ quotientScale x y s t ∧ quotientScale x y s t ≤ 1000 := by
  unfold quotientScale; dsimp only; omega

/-- What every form of division computes, in the variable world. -/
theorem div_var [Build] {u v : Var} (hu : Canonical u) (hv : Canonical v) (h0 : value v ≠ 0) :
    ∃ w, Var.checkedDiv u v = .ok (some w) ∧
      AddOK w (quotientScale (value u) (value v) u.dscale v.dscale)
        (roundHalfAway (value u / value v) (quotientScale (value u) (value v) u.dscale v.dscale)) := by
  rw [← selectDivScale_exact hu hv]
  exact checkedDiv_canonical hu hv h0

theorem checkedDiv_spec [Build] {a b : Bin} {x y : ℚ} {s t : Int} (ha : Holds a x s) (hb : Holds b y t) (hy : y ≠ 0) :
    let q := quotientScale x y s t
    (|roundHalfAway (x / y) q| < limit → ∃ r, checkedDiv a b = .ok (some r) ∧ Holds r (roundHalfAway (x / y) q) q) ∧
    (limit ≤ |roundHalfAway (x / y) q| → checkedDiv a b = .ok none) := by
  intro q
  unfold checkedDiv
  refine binop_unfold ha hb (P := fun m =>
    (|roundHalfAway (x / y) q| < limit → ∃ r, m = .ok (some r) ∧ Holds r (roundHalfAway (x / y) q) q) ∧
    (limit ≤ |roundHalfAway (x / y) q| → m = .ok none)) ?_
  rintro u v hu hv rfl rfl rfl rfl
  obtain ⟨w, ew, hw⟩ := div_var hu hv hy
  have hb := quotientScale_bounds (value u) (value v) (t := v.dscale) hu.dscale_nonneg
  simp only [ew, bind_ok]
  exact finish_spec hw hb.1 (by omega) (roundHalfAway_hasScale _ _)

theorem checkedDiv_byZero [Build] {a b : Bin} {x : ℚ} {s t : Int} (ha : Holds a x s) (hb : Holds b 0 t) :
    checkedDiv a b = .ok none ∧ checkedDivTrunc a b = .ok none ∧ checkedRem a b = .ok none := by
  refine ⟨?_, ?_, ?_⟩
  · unfold checkedDiv
    refine binop_unfold ha hb (P := fun m => m = .ok none) ?_
    rintro u v hu hv - - h0 -
    simp only [(checkedDiv_zero hu hv h0).1, bind_ok, pure_ok]
  · unfold checkedDivTrunc
    refine binop_unfold ha hb (P := fun m => m = .ok none) ?_
    rintro u v hu hv - - h0 -
    simp only [(checkedDiv_zero hu hv h0).2, bind_ok, pure_ok]
  · unfold checkedRem
    refine binop_unfold ha hb (P := fun m => m = .ok none) ?_
    rintro u v hu hv - - h0 -
    simp only [mod_zero hu hv h0, bind_ok, pure_ok]

theorem overflowing_byZero [Build] {a b : Bin} {x : ℚ} {s t : Int} (ha : Holds a x s) (hb : Holds b 0 t) :
    overflowingDiv a b = .error (.panic DIVIDE_BY_ZERO_MSG) ∧ overflowingRem a b = .error (.panic DIVIDE_BY_ZERO_MSG) := by
  refine ⟨?_, ?_⟩
  · unfold overflowingDiv
    refine binop_unfold ha hb (P := fun m => m = .error (.panic DIVIDE_BY_ZERO_MSG)) ?_
    rintro u v hu hv - - h0 -
    simp only [(checkedDiv_zero hu hv h0).1, bind_ok]
    rfl
  · unfold overflowingRem
    refine binop_unfold ha hb (P := fun m => m = .error (.panic DIVIDE_BY_ZERO_MSG)) ?_
    rintro u v hu hv - - h0 -
    simp only [mod_zero hu hv h0, bind_ok]
    rfl

theorem overflowingDiv_spec [Build] {a b : Bin} {x y : ℚ} {s t : Int} (ha : Holds a x s) (hb : Holds b y t) (hy : y ≠ 0) :
    (∃ r, checkedDiv a b = .ok (some r) ∧ overflowingDiv a b = .ok (r, false)) ∨
    (checkedDiv a b = .ok none ∧ overflowingDiv a b = .ok (Bin.nan, true)) := by
  obtain ⟨u, hu, rfl, rfl, ea, na, va⟩ := ha.exists_var
  obtain ⟨v, hv, rfl, rfl, eb, nb, vb⟩ := hb.exists_var
  obtain ⟨w, ew, hw⟩ := div_var hu hv hy
  have hb := quotientScale_bounds (value u) (value v) (t := v.dscale) hu.dscale_nonneg
  have hf := finish_spec hw hb.1 (by omega) (roundHalfAway_hasScale _ _)
  unfold checkedDiv overflowingDiv
  simp only [ea, eb, bind_ok, na, nb, Bool.or_self, Bool.false_eq_true, if_false, va, vb, ew, expect, pure_ok, nan_ok]
  rcases lt_or_ge |roundHalfAway (value u / value v) (quotientScale (value u) (value v) u.dscale v.dscale)| limit with h | h
  · obtain ⟨r, e, -⟩ := hf.1 h
    left; exact ⟨r, e, by simp only [e, bind_ok]⟩
  · right
    simp only [hf.2 h, bind_ok]; exact ⟨trivial, trivial⟩

theorem checkedDivTrunc_spec [Build] {a b : Bin} {x y : ℚ} {s t : Int} (ha : Holds a x s) (hb : Holds b y t) (hy : y ≠ 0) :
    (|truncTo (x / y) 0| < limit → ∃ r, checkedDivTrunc a b = .ok (some r) ∧ Holds r (truncTo (x / y) 0) 0) ∧
    (limit ≤ |truncTo (x / y) 0| → checkedDivTrunc a b = .ok none) := by
  unfold checkedDivTrunc
  refine binop_unfold ha hb (P := fun m =>
    (|truncTo (x / y) 0| < limit → ∃ r, m = .ok (some r) ∧ Holds r (truncTo (x / y) 0) 0) ∧
    (limit ≤ |truncTo (x / y) 0| → m = .ok none)) ?_
  rintro u v hu hv rfl rfl rfl rfl
  obtain ⟨w, ew, hw⟩ := checkedDivTrunc_canonical hu hv hy
  simp only [ew, bind_ok]
  exact finish_spec hw (by omega) (by omega) (truncTo_hasScale _ _)

/-- `r = x - trunc(x/y) y`: the remainder laws. -/
theorem rem_laws {x y : ℚ} (hy : y ≠ 0) :
    |x - truncTo (x / y) 0 * y| < |y| ∧ |x - truncTo (x / y) 0 * y| ≤ |x| ∧ 0 ≤ (x - truncTo (x / y) 0 * y) * x := by
  have key : ∀ q : ℚ, ∃ f : ℚ, q - truncTo q 0 = f ∧ |f| < 1 ∧ 0 ≤ f * q ∧ |f| ≤ |q| := by
    intro q
    refine ⟨_, rfl, ?_⟩
    rcases le_or_gt 0 q with h | h
    · rw [truncTo_zero_pos h]
      have h1 := Int.floor_le q
      have h2 := Int.lt_floor_add_one q
      have h3 : (0:ℚ) ≤ (⌊q⌋ : ℤ) := by exact_mod_cast Int.floor_nonneg.2 h
      rw [abs_of_nonneg (by linarith), abs_of_nonneg h]
      exact ⟨by linarith, mul_nonneg (by linarith) h, by linarith⟩
    · rw [truncTo_zero_neg h.le]
      have h1 := Int.le_ceil q
      have h2 := Int.ceil_lt_add_one q
      have h3 : ((⌈q⌉ : ℤ) : ℚ) ≤ 0 := by exact_mod_cast Int.ceil_le.2 (by simpa using h.le)
      rw [abs_of_nonpos (by linarith), abs_of_neg h]
      exact ⟨by linarith, mul_nonneg_of_nonpos_of_nonpos (by linarith) h.le, by linarith⟩
  obtain ⟨f, e, h1, h2, h3⟩ := key (x / y)
  have ex : x - truncTo (x / y) 0 * y = f * y := by rw [← e]; field_simp
  have hx : x = x / y * y := by field_simp
  rw [ex]
  have hyp := abs_pos.2 hy
  refine ⟨?_, ?_, ?_⟩
  · rw [abs_mul]; nlinarith
  · rw [abs_mul, hx, abs_mul]; exact mul_le_mul_of_nonneg_right h3 (abs_nonneg _)
  · rw [hx, ← hx]
    have : f * y * x = (f * (x / y)) * (y * y) := by field_simp
    rw [this]; exact mul_nonneg h2 (mul_self_nonneg y)

theorem checkedRem_spec [Build] {a b : Bin} {x y : ℚ} {s t : Int} (ha : Holds a x s) (hb : Holds b y t) (hy : y ≠ 0) :
    ∃ r, checkedRem a b = .ok (some r) ∧ overflowingRem a b = .ok (r, false) ∧
      Holds r (x - truncTo (x / y) 0 * y) (max s t) := by
  have hlim := ha.bounds.2.2.2
  have hbs := hb.bounds
  have has := ha.bounds
  obtain ⟨u, hu, rfl, rfl, ea, na, va⟩ := ha.exists_var
  obtain ⟨v, hv, rfl, rfl, eb, nb, vb⟩ := hb.exists_var
  obtain ⟨w, ew, hw⟩ := mod_canonical hu hv hy
  have hsc : HasScale (value u - truncTo (value u / value v) 0 * value v) (max u.dscale v.dscale) := by
    have h1 := (truncTo_hasScale (value u / value v) 0).mul hbs.1
    rw [zero_add] at h1
    exact (has.1.mono (by omega)).sub (h1.mono (by omega))
  have hf := (finish_spec hw (by omega) (by omega) hsc).1 (lt_of_le_of_lt (rem_laws hy).2.1 hlim)
  obtain ⟨r, er, hr⟩ := hf
  refine ⟨r, ?_, ?_, hr⟩
  · unfold checkedRem
    simp only [ea, eb, bind_ok, na, nb, Bool.or_self, Bool.false_eq_true, if_false, va, vb, ew, er]
  · unfold overflowingRem
    simp only [ea, eb, bind_ok, na, nb, Bool.or_self, Bool.false_eq_true, if_false, va, vb, ew, er, expect, pure_ok]

/-! ## Rounding -/

/-- The effective scale of `round` and `trunc`. -/
theorem clampScale_eq (s : Int) : clampScale s = max (-1000) (min 1000 s) := by
  unfold clampScale; simp only [NUMERIC_MAX_DISPLAY_SCALE]; omega

theorem round_ok [Build] {a : Bin} {x : ℚ} {s : Int} (ha : Holds a x s) (n : Int) :
    let k := max (-1000) (min 1000 n)
    (|roundHalfAway x k| < limit → ∃ r, round a n = .ok r ∧ Holds r (roundHalfAway x k) (max k 0)) ∧
    (limit ≤ |roundHalfAway x k| → round a n = .error (.panic VALUE_OVERFLOW_MSG)) := by
  intro k
  unfold round
  refine unop_unfold ha (P := fun m => (|roundHalfAway x k| < limit → ∃ r, m = .ok r ∧ Holds r (roundHalfAway x k) (max k 0)) ∧
    (limit ≤ |roundHalfAway x k| → m = .error (.panic VALUE_OVERFLOW_MSG))) ?_
  rintro u hu rfl rfl
  obtain ⟨w, ew, wd, wn, ws, wv, ww, ww2, wl⟩ := round_spec hu n
  rw [clampScale_eq] at ws wv
  have hf := finish_loose wd wn ws wv (by omega) (by omega) (hasScale_round _ _) ww ww2 wl
  simp only [ew, bind_ok]
  constructor
  · intro h
    obtain ⟨r, er, hr⟩ := hf.1 h
    exact ⟨r, by simp only [er, bind_ok, expect, pure_ok], hr⟩
  · intro h
    simp only [hf.2 h, bind_ok]; rfl

theorem trunc_ok [Build] {a : Bin} {x : ℚ} {s : Int} (ha : Holds a x s) (n : Int) :
    let k := max (-1000) (min 1000 n)
    ∃ r, trunc a n = .ok r ∧ Holds r (truncTo x k) (max k 0) := by
  intro k
  unfold trunc
  refine unop_unfold ha (P := fun m => ∃ r, m = .ok r ∧ Holds r (truncTo x k) (max k 0)) ?_
  rintro u hu rfl rfl
  obtain ⟨w, ew, wd, wn, ws, wv, wst⟩ := trunc_spec hu n
  rw [clampScale_eq] at ws wv
  simp only [ew, bind_ok]
  exact finishNoOverflow_spec wd wn ws wv (by omega) (by omega) (hasScale_trunc _ _)
    (lt_of_le_of_lt (abs_truncTo_le _ _) hu.abs_lt) wst

theorem intOK_finish [Build] {u : Var} {n : ℤ} (h : IntOK u n) :
    (|(n:ℚ)| < limit → ∃ r, finish u = .ok (some r) ∧ Holds r n 0) ∧ (limit ≤ |(n:ℚ)| → finish u = .ok none) :=
  finish_loose h.digits h.not_nan h.dscale h.value (by omega) (by omega) (HasScale.int n (by omega)) h.weight h.weight_ge h.len

theorem ceil_ok [Build] {a : Bin} {x : ℚ} {s : Int} (ha : Holds a x s) :
    (|((⌈x⌉ : ℤ) : ℚ)| < limit → ∃ r, ceil a = .ok r ∧ Holds r (⌈x⌉ : ℤ) 0) ∧
    (limit ≤ |((⌈x⌉ : ℤ) : ℚ)| → ceil a = .error (.panic VALUE_OVERFLOW_MSG)) := by
  unfold ceil
  refine unop_unfold ha (P := fun m => (|((⌈x⌉ : ℤ) : ℚ)| < limit → ∃ r, m = .ok r ∧ Holds r (⌈x⌉ : ℤ) 0) ∧
    (limit ≤ |((⌈x⌉ : ℤ) : ℚ)| → m = .error (.panic VALUE_OVERFLOW_MSG))) ?_
  rintro u hu rfl rfl
  obtain ⟨w, ew, hw⟩ := ceilCommon_spec hu
  have hf := intOK_finish hw
  simp only [ew, bind_ok]
  constructor
  · intro h
    obtain ⟨r, er, hr⟩ := hf.1 h
    exact ⟨r, by simp only [er, bind_ok, expect, pure_ok], hr⟩
  · intro h
    simp only [hf.2 h, bind_ok]; rfl

theorem floor_ok [Build] {a : Bin} {x : ℚ} {s : Int} (ha : Holds a x s) :
    (|((⌊x⌋ : ℤ) : ℚ)| < limit → ∃ r, floor a = .ok r ∧ Holds r (⌊x⌋ : ℤ) 0) ∧
    (limit ≤ |((⌊x⌋ : ℤ) : ℚ)| → floor a = .error (.panic VALUE_OVERFLOW_MSG)) := by
  unfold floor
  refine unop_unfold ha (P := fun m => (|((⌊x⌋ : ℤ) : ℚ)| < limit → ∃ r, m = .ok r ∧ Holds r (⌊x⌋ : ℤ) 0) ∧
    (limit ≤ |((⌊x⌋ : ℤ) : ℚ)| → m = .error (.panic VALUE_OVERFLOW_MSG))) ?_
  rintro u hu rfl rfl
  obtain ⟨w, ew, hw⟩ := floorCommon_spec hu
  have hf := intOK_finish hw
  simp only [ew, bind_ok]
  constructor
  · intro h
    obtain ⟨r, er, hr⟩ := hf.1 h
    exact ⟨r, by simp only [er, bind_ok, expect, pure_ok], hr⟩
  · intro h
    simp only [hf.2 h, bind_ok]; rfl

/-! ## Sign operations -/

theorem negate_ok [Build] {a : Bin} {x : ℚ} {s : Int} (ha : Holds a x s) : ∃ r, negate a = .ok r ∧ Holds r (-x) s := by
  unfold negate
  refine unop_unfold ha (P := fun m => ∃ r, m = .ok r ∧ Holds r (-x) s) ?_
  rintro u hu rfl rfl
  obtain ⟨hc, hv, hd⟩ := negate_canonical hu
  exact ⟨_, finishNoOverflow_canonical hc, _, hc, rfl, hv, hd⟩

theorem abs_ok [Build] {a : Bin} {x : ℚ} {s : Int} (ha : Holds a x s) : ∃ r, abs a = .ok r ∧ Holds r |x| s := by
  unfold abs
  refine unop_unfold ha (P := fun m => ∃ r, m = .ok r ∧ Holds r |x| s) ?_
  rintro u hu rfl rfl
  obtain ⟨hc, hv, hd⟩ := abs_canonical hu
  exact ⟨_, intoBuf_ok hc.not_nan, _, hc, rfl, hv, hd⟩

theorem signum_ok [Build] {a : Bin} {x : ℚ} {s : Int} (ha : Holds a x s) :
    ∃ r, signum a = .ok r ∧ Holds r (if x < 0 then -1 else if x = 0 then 0 else 1) 0 := by
  unfold signum
  refine unop_unfold ha (P := fun m => ∃ r, m = .ok r ∧ Holds r (if x < 0 then -1 else if x = 0 then 0 else 1) 0) ?_
  rintro u hu rfl rfl
  obtain ⟨hc, hv, hd⟩ := signum_canonical hu
  exact ⟨_, finishNoOverflow_canonical hc, _, hc, rfl, hv, hd⟩

theorem inc_ok [Build] {a : Bin} {x : ℚ} {s : Int} (ha : Holds a x s) :
    (|x + 1| < limit → ∃ r, inc a = .ok r ∧ Holds r (x + 1) s) ∧
    (limit ≤ |x + 1| → inc a = .error (.panic VALUE_OVERFLOW_MSG)) := by
  unfold inc
  refine unop_unfold ha (P := fun m => (|x + 1| < limit → ∃ r, m = .ok r ∧ Holds r (x + 1) s) ∧
    (limit ≤ |x + 1| → m = .error (.panic VALUE_OVERFLOW_MSG))) ?_
  rintro u hu rfl rfl
  obtain ⟨w, ew, hw⟩ := add_canonical hu one_canonical
  have h0 := hu.dscale_nonneg
  have h1 := hu.dscale_le
  have e1 : max u.dscale one.dscale = u.dscale := by simp only [one]; omega
  rw [e1, one_value] at hw
  have hf := finish_spec hw h0 h1 (hu.scale.add (by have := HasScale.int 1 h0; simpa using this))
  have : Var.inc u = .ok w := by
    unfold Var.inc; rw [dassert_ok hu.not_nan]; exact ew
  simp only [this, bind_ok]
  constructor
  · intro h
    obtain ⟨r, er, hr⟩ := hf.1 h
    exact ⟨r, by simp only [er, bind_ok, expect, pure_ok], hr⟩
  · intro h
    simp only [hf.2 h, bind_ok]; rfl

end Num
end PgNumeric
