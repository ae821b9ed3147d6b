import Verif.Model.Convert
import Verif.Proofs.Typmod
/-!
# Integer conversions
-/
namespace PgNumeric
open Spec Var
namespace Convert

/-! ## Integers to numerics -/

theorem digitsLoop_spec (k : Nat) (u : Int) (acc : List Int) (h0 : 0 ≤ u) (h1 : u < 10000 ^ k) (hk : 0 < k)
    (ha : Digits acc) :
    ∃ ds, digitsLoop k u acc = .ok (ds ++ acc) ∧ Digits ds ∧ dval ds = u ∧ 0 < ds.length ∧
      ds.length ≤ k ∧ (0 < u → ds.head? ≠ some 0) := by
  induction k generalizing u acc with
  | zero => omega
  | succ k ih =>
    unfold digitsLoop
    simp only [NBASE]
    have hd : 0 ≤ u - u / 10000 * 10000 ∧ u - u / 10000 * 10000 < 10000 := by omega
    by_cases hz : u / 10000 = 0
    · rw [if_pos hz]
      refine ⟨[u - u / 10000 * 10000], rfl, ?_, ?_, by simp, by simp, ?_⟩
      · rw [Digits.cons]; exact ⟨hd, Digits.nil⟩
      · simp [dval, hz]
      · intro hu
        simp [hz]; omega
    · rw [if_neg hz]
      have h1' : u / 10000 < 10000 ^ k := by
        rw [pow_succ] at h1
        exact Int.ediv_lt_of_lt_mul (by norm_num) h1
      have hk' : 0 < k := by
        rcases Nat.eq_zero_or_pos k with rfl | h
        · simp at h1'; omega
        · exact h
      obtain ⟨ds, e, hds, hv, hl, hl2, hh⟩ := ih (u / 10000) ((u - u / 10000 * 10000) :: acc) (by omega) h1' hk'
        (Digits.cons.2 ⟨hd, ha⟩)
      refine ⟨ds ++ [u - u / 10000 * 10000], by rw [e]; simp, ?_, ?_, by simp, by simp; omega, ?_⟩
      · rw [Digits.append, Digits.cons]; exact ⟨hds, hd, Digits.nil⟩
      · rw [dval_append, hv]; simp [dval]
      · intro _
        cases ds with
        | nil => simp at hl
        | cons d ds => simpa using hh (by omega)

theorem digits_spec {k : Nat} {u : Int} (h0 : 0 < u) (h1 : u < 10000 ^ k) (hk : 0 < k) :
    ∃ ds, digits k u = .ok ds ∧ Digits ds ∧ dval ds = u ∧ 0 < ds.length ∧ ds.length ≤ k := by
  unfold digits
  split
  · rename_i h
    subst h
    refine ⟨[u], rfl, ?_, by simp [dval], by simp, by simp⟩
    rw [Digits.cons]; exact ⟨⟨by omega, by simpa using h1⟩, Digits.nil⟩
  · obtain ⟨ds, e, a, b, c, d, _⟩ := digitsLoop_spec k u [] h0.le h1 hk Digits.nil
    exact ⟨ds, by rw [e]; simp, a, b, c, d⟩

/-- What the modelled integer types have in common. -/
structure _root_.PgNumeric.IntTy.OK (ty : IntTy) : Prop where
  lo : ty.lo ≤ 0
  hi : 0 ≤ ty.hi
  ndigits : 0 < ty.maxNdigits
  ndigits_le : ty.maxNdigits ≤ 10
  fits : ∀ x, ty.InRange x → |x| < 10000 ^ ty.maxNdigits
  signed : ty.signed = true → ty.hi = -ty.lo - 1
  unsigned : ty.signed = false → ty.lo = 0

theorem absT_eq (x : Int) : absT x = |x| := by
  unfold absT
  split
  · rw [abs_of_nonneg (by omega)]
  · rw [abs_of_neg (by omega)]; ring

theorem unsignedToVar_spec {k : Nat} {u : Int} (h0 : 0 < u) (h1 : u < 10000 ^ k) (hk : 0 < k) (s : Sign) :
    ∃ ds, unsignedToVar k u s = .ok ⟨(ds.length : Int) - 1, 0, s, ds⟩ ∧ Digits ds ∧ 
      mag ds ((ds.length : Int) - 1) = u ∧ ds.length ≤ k := by
  obtain ⟨ds, e, a, b, c, d⟩ := digits_spec h0 h1 hk
  refine ⟨ds, by unfold unsignedToVar; rw [e]; rfl, a, by rw [mag_int, b], d⟩

theorem fromInt_spec {ty : IntTy} (h : ty.OK) {x : Int} (hx : ty.InRange x) :
    ∃ u, fromInt ty x = .ok u ∧ Digits u.digits ∧ u.sign ≠ .nan ∧ u.dscale = 0 ∧ value u = x ∧
      0 ≤ u.weight ∧ u.weight ≤ 9 := by
  unfold fromInt
  by_cases h0 : x = 0
  · subst h0
    rw [if_pos rfl]
    refine ⟨Var.zero, rfl, Digits.nil, by simp [Var.zero], rfl, by simp [value, Var.zero], by simp [Var.zero], by simp [Var.zero]⟩
  · rw [if_neg h0]
    have hf := h.fits x hx
    have key : ∀ s : Sign, (s = .pos ∧ 0 < x) ∨ (s = .neg ∧ x < 0) →
        ∃ u, unsignedToVar ty.maxNdigits |x| s = .ok u ∧ Digits u.digits ∧ u.sign ≠ .nan ∧ u.dscale = 0 ∧ value u = x ∧
          0 ≤ u.weight ∧ u.weight ≤ 9 := by
      intro s hs
      obtain ⟨ds, e, a, b, c⟩ := unsignedToVar_spec (abs_pos.2 h0) hf h.ndigits s
      have := h.ndigits_le
      have hne : ds ≠ [] := by
        rintro rfl
        simp only [mag_nil] at b
        have : |x| = 0 := by exact_mod_cast b.symm
        exact h0 (abs_eq_zero.1 this)
      have hpos : 0 < ds.length := List.length_pos_of_ne_nil hne
      refine ⟨_, e, a, ?_, rfl, ?_, by simp only; omega, by simp only; omega⟩
      · rcases hs with ⟨rfl, _⟩ | ⟨rfl, _⟩ <;> simp
      · unfold value
        rcases hs with ⟨rfl, hp⟩ | ⟨rfl, hp⟩
        · simp only [b]; rw [abs_of_pos hp]
        · simp only [b]; rw [abs_of_neg hp]; push_cast; ring
    by_cases hs : ty.signed = true
    · rw [if_pos hs, absT_eq]
      by_cases hp : x < 0
      · rw [if_pos hp]; exact key .neg (.inr ⟨rfl, hp⟩)
      · rw [if_neg hp]; exact key .pos (.inl ⟨rfl, by omega⟩)
    · rw [if_neg hs]
      have hlo := h.unsigned (by simpa using hs)
      have hp : 0 < x := by have := hx.1; omega
      have := key .pos (.inl ⟨rfl, hp⟩)
      rwa [abs_of_pos hp] at this

theorem fromInt_len {ty : IntTy} {x : Int} {u : Var} (h : fromInt ty x = .ok u) : u.ndigits ≤ u.weight + 1 := by
  have key : ∀ k y s, unsignedToVar k y s = .ok u → u.ndigits ≤ u.weight + 1 := by
    intro k y s h
    unfold unsignedToVar at h
    cases hd : digits k y with
    | error e => rw [hd] at h; cases h
    | ok ds =>
      rw [hd] at h
      cases h
      simp [ndigits]
  unfold fromInt at h
  split at h
  · cases h; simp [ndigits, Var.zero]
  · split at h
    · exact key _ _ _ h
    · exact key _ _ _ h

theorem ofInt_spec [Build] {ty : IntTy} (h : ty.OK) {x : Int} (hx : ty.InRange x) :
    ∃ b, ofInt ty x = .ok b ∧ Holds b x 0 := by
  obtain ⟨u, e, hd, hn, hs, hv, hw, hw2⟩ := fromInt_spec h hx
  have hl : |(x:ℚ)| < limit := by
    rw [← hv, abs_value u hd, limit_eq]
    exact lt_of_lt_of_le (mag_lt hd _) (B_zpow_le_iff.2 (by omega))
  obtain ⟨r, er, hr⟩ := Num.finishNoOverflow_spec hd hn hs hv le_rfl (by norm_num) (HasScale.int x le_rfl) hl
    (stripM_ok (by have := fromInt_len e; simp only [ndigits] at this; omega) (by omega))
  exact ⟨r, by unfold ofInt; rw [e]; exact er, hr⟩

/-! ## Numerics to integers -/

/-- The number formed by the first `i` digits (missing digits are 0). -/
def pre (ds : List Int) : Nat → Int
  | 0 => 0
  | i + 1 => pre ds i * 10000 + (ds[i]?).getD 0

theorem pre_nonneg {ds : List Int} (h : Digits ds) (i : Nat) : 0 ≤ pre ds i := by
  induction i with
  | zero => simp [pre]
  | succ i ih =>
    unfold pre
    have : 0 ≤ (ds[i]?).getD 0 := by
      rcases lt_or_ge i ds.length with hi | hi
      · rw [List.getElem?_eq_getElem hi]; exact (h.get hi).1
      · rw [List.getElem?_eq_none hi]; simp
    omega

theorem pre_le_succ {ds : List Int} (h : Digits ds) (i : Nat) : pre ds i * 10000 ≤ pre ds (i + 1) := by
  conv_rhs => unfold pre
  have : 0 ≤ (ds[i]?).getD 0 := by
    rcases lt_or_ge i ds.length with hi | hi
    · rw [List.getElem?_eq_getElem hi]; exact (h.get hi).1
    · rw [List.getElem?_eq_none hi]; simp
  omega

theorem pre_mono {ds : List Int} (h : Digits ds) (i k : Nat) : pre ds i ≤ pre ds (i + k) := by
  induction k with
  | zero => simp
  | succ k ih =>
    have h1 := pre_le_succ h (i + k)
    have h2 := pre_nonneg h (i + k)
    rw [← Nat.add_assoc]
    omega

theorem pre_take {ds : List Int} (i : Nat) (hi : i ≤ ds.length) : pre ds i = dval (ds.take i) := by
  induction i with
  | zero => simp [pre]
  | succ i ih =>
    unfold pre
    rw [ih (by omega), List.getElem?_eq_getElem (by omega), List.take_succ_eq_append_getElem (by omega), dval_append]
    simp [dval]

theorem pre_beyond (ds : List Int) (k : Nat) : pre ds (ds.length + k) = dval ds * 10000 ^ k := by
  induction k with
  | zero => simp [pre_take]
  | succ k ih =>
    rw [← Nat.add_assoc]
    unfold pre
    rw [ih, List.getElem?_eq_none (by omega), pow_succ]
    simp; ring

theorem pre_eq_mag {ds : List Int} {w : Nat} (h : ds.length ≤ w + 1) : ((pre ds (w + 1) : Int) : ℚ) = mag ds w := by
  obtain ⟨k, hk⟩ := Nat.exists_eq_add_of_le h
  rw [hk, pre_beyond, mag_eq_dval]
  push_cast
  have : (w : Int) + 1 - ds.length = k := by omega
  rw [this, zpow_natCast]

theorem InRange_scale {ty : IntTy} (h : ty.OK) {σ : Int} (hσ : σ = 1 ∨ σ = -1) {x y : Int} (h0 : 0 ≤ x) (hxy : x ≤ y)
    (hy : ty.InRange (σ * y)) : ty.InRange (σ * x) := by
  have h1 := h.lo
  have h2 := h.hi
  unfold IntTy.InRange at *
  rcases hσ with rfl | rfl <;> omega

theorem accLoop_spec {ty : IntTy} (h : ty.OK) {σ : Int} (hσ : σ = 1 ∨ σ = -1) {ds : List Int} (hd : Digits ds)
    (k i : Nat) (hr : ty.InRange (σ * pre ds i)) :
    accLoop ty (fun a d => a + σ * d) ds k i (σ * pre ds i) =
      .ok (if ty.InRange (σ * pre ds (i + k)) then .ok (σ * pre ds (i + k)) else .error .overflow) := by
  induction k generalizing i with
  | zero =>
    unfold accLoop
    simp only [Nat.add_zero, if_pos hr]; rfl
  | succ k ih =>
    have hstep : σ * pre ds i * 10000 = σ * (pre ds i * 10000) := by ring
    have h0 := pre_nonneg hd i
    have e1 : i + (k + 1) = i + 1 + k := by omega
    have hm := pre_mono hd (i + 1) k
    have hs := pre_le_succ hd i
    unfold accLoop
    rw [e1]
    simp only [NBASE, hstep]
    by_cases h1 : ty.InRange (σ * (pre ds i * 10000))
    · rw [if_neg (not_not.2 h1)]
      by_cases hi : i < ds.length
      · rw [if_pos hi]
        simp only [getM_ok hi, bind_ok]
        have hp : σ * (pre ds i * 10000) + σ * ds[i] = σ * pre ds (i + 1) := by
          conv_rhs => unfold pre
          rw [List.getElem?_eq_getElem hi]; simp; ring
        simp only [hp]
        by_cases h2 : ty.InRange (σ * pre ds (i + 1))
        · rw [if_neg (not_not.2 h2)]
          exact ih (i + 1) h2
        · rw [if_pos h2, if_neg]
          · rfl
          · exact fun hc => h2 (InRange_scale h hσ (pre_nonneg hd _) hm hc)
      · rw [if_neg hi]
        have hp : σ * (pre ds i * 10000) = σ * pre ds (i + 1) := by
          conv_rhs => unfold pre
          rw [List.getElem?_eq_none (by omega)]; simp
        rw [hp]
        rw [hp] at h1
        exact ih (i + 1) h1
    · rw [if_pos h1, if_neg]
      · rfl
      · exact fun hc => h1 (InRange_scale h hσ (by omega) (by omega) hc)

/-- What the conversions need of a variable. -/
structure Readable (v : Var) : Prop where
  digits : Digits v.digits
  not_nan : v.sign ≠ .nan
  small : Small v

theorem _root_.PgNumeric.Spec.Canonical.readable {v : Var} (h : Canonical v) : Readable v := ⟨h.digits, h.not_nan, h.small⟩

/-- The rounded, stripped variable that the conversions read off. -/
theorem rounded_facts [Build] {v : Var} (hv : Readable v) {n : ℤ} (hn : roundHalfAway (value v) 0 = n) :
    ∃ r, roundCommon v 0 = .ok r ∧ stripM r = .ok (strip r) ∧ Digits (strip r).digits ∧ (strip r).sign ≠ .nan ∧ value (strip r) = n ∧
      ((strip r).digits = [] → n = 0) ∧
      ((strip r).digits ≠ [] → 0 ≤ (strip r).weight ∧ ((strip r).digits.length : Int) ≤ (strip r).weight + 1 ∧
        pre (strip r).digits ((strip r).weight.toNat + 1) = |n| ∧ n ≠ 0 ∧ ((strip r).sign = .neg ↔ n < 0)) := by
  obtain ⟨r, er, rd, rn, rs, rv⟩ := roundCommon_spec v 0 hv.digits hv.not_nan
    (by have := hv.small.lo; have := hv.small.hi; omega) (by norm_num)
  have est := round_stripM er (by have := hv.small.lo; have := hv.small.hi; omega) (by have := hv.small.len; omega)
  have hd := strip_digits rd
  have hsn := strip_sign rn
  have hst := strip_stripped r
  have hval : value (strip r) = n := by rw [strip_value, rv, hn]
  have habs := abs_value (strip r) hd
  refine ⟨r, er, est, hd, hsn, hval, ?_, ?_⟩
  · intro he
    have := stripped_zero_iff hd hst |>.2 he
    rw [hval] at this
    exact_mod_cast this
  · intro hne
    have hn0 : n ≠ 0 := by
      intro h
      apply hne
      apply (stripped_zero_iff hd hst).1
      rw [hval, h]; simp
    have hsc : HasScale (value (strip r)) 0 := by rw [hval]; exact HasScale.int n le_rfl
    have hlen := stripped_len hd hst hne hsc
    simp only [ndigits] at hlen
    have hlen : ((strip r).digits.length : Int) ≤ (strip r).weight + 1 := by omega
    have hpos : 0 < (strip r).digits.length := List.length_pos_of_ne_nil hne
    have hw : 0 ≤ (strip r).weight := by omega
    refine ⟨hw, hlen, ?_, hn0, ?_⟩
    · have := pre_eq_mag (ds := (strip r).digits) (w := (strip r).weight.toNat) (by omega)
      rw [Int.toNat_of_nonneg hw, ← habs, hval] at this
      exact_mod_cast this
    · have hm := mag_nonneg hd (strip r).weight
      unfold value at hval
      constructor
      · intro hs
        rw [hs] at hval
        simp only at hval
        have : (n:ℚ) ≤ 0 := by rw [← hval]; linarith
        have : n ≤ 0 := by exact_mod_cast this
        omega
      · intro hlt
        by_contra hs
        have hs2 : (strip r).sign = .pos := by
          cases h : (strip r).sign <;> simp_all
        rw [hs2] at hval
        simp only at hval
        have : (0:ℚ) ≤ n := by rw [← hval]; linarith
        have : 0 ≤ n := by exact_mod_cast this
        omega

/-- The types that are converted to directly: at least 16 bits. -/
structure Wide (ty : IntTy) : Prop where
  ok : ty.OK
  lo : ty.signed = true → ty.lo ≤ -9999
  hi : 10000 ≤ ty.hi

theorem pre_one (d : Int) (ds : List Int) : pre (d :: ds) 1 = d := by simp [pre]

theorem intoSigned_spec [Build] {ty : IntTy} (h : Wide ty) (hs : ty.signed = true) {v : Var} (hv : Readable v) {n : ℤ}
    (hn : roundHalfAway (value v) 0 = n) :
    intoSigned ty v = .ok (if ty.InRange n then .ok n else .error .overflow) := by
  obtain ⟨r, er, est, hd, hsn, hval, h0, h1⟩ := rounded_facts hv hn
  have hlo := h.lo hs
  have hhi := h.hi
  have hsym := h.ok.signed hs
  unfold intoSigned
  rw [if_neg hv.not_nan]
  simp only [er, est, bind_ok]
  by_cases hne : (strip r).digits = []
  · have := h0 hne
    subst this
    rw [if_pos (by rw [hne]; rfl), if_pos ⟨h.ok.lo, h.ok.hi⟩]; rfl
  · obtain ⟨hw, hl, hp, hn0, hsg⟩ := h1 hne
    have hpos : 0 < (strip r).digits.length := List.length_pos_of_ne_nil hne
    rw [if_neg (by omega), dassert_ok hw, dassert_ok hl]
    obtain ⟨d, ds, e⟩ := List.exists_cons_of_ne_nil hne
    have hd0 := (Digits.cons.1 (e ▸ hd)).1
    have hg : getM (strip r).digits 0 = .ok d := by rw [e]; rfl
    have hcast : castT ty d = .ok d := by
      unfold castT
      rw [dassert_ok (by omega : d ≤ ty.hi), dassert_ok (by have := h.ok.lo; omega : d ≥ ty.lo)]
      rfl
    have hneg : negT ty d = .ok (-d) := by
      unfold negT; rw [if_pos (by unfold IntTy.InRange; omega)]; rfl
    simp only [bind_ok, hg, hcast, hneg]
    have hpd : pre (strip r).digits 1 = d := by rw [e, pre_one]
    have hacc := accLoop_spec h.ok (σ := -1) (.inr rfl) hd (strip r).weight.toNat 1
      (by rw [hpd]; unfold IntTy.InRange; omega)
    have hop : (fun a d : Int => a + -1 * d) = (· - ·) := by funext a d; ring
    rw [hop, hpd, Nat.add_comm 1, hp] at hacc
    have e1 : -1 * d = -d := by ring
    have e2 : -1 * |n| = -|n| := by ring
    rw [e1, e2] at hacc
    simp only [hacc, bind_ok]
    rcases lt_or_gt_of_ne hn0 with hlt | hgt
    · have hsn' : (strip r).sign = .neg := hsg.2 hlt
      have ea : -|n| = n := by rw [abs_of_neg hlt]; ring
      rw [ea]
      simp only [hsn', decide_true]
      by_cases hr : ty.InRange n
      · rw [if_pos hr]; rfl
      · rw [if_neg hr]; rfl
    · have hsn' : (strip r).sign ≠ .neg := fun hc => by have := hsg.1 hc; omega
      have ea : -|n| = -n := by rw [abs_of_pos hgt]
      rw [ea]
      simp only [hsn', decide_false]
      by_cases hr : ty.InRange (-n)
      · rw [if_pos hr]
        unfold signedEnd
        simp only [Bool.false_eq_true, if_false]
        by_cases hmin : -n = ty.lo
        · rw [if_pos hmin, if_neg (by unfold IntTy.InRange; omega)]; rfl
        · have hr' : ty.InRange n := by unfold IntTy.InRange at *; omega
          rw [if_neg hmin, if_pos hr']
          unfold negT
          rw [neg_neg, if_pos hr']; rfl
      · rw [if_neg hr, if_neg (by unfold IntTy.InRange at *; omega)]; rfl

theorem intoUnsigned_spec [Build] {ty : IntTy} (h : Wide ty) (hs : ty.signed = false) {v : Var} (hv : Readable v) {n : ℤ}
    (hn : roundHalfAway (value v) 0 = n) :
    intoUnsigned ty v = .ok (if ty.InRange n then .ok n else .error .overflow) := by
  obtain ⟨r, er, est, hd, hsn, hval, h0, h1⟩ := rounded_facts hv hn
  have hlo := h.ok.unsigned hs
  have hhi := h.hi
  unfold intoUnsigned
  rw [if_neg hv.not_nan]
  simp only [er, est, bind_ok]
  by_cases hne : (strip r).digits = []
  · have := h0 hne
    subst this
    rw [if_pos (by rw [hne]; rfl), if_pos ⟨h.ok.lo, h.ok.hi⟩]; rfl
  · obtain ⟨hw, hl, hp, hn0, hsg⟩ := h1 hne
    have hpos : 0 < (strip r).digits.length := List.length_pos_of_ne_nil hne
    rw [if_neg (by omega)]
    by_cases hlt : (strip r).sign = .neg
    · rw [if_pos hlt, if_neg (by have := hsg.1 hlt; unfold IntTy.InRange; omega)]; rfl
    · have hgt : 0 < n := by
        by_contra hc
        exact hlt (hsg.2 (by omega))
      rw [if_neg hlt, dassert_ok hw, dassert_ok hl]
      obtain ⟨d, ds, e⟩ := List.exists_cons_of_ne_nil hne
      have hd0 := (Digits.cons.1 (e ▸ hd)).1
      have hg : getM (strip r).digits 0 = .ok d := by rw [e]; rfl
      simp only [bind_ok, hg]
      have hpd : pre (strip r).digits 1 = d := by rw [e, pre_one]
      have hacc := accLoop_spec h.ok (σ := 1) (.inl rfl) hd (strip r).weight.toNat 1
        (by rw [hpd]; unfold IntTy.InRange; omega)
      have hop : (fun a d : Int => a + 1 * d) = (· + ·) := by funext a d; ring
      rw [hop, hpd, Nat.add_comm 1, hp, abs_of_pos hgt, one_mul, one_mul] at hacc
      rw [hacc]

theorem i16_wide : Wide .i16 := ⟨⟨by decide, by decide, by decide, by decide, fun x hx => by
  unfold IntTy.InRange at hx; simp only [IntTy.i16] at hx ⊢; rw [abs_lt]; norm_num; omega, by decide, by decide⟩, by decide, by decide⟩
theorem i32_wide : Wide .i32 := ⟨⟨by decide, by decide, by decide, by decide, fun x hx => by
  unfold IntTy.InRange at hx; simp only [IntTy.i32] at hx ⊢; rw [abs_lt]; norm_num; omega, by decide, by decide⟩, by decide, by decide⟩
theorem i64_wide : Wide .i64 := ⟨⟨by decide, by decide, by decide, by decide, fun x hx => by
  unfold IntTy.InRange at hx; simp only [IntTy.i64] at hx ⊢; rw [abs_lt]; norm_num; omega, by decide, by decide⟩, by decide, by decide⟩
theorem i128_wide : Wide .i128 := ⟨⟨by decide, by decide, by decide, by decide, fun x hx => by
  unfold IntTy.InRange at hx; simp only [IntTy.i128] at hx ⊢; rw [abs_lt]; norm_num; omega, by decide, by decide⟩, by decide, by decide⟩
theorem u16_wide : Wide .u16 := ⟨⟨by decide, by decide, by decide, by decide, fun x hx => by
  unfold IntTy.InRange at hx; simp only [IntTy.u16] at hx ⊢; rw [abs_lt]; norm_num; omega, by decide, by decide⟩, by decide, by decide⟩
theorem u32_wide : Wide .u32 := ⟨⟨by decide, by decide, by decide, by decide, fun x hx => by
  unfold IntTy.InRange at hx; simp only [IntTy.u32] at hx ⊢; rw [abs_lt]; norm_num; omega, by decide, by decide⟩, by decide, by decide⟩
theorem u64_wide : Wide .u64 := ⟨⟨by decide, by decide, by decide, by decide, fun x hx => by
  unfold IntTy.InRange at hx; simp only [IntTy.u64] at hx ⊢; rw [abs_lt]; norm_num; omega, by decide, by decide⟩, by decide, by decide⟩
theorem u128_wide : Wide .u128 := ⟨⟨by decide, by decide, by decide, by decide, fun x hx => by
  unfold IntTy.InRange at hx; simp only [IntTy.u128] at hx ⊢; rw [abs_lt]; norm_num; omega, by decide, by decide⟩, by decide, by decide⟩
theorem i8_ok : IntTy.i8.OK := ⟨by decide, by decide, by decide, by decide, fun x hx => by
  unfold IntTy.InRange at hx; simp only [IntTy.i8] at hx ⊢; rw [abs_lt]; norm_num; omega, by decide, by decide⟩
theorem u8_ok : IntTy.u8.OK := ⟨by decide, by decide, by decide, by decide, fun x hx => by
  unfold IntTy.InRange at hx; simp only [IntTy.u8] at hx ⊢; rw [abs_lt]; norm_num; omega, by decide, by decide⟩

theorem narrow_spec {ty wide : IntTy} (hlo : wide.lo ≤ ty.lo) (hhi : ty.hi ≤ wide.hi) (n : ℤ) :
    narrow ty (if wide.InRange n then .ok n else .error .overflow) = if ty.InRange n then .ok n else .error .overflow := by
  by_cases h : wide.InRange n
  · rw [if_pos h]
    unfold narrow
    by_cases h2 : ty.InRange n
    · rw [if_pos h2]; unfold IntTy.InRange at *; simp only; rw [if_neg (by omega)]
    · rw [if_neg h2]; unfold IntTy.InRange at *; simp only; rw [if_pos (by omega)]
  · rw [if_neg h, if_neg (by unfold IntTy.InRange at *; omega)]; rfl

/-- The integer types of the API. -/
def types : List IntTy := [.i8, .i16, .i32, .i64, .i128, .u8, .u16, .u32, .u64, .u128]

theorem types_cases {ty : IntTy} (h : ty ∈ types) : ty = .i8 ∨ ty = .u8 ∨ Wide ty := by
  simp only [types, List.mem_cons, List.not_mem_nil, or_false] at h
  rcases h with rfl | rfl | rfl | rfl | rfl | rfl | rfl | rfl | rfl | rfl
  · exact .inl rfl
  · exact .inr (.inr i16_wide)
  · exact .inr (.inr i32_wide)
  · exact .inr (.inr i64_wide)
  · exact .inr (.inr i128_wide)
  · exact .inr (.inl rfl)
  · exact .inr (.inr u16_wide)
  · exact .inr (.inr u32_wide)
  · exact .inr (.inr u64_wide)
  · exact .inr (.inr u128_wide)

theorem types_ok {ty : IntTy} (h : ty ∈ types) : ty.OK := by
  rcases types_cases h with rfl | rfl | h
  · exact i8_ok
  · exact u8_ok
  · exact h.ok

theorem toInt_readable [Build] {ty : IntTy} (ht : ty ∈ types) {a : Bin} {v : Var} (ev : a.asVar = .ok v) (hv : Readable v) {n : ℤ}
    (hn : roundHalfAway (value v) 0 = n) :
    toInt ty a = .ok (if ty.InRange n then .ok n else .error .overflow) := by
  unfold toInt
  simp only [ev, bind_ok]
  by_cases h1 : ty = .i8
  · subst h1
    rw [if_pos rfl]
    simp only [intoSigned_spec i16_wide rfl hv hn, bind_ok]
    rw [narrow_spec (by decide) (by decide)]; rfl
  · rw [if_neg h1]
    by_cases h2 : ty = .u8
    · subst h2
      rw [if_pos rfl]
      simp only [intoUnsigned_spec u16_wide rfl hv hn, bind_ok]
      rw [narrow_spec (by decide) (by decide)]; rfl
    · rw [if_neg h2]
      rcases types_cases ht with h | h | h
      · exact absurd h h1
      · exact absurd h h2
      · by_cases hs : ty.signed = true
        · rw [if_pos hs, intoSigned_spec h hs hv hn]
        · rw [if_neg hs, intoUnsigned_spec h (by simpa using hs) hv hn]

theorem toInt_spec [Build] {ty : IntTy} (ht : ty ∈ types) {a : Bin} {x : ℚ} {s : Int} (ha : Holds a x s) {n : ℤ}
    (hn : roundHalfAway x 0 = n) :
    toInt ty a = .ok (if ty.InRange n then .ok n else .error .overflow) := by
  obtain ⟨v, hv, rfl, -, -, -, ev⟩ := ha.exists_var
  exact toInt_readable ht ev hv.readable hn

theorem toInt_nan [Build] (ty : IntTy) {a : Bin} (ha : IsNaN a) : toInt ty a = .ok (.error .invalid) := by
  have ev := ha.facts.2.2
  have h1 : ∀ t, intoSigned t Var.nan = .ok (.error .invalid) := fun t => rfl
  have h2 : ∀ t, intoUnsigned t Var.nan = .ok (.error .invalid) := fun t => rfl
  unfold toInt
  simp only [ev, bind_ok, h1, h2]
  split_ifs <;> rfl

end Convert
end PgNumeric
