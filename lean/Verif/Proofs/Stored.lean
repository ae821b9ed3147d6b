import Verif.SpecStored
import Verif.Proofs.Api2
import Mathlib.Data.List.TakeWhile
/-!
# Reading stored forms
-/
namespace PgNumeric
open Spec Var

/-- What is known of a variable read from a stored form. -/
structure Loose (v : Var) : Prop where
  not_nan : v.sign ≠ .nan
  digits : Digits v.digits
  lo : -32767 ≤ v.weight
  hi : v.weight ≤ 32767
  len : (v.digits.length : Int) ≤ 90000000
  dscale_nonneg : 0 ≤ v.dscale
  dscale_le : v.dscale ≤ 16383
  scale : HasScale (value v) v.dscale
  zero : v.digits = [] ∧ v.sign = .pos ∨ ∃ d ∈ v.digits, d ≠ 0

theorem mag_pos_of_mem {ds : List Int} (h : Digits ds) (hne : ∃ d ∈ ds, d ≠ 0) (w : Int) : 0 < mag ds w := by
  induction ds generalizing w with
  | nil => obtain ⟨d, hd, -⟩ := hne; simp at hd
  | cons d ds ih =>
    have hds : Digits ds := fun e he => h e (by simp [he])
    have h0 := mag_nonneg hds (w - 1)
    have hd := h d (by simp)
    have hB : (0:ℚ) < 10000 ^ w := zpow_pos (by norm_num) _
    rw [mag]
    by_cases hz : d = 0
    · obtain ⟨e, he, hne⟩ := hne
      have : e ∈ ds := by
        rcases List.mem_cons.1 he with rfl | he
        · exact absurd hz hne
        · exact he
      have := ih hds ⟨e, this, hne⟩ (w - 1)
      rw [hz]; simpa using this
    · have : (1:ℚ) ≤ d := by exact_mod_cast (by omega : 1 ≤ d)
      have := mul_pos (by linarith : (0:ℚ) < d) hB
      linarith

namespace Loose
variable {v : Var} (h : Loose v)
include h

theorem small : Small v := ⟨by have := h.lo; omega, by have := h.hi; omega, by have := h.len; omega⟩

theorem pos : v.digits ≠ [] → 0 < mag v.digits v.weight := by
  intro hne
  rcases h.zero with h0 | h0
  · exact absurd h0.1 hne
  · exact mag_pos_of_mem h.digits h0 _

theorem signOK : SignOK v := by
  intro hneg
  apply h.pos
  intro h0
  rcases h.zero with h1 | ⟨d, hd, -⟩
  · rw [h1.2] at hneg; cases hneg
  · rw [h0] at hd; simp at hd

theorem abs_lt : |value v| < limit := by
  rw [abs_value v h.digits, limit_eq]
  refine lt_of_lt_of_le (mag_lt h.digits _) (B_zpow_le_iff.2 ?_)
  have := h.hi
  omega

theorem stripM_ok' : stripM v = .ok (strip v) :=
  stripM_ok (by have := h.lo; have := h.len; omega) (by have := h.hi; omega)

theorem addOK : AddOK (strip v) v.dscale (value v) :=
  ⟨strip_digits h.digits, strip_sign h.not_nan, strip_stripped _, by simp, strip_value v⟩

theorem canonical : Canonical (strip v) :=
  h.addOK.canonical h.dscale_nonneg h.dscale_le h.scale h.abs_lt

theorem storable : Bin.Storable v :=
  ⟨h.not_nan, h.digits, by have := h.lo; omega, h.hi, h.dscale_nonneg, h.dscale_le, by have := h.len; omega⟩

end Loose

namespace Bin

theorem map_ofInt_toInt (l : List (BitVec 16)) : (l.map BitVec.toInt).map (BitVec.ofInt 16) = l := by
  rw [List.map_map]
  conv_rhs => rw [← List.map_id l]
  apply List.map_congr_left
  intro d _
  simp

theorem short_words : ∀ ds : Fin 64, ∀ w : Fin 128, ∀ neg : Bool,
    (shortHeader (BitVec.ofInt 16 ((w.val : Int) - 64)) (BitVec.ofNat 16 ds.val) (signWord (if neg then .neg else .pos))).toNat =
      32768 + (if neg then 8192 else 0) + 128 * ds.val + (((w.val : Int) - 64) % 128).toNat := by
  decide +kernel

/-- A long header is read whatever the weight and the scale. -/
theorem asVar_long [Build] {b : Bin} {v : Var} (h : Storable v) (hl : b.len = b.size)
    (hh : b.header = longHeader (BitVec.ofInt 16 v.dscale) (signWord v.sign))
    (hr : b.rest = BitVec.ofInt 16 v.weight :: v.digits.map (BitVec.ofInt 16)) : b.asVar = .ok v := by
  have hd0 := h.dscale_nonneg
  have hdn : (BitVec.ofInt 16 v.dscale).toNat = v.dscale.toNat := toNat_ofInt16 hd0 (by have := h.dscale_le; omega)
  have t1 := long_sign (BitVec.ofInt 16 v.dscale) v.sign
  have t2 := long_dscale (BitVec.ofInt 16 v.dscale) v.sign (by rw [hdn]; have := h.dscale_le; omega)
  unfold asVar
  rw [dassert_ok hl]
  simp only [bind_ok, hl, hh, hr, flagBits, size, List.length_map, List.length_cons, t1, t2]
  rw [if_neg (signWord_short_ne h.not_nan).1, if_neg (signWord_short_ne h.not_nan).2, if_neg (by omega)]
  have : (6 + 2 * (v.digits.length + 1) - 8) / 2 = v.digits.length := by omega
  rw [this, readDigits_ok h.digits]
  simp only [bind_ok, pure_ok, hdn, toInt_ofInt16 h.weight_ge h.weight_le]
  have e : (if signWord v.sign = NEG then Sign.neg else Sign.pos) = v.sign := by
    have := h.not_nan
    cases hh : v.sign
    · decide
    · decide
    · exact absurd hh this
  rw [e, Int.toNat_of_nonneg hd0]

theorem longHeader_toNat {s : Int} (h0 : 0 ≤ s) (h1 : s ≤ 16383) (neg : Bool) :
    ((longHeader (BitVec.ofInt 16 s) (signWord (if neg then .neg else .pos))).toNat : Int) = (if neg then 16384 else 0) + s := by
  have hdn : (BitVec.ofInt 16 s).toNat = s.toNat := toNat_ofInt16 h0 (by omega)
  have hm : BitVec.ofInt 16 s &&& DSCALE_MASK = BitVec.ofInt 16 s := by
    apply BitVec.eq_of_toNat_eq
    rw [BitVec.toNat_and]
    have : (DSCALE_MASK).toNat = 2 ^ 14 - 1 := by decide
    rw [this, Nat.and_two_pow_sub_one_eq_mod, Nat.mod_eq_of_lt (by omega)]
  unfold longHeader
  rw [hm, BitVec.toNat_or, hdn]
  cases neg
  · simp [signWord]; omega
  · have : (signWord .neg).toNat = 2 ^ 14 * 1 := by decide
    simp only [if_true, this]
    rw [← Nat.two_pow_add_eq_or_of_lt (by omega : s.toNat < 2 ^ 14)]
    push_cast
    omega

/-- The facts the API uses about a stored form. -/
theorem stored_layout [Build] {b : Bin} {x : ℚ} {s w : Int} {neg : Bool} {ds : List Int} (h : Layout b neg w s ds) (hd : Digits ds)
    (h0 : ds = [] ∧ neg = false ∨ ∃ d ∈ ds, d ≠ 0) (hx : x = (if neg then -mag ds w else mag ds w)) (hsc : HasScale x s) :
    ∃ v, v = ⟨w, s, if neg then .neg else .pos, ds⟩ ∧ Loose v ∧ value v = x ∧ Num.asBinary b = .ok () ∧ b.isNan = false ∧
      b.asVar = .ok v ∧ b.isNegative = decide (x < 0) ∧ b.isPositive = decide (0 ≤ x) ∧ (b.dscale.toNat : Int) = s := by
  obtain ⟨hl, hz, hs0, hform⟩ := h
  have hval : value ⟨w, s, if neg then .neg else .pos, ds⟩ = x := by
    rw [hx]; cases neg <;> rfl
  have mk : (ds.length : Int) ≤ 90000000 → -32767 ≤ w → w ≤ 32767 → s ≤ 16383 → Loose ⟨w, s, if neg then .neg else .pos, ds⟩ := by
    intro hlen hw0 hw1 hs1
    refine ⟨by cases neg <;> simp, hd, hw0, hw1, hlen, hs0, hs1, by rw [hval]; exact hsc, ?_⟩
    rcases h0 with ⟨h1, h2⟩ | h1
    · exact .inl ⟨h1, by simp [h2]⟩
    · exact .inr h1
  have hneg : neg = decide (x < 0) := by
    rw [hx]
    have hm := mag_nonneg hd w
    rcases h0 with ⟨h1, h2⟩ | h1
    · subst h1 h2; simp [mag]
    · have := mag_pos_of_mem hd h1 w
      cases neg <;> simp [this, hm]
  have hpos : (!neg) = decide (0 ≤ x) := by
    rw [hneg]
    by_cases hc : x < 0
    · simp [hc, not_le.2 hc]
    · simp [hc, not_lt.1 hc]
  rcases hform with ⟨hw0, hw1, hs1, hh, hr⟩ | ⟨hw0, hw1, hs1, hh, hr⟩
  · have hlen : b.rest.length = ds.length := by rw [← hr, List.length_map]
    have hv := mk (by omega) (by omega) (by omega) (by omega)
    have hb : b.header = shortHeader (BitVec.ofInt 16 w) (BitVec.ofInt 16 s) (signWord (if neg then .neg else .pos)) := by
      have t := short_words ⟨s.toNat, by omega⟩ ⟨(w + 64).toNat, by omega⟩ neg
      have e1 : (((w + 64).toNat : ℕ) : Int) - 64 = w := by omega
      simp only [e1, ← ofInt_ofNat16 hs0] at t
      apply BitVec.eq_of_toNat_eq
      have hm := Int.emod_nonneg w (show (128:Int) ≠ 0 by norm_num)
      rw [t]
      cases neg <;> simp only [Bool.false_eq_true, if_false, if_true] at hh ⊢ <;> omega
    have hbe : b = ⟨b.vlLen, (encode ⟨w, s, if neg then .neg else .pos, ds⟩).header, (encode ⟨w, s, if neg then .neg else .pos, ds⟩).rest⟩ := by
      rw [encode_short hv.storable ⟨hs1, hw1, hw0⟩]
      cases b
      simp only [Bin.mk.injEq, true_and] at hb hr ⊢
      exact ⟨hb, by rw [← hr, map_ofInt_toInt]⟩
    obtain ⟨t1, t2, t3, t4⟩ := short_facts hv.storable ⟨hs1, hw1, hw0⟩
    simp only [← hb] at t1 t2 t3 t4
    refine ⟨_, rfl, hv, hval, dassert_ok hl, ?_, ?_, ?_, ?_, ?_⟩
    · unfold isNan flagBits; rw [t1]; decide
    · unfold asVar
      rw [dassert_ok hl]
      simp only [bind_ok, hl, flagBits, t1, if_true, size, weightShort, t2, t3, t4, hlen]
      rw [if_neg (by omega)]
      have : (6 + 2 * ds.length - 6) / 2 = ds.length := by omega
      rw [this, ← map_ofInt_toInt b.rest, hr, readDigits_ok hd]
      simp only [bind_ok, pure_ok, decide_eq_true_eq, Int.toNat_of_nonneg hs0]
      cases neg <;> rfl
    · rw [← hneg]
      unfold isNegative sign isShort flagBits
      rw [t1, t2]
      cases neg <;> rfl
    · rw [← hpos]
      unfold isPositive sign isShort flagBits
      rw [t1, t2]
      cases neg <;> rfl
    · unfold dscale headerIsShort
      have : b.header &&& 0x8000#16 = 0x8000#16 := by
        have := congrArg (· &&& 0x8000#16) t1
        simp only [BitVec.and_assoc] at this
        exact this
      rw [this, if_pos (by decide), t3, Int.toNat_of_nonneg hs0]
  · have hlen : b.rest.length = ds.length + 1 := by
      have := congrArg List.length hr
      simpa using this
    have hv := mk (by omega) hw0 hw1 hs1
    have hb : b.header = longHeader (BitVec.ofInt 16 s) (signWord (if neg then .neg else .pos)) := by
      apply BitVec.eq_of_toNat_eq
      have := longHeader_toNat hs0 hs1 neg
      omega
    have hre : b.rest = BitVec.ofInt 16 w :: ds.map (BitVec.ofInt 16) := by
      rw [← map_ofInt_toInt b.rest, hr]; rfl
    have t1 := long_sign (BitVec.ofInt 16 s) (if neg then .neg else .pos)
    have hdn : (BitVec.ofInt 16 s).toNat = s.toNat := toNat_ofInt16 hs0 (by omega)
    have t2 := long_dscale (BitVec.ofInt 16 s) (if neg then .neg else .pos) (by rw [hdn]; omega)
    rw [← hb] at t1 t2
    refine ⟨_, rfl, hv, hval, dassert_ok hl, ?_, asVar_long hv.storable hl hb hre, ?_, ?_, ?_⟩
    · unfold isNan flagBits; rw [t1]; cases neg <;> decide
    · rw [← hneg]
      unfold isNegative sign isShort flagBits
      rw [t1]
      cases neg <;> rfl
    · rw [← hpos]
      unfold isPositive sign isShort flagBits
      rw [t1]
      cases neg <;> rfl
    · unfold dscale headerIsShort
      have : b.header &&& 0x8000#16 = 0#16 := by
        have := congrArg (· &&& 0x8000#16) t1
        simp only [BitVec.and_assoc] at this
        refine this.trans ?_
        cases neg <;> decide
      rw [this, if_neg (by decide), t2, hdn, Int.toNat_of_nonneg hs0]

theorem stored_var [Build] {b : Bin} {x : ℚ} {s : Int} (h : Stored b x s) :
    ∃ v, Loose v ∧ value v = x ∧ v.dscale = s ∧ Num.asBinary b = .ok () ∧ b.isNan = false ∧ b.asVar = .ok v ∧
      b.isNegative = decide (x < 0) ∧ b.isPositive = decide (0 ≤ x) ∧ (b.dscale.toNat : Int) = s := by
  obtain ⟨neg, w, ds, hl, hd, h0, hx, hsc⟩ := h
  obtain ⟨v, rfl, h1, h2, h3⟩ := stored_layout hl hd h0 hx hsc
  exact ⟨_, h1, h2, rfl, h3⟩

/-- The header of an encoded variable is one of the two layouts. -/
theorem layout_encode [Build] {v : Var} (h : Loose v) :
    Layout (encode v) (decide (v.sign = .neg)) v.weight v.dscale v.digits := by
  have hl := h.len
  have h1 := h.lo
  have h2 := h.hi
  have h3 := h.dscale_nonneg
  have h4 := h.dscale_le
  have e2 : v.sign = (if decide (v.sign = .neg) = true then Sign.neg else Sign.pos) := by
    have := h.not_nan
    cases hh : v.sign <;> simp_all
  refine ⟨encode_len h.storable, ?_, h3, ?_⟩
  · omega
  · by_cases hs : v.dscale ≤ 63 ∧ v.weight ≤ 63 ∧ -64 ≤ v.weight
    · left
      rw [encode_short h.storable hs]
      refine ⟨hs.2.2, hs.2.1, hs.1, ?_, map_toInt h.digits⟩
      have t := short_words ⟨v.dscale.toNat, by omega⟩ ⟨(v.weight + 64).toNat, by omega⟩ (decide (v.sign = .neg))
      have e1 : (((v.weight + 64).toNat : ℕ) : Int) - 64 = v.weight := by omega
      simp only [e1, ← ofInt_ofNat16 h3] at t
      rw [← e2] at t
      have hm := Int.emod_nonneg v.weight (show (128:Int) ≠ 0 by norm_num)
      simp only [t]
      by_cases hn : v.sign = .neg <;> simp only [hn, decide_true, decide_false, Bool.false_eq_true, if_false, if_true] <;> omega
    · right
      rw [encode_long h.storable hs]
      refine ⟨h1, h2, h4, ?_, ?_⟩
      · have := longHeader_toNat h3 h4 (decide (v.sign = .neg))
        rw [← e2] at this
        exact this
      · rw [List.map_cons, map_toInt h.digits, toInt_ofInt16 (by omega) h2]

theorem stored_encode [Build] {v : Var} (h : Loose v) : Stored (encode v) (value v) v.dscale := by
  refine ⟨_, _, _, layout_encode h, h.digits, ?_, ?_, h.scale⟩
  · rcases h.zero with h0 | h0
    · exact .inl ⟨h0.1, by simp [h0.2]⟩
    · exact .inr h0
  · have := h.not_nan
    unfold value
    cases hh : v.sign <;> simp_all

end Bin

/-! ## Hashing a stored form -/

theorem stripLead_loose (ds : List Int) (w : Int) :
    stripLead ds w = (ds.dropWhile (· = 0), w - ((ds.takeWhile (· = 0)).length : Int)) := by
  induction ds generalizing w with
  | nil => simp [stripLead]
  | cons d ds ih =>
    by_cases h : d = 0
    · simp only [stripLead, h, if_true, ih, List.dropWhile_cons, List.takeWhile_cons, decide_true, List.length_cons]
      congr 1
      push_cast
      ring
    · simp [stripLead, h]

theorem stripTrail_loose (ds : List Int) : stripTrail ds = ds.take (ds.length - (ds.reverse.takeWhile (· = 0)).length) := by
  induction ds with
  | nil => rfl
  | cons d ds ih =>
    rw [stripTrail, ih, List.reverse_cons, List.takeWhile_append]
    have hle := (List.takeWhile_prefix (p := fun x : Int => decide (x = 0)) (l := ds.reverse)).length_le
    rw [List.length_reverse] at hle
    by_cases hall : (ds.reverse.takeWhile (· = 0)).length = ds.reverse.length
    · rw [if_pos hall, hall]
      simp only [List.length_reverse, Nat.sub_self, List.take_zero, List.length_append]
      by_cases h : d = 0 <;> simp [h]
    · rw [if_neg hall]
      rw [List.length_reverse] at hall
      have e : (d :: ds).length - (ds.reverse.takeWhile (· = 0)).length =
          (ds.length - (ds.reverse.takeWhile (· = 0)).length) + 1 := by
        simp only [List.length_cons]; omega
      rw [e, List.take_succ_cons]
      generalize hk : ds.length - (ds.reverse.takeWhile (· = 0)).length = k at *
      cases hds : ds with
      | nil => rw [hds] at hall; simp at hall
      | cons a l =>
        obtain ⟨k', rfl⟩ : ∃ k', k = k' + 1 := ⟨k - 1, by omega⟩
        rfl

/-- The writes depend only on the stripped number. -/
theorem hash_loose [Build] {a : Bin} {v : Var} (hv : Loose v) (e : a.asVar = .ok v) :
    Num.hash a = .ok (if (strip v).digits = [] then [.u8 0] else
      [.slice (strip v).digits, .i32 (strip v).weight, .i8 (if (strip v).sign = .pos then 1 else -1)]) := by
  have h1 := hv.lo
  have h2 := hv.hi
  have h3 := hv.len
  have hle := (List.takeWhile_prefix (p := fun x : Int => decide (x = 0)) (l := v.digits)).length_le
  unfold Num.hash
  rw [e, bind_ok, if_neg hv.not_nan]
  dsimp only
  rw [i32_ok (by omega) (by omega), bind_ok]
  rcases hv.zero with h0 | hne
  · have : (strip v).digits = [] := by simp [strip, stripLead, stripTrail, h0.1]
    rw [this]
    simp [ndigits, h0.1]
  · have hstart : (v.digits.takeWhile (· = 0)).length < v.digits.length := by
      rcases lt_or_eq_of_le hle with h | h
      · exact h
      · obtain ⟨d, hd, hd0⟩ := hne
        have := (List.takeWhile_prefix (p := fun x : Int => decide (x = 0)) (l := v.digits)).eq_of_length h
        rw [← this] at hd
        exact absurd (by simpa using List.mem_takeWhile_imp hd) hd0
    have hdrop : v.digits.dropWhile (· = 0) = v.digits.drop (v.digits.takeWhile (· = 0)).length := by
      conv_rhs => rw [← List.takeWhile_append_dropWhile (p := fun x : Int => decide (x = 0)) (l := v.digits)]
      rw [List.drop_append_of_le_length (by simp), List.takeWhile_append_dropWhile]
      simp
    set m := v.digits.dropWhile (· = 0) with hm
    have hlen : m.length = v.digits.length - (v.digits.takeWhile (· = 0)).length := by rw [hdrop, List.length_drop]
    have hmne : m ≠ [] := by intro h; rw [h] at hlen; simp at hlen; omega
    have hhead : m.head? ≠ some 0 := by
      intro h
      have := List.head?_dropWhile_not (fun x : Int => decide (x = 0)) v.digits
      rw [← hm, h] at this
      simp at this
    have hrev : v.digits.reverse.takeWhile (· = 0) = m.reverse.takeWhile (· = 0) := by
      conv_lhs => rw [← List.takeWhile_append_dropWhile (p := fun x : Int => decide (x = 0)) (l := v.digits), List.reverse_append]
      rw [← hm, List.takeWhile_append, if_neg]
      intro h
      have := (List.takeWhile_prefix (p := fun x : Int => decide (x = 0)) (l := m.reverse)).eq_of_length h
      apply hhead
      cases hmm : m with
      | nil => exact absurd hmm hmne
      | cons d l =>
        have hd : d ∈ m.reverse.takeWhile (fun x : Int => decide (x = 0)) := by rw [this, hmm]; simp
        have := List.mem_takeWhile_imp hd
        simp at this
        simp [this]
    have hst : (m.reverse.takeWhile (· = 0)).length < m.length := by
      have h5 := (List.takeWhile_prefix (p := fun x : Int => decide (x = 0)) (l := m.reverse)).length_le
      rw [List.length_reverse] at h5
      rcases lt_or_eq_of_le h5 with h | h
      · exact h
      · exfalso
        have := (List.takeWhile_prefix (p := fun x : Int => decide (x = 0)) (l := m.reverse)).eq_of_length (by rw [h, List.length_reverse])
        apply hhead
        cases hmm : m with
        | nil => exact absurd hmm hmne
        | cons d l =>
          have hd : d ∈ m.reverse.takeWhile (fun x : Int => decide (x = 0)) := by rw [this, hmm]; simp
          have := List.mem_takeWhile_imp hd
          simp at this
          simp [this]
    have htr : stripTrail m ≠ [] := by
      rw [stripTrail_loose]
      intro h
      have := congrArg List.length h
      simp only [List.length_take, List.length_nil] at this
      omega
    have hstrip : strip v = ⟨v.weight - ((v.digits.takeWhile (· = 0)).length : Int), v.dscale, v.sign, stripTrail m⟩ := by
      unfold strip
      rw [stripLead_loose]
      simp only [← hm]
      rw [if_neg htr]
    rw [if_neg (by simp only [ndigits]; omega), hrev, dassert_ok (by omega), bind_ok]
    rw [hstrip]
    simp only [if_neg htr]
    unfold sliceM
    rw [if_pos (by omega), ← hdrop, stripTrail_loose, hlen]
    simp only [bind_ok, pure_ok]
    rw [Nat.sub_right_comm]

/-! ## Rounding a stored form -/

theorem round_loose [Build] {v : Var} (hv : Loose v) (s : Int) :
    ∃ u, Var.round v s = .ok u ∧ Digits u.digits ∧ u.sign ≠ .nan ∧ u.dscale = max (clampScale s) 0 ∧
      value u = roundHalfAway (value v) (clampScale s) ∧
      (u.weight ≤ 32767 ∨ ∃ d ds, u.digits = d :: ds ∧ d ≠ 0) ∧ -32767 ≤ u.weight ∧
      (u.digits.length : Int) ≤ 1000000000 := by
  have hcs := clampScale_bounds s
  have hln := hv.len
  have h1 := hv.hi
  have h2 := hv.lo
  obtain ⟨u, eu, ud, un, us, uv⟩ := roundCommon_spec v (clampScale s) hv.digits hv.not_nan (by omega) (by omega)
  have hsh := (roundCommon_shape v _ eu).1
  have hw := roundCommon_weight v _ hv.digits hv.not_nan eu
  refine ⟨if clampScale s < 0 then { u with dscale := 0 } else u, ?_, ?_⟩
  · unfold Var.round
    rw [dassert_ok hv.not_nan]
    simp only [bind_ok, eu, pure_ok]
  · have hw' : (u.weight ≤ 32767 ∨ ∃ d ds, u.digits = d :: ds ∧ d ≠ 0) ∧ -32767 ≤ u.weight ∧
        (u.digits.length : Int) ≤ 1000000000 := by
      rcases hw with h | h | ⟨h, h'⟩
      · exact ⟨.inl (by omega), by omega, by omega⟩
      · exact ⟨.inl (by omega), by omega, by omega⟩
      · exact ⟨.inr h', by omega, by omega⟩
    split
    · refine ⟨ud, un, ?_, by rw [value_withDscale, uv], hw'⟩
      simp only; omega
    · refine ⟨ud, un, by omega, uv, hw'⟩

theorem trunc_loose [Build] {v : Var} (hv : Loose v) (s : Int) :
    ∃ u, Var.trunc v s = .ok u ∧ Digits u.digits ∧ u.sign ≠ .nan ∧ u.dscale = max (clampScale s) 0 ∧
      value u = truncTo (value v) (clampScale s) ∧ stripM u = .ok (strip u) := by
  have hcs := clampScale_bounds s
  have hln := hv.len
  have h1 := hv.hi
  have h2 := hv.lo
  obtain ⟨u, eu, ud, un, us, uv, -⟩ := truncCommon_spec v (clampScale s) hv.digits hv.not_nan (by omega) (by omega)
  have hst := trunc_stripM eu (by omega) (by omega)
  refine ⟨if clampScale s < 0 then { u with dscale := 0 } else u, ?_, ?_⟩
  · unfold Var.trunc
    rw [dassert_ok hv.not_nan]
    simp only [bind_ok, eu, pure_ok]
  · split
    · refine ⟨ud, un, ?_, by rw [value_withDscale, uv], stripM_withDscale 0 hst⟩
      simp only; omega
    · refine ⟨ud, un, by omega, uv, hst⟩

end PgNumeric
