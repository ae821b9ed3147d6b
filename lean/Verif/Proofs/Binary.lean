import Verif.Model.Binary
import Verif.Proofs.Small
import Mathlib.Tactic.IntervalCases
/-!
# The binary format: encoding then decoding is the identity
-/
namespace PgNumeric
open Spec Var

namespace Bin

theorem swap32_swap32 (x : BitVec 32) : swap32 (swap32 x) = x := by
  unfold swap32
  apply BitVec.eq_of_getLsbD_eq
  intro i hi
  interval_cases i <;> simp

theorem mask30 {x : BitVec 32} (h : x.toNat < 2 ^ 30) : x &&& 0x3FFFFFFF#32 = x := by
  apply BitVec.eq_of_toNat_eq
  rw [BitVec.toNat_and]
  have : (0x3FFFFFFF#32).toNat = 2 ^ 30 - 1 := by decide
  rw [this, Nat.and_two_pow_sub_one_eq_mod, Nat.mod_eq_of_lt h]

theorem decode_encode_len [Build] {x : BitVec 32} (h : x.toNat < 2 ^ 30) : decodeLen (encodeLen x) = x := by
  unfold decodeLen encodeLen
  cases Build.bigEndianVarlen with
  | true => simp only [if_true]; rw [swap32_swap32, mask30 h, mask30 h]
  | false =>
    simp only [Bool.false_eq_true, if_false]
    have : (x <<< 2) >>> 2 = x := by
      apply BitVec.eq_of_toNat_eq
      simp only [BitVec.toNat_ushiftRight, BitVec.toNat_shiftLeft, Nat.shiftLeft_eq, Nat.shiftRight_eq_div_pow]
      rw [Nat.mod_eq_of_lt (by omega)]
      omega
    rw [this, mask30 h]

/-- The short header, tabulated over all scales, weights and signs. -/
theorem short_table : ∀ ds : Fin 64, ∀ w : Fin 128, ∀ neg : Bool,
    let h := shortHeader (BitVec.ofInt 16 ((w.val : Int) - 64)) (BitVec.ofNat 16 ds.val) (signWord (if neg then .neg else .pos))
    h &&& SIGN_MASK = SHORT ∧ ((h &&& SHORT_SIGN_MASK) != 0#16) = neg ∧
    ((h &&& SHORT_DSCALE_MASK) >>> 7).toNat = ds.val ∧
    (if (h &&& SHORT_WEIGHT_SIGN_MASK) != 0#16 then ~~~SHORT_WEIGHT_MASK ||| (h &&& SHORT_WEIGHT_MASK)
      else h &&& SHORT_WEIGHT_MASK).toInt = (w.val : Int) - 64 := by
  decide +kernel

theorem toInt_ofInt16 {x : Int} (h1 : -32768 ≤ x) (h2 : x ≤ 32767) : (BitVec.ofInt 16 x).toInt = x := by
  rw [BitVec.toInt_ofInt]
  unfold Int.bmod
  simp only [Nat.reducePow, Nat.cast_ofNat, Int.reduceDiv, Int.reduceAdd]
  split <;> omega

theorem toNat_ofInt16 {x : Int} (h1 : 0 ≤ x) (h2 : x ≤ 65535) : (BitVec.ofInt 16 x).toNat = x.toNat := by
  rw [BitVec.toNat_ofInt]
  simp only [Nat.reducePow, Nat.cast_ofNat]
  rw [Int.emod_eq_of_lt h1 (by omega)]

theorem ofInt_ofNat16 {x : Int} (h1 : 0 ≤ x) : BitVec.ofInt 16 x = BitVec.ofNat 16 x.toNat := by
  obtain ⟨n, rfl⟩ := Int.eq_ofNat_of_zero_le h1
  simp

theorem and_or_distrib (a b c : BitVec 16) : (a ||| b) &&& c = (a &&& c) ||| (b &&& c) := by
  apply BitVec.eq_of_getLsbD_eq
  intro i hi
  simp only [BitVec.getLsbD_and, BitVec.getLsbD_or]
  cases a.getLsbD i <;> cases b.getLsbD i <;> cases c.getLsbD i <;> rfl

theorem long_sign (d : BitVec 16) (sg : Sign) : longHeader d (signWord sg) &&& SIGN_MASK = signWord sg := by
  unfold longHeader
  rw [and_or_distrib, BitVec.and_assoc, show DSCALE_MASK &&& SIGN_MASK = 0#16 by decide, BitVec.and_zero, BitVec.or_zero]
  cases sg <;> decide

theorem long_dscale (d : BitVec 16) (sg : Sign) (hd : d.toNat ≤ 16383) :
    longHeader d (signWord sg) &&& DSCALE_MASK = d := by
  have hm : d &&& DSCALE_MASK = d := by
    apply BitVec.eq_of_toNat_eq
    rw [BitVec.toNat_and]
    have : (DSCALE_MASK).toNat = 2 ^ 14 - 1 := by decide
    rw [this, Nat.and_two_pow_sub_one_eq_mod, Nat.mod_eq_of_lt (by omega)]
  have : signWord sg &&& DSCALE_MASK = 0#16 := by cases sg <;> decide
  unfold longHeader
  rw [and_or_distrib, this, BitVec.and_assoc, BitVec.and_self, hm, BitVec.zero_or]

/-- What the 16-bit format can store. -/
structure Storable (v : Var) : Prop where
  not_nan : v.sign ≠ .nan
  digits : Digits v.digits
  weight_ge : -32768 ≤ v.weight
  weight_le : v.weight ≤ 32767
  dscale_nonneg : 0 ≤ v.dscale
  dscale_le : v.dscale ≤ 16383
  length : v.digits.length ≤ 100000000

theorem map_toInt {ds : List Int} (h : Digits ds) : (ds.map (BitVec.ofInt 16)).map BitVec.toInt = ds := by
  rw [List.map_map]
  conv_rhs => rw [← List.map_id ds]
  apply List.map_congr_left
  intro d hd
  have := h d hd
  exact toInt_ofInt16 (by omega) (by omega)

theorem len_toNat {k n : Nat} (hk : k ≤ 8) (hn : n ≤ 100000000) :
    (BitVec.ofNat 32 k + BitVec.ofNat 32 n * 2#32).toNat = k + 2 * n := by
  simp only [BitVec.toNat_add, BitVec.toNat_mul, BitVec.toNat_ofNat]
  omega

theorem readDigits_ok {ds : List Int} (h : Digits ds) :
    readDigits (ds.map (BitVec.ofInt 16)) ds.length = .ok ds := by
  unfold readDigits
  rw [if_pos (by simp)]
  rw [List.take_of_length_le (by simp), map_toInt h]
  rfl

theorem canBeShort_iff {w d : Int} (h1 : -32768 ≤ w) (h2 : w ≤ 32767) (h3 : 0 ≤ d) (h4 : d ≤ 16383) :
    canBeShort (BitVec.ofInt 16 w) (BitVec.ofInt 16 d) = true ↔ d ≤ 63 ∧ w ≤ 63 ∧ -64 ≤ w := by
  unfold canBeShort
  rw [toInt_ofInt16 h1 h2, toNat_ofInt16 h3 (by omega)]
  simp only [Bool.and_eq_true, decide_eq_true_eq]
  omega

theorem short_facts {v : Var} (h : Storable v) (hs : v.dscale ≤ 63 ∧ v.weight ≤ 63 ∧ -64 ≤ v.weight) :
    let hd := shortHeader (BitVec.ofInt 16 v.weight) (BitVec.ofInt 16 v.dscale) (signWord v.sign)
    hd &&& SIGN_MASK = SHORT ∧ ((hd &&& SHORT_SIGN_MASK) != 0#16) = decide (v.sign = .neg) ∧
    ((hd &&& SHORT_DSCALE_MASK) >>> 7).toNat = v.dscale.toNat ∧
    (if (hd &&& SHORT_WEIGHT_SIGN_MASK) != 0#16 then ~~~SHORT_WEIGHT_MASK ||| (hd &&& SHORT_WEIGHT_MASK)
      else hd &&& SHORT_WEIGHT_MASK).toInt = v.weight := by
  have hds := h.dscale_nonneg
  have t := short_table ⟨v.dscale.toNat, by omega⟩ ⟨(v.weight + 64).toNat, by omega⟩ (decide (v.sign = .neg))
  have e1 : (((v.weight + 64).toNat : ℕ) : Int) - 64 = v.weight := by omega
  have e2 : (if decide (v.sign = .neg) = true then Sign.neg else Sign.pos) = v.sign := by
    have := h.not_nan
    cases hh : v.sign <;> simp_all
  simp only [e1, e2, ← ofInt_ofNat16 hds] at t
  exact t

theorem encode_short [Build] {v : Var} (h : Storable v) (hs : v.dscale ≤ 63 ∧ v.weight ≤ 63 ∧ -64 ≤ v.weight) :
    encode v = ⟨encodeLen (6#32 + BitVec.ofNat 32 v.digits.length * 2#32),
      shortHeader (BitVec.ofInt 16 v.weight) (BitVec.ofInt 16 v.dscale) (signWord v.sign),
      v.digits.map (BitVec.ofInt 16)⟩ := by
  unfold encode
  simp only [(canBeShort_iff h.weight_ge h.weight_le h.dscale_nonneg h.dscale_le).2 hs, if_true]

theorem encode_long [Build] {v : Var} (h : Storable v) (hs : ¬ (v.dscale ≤ 63 ∧ v.weight ≤ 63 ∧ -64 ≤ v.weight)) :
    encode v = ⟨encodeLen (8#32 + BitVec.ofNat 32 v.digits.length * 2#32),
      longHeader (BitVec.ofInt 16 v.dscale) (signWord v.sign),
      BitVec.ofInt 16 v.weight :: v.digits.map (BitVec.ofInt 16)⟩ := by
  unfold encode
  have : canBeShort (BitVec.ofInt 16 v.weight) (BitVec.ofInt 16 v.dscale) = false := by
    rw [Bool.eq_false_iff, Ne, canBeShort_iff h.weight_ge h.weight_le h.dscale_nonneg h.dscale_le]
    exact hs
  simp only [this, Bool.false_eq_true, if_false]

theorem encode_len [Build] {v : Var} (h : Storable v) : (encode v).len = (encode v).size := by
  have hl := h.length
  by_cases hs : v.dscale ≤ 63 ∧ v.weight ≤ 63 ∧ -64 ≤ v.weight
  · rw [encode_short h hs]
    have := len_toNat (k := 6) (by omega) hl
    unfold len size
    rw [decode_encode_len (by rw [this]; omega), this]; simp
  · rw [encode_long h hs]
    have := len_toNat (k := 8) (by omega) hl
    unfold len size
    rw [decode_encode_len (by rw [this]; omega), this]; simp; omega

theorem signWord_short_ne {sg : Sign} (h : sg ≠ .nan) : signWord sg ≠ SHORT ∧ signWord sg ≠ NAN := by
  cases sg
  · decide
  · decide
  · exact absurd rfl h

/-- Decoding an encoded variable gives it back. -/
theorem asVar_encode [Build] {v : Var} (h : Storable v) : asVar (encode v) = .ok v := by
  have hl := h.length
  have hlen := encode_len h
  have hd0 := h.dscale_nonneg
  unfold asVar
  rw [dassert_ok hlen]
  simp only [bind_ok]
  rw [hlen]
  by_cases hs : v.dscale ≤ 63 ∧ v.weight ≤ 63 ∧ -64 ≤ v.weight
  · have t := short_facts h hs
    simp only at t
    obtain ⟨t1, t2, t3, t4⟩ := t
    rw [encode_short h hs]
    simp only [flagBits, size, weightShort, List.length_map, t1, if_true, t2, t3, t4]
    rw [if_neg (by omega)]
    have : (6 + 2 * v.digits.length - 6) / 2 = v.digits.length := by omega
    rw [this, readDigits_ok h.digits]
    simp only [bind_ok, pure_ok, decide_eq_true_eq]
    have e : (if v.sign = .neg then Sign.neg else Sign.pos) = v.sign := by
      have := h.not_nan
      cases hh : v.sign <;> simp_all
    rw [e, Int.toNat_of_nonneg hd0]
  · have hdn : (BitVec.ofInt 16 v.dscale).toNat = v.dscale.toNat := toNat_ofInt16 hd0 (by have := h.dscale_le; omega)
    have t1 := long_sign (BitVec.ofInt 16 v.dscale) v.sign
    have t2 := long_dscale (BitVec.ofInt 16 v.dscale) v.sign (by rw [hdn]; have := h.dscale_le; omega)
    rw [encode_long h hs]
    simp only [flagBits, size, List.length_map, List.length_cons, t1, t2]
    rw [if_neg (signWord_short_ne h.not_nan).1, if_neg (signWord_short_ne h.not_nan).2, if_neg (by omega)]
    have : (6 + 2 * (v.digits.length + 1) - 8) / 2 = v.digits.length := by omega
    rw [this, readDigits_ok h.digits]
    simp only [bind_ok, pure_ok, hdn, toInt_ofInt16 h.weight_ge h.weight_le]
    have e : (if signWord v.sign = NEG then Sign.neg else Sign.pos) = v.sign := by
      have := h.not_nan
      cases hh : v.sign
      · decide
      · decide
      · exact absurd hh this
    rw [e, Int.toNat_of_nonneg hd0]

theorem encode_flag [Build] {v : Var} (h : Storable v) :
    (encode v).flagBits = (if v.dscale ≤ 63 ∧ v.weight ≤ 63 ∧ -64 ≤ v.weight then SHORT else signWord v.sign) := by
  by_cases hs : v.dscale ≤ 63 ∧ v.weight ≤ 63 ∧ -64 ≤ v.weight
  · rw [if_pos hs, encode_short h hs]; exact (short_facts h hs).1
  · rw [if_neg hs, encode_long h hs]; exact long_sign _ _

theorem encode_not_nan [Build] {v : Var} (h : Storable v) : (encode v).isNan = false := by
  unfold isNan
  rw [encode_flag h]
  have := h.not_nan
  split
  · decide
  · cases hh : v.sign
    · decide
    · decide
    · exact absurd hh this

theorem nan_isNan [Build] : (nan).isNan = true := by unfold nan isNan flagBits; simp

theorem encode_nan [Build] : encode Var.nan = nan := by
  unfold encode Var.nan nan
  simp [canBeShort, shortHeader, signWord]

theorem encode_zero [Build] : encode Var.zero = zero := by
  unfold encode Var.zero zero
  rfl

theorem asVar_nan [Build] : asVar nan = .ok Var.nan := by
  have h6 : (decodeLen (encodeLen 6#32)).toNat = 6 := by
    rw [decode_encode_len (by decide)]; decide
  unfold asVar
  rw [dassert_ok (by unfold len size nan; simp [h6])]
  have : (nan).flagBits = NAN := by show NAN &&& SIGN_MASK = NAN; decide
  rw [this]
  rfl

theorem headerIsShort_flag (b : Bin) : b.headerIsShort = (b.flagBits == SHORT || b.flagBits == NAN) := by
  have key : ∀ x : BitVec 16, ((x &&& 0x8000#16) != 0#16) = ((x &&& SIGN_MASK) == SHORT || (x &&& SIGN_MASK) == NAN) := by
    intro x
    have hx : x = (x.extractLsb' 14 2 ++ x.extractLsb' 0 14 : BitVec 16) := by
      apply BitVec.eq_of_getLsbD_eq
      intro i hi
      interval_cases i <;> simp only [BitVec.getLsbD_append, BitVec.getLsbD_extractLsb'] <;> simp
    generalize x.extractLsb' 14 2 = a at hx
    generalize x.extractLsb' 0 14 = c at hx
    subst hx
    have e1 : (a ++ c : BitVec 16) &&& 0x8000#16 = (a &&& 2#2) ++ 0#14 := by
      rw [show (0x8000#16) = (2#2 ++ 0#14 : BitVec 16) by decide, BitVec.and_append, BitVec.and_zero]
    have e2 : (a ++ c : BitVec 16) &&& SIGN_MASK = a ++ 0#14 := by
      rw [show SIGN_MASK = (3#2 ++ 0#14 : BitVec 16) by decide, BitVec.and_append, BitVec.and_zero]
      congr 1
      clear e1
      revert a; decide
    rw [e1, e2]
    clear e1 e2
    revert a; decide
  exact key b.header

/-- The header accessors agree with the decoded variable. -/
theorem encode_sign [Build] {v : Var} (h : Storable v) : (encode v).sign = signWord v.sign := by
  unfold sign isShort
  rw [encode_flag h]
  by_cases hs : v.dscale ≤ 63 ∧ v.weight ≤ 63 ∧ -64 ≤ v.weight
  · rw [if_pos hs, encode_short h hs]
    have t := short_facts h hs
    simp only at t
    simp only [t.2.1, beq_self_eq_true, if_true, decide_eq_true_eq]
    have := h.not_nan
    cases hh : v.sign
    · decide
    · decide
    · exact absurd hh this
  · rw [if_neg hs]
    have := (signWord_short_ne h.not_nan).1
    simp [this]

theorem encode_dscale [Build] {v : Var} (h : Storable v) : ((encode v).dscale.toNat : Int) = v.dscale := by
  have hd0 := h.dscale_nonneg
  unfold dscale
  rw [headerIsShort_flag, encode_flag h]
  by_cases hs : v.dscale ≤ 63 ∧ v.weight ≤ 63 ∧ -64 ≤ v.weight
  · rw [if_pos hs, encode_short h hs]
    have t := short_facts h hs
    simp only at t
    simp only [beq_self_eq_true, Bool.true_or, if_true, t.2.2.1]
    omega
  · have hdn : (BitVec.ofInt 16 v.dscale).toNat = v.dscale.toNat := toNat_ofInt16 hd0 (by have := h.dscale_le; omega)
    have hne := signWord_short_ne h.not_nan
    rw [if_neg hs, encode_long h hs]
    simp only [beq_eq_false_iff_ne.2 hne.1, beq_eq_false_iff_ne.2 hne.2, Bool.or_self, Bool.false_eq_true, if_false]
    rw [long_dscale _ _ (by rw [hdn]; have := h.dscale_le; omega), hdn]
    omega

/-! ## Bytes -/

theorem bytes16_words (w : BitVec 16) : (w.extractLsb' 8 8 ++ w.extractLsb' 0 8 : BitVec 16) = w := by
  apply BitVec.eq_of_toNat_eq
  rw [BitVec.toNat_append]
  simp only [BitVec.extractLsb'_toNat, Nat.shiftRight_eq_div_pow]
  rw [Nat.shiftLeft_eq, Nat.mul_comm, ← Nat.two_pow_add_eq_or_of_lt (by omega)]
  have := w.isLt
  omega

theorem bytes32_word (w : BitVec 32) :
    (w.extractLsb' 24 8 ++ w.extractLsb' 16 8 ++ w.extractLsb' 8 8 ++ w.extractLsb' 0 8 : BitVec 32) = w := by
  apply BitVec.eq_of_getLsbD_eq
  intro i hi
  interval_cases i <;> simp only [BitVec.getLsbD_append, BitVec.getLsbD_extractLsb'] <;> simp

theorem words_flatMap (ws : List (BitVec 16)) : words (ws.flatMap bytes16) = some ws := by
  induction ws with
  | nil => rfl
  | cons w ws ih =>
    rw [List.flatMap_cons]
    simp only [bytes16, List.cons_append, List.nil_append, words]
    rw [ih]
    simp [bytes16_words]

theorem fromBytes_asBytes (b : Bin) : fromBytes b.asBytes = some b := by
  unfold asBytes
  rw [List.flatMap_cons]
  simp only [bytes16, bytes32, List.cons_append, List.nil_append, fromBytes]
  rw [words_flatMap]
  simp [bytes16_words, bytes32_word]

theorem asBytes_length (b : Bin) : b.asBytes.length = b.size := by
  have : ∀ ws : List (BitVec 16), (ws.flatMap bytes16).length = 2 * ws.length := by
    intro ws
    induction ws with
    | nil => rfl
    | cons w ws ih => rw [List.flatMap_cons, List.length_append, ih]; simp [bytes16]; omega
  unfold asBytes size
  rw [List.length_append, this]
  simp [bytes32]; omega

theorem words_asBytes : ∀ {bs : List (BitVec 8)} {ws : List (BitVec 16)}, words bs = some ws → ws.flatMap bytes16 = bs
  | [], ws, h => by simp [words] at h; subst h; rfl
  | [_], ws, h => by simp [words] at h
  | lo :: hi :: bs, ws, h => by
    simp only [words, Option.map_eq_some_iff] at h
    obtain ⟨t, ht, rfl⟩ := h
    rw [List.flatMap_cons, words_asBytes ht]
    have e1 : (hi ++ lo : BitVec 16).extractLsb' 0 8 = lo := by
      apply BitVec.eq_of_getLsbD_eq
      intro i hi'
      interval_cases i <;> simp only [BitVec.getLsbD_append, BitVec.getLsbD_extractLsb'] <;> simp
    have e2 : (hi ++ lo : BitVec 16).extractLsb' 8 8 = hi := by
      apply BitVec.eq_of_getLsbD_eq
      intro i hi'
      interval_cases i <;> simp only [BitVec.getLsbD_append, BitVec.getLsbD_extractLsb'] <;> simp
    simp only [bytes16, e1, e2, List.cons_append, List.nil_append]

end Bin
end PgNumeric
