import Verif.Proofs.Exists
import Verif.SpecFormat
import Verif.Props.Arith
/-!
# The binary format (C06), absence of faults (C36), inner multiplication (C46)
-/
namespace PgNumeric.Props
open PgNumeric Spec

/-! ## C06 -/

theorem shortHeader_table : ∀ ds : Fin 64, ∀ w : Fin 128, ∀ neg : Bool,
    (Bin.shortHeader (BitVec.ofInt 16 ((w.val : Int) - 64)) (BitVec.ofNat 16 ds.val) (Bin.signWord (if neg then .neg else .pos))).toNat
      = 0x8000 + (if neg then 0x2000 else 0) + 128 * ds.val + (((w.val : Int) - 64) % 128).toNat := by
  decide +kernel

theorem bytes16_toNat (w : BitVec 16) : (Bin.bytes16 w).map BitVec.toNat = le16 w.toNat := by
  unfold Bin.bytes16 le16
  have := w.isLt
  simp [BitVec.extractLsb'_toNat, Nat.shiftRight_eq_div_pow]
  omega

theorem bytes32_toNat (w : BitVec 32) : (Bin.bytes32 w).map BitVec.toNat = le32 w.toNat := by
  unfold Bin.bytes32 le32
  have := w.isLt
  simp [BitVec.extractLsb'_toNat, Nat.shiftRight_eq_div_pow]
  omega

theorem bytes32_swap (w : BitVec 32) : (Bin.bytes32 (Bin.swap32 w)).map BitVec.toNat = be32 w.toNat := by
  have h : Bin.bytes32 (Bin.swap32 w) = (Bin.bytes32 w).reverse := by
    unfold Bin.bytes32 Bin.swap32
    simp only [List.reverse_cons, List.reverse_nil, List.nil_append, List.cons_append, List.cons.injEq, and_true]
    refine ⟨?_, ?_, ?_, ?_⟩ <;> apply BitVec.eq_of_getLsbD_eq <;> intro i hi <;> interval_cases i <;> simp
  rw [h, List.map_reverse, bytes32_toNat]
  rfl

theorem words_toNat (ws : List (BitVec 16)) : (ws.flatMap Bin.bytes16).map BitVec.toNat = ws.flatMap fun w => le16 w.toNat := by
  induction ws with
  | nil => rfl
  | cons w ws ih => rw [List.flatMap_cons, List.map_append, ih, bytes16_toNat, List.flatMap_cons]

theorem len_bytes [Build] {n : Nat} {w : BitVec 32} (hw : w.toNat = n) (hn : n < 2 ^ 30) :
    (Bin.bytes32 (Bin.encodeLen w)).map BitVec.toNat = if Build.bigEndianVarlen then be32 n else le32 (4 * n) := by
  unfold Bin.encodeLen
  by_cases h : Build.bigEndianVarlen = true
  · rw [if_pos h, if_pos h, Bin.mask30 (by omega), bytes32_swap, hw]
  · rw [if_neg h, if_neg h, bytes32_toNat]
    congr 1
    rw [BitVec.toNat_shiftLeft, hw, Nat.shiftLeft_eq]
    omega

theorem digits_bytes {ds : List Int} (h : Digits ds) :
    ((ds.map (BitVec.ofInt 16)).flatMap fun w => le16 w.toNat) = ds.flatMap fun d => le16 d.toNat := by
  induction ds with
  | nil => rfl
  | cons d ds ih =>
    rw [Digits.cons] at h
    rw [List.map_cons, List.flatMap_cons, List.flatMap_cons, ih h.2, Bin.toNat_ofInt16 h.1.1 (by omega)]

/-- C06 (layout): the bytes of a storable value are exactly the documented layout. -/
theorem C06_layout [Build] {v : Var} (h : Bin.Storable v) :
    (Bin.encode v).asBytes.map BitVec.toNat = layout (v.sign = .neg) v.weight v.dscale v.digits := by
  have hl := h.length
  have hd0 := h.dscale_nonneg
  have hd1 := h.dscale_le
  have hw0 := h.weight_ge
  have hw1 := h.weight_le
  unfold Bin.asBytes layout
  by_cases hs : v.dscale ≤ 63 ∧ v.weight ≤ 63 ∧ -64 ≤ v.weight
  · have hs' : v.dscale ≤ 63 ∧ -64 ≤ v.weight ∧ v.weight ≤ 63 := ⟨hs.1, hs.2.2, hs.2.1⟩
    rw [Bin.encode_short h hs]
    simp only [hs', List.flatMap_cons, List.map_append, and_self, if_true]
    rw [len_bytes (Bin.len_toNat (k := 6) (by omega) hl) (by omega), bytes16_toNat, words_toNat, digits_bytes h.digits]
    have t := shortHeader_table ⟨v.dscale.toNat, by omega⟩ ⟨(v.weight + 64).toNat, by omega⟩ (decide (v.sign = .neg))
    simp only [Int.toNat_of_nonneg (show 0 ≤ v.weight + 64 by omega), add_sub_cancel_right] at t
    rw [← Bin.ofInt_ofNat16 hd0] at t
    have e : (if (decide (v.sign = .neg)) = true then Sign.neg else Sign.pos) = v.sign := by
      have := h.not_nan
      cases hh : v.sign <;> simp_all
    rw [e] at t
    rw [t]
    simp
  · have hs' : ¬ (v.dscale ≤ 63 ∧ -64 ≤ v.weight ∧ v.weight ≤ 63) := fun hh => hs ⟨hh.1, hh.2.2, hh.2.1⟩
    rw [Bin.encode_long h hs]
    simp only [hs', List.flatMap_cons, List.map_append, if_false]
    rw [len_bytes (Bin.len_toNat (k := 8) (by omega) hl) (by omega), bytes16_toNat, bytes16_toNat, words_toNat, digits_bytes h.digits]
    have e1 : (Bin.longHeader (BitVec.ofInt 16 v.dscale) (Bin.signWord v.sign)).toNat =
        (if (v.sign = .neg) then 0x4000 else 0) + v.dscale.toNat := by
      have hm : BitVec.ofInt 16 v.dscale &&& Bin.DSCALE_MASK = BitVec.ofInt 16 v.dscale := by
        apply BitVec.eq_of_toNat_eq
        rw [BitVec.toNat_and, show (Bin.DSCALE_MASK).toNat = 2 ^ 14 - 1 by decide, Nat.and_two_pow_sub_one_eq_mod,
          Nat.mod_eq_of_lt]
        rw [Bin.toNat_ofInt16 hd0 (by omega)]; omega
      unfold Bin.longHeader
      rw [hm, BitVec.toNat_or, Bin.toNat_ofInt16 hd0 (by omega)]
      have := h.not_nan
      cases hh : v.sign
      · simp [Bin.signWord]
      · have : (Bin.signWord .neg).toNat = 2 ^ 14 * 1 := by decide
        rw [this, ← Nat.two_pow_add_eq_or_of_lt (by omega)]
        simp
      · exact absurd hh this
    have e2 : (BitVec.ofInt 16 v.weight).toNat = (v.weight % 65536).toNat := by
      rw [BitVec.toNat_ofInt]; rfl
    rw [e1, e2]
    simp

/-- C06 (round trip): encoding a storable value and decoding the bytes gives back sign, weight, scale and digits;
the length word is the number of bytes. -/
theorem C06_round_trip [Build] {v : Var} (h : Bin.Storable v) :
    ∃ b, Bin.fromBytes (Bin.encode v).asBytes = some b ∧ b.asVar = .ok v ∧ b.len = (Bin.encode v).asBytes.length ∧
      b.isNan = false := by
  refine ⟨Bin.encode v, Bin.fromBytes_asBytes _, Bin.asVar_encode h, ?_, Bin.encode_not_nan h⟩
  rw [Bin.asBytes_length, Bin.encode_len h]

/-- C06 (injectivity): different storable values have different bytes. -/
theorem C06_injective [Build] {u v : Var} (hu : Bin.Storable u) (hv : Bin.Storable v)
    (h : (Bin.encode u).asBytes = (Bin.encode v).asBytes) : u = v := by
  have h1 := Bin.fromBytes_asBytes (Bin.encode u)
  rw [h, Bin.fromBytes_asBytes] at h1
  have h2 := Bin.asVar_encode hu
  rw [← Option.some.inj h1, Bin.asVar_encode hv] at h2
  cases h2; rfl

/-- C06 (NaN): the NaN written by the library is the 6 bytes with header `0xC000`; it and every byte string with
both top header bits set and a correct length is read as NaN. -/
theorem C06_nan [Build] :
    (Num.nan = .ok Bin.nan) ∧
    (Bin.nan).asBytes.map BitVec.toNat = (if Build.bigEndianVarlen then [0, 0, 0, 6] else [24, 0, 0, 0]) ++ [0x00, 0xC0] ∧
    (∀ b, IsNaN b → b.asVar = .ok Var.nan ∧ Num.isNan b = .ok true) := by
  refine ⟨Num.nan_ok, ?_, fun b h => ⟨h.facts.2.2, (Num.nan_accessors h).1⟩⟩
  unfold Bin.nan Bin.asBytes
  rw [List.map_append, len_bytes (n := 6) (by decide) (by decide)]
  split
  · show be32 6 ++ List.map BitVec.toNat (List.flatMap Bin.bytes16 [0xC000#16]) = _
    decide
  · show le32 24 ++ List.map BitVec.toNat (List.flatMap Bin.bytes16 [0xC000#16]) = _
    decide

/-- A storable value needing the long header. -/
example : Bin.Storable ⟨200, 70, .neg, [12, 0, 9999]⟩ where
  not_nan := by decide
  digits := by intro d hd; simp only [List.mem_cons, List.not_mem_nil, or_false] at hd; omega
  weight_ge := by decide
  weight_le := by decide
  dscale_nonneg := by decide
  dscale_le := by decide
  length := by decide

/-- A storable value with the short header and a negative weight: `-0.00012` (`weight -1`, digit 1, 2000). -/
example : @layout ⟨true, false⟩ true (-1) 5 [1, 2000] = [40, 0, 0, 0, 0xFF, 0xA2, 1, 0, 0xD0, 7] := by decide

/-! ## C36 -/

/-- A computation that does not go wrong: if it fails at all it is an intended panic with a message, never an
index out of bounds, an accumulator overflow, a failed debug assertion or a non-terminating loop. -/
def NoFault {α} (m : M α) : Prop := ∀ f, m = .error f → ∃ msg, f = .panic msg

theorem noFault_ok {α} (a : α) : NoFault (.ok a : M α) := fun _ h => by cases h
theorem noFault_of_eq {α} {m : M α} {a : α} (h : m = .ok a) : NoFault m := h ▸ noFault_ok a
theorem noFault_of_panic {α} {m : M α} {msg : String} (h : m = .error (.panic msg)) : NoFault m := by
  rintro f hf; rw [h] at hf; cases hf; exact ⟨msg, rfl⟩
theorem noFault_dich {α} {m : M α} {P Q : Prop} {R : α → Prop} {n : M α} (h : (P → ∃ r, m = .ok r ∧ R r) ∧ (Q → m = n))
    (hPQ : P ∨ Q) (hn : NoFault n) : NoFault m := by
  rcases hPQ with hp | hq
  · obtain ⟨r, e, -⟩ := h.1 hp; exact noFault_of_eq e
  · rw [h.2 hq]; exact hn
theorem noFault_dich' {α} {m : M (Option α)} {P Q : Prop} {R : α → Prop}
    (h : (P → ∃ r, m = .ok (some r) ∧ R r) ∧ (Q → m = .ok none))
    (hPQ : P ∨ Q) : NoFault m := by
  rcases hPQ with hp | hq
  · obtain ⟨r, e, -⟩ := h.1 hp; exact noFault_of_eq e
  · exact noFault_of_eq (h.2 hq)

/-- C36: on every pair of valid numerics the two-argument operations never fault, in debug as in release builds,
except for the assertion of `C11_zero_scale_panics` in `checked_mul`. -/
theorem C36_binary_no_fault [Build] {a b : Bin} (ha : Valid a) (hb : Valid b) :
    NoFault (Num.checkedAdd a b) ∧ NoFault (Num.checkedSub a b) ∧
    ((∀ x y s t, Holds a x s → Holds b y t → x * y = 0 → s + t ≤ 16383) → NoFault (Num.checkedMul a b)) ∧
    NoFault (Num.checkedDiv a b) ∧ NoFault (Num.checkedDivTrunc a b) ∧ NoFault (Num.checkedRem a b) ∧
    NoFault (Num.cmp a b) ∧ NoFault (Num.hash a) := by
  obtain ⟨k, hk⟩ := Num.valid_denotes ha
  obtain ⟨l, hl⟩ := Num.valid_denotes hb
  have hcmp := noFault_of_eq (Num.cmp_spec hk hl)
  obtain ⟨wa, wb, e, -⟩ := Num.hash_spec hk hl
  have hhash := noFault_of_eq e
  by_cases hn : IsNaN a ∨ IsNaN b
  · obtain ⟨h1, h2, h3, h4, h5, h6, -⟩ := Num.binop_nan ha hb hn
    rw [h1, h2, h3, h4, h5, h6]
    exact ⟨noFault_ok _, noFault_ok _, fun _ => noFault_ok _, noFault_ok _, noFault_ok _, noFault_ok _, hcmp, hhash⟩
  · push Not at hn
    obtain ⟨x, s, ha⟩ := ha.resolve_left hn.1
    obtain ⟨y, t, hb⟩ := hb.resolve_left hn.2
    refine ⟨noFault_dich' (Num.checkedAdd_spec ha hb) (lt_or_ge _ _), noFault_dich' (Num.checkedSub_spec ha hb) (lt_or_ge _ _),
      fun hm => ?_, ?_, ?_, ?_, hcmp, hhash⟩
    · obtain ⟨h1, h2, h3, h4⟩ := Num.checkedMul_spec ha hb
      rcases le_or_gt (s + t) 16383 with hs | hs
      · exact noFault_dich' ⟨h1 hs, h2 hs⟩ (lt_or_ge _ _)
      · by_cases h0 : x * y = 0
        · have := hm x y s t ha hb h0; omega
        · exact noFault_of_eq (h3 hs h0)
    all_goals by_cases hy : y = 0
    · subst hy; exact noFault_of_eq (Num.checkedDiv_byZero ha hb).1
    · exact noFault_dich' (Num.checkedDiv_spec ha hb hy) (lt_or_ge _ _)
    · subst hy; exact noFault_of_eq (Num.checkedDiv_byZero ha hb).2.1
    · exact noFault_dich' (Num.checkedDivTrunc_spec ha hb hy) (lt_or_ge _ _)
    · subst hy; exact noFault_of_eq (Num.checkedDiv_byZero ha hb).2.2
    · obtain ⟨r, e, -⟩ := Num.checkedRem_spec ha hb hy; exact noFault_of_eq e

/-- C36: the one-argument operations on every valid numeric, for every scale argument. -/
theorem C36_unary_no_fault [Build] {a : Bin} (ha : Valid a) (n : Int) :
    NoFault (Num.round a n) ∧ NoFault (Num.trunc a n) ∧ NoFault (Num.ceil a) ∧ NoFault (Num.floor a) ∧
    NoFault (Num.abs a) ∧ NoFault (Num.negate a) ∧ NoFault (Num.signum a) ∧ NoFault (Num.inc a) ∧
    NoFault (Num.clone a) ∧ NoFault (Num.toOwned a) ∧ NoFault (Num.isNan a) ∧ NoFault (Num.scale a) := by
  rcases ha with h | ⟨x, s, h⟩
  · obtain ⟨h1, h2, h3, h4, h5, h6, h7, h8⟩ := Num.unop_nan h n
    obtain ⟨h9, h10⟩ := Num.toOwned_nan h
    obtain ⟨h11, h12, -⟩ := Num.nan_accessors h
    rw [h1, h2, h3, h4, h5, h6, h7, h8, h9, h10, h11, h12]
    exact ⟨noFault_ok _, noFault_ok _, noFault_ok _, noFault_ok _, noFault_ok _, noFault_ok _, noFault_ok _, noFault_ok _,
      noFault_ok _, noFault_ok _, noFault_ok _, noFault_ok _⟩
  · obtain ⟨h9, h10⟩ := Num.toOwned_holds h
    obtain ⟨-, -, h11, h12⟩ := Num.isNegative_spec h
    obtain ⟨r5, e5, -⟩ := Num.abs_ok h
    obtain ⟨r6, e6, -⟩ := Num.negate_ok h
    obtain ⟨r7, e7, -⟩ := Num.signum_ok h
    obtain ⟨r2, e2, -⟩ := Num.trunc_ok h n
    rw [h9, h10, h11, h12, e5, e6, e7, e2]
    exact ⟨noFault_dich (Num.round_ok h n) (lt_or_ge _ _) (noFault_of_panic rfl), noFault_ok _,
      noFault_dich (Num.ceil_ok h) (lt_or_ge _ _) (noFault_of_panic rfl),
      noFault_dich (Num.floor_ok h) (lt_or_ge _ _) (noFault_of_panic rfl), noFault_ok _, noFault_ok _, noFault_ok _,
      noFault_dich (Num.inc_ok h) (lt_or_ge _ _) (noFault_of_panic rfl), noFault_ok _, noFault_ok _, noFault_ok _, noFault_ok _⟩

/-- C36: the digit kernels themselves never fault on any digit strings (canonical or not) whose digits are in
`0..9999`, of up to 10^8 digits and weights up to 10^8: every access is inside its buffer, no i16/i32 accumulator overflows and
neither does any i32 computation with weights, scales and lengths. -/
theorem C36_kernels_no_fault [Build] (a b : Var) (r : Int) (ha : Digits a.digits) (hb : Digits b.digits)
    (na : a.sign ≠ .nan) (nb : b.sign ≠ .nan) (hr0 : 0 ≤ r) (hr1 : r ≤ 16383)
    (wa : |a.weight| ≤ 100000000) (wb : |b.weight| ≤ 100000000) (la : a.digits.length ≤ 100000000)
    (lb : b.digits.length ≤ 100000000) :
    (∃ u, Var.addAbs a b = .ok u) ∧
    (mag b.digits b.weight ≤ mag a.digits a.weight → ∃ u, Var.subAbs a b = .ok u) ∧
    (∃ u, Var.mulCommon a b r = .ok u) ∧
    (b.digits ≠ [] → b.digits.head? ≠ some 0 → ∀ rnd, ∃ u, Var.divCommon a b r rnd = .ok (some u)) ∧
    (∀ s, |s| ≤ 300000000 → ∃ u, Var.roundCommon a s = .ok u) ∧ (∀ s, |s| ≤ 300000000 → ∃ u, Var.truncCommon a s = .ok u) := by
  rw [abs_le] at wa wb
  have sma : Small a := ⟨by omega, by omega, by omega⟩
  have smb : Small b := ⟨by omega, by omega, by omega⟩
  refine ⟨?_, fun h => ?_, ?_, fun h1 h2 rnd => ?_, fun s hs => ?_, fun s hs => ?_⟩
  · obtain ⟨u, h, -⟩ := addAbs_spec a b sma smb ha hb na nb; exact ⟨u, h⟩
  · obtain ⟨u, h, -⟩ := subAbs_spec a b sma smb ha hb na nb h; exact ⟨u, h⟩
  · obtain ⟨u, h, -⟩ := mulCommon_spec a b sma smb r (by omega) ha hb na nb hr0 (.inl hr1); exact ⟨u, h⟩
  · obtain ⟨u, h, -⟩ := divCommon_spec a b sma smb r (by omega) rnd ha hb na nb h1 h2 hr0 (.inl hr1); exact ⟨u, h⟩
  · rw [abs_le] at hs
    obtain ⟨u, h, -⟩ := roundCommon_spec a s ha na ⟨by omega, by omega⟩ ⟨by omega, by omega⟩; exact ⟨u, h⟩
  · rw [abs_le] at hs
    obtain ⟨u, h, -⟩ := truncCommon_spec a s ha na ⟨by omega, by omega⟩ ⟨by omega, by omega⟩; exact ⟨u, h⟩

/-- The canonical bytes do not depend on the build profile. -/
theorem holds_profile {d1 d2 e : Bool} {b : Bin} {x : ℚ} {s : Int} (h : @Holds ⟨d1, e⟩ b x s) : @Holds ⟨d2, e⟩ b x s := h
theorem isNaN_profile {d1 d2 e : Bool} {b : Bin} (h : @IsNaN ⟨d1, e⟩ b) : @IsNaN ⟨d2, e⟩ b := 
  @IsNaN.mk ⟨d2, e⟩ b (@IsNaN.flag ⟨d1, e⟩ b h) (@IsNaN.len ⟨d1, e⟩ b h)
theorem valid_profile {d1 d2 e : Bool} {b : Bin} (h : @Valid ⟨d1, e⟩ b) : @Valid ⟨d2, e⟩ b :=
  h.imp isNaN_profile id

theorem agree_dich' {m m' : M (Option Bin)} {P Q : Prop} {R R' : Bin → Prop}
    (h : (P → ∃ r, m = .ok (some r) ∧ R r) ∧ (Q → m = .ok none))
    (h' : (P → ∃ r, m' = .ok (some r) ∧ R' r) ∧ (Q → m' = .ok none))
    (hPQ : P ∨ Q) (hR : ∀ r r', R r → R' r' → r = r') : m = m' := by
  rcases hPQ with hp | hq
  · obtain ⟨r, e, hr⟩ := h.1 hp
    obtain ⟨r', e', hr'⟩ := h'.1 hp
    rw [e, e', hR r r' hr hr']
  · rw [h.2 hq, h'.2 hq]

/-- C36: a release build (wrapping arithmetic, no debug assertions) and a debug build compute the same results on
all valid operands. -/
theorem C36_debug_release_agree (d1 d2 e : Bool) {a b : Bin} (ha : @Valid ⟨d1, e⟩ a) (hb : @Valid ⟨d1, e⟩ b) :
    @Num.checkedAdd ⟨d1, e⟩ a b = @Num.checkedAdd ⟨d2, e⟩ a b ∧
    @Num.checkedSub ⟨d1, e⟩ a b = @Num.checkedSub ⟨d2, e⟩ a b ∧
    @Num.checkedDiv ⟨d1, e⟩ a b = @Num.checkedDiv ⟨d2, e⟩ a b ∧
    @Num.checkedDivTrunc ⟨d1, e⟩ a b = @Num.checkedDivTrunc ⟨d2, e⟩ a b ∧
    @Num.checkedRem ⟨d1, e⟩ a b = @Num.checkedRem ⟨d2, e⟩ a b ∧
    @Num.cmp ⟨d1, e⟩ a b = @Num.cmp ⟨d2, e⟩ a b := by
  have ha' := valid_profile (d2 := d2) ha
  have hb' := valid_profile (d2 := d2) hb
  have hc : @Num.cmp ⟨d1, e⟩ a b = @Num.cmp ⟨d2, e⟩ a b := by
    rcases ha with ha | ⟨x, s, ha⟩ <;> rcases hb with hb | ⟨y, t, hb⟩
    · rw [@Num.cmp_spec ⟨d1, e⟩ _ _ _ _ (.inl ⟨ha, rfl⟩) (.inl ⟨hb, rfl⟩),
        @Num.cmp_spec ⟨d2, e⟩ _ _ _ _ (.inl ⟨isNaN_profile ha, rfl⟩) (.inl ⟨isNaN_profile hb, rfl⟩)]
    · rw [@Num.cmp_spec ⟨d1, e⟩ _ _ _ _ (.inl ⟨ha, rfl⟩) (.inr ⟨y, t, hb, rfl⟩),
        @Num.cmp_spec ⟨d2, e⟩ _ _ _ _ (.inl ⟨isNaN_profile ha, rfl⟩) (.inr ⟨y, t, holds_profile hb, rfl⟩)]
    · rw [@Num.cmp_spec ⟨d1, e⟩ _ _ _ _ (.inr ⟨x, s, ha, rfl⟩) (.inl ⟨hb, rfl⟩),
        @Num.cmp_spec ⟨d2, e⟩ _ _ _ _ (.inr ⟨x, s, holds_profile ha, rfl⟩) (.inl ⟨isNaN_profile hb, rfl⟩)]
    · rw [@Num.cmp_spec ⟨d1, e⟩ _ _ _ _ (.inr ⟨x, s, ha, rfl⟩) (.inr ⟨y, t, hb, rfl⟩),
        @Num.cmp_spec ⟨d2, e⟩ _ _ _ _ (.inr ⟨x, s, holds_profile ha, rfl⟩) (.inr ⟨y, t, holds_profile hb, rfl⟩)]
  by_cases hn : @IsNaN ⟨d1, e⟩ a ∨ @IsNaN ⟨d1, e⟩ b
  · have hn' : @IsNaN ⟨d2, e⟩ a ∨ @IsNaN ⟨d2, e⟩ b := hn.imp isNaN_profile isNaN_profile
    obtain ⟨h1, h2, h3, h4, h5, h6, -⟩ := @Num.binop_nan ⟨d1, e⟩ _ _ ha hb hn
    obtain ⟨g1, g2, g3, g4, g5, g6, -⟩ := @Num.binop_nan ⟨d2, e⟩ _ _ ha' hb' hn'
    rw [h1, h2, h4, h5, h6, g1, g2, g4, g5, g6]
    exact ⟨rfl, rfl, rfl, rfl, rfl, hc⟩
  · push Not at hn
    obtain ⟨x, s, ha⟩ := ha.resolve_left hn.1
    obtain ⟨y, t, hb⟩ := hb.resolve_left hn.2
    have ha2 : @Holds ⟨d2, e⟩ a x s := holds_profile ha
    have hb2 : @Holds ⟨d2, e⟩ b y t := holds_profile hb
    have U : ∀ {z : ℚ} {q : Int} (r r' : Bin), @Holds ⟨d1, e⟩ r z q → @Holds ⟨d2, e⟩ r' z q → r = r' :=
      fun r r' h h' => @Spec.Holds.unique ⟨d1, e⟩ _ _ _ _ h (holds_profile h')
    refine ⟨agree_dich' (@Num.checkedAdd_spec ⟨d1, e⟩ _ _ _ _ _ _ ha hb) (@Num.checkedAdd_spec ⟨d2, e⟩ _ _ _ _ _ _ ha2 hb2)
        (lt_or_ge _ _) U,
      agree_dich' (@Num.checkedSub_spec ⟨d1, e⟩ _ _ _ _ _ _ ha hb) (@Num.checkedSub_spec ⟨d2, e⟩ _ _ _ _ _ _ ha2 hb2)
        (lt_or_ge _ _) U, ?_, ?_, ?_, hc⟩
    all_goals by_cases hy : y = 0
    · subst hy
      rw [(@Num.checkedDiv_byZero ⟨d1, e⟩ _ _ _ _ _ ha hb).1, (@Num.checkedDiv_byZero ⟨d2, e⟩ _ _ _ _ _ ha2 hb2).1]
    · exact agree_dich' (@Num.checkedDiv_spec ⟨d1, e⟩ _ _ _ _ _ _ ha hb hy) (@Num.checkedDiv_spec ⟨d2, e⟩ _ _ _ _ _ _ ha2 hb2 hy)
        (lt_or_ge _ _) U
    · subst hy
      rw [(@Num.checkedDiv_byZero ⟨d1, e⟩ _ _ _ _ _ ha hb).2.1, (@Num.checkedDiv_byZero ⟨d2, e⟩ _ _ _ _ _ ha2 hb2).2.1]
    · exact agree_dich' (@Num.checkedDivTrunc_spec ⟨d1, e⟩ _ _ _ _ _ _ ha hb hy)
        (@Num.checkedDivTrunc_spec ⟨d2, e⟩ _ _ _ _ _ _ ha2 hb2 hy) (lt_or_ge _ _) U
    · subst hy
      rw [(@Num.checkedDiv_byZero ⟨d1, e⟩ _ _ _ _ _ ha hb).2.2, (@Num.checkedDiv_byZero ⟨d2, e⟩ _ _ _ _ _ ha2 hb2).2.2]
    · obtain ⟨r, h1, -, h2⟩ := @Num.checkedRem_spec ⟨d1, e⟩ _ _ _ _ _ _ ha hb hy
      obtain ⟨r', h1', -, h2'⟩ := @Num.checkedRem_spec ⟨d2, e⟩ _ _ _ _ _ _ ha2 hb2 hy
      rw [h1, h1', U r r' h2 h2']

/-! ## C46 -/

/-- C46: with any requested scale `r` the internal product is within `(1/2 + n/10^4) * 10^-r` of the exact
product, `n` the number of base-10000 digits of the shorter operand; it is in canonical digit form with scale
`r`. -/
theorem C46_mul_error [Build] (a b : Var) (r : Int) (ha : Digits a.digits) (hb : Digits b.digits)
    (na : a.sign ≠ .nan) (nb : b.sign ≠ .nan) (hr0 : 0 ≤ r) (hr1 : r ≤ 16383)
    (wa : |a.weight| ≤ 100000000) (wb : |b.weight| ≤ 100000000) (la : a.digits.length ≤ 100000000)
    (lb : b.digits.length ≤ 100000000) :
    ∃ u, Var.mulCommon a b r = .ok u ∧ Digits u.digits ∧ Stripped u ∧ u.dscale = r ∧ HasScale (value u) r ∧
      |value u - value a * value b| ≤ (1 / 2 + (min a.digits.length b.digits.length : ℕ) / 10000) * 10 ^ (-r) := by
  obtain ⟨u, hu, h⟩ := mulCommon_spec a b ⟨by rw [abs_le] at wa; omega, by rw [abs_le] at wa; omega, by omega⟩
    ⟨by rw [abs_le] at wb; omega, by rw [abs_le] at wb; omega, by omega⟩ r (by omega) ha hb na nb hr0 (.inl hr1)
  obtain ⟨x, hx, -, hP⟩ := h.round
  refine ⟨u, hu, h.digits, h.stripped, h.dscale, hx ▸ roundHalfAway_hasScale _ _, ?_⟩
  have h1 := (C12_round_meaning x r).1
  have hT := T_zpow_pos r
  have h2 : |roundHalfAway x r - x| ≤ 1 / 2 * 10 ^ (-r) := by
    rw [zpow_neg, ← div_eq_mul_inv, le_div_iff₀ hT]; exact h1
  rw [hx]
  calc |roundHalfAway x r - value a * value b| = |(roundHalfAway x r - x) - (value a * value b - x)| := by ring_nf
    _ ≤ |roundHalfAway x r - x| + |value a * value b - x| := abs_sub _ _
    _ ≤ _ := by rw [add_mul]; refine add_le_add h2 (le_trans hP (le_of_eq (by ring)))

example [Build] : ∃ u, Var.mulCommon ⟨-1, 4, .pos, [3333]⟩ ⟨-1, 4, .neg, [6667]⟩ 5 = .ok u := by
  obtain ⟨u, h, -⟩ := C46_mul_error ⟨-1, 4, .pos, [3333]⟩ ⟨-1, 4, .neg, [6667]⟩ 5 (by intro d; simp; omega) (by intro d; simp; omega)
    (by decide) (by decide) (by decide) (by decide) (by decide) (by decide) (by decide) (by decide)
  exact ⟨u, h⟩

end PgNumeric.Props
