import Verif.Model.Borrowed
import Verif.Props.UntrustedText
/-!
# Borrowed numbers
-/
namespace PgNumeric.Borrowed
open PgNumeric Spec Untrusted Props

open Classical in
/-- What the queries find in a header. -/
theorem header_says {b : Bin} {bs : List (BitVec 8)} (e : b.header.toNat = headerAt bs) :
    b.isNan = decide (kindAt bs = 3) ∧ b.isNegative = decide (kindAt bs ≠ 3 ∧ negAt bs) ∧ b.isPositive = decide (kindAt bs ≠ 3 ∧ ¬ negAt bs) ∧
    (kindAt bs ≠ 3 → b.dscale.toNat = scaleAt bs) := by
  have hk := header_kind e
  have k4 := kind_lt bs
  have f1 : b.isNan = decide (kindAt bs = 3) := by
    unfold Bin.isNan Bin.flagBits
    rw [Bool.eq_iff_iff, beq_iff_eq, flag_nan, hk, decide_eq_true_iff]
  have f2 : b.isShort = decide (kindAt bs = 2) := by
    unfold Bin.isShort Bin.flagBits
    rw [Bool.eq_iff_iff, beq_iff_eq, flag_short, hk, decide_eq_true_iff]
  have f3 : b.flagBits = Bin.NEG ↔ kindAt bs = 1 := by
    unfold Bin.flagBits
    rw [flag_neg, hk]
  have f4 : b.flagBits = Bin.POS ↔ kindAt bs = 0 := by
    unfold Bin.flagBits
    rw [← BitVec.toNat_inj, flag_nat, hk]
    show _ = 0 ↔ _
    omega
  have f5 := short_sign b.header
  have hs : kindAt bs = 2 → b.sign = if negAt bs then Bin.NEG else Bin.POS := by
    intro h2
    have hn : negAt bs ↔ b.header.toNat / 8192 % 2 = 1 := by unfold negAt; rw [if_pos h2, e]
    unfold Bin.sign
    rw [f2, f5]
    simp only [h2, decide_true, if_true, decide_eq_true_iff, hn]
  have hl : kindAt bs ≠ 2 → b.sign = b.flagBits := by
    intro h2
    unfold Bin.sign
    rw [f2]
    simp [h2]
  have hng : kindAt bs ≠ 2 → (negAt bs ↔ kindAt bs = 1) := fun h2 => by unfold negAt; rw [if_neg h2]
  refine ⟨f1, ?_, ?_, ?_⟩
  · unfold Bin.isNegative
    rw [Bool.eq_iff_iff, beq_iff_eq, decide_eq_true_iff]
    by_cases h2 : kindAt bs = 2
    · rw [hs h2]
      by_cases hg : negAt bs
      · simp [hg, h2]
      · simp [hg]; decide
    · rw [hl h2, f3, hng h2]
      omega
  · unfold Bin.isPositive
    rw [Bool.eq_iff_iff, beq_iff_eq, decide_eq_true_iff]
    by_cases h2 : kindAt bs = 2
    · rw [hs h2]
      by_cases hg : negAt bs
      · simp [hg]; decide
      · simp [hg, h2]
    · rw [hl h2, f4, hng h2]
      omega
  · intro h3
    have f6 : b.headerIsShort = decide (kindAt bs = 2) := by
      unfold Bin.headerIsShort
      have := and_mask b.header.toNat 15 1
      have e0 : (b.header &&& 0x8000#16).toNat = 32768 * (b.header.toNat / 32768 % 2) := by
        rw [BitVec.toNat_and]; norm_num at this ⊢; exact this
      have hlt := b.header.isLt
      rw [Bool.eq_iff_iff, bne_iff_ne, decide_eq_true_iff, ne_eq, ← BitVec.toNat_inj, e0]
      show ¬ _ = 0 ↔ _
      omega
    unfold Bin.dscale scaleAt
    rw [f6, ← e]
    by_cases h2 : kindAt bs = 2
    · simp only [h2, decide_true, if_true]
      exact short_dscale _
    · simp only [h2, decide_false, Bool.false_eq_true, if_false]
      exact long_scale _

theorem asBinary_ok [Build] {bs : List (BitVec 8)} (h6 : 6 ≤ bs.length) (hd : Build.debug = true → declared bs = bs.length) : asBinary bs = .ok () := by
  unfold asBinary
  by_cases hb : Build.debug = true
  · rw [if_pos hb]
    obtain ⟨w, e, hw⟩ := load32_ok (bs := bs) (by omega)
    rw [e, bind_ok]
    exact dassert_ok (by rw [hw]; exact hd hb)
  · rw [if_neg hb]; rfl

theorem header_ok {bs : List (BitVec 8)} (h6 : 6 ≤ bs.length) : ∃ b : Bin, header bs = .ok b ∧ b.header.toNat = headerAt bs := by
  obtain ⟨w, e, hw⟩ := load16_ok (bs := bs) (i := 4) (by omega)
  exact ⟨⟨0#32, w, []⟩, by unfold header; rw [e, bind_ok]; rfl, hw⟩

/-- The owned copy has the header queries of the bytes. -/
theorem owned_header [Build] {bs : List (BitVec 8)} {a : Bin} (hn : bs.length < 4294967288) (h : Untrusted.deserialize bs = .ok a) :
    ∃ b : Bin, asBinary bs = .ok () ∧ header bs = .ok b ∧ b.isNan = a.isNan ∧ b.isNegative = a.isNegative ∧ b.isPositive = a.isPositive ∧
      (a.isNan = false → b.dscale.toNat = a.dscale.toNat) := by
  obtain ⟨hc, hd⟩ := untrusted_source hn h
  obtain ⟨b, eb, hb⟩ := header_ok hc.1
  obtain ⟨c1, c2, c3, c4⟩ := C74_content hn h
  have ha : a.header.toNat = headerAt a.asBytes := by
    obtain ⟨w, ew, hw⟩ := load16_ok (bs := a.asBytes) (i := 4) (by have := c1.2.1; omega)
    rw [load16_head] at ew
    rw [Except.ok.inj ew]; exact hw
  obtain ⟨p1, p2, p3, p4⟩ := header_says hb
  obtain ⟨q1, q2, q3, q4⟩ := header_says ha
  refine ⟨b, asBinary_ok hc.1 hd, eb, ?_, ?_, ?_, ?_⟩
  · rw [p1, q1]; simp [c2]
  · rw [p2, q2, decide_eq_decide]
    constructor
    · rintro ⟨h3, hg⟩; exact ⟨fun hh => h3 (c2.1 hh), (c4 h3).1.2 hg⟩
    · rintro ⟨h3, hg⟩; exact ⟨fun hh => h3 (c2.2 hh), (c4 (fun hh => h3 (c2.2 hh))).1.1 hg⟩
  · rw [p3, q3, decide_eq_decide]
    constructor
    · rintro ⟨h3, hg⟩; exact ⟨fun hh => h3 (c2.1 hh), fun hh => hg ((c4 h3).1.1 hh)⟩
    · rintro ⟨h3, hg⟩; exact ⟨fun hh => h3 (c2.2 hh), fun hh => hg ((c4 (fun hh => h3 (c2.2 hh))).1.2 hh)⟩
  · intro hx
    have h3 : kindAt a.asBytes ≠ 3 := by intro hh; rw [q1] at hx; simp [hh] at hx
    have h3' : kindAt bs ≠ 3 := fun hh => h3 (c2.2 hh)
    rw [p4 h3', q4 h3, (c4 h3').2.2.1]

/-- Reading the digits of the bytes and of the owned copy gives the same. -/
theorem owned_var [Build] {bs : List (BitVec 8)} {a : Bin} (hn : bs.length < 4294967288) (h : Untrusted.deserialize bs = .ok a) : asVar bs = a.asVar := by
  obtain ⟨hc, hd⟩ := untrusted_source hn h
  obtain ⟨-, -, c3, -⟩ := C74_content hn h
  obtain ⟨-, p2⟩ := untrusted_facts hn h
  rw [asVar_ok hc hd]
  rcases p2 with ⟨h3, hx⟩ | ⟨h3, hx, hst, hv⟩
  · rw [if_pos h3, c3 h3, Bin.asVar_nan]
  · rw [if_neg h3, hv]

end PgNumeric.Borrowed
