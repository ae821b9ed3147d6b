import Verif.Model.Refs
import Verif.Props.Heap
import Verif.Props.Sqrt
/-!
# References into an allocation, and `{:?}` (C62)
-/
namespace PgNumeric.Spec

/-- The reference is aligned when the allocation starts at address `base`. -/
def Aligned (base : ℕ) (r : MemRef) : Prop := (base + r.start) % r.align = 0

/-- The reference covers only bytes of an allocation of `len` bytes. -/
def Inside (len : ℕ) (r : MemRef) : Prop := r.start + r.size ≤ len

/-- The short header has room for the scale and the magnitude. -/
def FitsShort (x : ℚ) (s : ℤ) : Prop := s ≤ 63 ∧ (x = 0 ∨ 10000 ^ (-64 : ℤ) ≤ |x| ∧ |x| < 10000 ^ (64 : ℤ))

end PgNumeric.Spec

namespace PgNumeric.Props
open PgNumeric Spec

theorem fitsShort_iff {v : Var} (hv : Canonical v) :
    (v.dscale ≤ 63 ∧ v.weight ≤ 63 ∧ -64 ≤ v.weight) ↔ FitsShort (value v) v.dscale := by
  unfold FitsShort
  by_cases h0 : value v = 0
  · have hd := (stripped_zero_iff hv.digits hv.stripped).1 h0
    have hw := (hv.stripped.2.2 hd).1
    simp only [h0, true_or, and_true, hw]
    omega
  · have hw := canonical_weight hv
    have ha : (0:ℚ) < |value v| := abs_pos.2 h0
    have h1 := Int.zpow_log_le_self (b := 10000) (by norm_num) ha
    have h2 := Int.lt_zpow_succ_log_self (b := 10000) (by norm_num) |value v|
    change _ ≤ _ at h1
    push_cast at h1 h2
    unfold leadWeight at hw
    rw [← hw] at h1 h2
    have e1 : v.weight ≤ 63 ↔ |value v| < 10000 ^ (64:ℤ) := by
      constructor
      · intro h; exact lt_of_lt_of_le h2 (B_zpow_le_iff.2 (by omega))
      · intro h; have := B_zpow_lt_iff.1 (lt_of_le_of_lt h1 h); omega
    have e2 : -64 ≤ v.weight ↔ 10000 ^ (-64:ℤ) ≤ |value v| := by
      constructor
      · intro h; exact le_trans (B_zpow_le_iff.2 h) h1
      · intro h; have := B_zpow_lt_iff.1 (lt_of_le_of_lt h h2); omega
    simp only [h0, false_or, e1, e2]
    tauto

theorem writeCells_before {xs : List Int} : ∀ {c c' : Cells} {i j : Nat}, writeCells c i xs = .ok c' → j < i → c'[j]? = c[j]? := by
  induction xs with
  | nil => intro c c' i j h _; cases h; rfl
  | cons x xs ih =>
    intro c c' i j h hj
    unfold writeCells at h
    obtain ⟨c1, e1, h⟩ := bind_elim h
    rw [ih h (by omega)]
    unfold writeCell at e1
    split at e1
    · cases e1
      rw [List.getElem?_set_ne (by omega)]
    · cases e1

theorem intoBuf_layout [Build] {o : OVar} {b : Buf} (h : o.intoBuf = .ok b) :
    (∀ j, j + 4 < o.data.offset → b.cells[j]? = o.data.cells[j]?) ∧
    b.hoff = o.data.offset * 2 - if Bin.canBeShort (BitVec.ofInt 16 o.weight) (BitVec.ofInt 16 o.dscale) then 6 else 8 := by
  have key : ∀ {a b c n r}, o.data.setHeader a b c n = .ok r →
      (∀ j, j + 4 < o.data.offset → r.1.cells[j]? = o.data.cells[j]?) ∧ r.2 = o.data.offset * 2 - if Bin.canBeShort a b then 6 else 8 := by
    intro a b c n r h
    unfold Data.setHeader at h
    have h := dassert_elim h
    split at h
    · rename_i hs
      split at h
      · cases h
      · obtain ⟨c', e, h⟩ := bind_elim h
        cases h; exact ⟨fun j hj => writeCells_before e (by omega), by rw [if_pos hs]⟩
    · rename_i hs
      split at h
      · cases h
      · obtain ⟨c', e, h⟩ := bind_elim h
        cases h; exact ⟨fun j hj => writeCells_before e (by omega), by rw [if_neg hs]⟩
  unfold OVar.intoBuf at h
  have fin : ∀ {u : Unit}, (do
      let (d, hoff) ← o.data.setHeader (BitVec.ofInt 16 o.weight) (BitVec.ofInt 16 o.dscale) (Bin.signWord o.sign) o.ndigits
      dassert (hoff < d.cells.length * 2)
      pure (Buf.mk d.cells hoff)) = .ok b → (∀ j, j + 4 < o.data.offset → b.cells[j]? = o.data.cells[j]?) ∧
    b.hoff = o.data.offset * 2 - if Bin.canBeShort (BitVec.ofInt 16 o.weight) (BitVec.ofInt 16 o.dscale) then 6 else 8 := by
    intro _ h
    obtain ⟨⟨d, k⟩, e, h⟩ := bind_elim h
    have h := dassert_elim h
    cases h
    exact key e
  dsimp only at h
  split at h
  · have h := dassert_elim h
    have h := dassert_elim h
    exact fin (u := ()) h
  · exact fin (u := ()) h

/-- The layout of a copy. -/
theorem ofVar_layout [Build] {v : Var} {b : Buf} (h : Buf.ofVar v = .ok b) :
    b.cells.length = v.digits.length + 5 ∧ b.cells[0]? = some none ∧
    b.hoff = if Bin.canBeShort (BitVec.ofInt 16 v.weight) (BitVec.ofInt 16 v.dscale) then 4 else 2 := by
  unfold Buf.ofVar OVar.ofVar at h
  rw [ofDigits_ok] at h
  simp only [bind_ok, pure_ok] at h
  obtain ⟨h1, h2⟩ := intoBuf_layout h
  refine ⟨by rw [OVar.intoBuf_len h]; simp, by rw [h1 0 (by simp)]; rfl, ?_⟩
  rw [h2]
  split <;> rfl

theorem debug_uninit {h : Heap} {b : Buf} (h0 : b.cells[0]? = some none) : (HBuf.make h b).1.debug (HBuf.make h b).2 = .error .oob := by
  have hv : (HBuf.make h b).1.view (HBuf.make h b).2 = .ok b := by
    simp [HBuf.make, HBuf.view, Heap.alloc, Heap.read, pure_ok, bind_ok]
  have hp : (HBuf.make h b).1.ptr = some h.next := rfl
  unfold HBuf.debug
  rw [hp]
  simp only [hv, bind_ok]
  cases hc : b.cells with
  | nil => rw [hc] at h0; cases h0
  | cons x l =>
    rw [hc] at h0
    simp only [List.getElem?_cons_zero, Option.some.injEq] at h0
    simp [readCells, readCell, h0]

/-- C62: the header reference of a copy. It is misaligned, in an allocation that starts at a multiple of 4, exactly when the number needs
the long header; it extends beyond the allocation exactly when the number is a zero with the short header. `{:?}` of the copy reads memory that was
never written. -/
theorem C62_copies [Build] {h : Heap} {n : HBuf} {a : Bin} {x : ℚ} {s : ℤ} (hn : n.asNumeric h = .ok a) (ha : Holds a x s) :
    ∃ c h', n.clone h = .ok (c, h') ∧
      (∀ base, base % 4 = 0 → (Aligned base c.headerRef ↔ FitsShort x s)) ∧
      (Inside c.len c.headerRef ↔ ¬ (x = 0 ∧ s ≤ 63)) ∧
      c.debug h' = .error .oob := by
  obtain ⟨v, hc, rfl, rfl, ea, na, va⟩ := ha.exists_var
  obtain ⟨b, eb, hb⟩ := Buf.ofVar_spec hc.storable
  obtain ⟨l1, l2, l3⟩ := ofVar_layout eb
  have hi := Bin.canBeShort_iff hc.storable.weight_ge hc.storable.weight_le hc.dscale_nonneg hc.dscale_le
  rw [fitsShort_iff hc] at hi
  refine ⟨(HBuf.make h b).1, (HBuf.make h b).2, ?_, ?_, ?_, debug_uninit l2⟩
  · unfold HBuf.clone
    rw [hn, bind_ok, ea, bind_ok, va, bind_ok, eb]
    rfl
  · intro base hbase
    rw [← hi]
    simp only [Aligned, HBuf.headerRef, HBuf.make, l3]
    split <;> simp_all <;> omega
  · simp only [Inside, HBuf.headerRef, HBuf.make, Heap.alloc, l3, l1]
    have hz := stripped_zero_iff hc.digits hc.stripped
    by_cases h0 : v.digits = []
    · have := hz.2 h0
      have hsm : (Bin.canBeShort (BitVec.ofInt 16 v.weight) (BitVec.ofInt 16 v.dscale) = true) ↔ v.dscale ≤ 63 := by
        rw [hi]; simp [FitsShort, this]
      rw [h0, this]
      by_cases h6 : v.dscale ≤ 63
      · rw [if_pos (hsm.2 h6)]; simp [h6]
      · rw [if_neg (fun h => h6 (hsm.1 h))]; simp [h6]
    · have : value v ≠ 0 := fun h => h0 (hz.1 h)
      have hp : 0 < v.digits.length := List.length_pos_iff.2 h0
      simp only [this, false_and, not_false_eq_true, iff_true]
      split <;> omega

/-- C62: a copy of NaN. -/
theorem C62_copies_nan [Build] {h : Heap} {n : HBuf} {a : Bin} (hn : n.asNumeric h = .ok a) (ha : IsNaN a) :
    ∃ c h', n.clone h = .ok (c, h') ∧ (∀ base, base % 4 = 0 → Aligned base c.headerRef) ∧ ¬ Inside c.len c.headerRef ∧
      c.debug h' = .error .oob := by
  obtain ⟨ea, na, va⟩ := ha.facts
  obtain ⟨b, eb, hb⟩ := Buf.nan_spec
  have eb' : Buf.ofVar Var.nan = .ok b := eb
  obtain ⟨l1, l2, l3⟩ := ofVar_layout eb'
  rw [show Bin.canBeShort (BitVec.ofInt 16 Var.nan.weight) (BitVec.ofInt 16 Var.nan.dscale) = true from rfl, if_pos rfl] at l3
  refine ⟨(HBuf.make h b).1, (HBuf.make h b).2, ?_, ?_, ?_, debug_uninit l2⟩
  · unfold HBuf.clone
    rw [hn, bind_ok, ea, bind_ok, va, bind_ok, eb']
    rfl
  · intro base hbase
    simp only [Aligned, HBuf.headerRef, HBuf.make, l3]
    omega
  · simp [Inside, HBuf.headerRef, HBuf.make, l3, l1, Var.nan]

/-- C62: the allocation is only requested to be a multiple of 2, and whatever the number is, one of the two possible residues makes its header
reference misaligned. -/
theorem C62_no_alignment_guarantee (n : HBuf) (hn : n.hoff % 2 = 0) : ∃ base, base % 2 = 0 ∧ ¬ Aligned base n.headerRef := by
  by_cases h : n.hoff % 4 = 0
  · exact ⟨2, rfl, by simp only [Aligned, HBuf.headerRef]; omega⟩
  · exact ⟨0, rfl, by simp only [Aligned, HBuf.headerRef]; omega⟩

/-- Numbers of all three kinds exist: 10^-64 is stored with the long header, 1.5 with the short one, and 0. -/
example [Build] : ∃ (h : Heap) (n m z : HBuf) (a b c : Bin), n.asNumeric h = .ok a ∧ m.asNumeric h = .ok b ∧ z.asNumeric h = .ok c ∧
    Holds a (10 ^ (-64:ℤ)) 64 ∧ ¬ FitsShort (10 ^ (-64:ℤ)) 64 ∧ Holds b (3/2) 1 ∧ FitsShort (3/2) 1 ∧ Holds c 0 0 := by
  have mk : ∀ {x : ℚ} {s : ℤ} {a : Bin}, Holds a x s → ∃ b : Buf, Owned b a := by
    rintro x s a ⟨v, hv, rfl, -⟩
    obtain ⟨b, -, hb⟩ := Buf.ofVar_spec hv.storable
    exact ⟨b, hb⟩
  obtain ⟨a, ha⟩ := exists_holds (x := (10:ℚ) ^ (-64:ℤ)) (s := 64) ⟨1, by norm_num⟩ (by norm_num) (by norm_num)
    (by rw [abs_of_pos (by positivity)]; exact lt_of_lt_of_le (by norm_num) (one_le_pow₀ (by norm_num) : (1:ℚ) ≤ limit))
  obtain ⟨b, hb⟩ := witness (x := 3/2) (s := 1) 15 (by norm_num) (by norm_num) (by norm_num) (by norm_num [abs_lt])
  obtain ⟨c, hc⟩ := witness (x := 0) (s := 0) 0 (by norm_num) (by norm_num) (by norm_num) (by norm_num [abs_lt])
  obtain ⟨p, hp⟩ := mk ha
  obtain ⟨q, hq⟩ := mk hb
  obtain ⟨t, ht⟩ := mk hc
  refine ⟨⟨fun i => if i = 0 then some ⟨p.cells, 2⟩ else if i = 1 then some ⟨q.cells, 2⟩ else some ⟨t.cells, 2⟩, 3, []⟩, p.at 0, q.at 1, t.at 2,
    a, b, c, ?_, ?_, ?_, ha, fun h => by have := h.1; norm_num at this, hb, ⟨by norm_num, .inr (by norm_num)⟩, hc⟩
  · rw [HBuf.asNumeric_at (by rfl)]; exact hp.asNumeric
  · rw [HBuf.asNumeric_at (by rfl)]; exact hq.asNumeric
  · rw [HBuf.asNumeric_at (by rfl)]; exact ht.asNumeric

end PgNumeric.Props
