import Verif.Model.Heap
import Verif.Proofs.Data2
import Verif.Proofs.Ln
/-!
# The heap model refines the buffer model
-/
namespace PgNumeric

/-- Every allocation made so far is either live or was released exactly once. -/
structure Heap.WF (h : Heap) : Prop where
  bound : ∀ q, h.live q ≠ none → q < h.next
  nodup : (h.released.map Release.ptr).Nodup
  mem : ∀ q, q ∈ h.released.map Release.ptr ↔ q < h.next ∧ h.live q = none

/-- The heap `h'` arises from `h` by moving the allocation `p` to `p'` (`none`: released): nothing else changes, releases state the right layout. -/
structure Ev (h : Heap) (p : Nat) (h' : Heap) (p' : Option Nat) : Prop where
  wf : h'.WF
  next : h.next ≤ h'.next
  frame : ∀ q, q ≠ p → some q ≠ p' → h'.live q = h.live q
  gone : p' ≠ some p → h'.live p = none
  fresh : ∀ q, p' = some q → q = p ∨ h.next ≤ q
  rel : ∃ l, h'.released = l ++ h.released ∧ ∀ r ∈ l, r.givenSize = r.size ∧ r.givenAlign = r.align

theorem Ev.refl {h : Heap} {p : Nat} (hw : h.WF) : Ev h p h (some p) :=
  ⟨hw, le_refl _, fun _ _ _ => rfl, fun h => absurd rfl h, fun q e => .inl (by cases e; rfl), [], rfl, by simp⟩

theorem Heap.WF.write {h : Heap} (hw : h.WF) {p : Nat} {b : Block} (hb : h.live p ≠ none) :
    Heap.WF { h with live := fun q => if q = p then some b else h.live q } := by
  refine ⟨fun q hq => ?_, hw.nodup, fun q => ?_⟩
  · by_cases e : q = p
    · subst e; exact hw.bound q hb
    · simp only [if_neg e] at hq; exact hw.bound q hq
  · rw [hw.mem]
    by_cases e : q = p
    · subst e; simp [hb]
    · simp [e]

theorem Ev.write {h h1 : Heap} {p q : Nat} (he : Ev h p h1 (some q)) {c0 c : Cells} (hq : h1.live q = some ⟨c0, 2⟩) (hl : c.length = c0.length) :
    ∃ h2, h1.write (some q) c = .ok h2 ∧ Ev h p h2 (some q) ∧ h2.live q = some ⟨c, 2⟩ := by
  refine ⟨_, by simp only [Heap.write, hq, if_pos hl]; rfl, ⟨he.wf.write (by rw [hq]; simp), he.next, ?_, ?_, he.fresh, he.rel⟩, by simp⟩
  · intro r h1' h2'
    have : r ≠ q := fun e => h2' (by rw [e])
    simp only [if_neg this]; exact he.frame r h1' h2'
  · intro hn
    have : p ≠ q := fun e => hn (by rw [e])
    simp only [if_neg this]; exact he.gone hn

theorem Heap.WF.free {h : Heap} (hw : h.WF) {p : Nat} (hb : h.live p ≠ none) (r : Release) (hr : r.ptr = p) :
    Heap.WF { h with live := fun q => if q = p then none else h.live q, released := r :: h.released } := by
  refine ⟨fun q hq => ?_, ?_, fun q => ?_⟩
  · by_cases e : q = p
    · subst e; simp at hq
    · simp only [if_neg e] at hq; exact hw.bound q hq
  · simp only [List.map_cons, List.nodup_cons, hr]
    exact ⟨fun hm => hb ((hw.mem p).1 hm).2, hw.nodup⟩
  · simp only [List.map_cons, List.mem_cons, hr, hw.mem]
    by_cases e : q = p
    · subst e; simp [hw.bound q hb]
    · simp [e]

theorem Ev.free {h h1 : Heap} {p q : Nat} (hw : h.WF) (he : Ev h p h1 (some q)) {c : Cells} (hq : h1.live q = some ⟨c, 2⟩) :
    ∃ h2, h1.free q (2 * c.length) 2 = .ok h2 ∧ Ev h p h2 none := by
  have e0 : h1.free q (2 * c.length) 2 = .ok { h1 with live := fun r => if r = q then none else h1.live r, released := ⟨q, 2 * c.length, 2, 2 * c.length, 2⟩ :: h1.released } := by
    simp only [Heap.free, hq]; rfl
  refine ⟨_, e0, ⟨he.wf.free (by rw [hq]; simp) _ rfl, he.next, ?_, ?_, by simp, ?_⟩⟩
  · intro r h1' _
    by_cases e : r = q
    · subst e
      simp only [if_true]
      rcases he.fresh r rfl with e | e
      · exact absurd e h1'
      · by_contra hc
        exact absurd (hw.bound r (fun h => hc h.symm)) (by omega)
    · simp only [if_neg e]; exact he.frame r h1' (fun h => e (by cases h; rfl))
  · intro _
    by_cases e : p = q
    · simp [e]
    · simp only [if_neg e]; exact he.gone (fun h => e (by cases h; rfl))
  · obtain ⟨l, e, hl⟩ := he.rel
    refine ⟨_ :: l, by rw [e]; rfl, ?_⟩
    intro r hr
    rcases List.mem_cons.1 hr with rfl | hr
    · exact ⟨rfl, rfl⟩
    · exact hl r hr

/-- Move to a new allocation. -/
theorem Ev.move {h : Heap} {p : Nat} (hw : h.WF) {c0 c : Cells} (hp : h.live p = some ⟨c0, 2⟩) :
    ∃ h2, (h.alloc c).2.free p (2 * c0.length) 2 = .ok h2 ∧ Ev h p h2 (some h.next) ∧ h2.live h.next = some ⟨c, 2⟩ := by
  have hlt : p < h.next := hw.bound p (by rw [hp]; simp)
  have hne : p ≠ h.next := by omega
  have hw1 : (h.alloc c).2.WF := by
    refine ⟨fun q hq => ?_, hw.nodup, fun q => ?_⟩
    · simp only [Heap.alloc] at hq ⊢
      by_cases e : q = h.next
      · omega
      · simp only [if_neg e] at hq; have := hw.bound q hq; omega
    · simp only [Heap.alloc, hw.mem]
      by_cases e : q = h.next
      · subst e; simp
      · simp only [if_neg e]
        constructor
        · rintro ⟨a, b⟩; exact ⟨by omega, b⟩
        · rintro ⟨a, b⟩; exact ⟨by omega, b⟩
  have hp1 : (h.alloc c).2.live p = some ⟨c0, 2⟩ := by simp only [Heap.alloc, if_neg hne, hp]
  have e0 : (h.alloc c).2.free p (2 * c0.length) 2 = .ok { (h.alloc c).2 with live := fun r => if r = p then none else (h.alloc c).2.live r, released := ⟨p, 2 * c0.length, 2, 2 * c0.length, 2⟩ :: (h.alloc c).2.released } := by
    simp only [Heap.free, hp1]; rfl
  refine ⟨_, e0, ⟨hw1.free (by rw [hp1]; simp) _ rfl, by simp [Heap.alloc], ?_, by simp, ?_, ?_⟩, ?_⟩
  · intro r h1 h2
    have : r ≠ h.next := fun e => h2 (by rw [e])
    simp [Heap.alloc, h1, this]
  · intro q e; cases e; exact .inr (le_refl _)
  · exact ⟨[_], rfl, by intro r hr; simp at hr; subst hr; exact ⟨rfl, rfl⟩⟩
  · simp [Heap.alloc, Ne.symm hne]

/-! ## The cell functions keep the allocation's size -/

theorem writeCell_len {c c' : Cells} {i : Nat} {x : Int} (h : writeCell c i x = .ok c') : c'.length = c.length := by
  unfold writeCell at h
  split at h
  · cases h; simp
  · cases h

theorem writeCells_len {xs : List Int} {c c' : Cells} {i : Nat} (h : writeCells c i xs = .ok c') : c'.length = c.length := by
  induction xs generalizing c i with
  | nil => cases h; rfl
  | cons x xs ih =>
    simp only [writeCells] at h
    cases e : writeCell c i x with
    | error f => rw [e] at h; cases h
    | ok d =>
      rw [e] at h
      rw [ih h, writeCell_len e]

theorem carryCells_len [Build] {p : Nat} {c : Cells} {k : Int} {r : Cells × Nat} (h : OVar.carryCells p c k = .ok r) :
    r.1.length = c.length := by
  induction p generalizing c k with
  | zero =>
    simp only [OVar.carryCells] at h
    split at h
    · cases h
    · cases h; rfl
  | succ p ih =>
    simp only [OVar.carryCells] at h
    split at h
    · obtain ⟨d, -, h⟩ := bind_elim h
      obtain ⟨s, -, h⟩ := bind_elim h
      split at h
      · obtain ⟨c', e, h⟩ := bind_elim h
        rw [ih h, writeCell_len e]
      · obtain ⟨c', e, h⟩ := bind_elim h
        rw [ih h, writeCell_len e]
    · cases h; rfl

theorem OVar.intoBuf_len [Build] {o : OVar} {b : Buf} (h : o.intoBuf = .ok b) : b.cells.length = o.data.cells.length := by
  have key : ∀ {a b c n r}, o.data.setHeader a b c n = .ok r → r.1.cells.length = o.data.cells.length := by
    intro a b c n r h
    unfold Data.setHeader at h
    have h := dassert_elim h
    split at h
    · split at h
      · cases h
      · obtain ⟨c', e, h⟩ := bind_elim h
        cases h; exact writeCells_len e
    · split at h
      · cases h
      · obtain ⟨c', e, h⟩ := bind_elim h
        cases h; exact writeCells_len e
  unfold OVar.intoBuf at h
  have fin : ∀ {u : Unit}, (do
      let (d, hoff) ← o.data.setHeader (BitVec.ofInt 16 o.weight) (BitVec.ofInt 16 o.dscale) (Bin.signWord o.sign) o.ndigits
      dassert (hoff < d.cells.length * 2)
      pure (Buf.mk d.cells hoff)) = .ok b → b.cells.length = o.data.cells.length := by
    intro _ h
    obtain ⟨⟨d, k⟩, e, h⟩ := bind_elim h
    have h := dassert_elim h
    cases h
    exact key e
  dsimp only at h
  split at h
  · have h := dassert_elim h
    have h := dassert_elim h
    exact fin (u := ()) h
  · exact fin (u := ()) h

theorem OVar.strip_cells [Build] {o r : OVar} (h : o.strip = .ok r) : r.data.cells = o.data.cells := by
  unfold OVar.strip at h
  obtain ⟨ds, -, h⟩ := bind_elim h
  dsimp only at h
  obtain ⟨_, -, h⟩ := bind_elim h
  obtain ⟨d, e, h⟩ := bind_elim h
  have : d.cells = o.data.cells := by
    unfold Data.offsetAdd at e
    have e := dassert_elim e
    cases e; rfl
  split at h <;> cases h <;> exact this

theorem OVar.trunc_len [Build] {o r : OVar} {n : Int} (h : o.trunc n = .ok r) : r.data.cells.length = o.data.cells.length := by
  unfold OVar.trunc at h
  have h := dassert_elim h
  dsimp only at h
  obtain ⟨r', e, h⟩ := bind_elim h
  have : r'.data.cells.length = o.data.cells.length := by
    unfold OVar.truncCommon at e
    have e := dassert_elim e
    obtain ⟨_, -, e⟩ := bind_elim e
    dsimp only at e
    split at e
    · cases e; rfl
    · split at e
      · split at e
        · have e := dassert_elim e
          obtain ⟨d, -, e⟩ := bind_elim e
          obtain ⟨c, hc, e⟩ := bind_elim e
          cases e; exact writeCell_len hc
        · cases e; rfl
      · cases e; rfl
  cases h
  split <;> exact this

theorem OVar.negate_data [Build] {o r : OVar} (h : o.negate = .ok r) : r.data = o.data := by
  unfold OVar.negate at h
  have h := dassert_elim h
  cases h
  split
  · split <;> rfl
  · rfl

theorem OVar.abs_data [Build] {o r : OVar} (h : o.abs = .ok r) : r.data = o.data := by
  unfold OVar.abs at h
  have h := dassert_elim h
  cases h
  split <;> rfl

/-- `round_common` touches the digits of a variable. -/
def Touches (w : Int) (n : Nat) (rscale : Int) : Prop :=
  0 ≤ (w + 1) * DEC_DIGITS + rscale ∧
  ((((w + 1) * DEC_DIGITS + rscale) + DEC_DIGITS - 1) / DEC_DIGITS < n ∨
    (((w + 1) * DEC_DIGITS + rscale + DEC_DIGITS - 1) / DEC_DIGITS = n ∧ ((w + 1) * DEC_DIGITS + rscale) % DEC_DIGITS > 0)) ∧ n > 0

instance (w : Int) (n : Nat) (r : Int) : Decidable (Touches w n r) := by unfold Touches; infer_instance

set_option hygiene false in
/-- The tail of `round_common` after the last digit was rounded; `hl` says the cells `c` have the old length. -/
macro "round_tail" : tactic => `(tactic| (
  dsimp only at h
  have h := dassert_elim h
  obtain ⟨c2, e2, h⟩ := bind_elim h
  obtain ⟨⟨c3, p⟩, e3, h⟩ := bind_elim h
  have h3 := (carryCells_len e3).trans ((writeCell_len e2).trans hl)
  dsimp only at h h3
  split at h
  · have h := dassert_elim h
    obtain ⟨d4, e4, h⟩ := bind_elim h
    unfold Data.offsetSub at e4
    have e4 := dassert_elim e4
    cases e4; cases h; exact h3
  · cases h; exact h3))

set_option hygiene false in
/-- `round_common` after `reserve_rounding_digit`. -/
macro "round_body" : tactic => `(tactic| (
  have h := dassert_elim h
  have h := dassert_elim h
  split at h
  · split at h
    · obtain ⟨_, -, h⟩ := bind_elim h
      obtain ⟨x, e1, h⟩ := bind_elim h
      cases e1
      have hl : o.data.cells.length = o.data.cells.length := rfl
      round_tail
    · obtain ⟨x, e1, h⟩ := bind_elim h
      cases e1
  · obtain ⟨_, -, h⟩ := bind_elim h
    obtain ⟨⟨_, _⟩, -, h⟩ := bind_elim h
    obtain ⟨c', hc', h⟩ := bind_elim h
    obtain ⟨x, e1, h⟩ := bind_elim h
    cases e1
    have hl := writeCell_len hc'
    round_tail))

theorem OVar.roundCommon_len [Build] {o r : OVar} {n : Int} (h : o.roundCommon n = .ok r)
    (ht : Touches o.weight o.ndigits n → 4 < o.data.offset) : r.data.cells.length = o.data.cells.length := by
  unfold OVar.roundCommon at h
  have h := dassert_elim h
  obtain ⟨_, -, h⟩ := bind_elim h
  dsimp only at h
  split at h
  · cases h; rfl
  · rename_i h0
    split at h
    · rename_i hc
      split at h
      · rename_i hn
        have hoff := ht ⟨by omega, hc, hn⟩
        obtain ⟨d, ed, h⟩ := bind_elim h
        have hd : d = o.data := by
          unfold Data.reserveRoundingDigit at ed
          have ed := dassert_elim ed
          rw [if_neg (by simp only [HEADER_CELLS]; omega)] at ed
          cases ed; rfl
        subst hd
        round_body
      · obtain ⟨d, ed, h⟩ := bind_elim h
        cases ed
        round_body
    · cases h; rfl

theorem OVar.roundCommon_reserve [Build] {o r : OVar} {n : Int} (h : o.roundCommon n = .ok r) (ht : Touches o.weight o.ndigits n) :
    ∃ d, o.data.reserveRoundingDigit o.ndigits = .ok d ∧ OVar.roundCommon { o with data := d } n = .ok r ∧ 4 < d.offset := by
  have h' := h
  unfold OVar.roundCommon at h
  have h := dassert_elim h
  obtain ⟨_, -, h⟩ := bind_elim h
  dsimp only at h
  rw [if_neg (by have := ht.1; omega), if_pos ht.2.1, if_pos ht.2.2] at h
  obtain ⟨d, ed, h⟩ := bind_elim h
  have hoff : 4 < d.offset := by
    unfold Data.reserveRoundingDigit at ed
    have ed := dassert_elim ed
    split at ed
    · obtain ⟨ds, -, ed⟩ := bind_elim ed
      rw [ofDigits_ok] at ed
      cases ed; simp
    · cases ed
      rename_i hh; simp only [HEADER_CELLS] at hh; omega
  refine ⟨d, ed, ?_, hoff⟩
  have e2 : d.reserveRoundingDigit o.ndigits = .ok d := by
    unfold Data.reserveRoundingDigit
    rw [dassert_ok ht.2.2, bind_ok, if_neg (by simp only [HEADER_CELLS]; omega)]; rfl
  rw [← h']
  unfold OVar.roundCommon
  dsimp only
  have hn : ¬ (o.weight + 1) * DEC_DIGITS + n < 0 := by have := ht.1; omega
  simp only [if_neg hn, if_pos ht.2.1, if_pos ht.2.2, ed, e2]

end PgNumeric
