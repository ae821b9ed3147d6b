import Verif.Model.Client
import Verif.Proofs.HeapOps
import Verif.Props.Buffer
/-!
# Ownership of allocations (C60)

In the model (`Verif/Model/Heap.lean`) reading, writing or releasing an allocation that is not live, and any access through the null
pointer, is the fault `oob`. A run that returns `.ok` has no use after free and no double free.
-/
namespace PgNumeric.Props
open PgNumeric Spec

/-- The variable `r` of the program agrees with the specification: it is dropped, or holds a null pointer, or reads as a numeric that
represents the exact value. -/
def Agrees [Build] (h : Heap) : Option HBuf → Slot → Prop
  | none, .gone => True
  | some x, .null => x.ptr = none
  | some x, .val v => ∃ a, x.asNumeric h = .ok a ∧ Represents a v
  | _, _ => False

/-- The variable `r` of the program, with its allocation. -/
def SlotOk [Build] (h : Heap) : Option HBuf → Slot → Prop
  | none, .gone => True
  | some x, .null => x.ptr = none
  | some x, .val v => ∃ p b a, x = b.at p ∧ h.live p = some ⟨b.cells, 2⟩ ∧ Owned b a ∧ Represents a v
  | _, _ => False

theorem SlotOk.agrees [Build] {h : Heap} {r : Option HBuf} {s : Slot} (hs : SlotOk h r s) : Agrees h r s := by
  match r, s, hs with
  | none, .gone, _ => trivial
  | some x, .null, hs => exact hs
  | some x, .val v, ⟨p, b, a, e, hp, ho, hr⟩ => exact ⟨a, by rw [e, HBuf.asNumeric_at hp]; exact ho.asNumeric, hr⟩

structure Inv [Build] (w : World) (l : List Slot) : Prop where
  wf : w.heap.WF
  len : w.regs.length = l.length
  slot : ∀ {i : Nat} {r s}, w.regs[i]? = some r → l[i]? = some s → SlotOk w.heap r s
  inj : ∀ {i j : Nat} {x y q}, w.regs[i]? = some (some x) → w.regs[j]? = some (some y) → x.ptr = some q → y.ptr = some q → i = j
  noleak : ∀ q, w.heap.live q ≠ none ↔ ∃ (i : Nat) (x : HBuf), w.regs[i]? = some (some x) ∧ x.ptr = some q
  sizes : ∀ r ∈ w.heap.released, r.givenSize = r.size

theorem Inv.start [Build] : Inv start [] where
  wf := ⟨fun q h => absurd rfl h, by simp [Props.start, Heap.empty], by simp [Props.start, Heap.empty]⟩
  len := rfl
  slot := by simp [Props.start]
  inj := by simp [Props.start]
  noleak := by simp [Props.start, Heap.empty]
  sizes := by simp [Props.start, Heap.empty]

/-- A live slot of the program. -/
theorem Inv.get [Build] {w : World} {l : List Slot} (hI : Inv w l) {i : Nat} {v : Val} (hl : l[i]? = some (.val v)) :
    ∃ p b a, w.regs[i]? = some (some (b.at p)) ∧ w.heap.live p = some ⟨b.cells, 2⟩ ∧ Owned b a ∧ Represents a v := by
  have hi : i < w.regs.length := by rw [hI.len]; exact (List.getElem?_eq_some_iff.1 hl).1
  have hr := List.getElem?_eq_getElem hi
  have hs := hI.slot hr hl
  cases hx : w.regs[i] with
  | none => rw [hx] at hs; exact absurd hs (by simp [SlotOk])
  | some x =>
    rw [hx] at hs hr
    obtain ⟨p, b, a, e, h1, h2, h3⟩ := hs
    exact ⟨p, b, a, by rw [hr, e], h1, h2, h3⟩

/-- A step that moves or releases the allocation of one number. -/
theorem Inv.update [Build] {w : World} {l : List Slot} (hI : Inv w l) {i : Nat} {x x' : HBuf} {p : Nat} (hx : w.regs[i]? = some (some x))
    (hp : x.ptr = some p) {h' : Heap} (hw' : h'.WF) (hfr : ∀ q, q ≠ p → some q ≠ x'.ptr → h'.live q = w.heap.live q)
    (hg : x'.ptr ≠ some p → h'.live p = none) (hfresh : ∀ q, x'.ptr = some q → q = p ∨ w.heap.next ≤ q)
    (hsz : ∀ r ∈ h'.released, r.givenSize = r.size) {s : Slot} (hs : SlotOk h' (some x') s)
    (hlive : ∀ q, x'.ptr = some q → h'.live q ≠ none) : Inv ⟨h', w.regs.set i (some x')⟩ (l.set i s) := by
  have hi : i < w.regs.length := (List.getElem?_eq_some_iff.1 hx).1
  have hil : i < l.length := by rw [← hI.len]; exact hi
  have other : ∀ {j : Nat} {y q}, j ≠ i → w.regs[j]? = some (some y) → y.ptr = some q → q ≠ p ∧ some q ≠ x'.ptr := by
    intro j y q hj hy hq
    have h1 : q ≠ p := fun e => hj (hI.inj hy hx hq (e ▸ hp))
    refine ⟨h1, fun e => ?_⟩
    rcases hfresh q e.symm with e | e
    · exact h1 e
    · have := hI.wf.bound q ((hI.noleak q).2 ⟨j, y, hy, hq⟩); omega
  refine ⟨hw', by simp [hI.len], ?_, ?_, ?_, hsz⟩
  · intro j r t hr ht
    simp only at hr ⊢
    by_cases e : j = i
    · subst e
      rw [List.getElem?_set_self hi] at hr
      rw [List.getElem?_set_self hil] at ht
      cases hr; cases ht; exact hs
    · rw [List.getElem?_set_ne (Ne.symm e)] at hr ht
      have := hI.slot hr ht
      match r, t, this with
      | none, .gone, _ => trivial
      | some y, .null, hy => exact hy
      | some y, .val v, ⟨q, b, a, ey, hq, ho, hv⟩ =>
        obtain ⟨n1, n2⟩ := other (q := q) e hr (by rw [ey]; rfl)
        exact ⟨q, b, a, ey, by rw [hfr q n1 n2]; exact hq, ho, hv⟩
  · intro j k y z q hy hz hyq hzq
    simp only at hy hz
    by_cases ej : j = i
    · by_cases ek : k = i
      · omega
      · subst ej
        rw [List.getElem?_set_self hi] at hy
        rw [List.getElem?_set_ne (Ne.symm ek)] at hz
        cases hy
        exact absurd hyq.symm (other ek hz hzq).2
    · by_cases ek : k = i
      · subst ek
        rw [List.getElem?_set_self hi] at hz
        rw [List.getElem?_set_ne (Ne.symm ej)] at hy
        cases hz
        exact absurd hzq.symm (other ej hy hyq).2
      · rw [List.getElem?_set_ne (Ne.symm ej)] at hy
        rw [List.getElem?_set_ne (Ne.symm ek)] at hz
        exact hI.inj hy hz hyq hzq
  · intro q
    simp only
    constructor
    · intro hq
      by_cases e1 : some q = x'.ptr
      · exact ⟨i, x', List.getElem?_set_self hi, e1.symm⟩
      · by_cases e2 : q = p
        · subst e2
          exact absurd (hg (fun h => e1 h.symm)) hq
        · rw [hfr q e2 e1] at hq
          obtain ⟨j, y, hy, hyq⟩ := (hI.noleak q).1 hq
          have hj : j ≠ i := by
            rintro rfl
            rw [hx] at hy; cases hy
            rw [hp] at hyq; cases hyq; exact e2 rfl
          exact ⟨j, y, by rw [List.getElem?_set_ne (Ne.symm hj)]; exact hy, hyq⟩
    · rintro ⟨j, y, hy, hyq⟩
      by_cases e : j = i
      · subst e
        rw [List.getElem?_set_self hi] at hy
        cases hy
        exact hlive q hyq
      · rw [List.getElem?_set_ne (Ne.symm e)] at hy
        obtain ⟨n1, n2⟩ := other e hy hyq
        rw [hfr q n1 n2]
        exact (hI.noleak q).2 ⟨j, y, hy, hyq⟩

theorem Inv.moved [Build] {w : World} {l : List Slot} (hI : Inv w l) {i : Nat} {b : Buf} {p : Nat} (hx : w.regs[i]? = some (some (b.at p)))
    {h' : Heap} {q : Nat} {b' : Buf} (he : Ev w.heap p h' (some q)) (hq : h'.live q = some ⟨b'.cells, 2⟩) {a : Bin} {v : Val} (ho : Owned b' a)
    (hr : Represents a v) : Inv ⟨h', w.regs.set i (some (b'.at q))⟩ (l.set i (.val v)) := by
  refine hI.update hx rfl he.wf he.frame he.gone he.fresh ?_ ⟨q, b', a, rfl, hq, ho, hr⟩ (fun r e => ?_)
  · obtain ⟨m, em, hm⟩ := he.rel
    rw [em]
    intro r hr
    rcases List.mem_append.1 hr with hr | hr
    exacts [(hm r hr).1, hI.sizes r hr]
  · cases e; rw [hq]; simp

theorem Inv.nulled [Build] {w : World} {l : List Slot} (hI : Inv w l) {i : Nat} {b : Buf} {p : Nat} (hx : w.regs[i]? = some (some (b.at p)))
    {h' : Heap} (he : Ev w.heap p h' none) : Inv ⟨h', w.regs.set i (some { b.at p with ptr := none })⟩ (l.set i .null) := by
  refine hI.update hx rfl he.wf he.frame he.gone he.fresh ?_ rfl (fun r e => by cases e)
  obtain ⟨m, em, hm⟩ := he.rel
  rw [em]
  intro r hr
  rcases List.mem_append.1 hr with hr | hr
  exacts [(hm r hr).1, hI.sizes r hr]

/-- A new number. -/
theorem Inv.make [Build] {w : World} {l : List Slot} (hI : Inv w l) {b : Buf} {a : Bin} {v : Val} (ho : Owned b a) (hr : Represents a v) :
    Inv ⟨(HBuf.make w.heap b).2, w.regs ++ [some (HBuf.make w.heap b).1]⟩ (l ++ [.val v]) := by
  have hnone : w.heap.live w.heap.next = none := by
    by_contra hc; exact absurd (hI.wf.bound _ hc) (lt_irrefl _)
  have hne : ∀ {i : Nat} {x q}, w.regs[i]? = some (some x) → x.ptr = some q → q ≠ w.heap.next := by
    intro i x q hx hq
    have := hI.wf.bound q ((hI.noleak q).2 ⟨i, x, hx, hq⟩); omega
  have hcase : ∀ {i : Nat} {r}, (w.regs ++ [some (HBuf.make w.heap b).1])[i]? = some r →
      (w.regs[i]? = some r ∧ i < w.regs.length) ∨ (i = w.regs.length ∧ r = some (HBuf.make w.heap b).1) := by
    intro i r h
    by_cases hi : i < w.regs.length
    · rw [List.getElem?_append_left hi] at h; exact .inl ⟨h, hi⟩
    · rw [List.getElem?_append_right (by omega)] at h
      have : i - w.regs.length = 0 := by
        by_contra hc
        rw [List.getElem?_eq_none (by simp; omega)] at h; cases h
      rw [this] at h
      cases h
      exact .inr ⟨by omega, rfl⟩
  refine ⟨?_, by simp [hI.len], ?_, ?_, ?_, hI.sizes⟩
  · refine ⟨fun q hq => ?_, hI.wf.nodup, fun q => ?_⟩
    · simp only [HBuf.make, Heap.alloc] at hq ⊢
      by_cases e : q = w.heap.next
      · omega
      · rw [if_neg e] at hq; have := hI.wf.bound q hq; omega
    · simp only [HBuf.make, Heap.alloc, hI.wf.mem]
      by_cases e : q = w.heap.next
      · subst e; simp
      · rw [if_neg e]
        exact ⟨fun h => ⟨by omega, h.2⟩, fun h => ⟨by omega, h.2⟩⟩
  · intro i r s hr' hs
    rcases hcase hr' with ⟨h, hi⟩ | ⟨rfl, rfl⟩
    · rw [List.getElem?_append_left (by rw [← hI.len]; exact hi)] at hs
      have := hI.slot h hs
      match r, s, this with
      | none, .gone, _ => trivial
      | some y, .null, hy => exact hy
      | some y, .val v, ⟨q, c, a, ey, hq, ho, hv⟩ =>
        refine ⟨q, c, a, ey, ?_, ho, hv⟩
        simp only [HBuf.make, Heap.alloc]
        rw [if_neg (hne h (by rw [ey]; rfl))]; exact hq
    · rw [hI.len, List.getElem?_append_right (le_refl _), Nat.sub_self] at hs
      cases hs
      exact ⟨_, b, a, rfl, by simp [HBuf.make, Heap.alloc], ho, hr⟩
  · intro i j x y q hx hy hxq hyq
    rcases hcase hx with ⟨h1, _⟩ | ⟨e1, h1⟩ <;> rcases hcase hy with ⟨h2, _⟩ | ⟨e2, h2⟩
    · exact hI.inj h1 h2 hxq hyq
    · cases h2; cases hyq; exact absurd rfl (hne h1 hxq)
    · cases h1; cases hxq; exact absurd rfl (hne h2 hyq)
    · omega
  · intro q
    simp only [HBuf.make, Heap.alloc]
    by_cases e : q = w.heap.next
    · subst e
      simp only [if_true]
      exact ⟨fun _ => ⟨w.regs.length, _, by rw [List.getElem?_append_right (le_refl _), Nat.sub_self]; rfl, rfl⟩, fun _ => by simp⟩
    · rw [if_neg e, hI.noleak]
      constructor
      · rintro ⟨i, x, hx, hq⟩
        exact ⟨i, x, by rw [List.getElem?_append_left (List.getElem?_eq_some_iff.1 hx).1]; exact hx, hq⟩
      · rintro ⟨i, x, hx, hq⟩
        rcases hcase hx with ⟨h1, _⟩ | ⟨e1, h1⟩
        · exact ⟨i, x, h1, hq⟩
        · cases h1; cases hq; exact absurd rfl e

theorem clone_ok [Build] {h : Heap} {p : Nat} {b : Buf} {a : Bin} {v : Val} (hp : h.live p = some ⟨b.cells, 2⟩) (ho : Owned b a)
    (hr : Represents a v) : ∃ c a', (b.at p).clone h = .ok (HBuf.make h c) ∧ Owned c a' ∧ Represents a' v := by
  unfold HBuf.clone
  rw [HBuf.asNumeric_at hp, ho.asNumeric, bind_ok, ho.asBinary, bind_ok]
  cases v with
  | nan =>
    obtain ⟨c, ec, hc⟩ := Buf.nan_spec
    have e : a.asVar = .ok Var.nan := (Spec.IsNaN.facts hr).2.2
    exact ⟨c, _, by rw [e, bind_ok, show Buf.ofVar Var.nan = .ok c from ec]; rfl, hc, nan_isNaN⟩
  | num x s =>
    change Holds a x s at hr
    obtain ⟨u, hu, rfl, rfl, rfl⟩ := hr
    obtain ⟨c, ec, hc⟩ := Buf.ofVar_spec hu.storable
    exact ⟨c, _, by rw [Bin.asVar_encode hu.storable, bind_ok, ec]; rfl, hc, hu.holds⟩

theorem Inv.mutate [Build] {w : World} {l : List Slot} (hI : Inv w l) {i : Nat} {x : ℚ} {s : ℤ} (hl : l[i]? = some (.val (.num x s)))
    (op : MutOp) (hop : op.Ok) : ∃ w', memStep w (.mutate op i) = .ok w' ∧
      Inv w' (match op.exact (x, s) with | some (y, t) => l.set i (.val (.num y t)) | none => l.set i .null) := by
  obtain ⟨p, b, a, hx, hp, ho, ha⟩ := hI.get hl
  change Holds a x s at ha
  have hspec := step_spec ho ha op hop
  simp only [memStep, hx]
  cases op with
  | negate =>
    rcases hspec with ⟨h1, -⟩ | ⟨y, t, b', a', h1, h2, ho', ha'⟩
    · cases h1
    · simp only [stepBuf] at h2
      obtain ⟨b1, e, h2⟩ := bind_elim h2
      cases h2
      obtain ⟨h', q, e', he, hq⟩ := HBuf.negateMut_at hI.wf hp e
      exact ⟨_, by rw [e', bind_ok]; rfl, by rw [h1]; exact hI.moved hx he hq ho' (v := .num y t) ha'⟩
  | abs =>
    rcases hspec with ⟨h1, -⟩ | ⟨y, t, b', a', h1, h2, ho', ha'⟩
    · cases h1
    · simp only [stepBuf] at h2
      obtain ⟨b1, e, h2⟩ := bind_elim h2
      cases h2
      obtain ⟨h', q, e', he, hq⟩ := HBuf.absMut_at hI.wf hp e
      exact ⟨_, by rw [e', bind_ok]; rfl, by rw [h1]; exact hI.moved hx he hq ho' (v := .num y t) ha'⟩
  | trunc n =>
    dsimp only
    rcases hspec with ⟨h1, -⟩ | ⟨y, t, b', a', h1, h2, ho', ha'⟩
    · cases h1
    · simp only [stepBuf] at h2
      obtain ⟨b1, e, h2⟩ := bind_elim h2
      cases h2
      obtain ⟨h', q, e', he, hq⟩ := HBuf.truncMut_at hI.wf hp e
      exact ⟨_, by rw [e', bind_ok]; rfl, by rw [h1]; exact hI.moved hx he hq ho' (v := .num y t) ha'⟩
  | round n =>
    dsimp only
    rcases hspec with ⟨h1, h2⟩ | ⟨y, t, b', a', h1, h2, ho', ha'⟩
    · rcases HBuf.roundMut_at hI.wf hp h2 with ⟨b', h', q, e0, -⟩ | ⟨h', -, e', he⟩
      · cases e0
      · exact ⟨_, by rw [e', bind_ok]; rfl, by rw [h1]; exact hI.nulled hx he⟩
    · rcases HBuf.roundMut_at hI.wf hp h2 with ⟨b1, h', q, e0, e', he, hq⟩ | ⟨h', e0, -⟩
      · cases e0
        exact ⟨_, by rw [e', bind_ok]; rfl, by rw [h1]; exact hI.moved hx he hq ho' (v := .num y t) ha'⟩
      · cases e0
  | typmod pr k =>
    obtain ⟨t, ht⟩ := (C25_new_iff pr k).1 hop
    simp only [stepBuf, ht, bind_ok] at hspec
    simp only [ht, bind_ok]
    rcases hspec with ⟨h1, h2⟩ | ⟨y, u, b', a', h1, h2, ho', ha'⟩
    · obtain ⟨⟨r, f⟩, e, h2⟩ := bind_elim h2
      cases h2
      rcases HBuf.applyTypmod_at hI.wf hp e with ⟨b', h', q, e0, -⟩ | ⟨h', -, e', he⟩
      · cases e0
      · exact ⟨_, by rw [e', bind_ok]; rfl, by rw [h1]; exact hI.nulled hx he⟩
    · obtain ⟨⟨r, f⟩, e, h2⟩ := bind_elim h2
      cases h2
      rcases HBuf.applyTypmod_at hI.wf hp e with ⟨b1, h', q, e0, e', he, hq⟩ | ⟨h', e0, -⟩
      · cases e0
        exact ⟨_, by rw [e', bind_ok]; rfl, by rw [h1]; exact hI.moved hx he hq ho' (v := .num y u) ha'⟩
      · cases e0

theorem set_self {α : Type} {l : List α} {i : Nat} {x : α} (h : l[i]? = some x) : l.set i x = l := by
  apply List.ext_getElem?
  intro j
  by_cases e : j = i
  · subst e; rw [List.getElem?_set_self (List.getElem?_eq_some_iff.1 h).1, h]
  · rw [List.getElem?_set_ne (Ne.symm e)]

/-- Dropping a number: its allocation is released, with the right size but alignment 1. -/
theorem Inv.drop [Build] {w : World} {l : List Slot} (hI : Inv w l) {i : Nat} {v : Val} (hl : l[i]? = some (.val v)) :
    ∃ w' r, memStep w (.drop i) = .ok w' ∧ Inv w' (l.set i .gone) ∧ w'.heap.released = r :: w.heap.released ∧ r.align = 2 ∧ r.givenAlign = 1 := by
  obtain ⟨p, b, a, hx, hp, -, -⟩ := hI.get hl
  have hi : i < w.regs.length := (List.getElem?_eq_some_iff.1 hx).1
  have e0 : (b.at p).drop w.heap = .ok { w.heap with live := fun r => if r = p then none else w.heap.live r, released := ⟨p, 2 * b.cells.length, 2, 2 * b.cells.length, 1⟩ :: w.heap.released } := by
    simp only [HBuf.drop, Buf.at, Heap.free, hp]; rfl
  have hI' := hI.update (x' := { b.at p with ptr := none }) (s := .null) hx rfl (hI.wf.free (p := p) (by rw [hp]; simp) ⟨p, 2 * b.cells.length, 2, 2 * b.cells.length, 1⟩ rfl)
    (by intro q h1 _; simp only [if_neg h1]) (by intro _; simp) (by intro q e; cases e)
    (by intro r hr; rcases List.mem_cons.1 hr with rfl | hr; exacts [rfl, hI.sizes r hr]) rfl (by intro q e; cases e)
  refine ⟨_, _, by simp only [memStep, hx, e0, bind_ok]; rfl, ?_, rfl, rfl, rfl⟩
  have hil : i < l.length := by rw [← hI.len]; exact hi
  -- the register of a dropped number disappears
  refine ⟨hI'.wf, by simp [hI.len], ?_, ?_, ?_, hI'.sizes⟩
  · intro j r t hr ht
    simp only at hr ⊢
    by_cases e : j = i
    · subst e
      rw [List.getElem?_set_self hi] at hr
      rw [List.getElem?_set_self hil] at ht
      cases hr; cases ht; trivial
    · refine hI'.slot (i := j) ?_ ?_
      · simp only; rw [List.getElem?_set_ne (Ne.symm e)] at hr ⊢; exact hr
      · rw [List.getElem?_set_ne (Ne.symm e)] at ht ⊢; exact ht
  · intro j k y z q hy hz
    simp only at hy hz
    have key : ∀ {m : Nat} {y}, (w.regs.set i none)[m]? = some (some y) → (w.regs.set i (some { b.at p with ptr := none }))[m]? = some (some y) := by
      intro m y h
      by_cases e : m = i
      · subst e; rw [List.getElem?_set_self hi] at h; cases h
      · rw [List.getElem?_set_ne (Ne.symm e)] at h ⊢; exact h
    exact hI'.inj (key hy) (key hz)
  · intro q
    rw [hI'.noleak q]
    simp only
    constructor
    · rintro ⟨j, y, hy, hq⟩
      by_cases e : j = i
      · subst e; rw [List.getElem?_set_self hi] at hy; cases hy; cases hq
      · exact ⟨j, y, by rw [List.getElem?_set_ne (Ne.symm e)] at hy ⊢; exact hy, hq⟩
    · rintro ⟨j, y, hy, hq⟩
      by_cases e : j = i
      · subst e; rw [List.getElem?_set_self hi] at hy; cases hy
      · exact ⟨j, y, by rw [List.getElem?_set_ne (Ne.symm e)] at hy ⊢; exact hy, hq⟩

/-- A number left with a null pointer. -/
theorem Inv.getNull [Build] {w : World} {l : List Slot} (hI : Inv w l) {i : Nat} (hl : l[i]? = some .null) :
    ∃ x, w.regs[i]? = some (some x) ∧ x.ptr = none := by
  have hi : i < w.regs.length := by rw [hI.len]; exact (List.getElem?_eq_some_iff.1 hl).1
  have hr := List.getElem?_eq_getElem hi
  have hs := hI.slot hr hl
  cases hx : w.regs[i] with
  | none => rw [hx] at hs; exact absurd hs (by simp [SlotOk])
  | some x => rw [hx] at hs hr; exact ⟨x, hr, hs⟩

theorem Inv.dropNull [Build] {w : World} {l : List Slot} (hI : Inv w l) {i : Nat} (hl : l[i]? = some .null) :
    ∃ w', memStep w (.drop i) = .ok w' ∧ w'.heap = w.heap ∧ Inv w' (l.set i .gone) := by
  obtain ⟨x, hx, hn⟩ := hI.getNull hl
  have hi : i < w.regs.length := (List.getElem?_eq_some_iff.1 hx).1
  have hil : i < l.length := by rw [← hI.len]; exact hi
  refine ⟨⟨w.heap, w.regs.set i none⟩, by simp only [memStep, hx, HBuf.drop, hn, pure_ok, bind_ok], rfl, hI.wf, by simp [hI.len], ?_, ?_, ?_, hI.sizes⟩
  · intro j r t hr ht
    simp only at hr ⊢
    by_cases e : j = i
    · subst e
      rw [List.getElem?_set_self hi] at hr
      rw [List.getElem?_set_self hil] at ht
      cases hr; cases ht; trivial
    · rw [List.getElem?_set_ne (Ne.symm e)] at hr ht
      exact hI.slot hr ht
  · intro j k y z q hy hz
    simp only at hy hz
    have key : ∀ {m : Nat} {y}, (w.regs.set i none)[m]? = some (some y) → w.regs[m]? = some (some y) := by
      intro m y h
      by_cases e : m = i
      · subst e; rw [List.getElem?_set_self hi] at h; cases h
      · rw [List.getElem?_set_ne (Ne.symm e)] at h; exact h
    exact hI.inj (key hy) (key hz)
  · intro q
    rw [hI.noleak q]
    simp only
    constructor
    · rintro ⟨j, y, hy, hq⟩
      by_cases e : j = i
      · subst e; rw [hx] at hy; cases hy; rw [hn] at hq; cases hq
      · exact ⟨j, y, by rw [List.getElem?_set_ne (Ne.symm e)]; exact hy, hq⟩
    · rintro ⟨j, y, hy, hq⟩
      by_cases e : j = i
      · subst e; rw [List.getElem?_set_self hi] at hy; cases hy
      · exact ⟨j, y, by rw [List.getElem?_set_ne (Ne.symm e)] at hy; exact hy, hq⟩

theorem step_inv [Build] {w : World} {l l' : List Slot} {op : MemOp} (hI : Inv w l) (hs : MemStep op l l') :
    ∃ w', memStep w op = .ok w' ∧ Inv w' l' := by
  cases hs with
  | make ho hr => exact ⟨_, rfl, hI.make ho hr⟩
  | copy hl =>
    obtain ⟨p, b, a, hx, hp, ho, hr⟩ := hI.get hl
    obtain ⟨c, a', e, ho', hr'⟩ := clone_ok hp ho hr
    exact ⟨_, by simp only [memStep, hx, e, bind_ok]; rfl, hI.make ho' hr'⟩
  | done hl hop he =>
    obtain ⟨w', e, hI'⟩ := hI.mutate hl _ hop
    rw [he] at hI'
    exact ⟨w', e, hI'⟩
  | overflow hl hop he =>
    obtain ⟨w', e, hI'⟩ := hI.mutate hl _ hop
    rw [he] at hI'
    exact ⟨w', e, hI'⟩
  | @nan op i _ hl hop =>
    obtain ⟨p, b, a, hx, hp, ho, hr⟩ := hI.get hl
    change IsNaN a at hr
    have fin : ∀ {h' q}, Ev w.heap p h' (some q) → h'.live q = some ⟨b.cells, 2⟩ → Inv ⟨h', w.regs.set i (some (b.at q))⟩ l := by
      intro h' q he hq
      have := hI.moved hx he hq ho (v := .nan) hr
      rwa [set_self hl] at this
    simp only [memStep, hx]
    cases op with
    | negate =>
      obtain ⟨h', q, e', he, hq⟩ := HBuf.negateMut_at hI.wf hp (Buf.mut_nan ho hr 0).1
      exact ⟨_, by rw [e', bind_ok]; rfl, fin he hq⟩
    | abs =>
      obtain ⟨h', q, e', he, hq⟩ := HBuf.absMut_at hI.wf hp (Buf.mut_nan ho hr 0).2.1
      exact ⟨_, by rw [e', bind_ok]; rfl, fin he hq⟩
    | round n =>
      dsimp only
      rcases HBuf.roundMut_at hI.wf hp (Buf.mut_nan ho hr n).2.2.1 with ⟨b1, h', q, e0, e', he, hq⟩ | ⟨h', e0, -⟩
      · cases e0
        exact ⟨_, by rw [e', bind_ok]; rfl, fin he hq⟩
      · cases e0
    | trunc n =>
      dsimp only
      obtain ⟨h', q, e', he, hq⟩ := HBuf.truncMut_at hI.wf hp (Buf.mut_nan ho hr n).2.2.2
      exact ⟨_, by rw [e', bind_ok]; rfl, fin he hq⟩
    | typmod pr k => exact absurd rfl (hop pr k)
  | drop hl =>
    obtain ⟨w', -, e, hI', -⟩ := hI.drop hl
    exact ⟨w', e, hI'⟩
  | dropNull hl =>
    obtain ⟨w', e, -, hI'⟩ := hI.dropNull hl
    exact ⟨w', e, hI'⟩

theorem run_inv [Build] {prog : List MemOp} {w : World} {l l' : List Slot} (hI : Inv w l) (hs : MemRun prog l l') :
    ∃ w', memRun prog w = .ok w' ∧ Inv w' l' := by
  induction hs generalizing w with
  | nil => exact ⟨w, rfl, hI⟩
  | cons hst _ ih =>
    obtain ⟨w1, e, hI1⟩ := step_inv hI hst
    obtain ⟨w2, e2, hI2⟩ := ih hI1
    exact ⟨w2, by simp only [memRun, e, bind_ok]; exact e2, hI2⟩

/-- C60: any program that creates, clones, changes in place and drops numbers runs without use after free, double free or null access
(as long as it does not use a number left null), and at its end: every number it still owns reads as its exact value; no two share an
allocation; the live allocations are exactly those of the numbers it owns; every other allocation ever made was released, exactly once,
with its size. -/
theorem C60_history [Build] {prog : List MemOp} {slots : List Slot} (h : MemRun prog [] slots) :
    ∃ w, memRun prog start = .ok w ∧ w.regs.length = slots.length ∧
      (∀ (i : ℕ) r s, w.regs[i]? = some r → slots[i]? = some s → Agrees w.heap r s) ∧
      (∀ (i j : ℕ) x y q, w.regs[i]? = some (some x) → w.regs[j]? = some (some y) → x.ptr = some q → y.ptr = some q → i = j) ∧
      (∀ q, w.heap.live q ≠ none ↔ ∃ (i : ℕ) (x : HBuf), w.regs[i]? = some (some x) ∧ x.ptr = some q) ∧
      (w.heap.released.map Release.ptr).Nodup ∧
      (∀ q, q ∈ w.heap.released.map Release.ptr ↔ q < w.heap.next ∧ w.heap.live q = none) ∧
      ∀ r ∈ w.heap.released, r.givenSize = r.size := by
  obtain ⟨w, e, hI⟩ := run_inv Inv.start h
  exact ⟨w, e, hI.len, fun i r s hr hs => (hI.slot hr hs).agrees, fun i j x y q h1 h2 h3 h4 => hI.inj h1 h2 h3 h4, hI.noleak, hI.wf.nodup,
    hI.wf.mem, hI.sizes⟩

/-- C60: a program that has dropped everything has released everything: as many releases as allocations, each allocation once. -/
theorem C60_no_leak [Build] {prog : List MemOp} {slots : List Slot} (h : MemRun prog [] slots) (hg : ∀ s ∈ slots, s = .gone) :
    ∃ w, memRun prog start = .ok w ∧ (∀ q, w.heap.live q = none) ∧ (w.heap.released.map Release.ptr).Perm (List.range w.heap.next) := by
  obtain ⟨w, e, hI⟩ := run_inv Inv.start h
  have hl : ∀ q, w.heap.live q = none := by
    intro q
    by_contra hc
    obtain ⟨i, x, hx, hq⟩ := (hI.noleak q).1 hc
    have hi : i < slots.length := by rw [← hI.len]; exact (List.getElem?_eq_some_iff.1 hx).1
    have := hI.slot hx (List.getElem?_eq_getElem hi)
    rw [hg _ (List.getElem_mem hi)] at this
    exact this
  refine ⟨w, e, hl, (List.perm_ext_iff_of_nodup hI.wf.nodup List.nodup_range).2 (fun q => ?_)⟩
  rw [hI.wf.mem, List.mem_range]
  simp [hl]

/-- C60 (a defect): dropping a number, at the end of whatever program, releases its allocation with alignment 1, although it was made
with alignment 2. `GlobalAlloc::dealloc` requires the same layout. -/
theorem C60_drop_alignment [Build] {prog : List MemOp} {slots : List Slot} (h : MemRun prog [] slots) {i : ℕ} {v : Val}
    (hi : slots[i]? = some (.val v)) :
    ∃ w w' r, memRun prog start = .ok w ∧ memStep w (.drop i) = .ok w' ∧ w'.heap.released = r :: w.heap.released ∧
      r.align = 2 ∧ r.givenAlign = 1 := by
  obtain ⟨w, e, hI⟩ := run_inv Inv.start h
  obtain ⟨w', r, e', -, h1, h2, h3⟩ := hI.drop hi
  exact ⟨w, w', r, e, e', h1, h2, h3⟩

/-- C60 (a defect): after a `round_mut` that panicked or an `apply_typmod` that overflowed the format, the number holds a null pointer.
Dropping it releases nothing a second time, but reading it is a null dereference, in a safe function. -/
theorem C60_null [Build] {prog : List MemOp} {slots : List Slot} (h : MemRun prog [] slots) {i : ℕ} (hi : slots[i]? = some .null) :
    ∃ w x w', memRun prog start = .ok w ∧ w.regs[i]? = some (some x) ∧ x.asNumeric w.heap = .error .oob ∧
      memStep w (.drop i) = .ok w' ∧ w'.heap = w.heap := by
  obtain ⟨w, e, hI⟩ := run_inv Inv.start h
  obtain ⟨x, hx, hn⟩ := hI.getNull hi
  obtain ⟨w', e', e2, -⟩ := hI.dropNull hi
  refine ⟨w, x, w', e, hx, ?_, e', e2⟩
  simp only [HBuf.asNumeric, HBuf.view, Heap.read, hn]
  rfl

/-- Non-vacuity: a number just below the limit is created and cloned, the first is rounded to an integer and overflows, the clone is negated; both
are dropped. The program meets the hypotheses of all four theorems on its way. -/
example [Build] : ∃ b, ∃ slots, MemRun [.make b, .copy 0, .mutate (.round 0) 0, .mutate .negate 1] [] slots ∧
    slots = [.null, .val (.num (-(limit - 1/2)) 1)] ∧
    MemRun [.make b, .copy 0, .mutate (.round 0) 0, .mutate .negate 1, .drop 0, .drop 1] [] [.gone, .gone] := by
  have hpos : (10:ℚ) < limit := by
    unfold limit
    exact lt_of_lt_of_le (by norm_num) (pow_le_pow_right₀ (by norm_num) (show 2 ≤ 131072 by norm_num))
  have hr : roundHalfAway (limit - 1/2) 0 = limit := by
    unfold roundHalfAway
    rw [if_neg (by linarith)]
    have : ⌊(limit - 1/2) * 10 ^ (0:ℤ) + 1 / 2⌋ = 10 ^ 131072 := by
      rw [zpow_zero, mul_one, show limit - 1/2 + 1/2 = ((10 ^ 131072 : ℤ) : ℚ) by unfold limit; push_cast; ring]
      exact Int.floor_intCast _
    rw [this]; unfold limit; push_cast; simp
  obtain ⟨v, b, a, -, -, -, ho, ha⟩ := C37_fresh (x := limit - 1/2) (s := 1)
    (by
      obtain ⟨n, hn⟩ : ∃ n : ℤ, limit = n := ⟨10 ^ 131072, by unfold limit; rw [Int.cast_pow]; norm_num⟩
      rw [hn]
      refine ⟨n * 10 - 5, ?_⟩
      push_cast; norm_num; ring) (by norm_num) (by norm_num) (by rw [abs_of_pos (by linarith)]; linarith)
  have s1 : MemStep (.make b) [] [.val (.num (limit - 1/2) 1)] := .make ho (v := .num _ _) ha
  have s2 : MemStep (.copy 0) [.val (.num (limit - 1/2) 1)] [.val (.num (limit - 1/2) 1), .val (.num (limit - 1/2) 1)] := .copy rfl
  have s3 : MemStep (.mutate (.round 0) 0) [.val (.num (limit - 1/2) 1), .val (.num (limit - 1/2) 1)] [.null, .val (.num (limit - 1/2) 1)] := by
    refine .overflow rfl trivial ?_
    simp only [MutOp.exact]
    rw [show max (-1000) (min 1000 (0:ℤ)) = 0 by norm_num, hr, if_neg (by rw [abs_of_pos (by linarith)]; exact lt_irrefl _)]
  have s4 : MemStep (.mutate .negate 1) [.null, .val (.num (limit - 1/2) 1)] [.null, .val (.num (-(limit - 1/2)) 1)] := .done rfl trivial rfl
  exact ⟨b, _, .cons s1 (.cons s2 (.cons s3 (.cons s4 .nil))), rfl,
    .cons s1 (.cons s2 (.cons s3 (.cons s4 (.cons (.dropNull rfl) (.cons (.drop rfl) .nil)))))⟩

end PgNumeric.Props
