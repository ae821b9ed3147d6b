import Verif.Proofs.Threads
/-!
# Threads: a call changes only the numbers it borrows mutably or takes
-/
namespace PgNumeric.Props
open PgNumeric Spec

/-- Number `g` is in the same place with the same contents, bit for bit. -/
def Untouched (w w' : World) (g : ℕ) : Prop :=
  ∀ x, w.regs[g]? = some (some x) → w'.regs[g]? = some (some x) ∧ ∀ q, x.ptr = some q → w'.heap.live q = w.heap.live q

theorem Untouched.refl (w : World) (g : ℕ) : Untouched w w g := fun _ h => ⟨h, fun _ _ => rfl⟩

theorem Untouched.trans {w w' w'' : World} {g : ℕ} (h : Untouched w w' g) (h' : Untouched w' w'' g) : Untouched w w'' g := by
  intro x hx
  obtain ⟨h1, h2⟩ := h x hx
  obtain ⟨h3, h4⟩ := h' x h1
  exact ⟨h3, fun q hq => (h4 q hq).trans (h2 q hq)⟩

theorem Inv.untouched_make [Build] {w : World} {l : List Slot} (hI : Inv w l) (b : Buf) (g : ℕ) :
    Untouched w ⟨(HBuf.make w.heap b).2, w.regs ++ [some (HBuf.make w.heap b).1]⟩ g := by
  intro x hx
  have hg : g < w.regs.length := (List.getElem?_eq_some_iff.1 hx).1
  refine ⟨by rw [List.getElem?_append_left hg]; exact hx, fun q hq => ?_⟩
  have := hI.wf.bound q ((hI.noleak q).2 ⟨g, x, hx, hq⟩)
  simp only [HBuf.make, Heap.alloc]
  rw [if_neg (by omega)]

theorem Inv.untouched_ev [Build] {w : World} {l : List Slot} (hI : Inv w l) {i g : ℕ} (hg : g ≠ i) {z : HBuf} (hz : w.regs[i]? = some (some z))
    {p : ℕ} (hp : z.ptr = some p) {h' : Heap} {p' : Option ℕ} (he : Ev w.heap p h' p') (r : Option HBuf) :
    Untouched w ⟨h', w.regs.set i r⟩ g := by
  intro x hx
  refine ⟨by show (w.regs.set i r)[g]? = _; rw [List.getElem?_set_ne (Ne.symm hg)]; exact hx, fun q hq => ?_⟩
  refine he.frame q (fun e => hg (hI.inj hx hz hq (e ▸ hp))) (fun e => ?_)
  rcases he.fresh q e.symm with h | h
  · exact hg (hI.inj hx hz hq (h ▸ hp))
  · have := hI.wf.bound q ((hI.noleak q).2 ⟨g, x, hx, hq⟩); omega

theorem Inv.untouched_drop [Build] {w w' : World} {l : List Slot} (hI : Inv w l) {i g : ℕ} (hg : g ≠ i)
    (h : memStep w (.drop i) = .ok w') : Untouched w w' g := by
  simp only [memStep] at h
  split at h
  case h_2 => cases h
  rename_i z hz
  obtain ⟨h', e, h⟩ := bind_elim h
  cases h
  intro x hx
  refine ⟨by show (w.regs.set i none)[g]? = _; rw [List.getElem?_set_ne (Ne.symm hg)]; exact hx, fun q hq => ?_⟩
  unfold HBuf.drop at e
  split at e
  · cases e; rfl
  · rename_i p hp
    have hne : q ≠ p := fun e => hg (hI.inj hx hz hq (e ▸ hp))
    unfold Heap.free at e
    split at e
    · cases e
    · cases e
      simp only [if_neg hne]

theorem caught_elim {w w' : World} {m : M (Answer × World)} {ans : Answer} (h : caught w m = .ok (ans, w')) :
    m = .ok (ans, w') ∨ w' = w := by
  unfold caught at h
  split at h
  · cases h; exact .inr rfl
  · cases h; exact .inr rfl
  · exact .inl h

theorem Inv.untouched_fresh [Build] {lay : ℕ → Bin → Buf} {w w' : World} {l : List Slot} (hI : Inv w l) {m : M Bin} {ans : Answer}
    (h : fresh lay w m = .ok (ans, w')) (g : ℕ) : Untouched w w' g := by
  rcases caught_elim h with h | rfl
  · obtain ⟨a, -, h⟩ := bind_elim h
    cases h
    exact hI.untouched_make _ g
  · exact .refl _ g

theorem Inv.untouched_freshOption [Build] {lay : ℕ → Bin → Buf} {w w' : World} {l : List Slot} (hI : Inv w l) {m : M (Option Bin)} {ans : Answer}
    (h : freshOption lay w m = .ok (ans, w')) (g : ℕ) : Untouched w w' g := by
  rcases caught_elim h with h | rfl
  · obtain ⟨a, -, h⟩ := bind_elim h
    cases a <;> cases h
    · exact .refl _ g
    · exact hI.untouched_make _ g
  · exact .refl _ g

theorem untouched_tell {w w' : World} {m : M Answer} {ans : Answer} (h : tell w m = .ok (ans, w')) (g : ℕ) : Untouched w w' g := by
  rcases caught_elim h with h | rfl
  · obtain ⟨a, -, h⟩ := bind_elim h
    cases h
    exact .refl _ g
  · exact .refl _ g

theorem untouched_moveLast {w : World} {i g : ℕ} (hg : g ≠ i) (hl : g + 1 < w.regs.length) : Untouched w (w.moveLast i) g := by
  intro x hx
  refine ⟨?_, fun _ _ => rfl⟩
  show (w.regs.dropLast.set i _)[g]? = _
  rw [List.getElem?_set_ne (Ne.symm hg), List.getElem?_dropLast, if_pos (by omega)]
  exact hx

theorem memStep_drop_length [Build] {w w' : World} {i : ℕ} (h : memStep w (.drop i) = .ok w') : w'.regs.length = w.regs.length := by
  simp only [memStep] at h
  split at h
  case h_2 => cases h
  obtain ⟨h', e, h⟩ := bind_elim h
  cases h
  simp

theorem assign_frame [Build] {lay : ℕ → Bin → Buf} (hg : GoodLayout lay) {w w' : World} {l : List Slot} (hI : Inv w l) {op : Op2}
    (hop : op ≠ .divTrunc) {i : ℕ} {u v : Val} (hu : l[i]? = some (.val u)) {a b : Bin} (ha : Represents a u) (hb : Represents b v)
    {ans : Answer} (h : w.assign lay i (callOp op a b) = .ok (ans, w')) {g : ℕ} (hgi : g ≠ i) : Untouched w w' g := by
  by_cases hlen : g < w.regs.length
  case neg => intro x hx; exact absurd (List.getElem?_eq_some_iff.1 hx).1 hlen
  rcases callOp_sim op hop ha hb with ⟨c, r, e, hc, hr⟩ | ⟨hn, hz, e⟩ | ⟨hn, hz, e⟩
  · rcases caught_elim h with h | rfl
    · rw [e, bind_ok] at h
      obtain ⟨w1, e1, h⟩ := bind_elim h
      cases h
      refine (hI.untouched_make _ g).trans (((hI.put hg hc).untouched_drop hgi e1).trans (untouched_moveLast hgi ?_))
      rw [memStep_drop_length e1]
      simp [World.put]; omega
    · exact .refl _ g
  · rw [e] at h; cases h; exact .refl _ g
  · rw [e] at h; cases h; exact .refl _ g

/-- A call leaves the numbers alone that it does not borrow mutably or take. -/
theorem callApi_frame [Build] {lm : Libm} (hlm : LibmOK lm) {lay : ℕ → Bin → Buf} (hg : GoodLayout lay) {w w' : World} {l : List Slot} (hI : Inv w l) {act : Act}
    (hl : act.Legal l) {ans : Answer} (h : callApi lm lay w act = .ok (ans, w')) {g : ℕ} (hc : g ∉ act.changes) : Untouched w w' g := by
  have look : ∀ {i j : ℕ} {u v : Val}, l[i]? = some (.val u) → l[j]? = some (.val v) → ∃ a b, w.get i = .ok a ∧ w.get j = .ok b ∧ Represents a u ∧ Represents b v := by
    intro i j u v hu hv
    obtain ⟨a, ea, hra⟩ := hI.look hu
    obtain ⟨b, eb, hrb⟩ := hI.look hv
    exact ⟨a, b, ea, eb, hra, hrb⟩
  cases act with
  | parse s =>
    simp only [callApi] at h
    rcases caught_elim h with h | rfl
    · obtain ⟨a, -, h⟩ := bind_elim h
      cases a <;> cases h
      · exact .refl _ g
      · exact hI.untouched_make _ g
    · exact .refl _ g
  | float wide f =>
    simp only [callApi] at h
    rcases caught_elim h with h | rfl
    · obtain ⟨a, -, h⟩ := bind_elim h
      cases a <;> cases h
      · exact .refl _ g
      · exact hI.untouched_make _ g
    · exact .refl _ g
  | int | zero | nan | bool => exact hI.untouched_fresh h g
  | factorial => exact hI.untouched_freshOption h g
  | op1 => obtain ⟨a, -, h⟩ := bind_elim h; exact hI.untouched_fresh h g
  | checked => obtain ⟨a, -, h⟩ := bind_elim h; obtain ⟨b, -, h⟩ := bind_elim h; exact hI.untouched_freshOption h g
  | operator => obtain ⟨a, -, h⟩ := bind_elim h; obtain ⟨b, -, h⟩ := bind_elim h; exact hI.untouched_fresh h g
  | reread => obtain ⟨a, -, h⟩ := bind_elim h; exact hI.untouched_freshOption h g
  | clone i =>
    obtain ⟨w1, e, h⟩ := bind_elim h
    cases h
    simp only [memStep] at e
    split at e
    case h_2 => cases e
    rename_i x hx
    obtain ⟨yh, e2, e⟩ := bind_elim e
    cases e
    unfold HBuf.clone at e2
    obtain ⟨_, -, e3⟩ := bind_elim e2
    obtain ⟨_, -, e4⟩ := bind_elim e3
    obtain ⟨_, -, e5⟩ := bind_elim e4
    obtain ⟨c, -, e6⟩ := bind_elim e5
    cases e6
    exact hI.untouched_make c g
  | cmp | eq | lt | le | sameHash =>
    obtain ⟨a, -, h⟩ := bind_elim h; obtain ⟨b, -, h⟩ := bind_elim h; exact untouched_tell h g
  | isNan | isNegative | isPositive | scaleOf | text | sci | normalize | toInt | toFloat | bytes =>
    obtain ⟨a, -, h⟩ := bind_elim h; exact untouched_tell h g
  | drop i =>
    obtain ⟨w1, e, h⟩ := bind_elim h
    cases h
    exact hI.untouched_drop (by simpa [Act.changes] using hc) e
  | mutate op i =>
    have hgi : g ≠ i := by simpa [Act.changes] using hc
    simp only [callApi] at h
    split at h
    case h_2 => cases h
    rename_i x hx
    obtain ⟨⟨a, y, h'⟩, e, h⟩ := bind_elim h
    cases h
    obtain ⟨hop, ⟨q, s, hs⟩ | ⟨hs, hnt⟩⟩ := hl
    · rcases callMut_num hI hs op hop with ⟨z, _, _, _, _, _, hz, e', -, -, -, p, hp, he⟩ | ⟨z, _, _, _, hz, e', -, -, -, p, hp, he⟩ <;>
      · rw [hx] at hz; cases hz
        rw [e] at e'; cases e'
        exact hI.untouched_ev hgi hx hp he _
    · obtain ⟨z, _, _, hz, e', -, p, hp, he⟩ := callMut_nan hI hs op hnt
      rw [hx] at hz; cases hz
      rw [e] at e'; cases e'
      exact hI.untouched_ev hgi hx hp he _
  | operatorTake op left right i j =>
    obtain ⟨hop, ⟨u, hu⟩, ⟨v, hv⟩, hij⟩ := hl
    obtain ⟨a, b, ea, eb, hra, hrb⟩ := look hu hv
    simp only [callApi, ea, eb, bind_ok] at h
    obtain ⟨ans1, l1, w1, e1, -, hI1, t, rfl⟩ := operator_sim hg hI hop hu hv hra hrb
    rw [e1, bind_ok] at h
    have hu' : (l ++ t)[i]? = some (.val u) := by rw [List.getElem?_append_left (List.getElem?_eq_some_iff.1 hu).1]; exact hu
    have hv' : (l ++ t)[j]? = some (.val v) := by rw [List.getElem?_append_left (List.getElem?_eq_some_iff.1 hv).1]; exact hv
    obtain ⟨w2, e2, hI2⟩ := hI1.take hv' right
    dsimp only at h
    rw [e2, bind_ok] at h
    obtain ⟨w3, e3, h⟩ := bind_elim h
    cases h
    refine (hI.untouched_fresh e1 g).trans (.trans (w' := w2) ?_ ?_)
    · cases right with
      | false => cases e2; exact .refl _ g
      | true => exact hI1.untouched_drop (by rintro rfl; simp [Act.changes] at hc) e2
    · cases left with
      | false => cases e3; exact .refl _ g
      | true => exact hI2.untouched_drop (by rintro rfl; simp [Act.changes] at hc) e3
  | assign op i j =>
    obtain ⟨hop, ⟨u, hu⟩, ⟨v, hv⟩, hij⟩ := hl
    obtain ⟨a, b, ea, eb, hra, hrb⟩ := look hu hv
    simp only [callApi, ea, eb, bind_ok] at h
    exact assign_frame hg hI hop hu hra hrb h (by simpa [Act.changes] using hc)
  | assignTake op i j =>
    obtain ⟨hop, ⟨u, hu⟩, ⟨v, hv⟩, hij⟩ := hl
    obtain ⟨a, b, ea, eb, hra, hrb⟩ := look hu hv
    simp only [callApi, ea, eb, bind_ok] at h
    simp only [Act.changes, List.mem_cons, List.not_mem_nil, or_false, not_or] at hc
    obtain ⟨ans1, l1, w1, e1, -, hI1, hv'⟩ := assign_sim hg hI hop hij hu hv hra hrb
    rw [e1, bind_ok] at h
    obtain ⟨w2, e2, h⟩ := bind_elim h
    cases h
    exact (assign_frame hg hI hop hu hra hrb e1 hc.1).trans (hI1.untouched_drop hc.2 e2)

end PgNumeric.Props
