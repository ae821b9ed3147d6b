import Verif.Proofs.Heap
/-!
# Each operation on the heap does what it does on a buffer, and touches nothing else
-/
namespace PgNumeric

/-- The variable `o` with its digits in the allocation `p`. -/
def OVar.at (o : OVar) (p : Nat) : HVar := ⟨o.ndigits, o.weight, o.dscale, o.sign, ⟨some p, o.data.cells.length, o.data.offset⟩⟩

/-- The buffer `b` with its bytes in the allocation `p`. -/
def Buf.at (b : Buf) (p : Nat) : HBuf := ⟨some p, 2 * b.cells.length, b.hoff⟩

theorem HVar.view_at {h : Heap} {o : OVar} {p : Nat} (hp : h.live p = some ⟨o.data.cells, 2⟩) : (o.at p).view h = .ok o := by
  simp only [HVar.view, OVar.at, Heap.read, hp, pure_ok, bind_ok, if_true]

theorem HBuf.view_at {h : Heap} {b : Buf} {p : Nat} (hp : h.live p = some ⟨b.cells, 2⟩) : (b.at p).view h = .ok b := by
  simp only [HBuf.view, Buf.at, Heap.read, hp, pure_ok, bind_ok, if_true]

theorem HVar.commit_at {h h1 : Heap} {p q : Nat} {o r : OVar} (he : Ev h p h1 (some q)) (hq : h1.live q = some ⟨o.data.cells, 2⟩)
    (hl : r.data.cells.length = o.data.cells.length) :
    ∃ h2, (o.at q).commit h1 r = .ok (r.at q, h2) ∧ Ev h p h2 (some q) ∧ h2.live q = some ⟨r.data.cells, 2⟩ := by
  obtain ⟨h2, e, he', hq'⟩ := he.write hq hl
  refine ⟨h2, ?_, he', hq'⟩
  unfold HVar.commit
  simp only [OVar.at, e, bind_ok, pure_ok, hl]

theorem HVar.roundCommon_at [Build] {h : Heap} {p : Nat} {o r : OVar} {n : Int} (hw : h.WF) (hp : h.live p = some ⟨o.data.cells, 2⟩)
    (e : o.roundCommon n = .ok r) :
    ∃ h' q, (o.at p).roundCommon h n = .ok (r.at q, h') ∧ Ev h p h' (some q) ∧ h'.live q = some ⟨r.data.cells, 2⟩ := by
  unfold HVar.roundCommon
  by_cases ht : Touches o.weight o.ndigits n
  · obtain ⟨d, ed, er, hoff⟩ := OVar.roundCommon_reserve e ht
    by_cases ho : o.data.offset ≤ HEADER_CELLS
    · obtain ⟨h1, e1, he1, hq1⟩ := Ev.move (c := d.cells) hw hp
      have hres : (o.at p).reserve h = .ok (OVar.at { o with data := d } h.next, h1) := by
        unfold HVar.reserve
        rw [dassert_ok (by exact ht.2.2), bind_ok, if_pos (by exact ho), HVar.view_at hp, bind_ok]
        simp only [OVar.at, ed, bind_ok, HData.drop]
        rw [show (h.alloc d.cells).1 = h.next from rfl, e1]
        rfl
      obtain ⟨h2, e2, he2, hq2⟩ := HVar.commit_at (o := { o with data := d }) he1 hq1 (OVar.roundCommon_len er (fun _ => hoff))
      refine ⟨h2, h.next, ?_, he2, hq2⟩
      dsimp only
      rw [if_pos (by exact ht), hres, bind_ok]
      dsimp only
      rw [HVar.view_at (o := { o with data := d }) hq1, bind_ok, er, bind_ok, e2]
    · have hd : d = o.data := by
        unfold Data.reserveRoundingDigit at ed
        have ed := dassert_elim ed
        rw [if_neg ho] at ed
        cases ed; rfl
      subst hd
      have hres : (o.at p).reserve h = .ok (o.at p, h) := by
        unfold HVar.reserve
        rw [dassert_ok (by exact ht.2.2), bind_ok, if_neg (by exact ho)]; rfl
      obtain ⟨h2, e2, he2, hq2⟩ := HVar.commit_at (Ev.refl hw) hp (OVar.roundCommon_len er (fun _ => hoff))
      refine ⟨h2, p, ?_, he2, hq2⟩
      dsimp only
      rw [if_pos (by exact ht), hres, bind_ok]
      dsimp only
      rw [HVar.view_at hp, bind_ok, e, bind_ok]
      exact e2
  · obtain ⟨h2, e2, he2, hq2⟩ := HVar.commit_at (Ev.refl hw) hp (OVar.roundCommon_len e (fun h => absurd h ht))
    refine ⟨h2, p, ?_, he2, hq2⟩
    dsimp only
    rw [if_neg (by exact ht), pure_ok, bind_ok]
    dsimp only
    rw [HVar.view_at hp, bind_ok, e, bind_ok]
    exact e2

theorem HVar.round_at [Build] {h : Heap} {p : Nat} {o r : OVar} {n : Int} (hw : h.WF) (hp : h.live p = some ⟨o.data.cells, 2⟩)
    (e : o.round n = .ok r) :
    ∃ h' q, (o.at p).round h n = .ok (r.at q, h') ∧ Ev h p h' (some q) ∧ h'.live q = some ⟨r.data.cells, 2⟩ := by
  unfold OVar.round at e
  unfold HVar.round
  obtain ⟨u, hu, e⟩ := bind_elim e
  dsimp only at e
  obtain ⟨r', e1, e⟩ := bind_elim e
  obtain ⟨h', q, e2, he, hq⟩ := HVar.roundCommon_at hw hp e1
  refine ⟨h', q, ?_, he, ?_⟩
  · rw [show dassert ((o.at p).sign ≠ .nan) = .ok u from hu, bind_ok]
    dsimp only
    rw [e2, bind_ok]
    cases e
    dsimp only
    split <;> rfl
  · cases e
    split <;> exact hq

theorem HVar.intoBuf_at [Build] {h h1 : Heap} {p q : Nat} {o : OVar} {b : Buf} (he : Ev h p h1 (some q)) (hq : h1.live q = some ⟨o.data.cells, 2⟩)
    (e : o.intoBuf = .ok b) :
    ∃ h2, (o.at q).intoBuf h1 = .ok (b.at q, h2) ∧ Ev h p h2 (some q) ∧ h2.live q = some ⟨b.cells, 2⟩ := by
  have hl := OVar.intoBuf_len e
  obtain ⟨h2, e2, he', hq'⟩ := he.write hq hl
  refine ⟨h2, ?_, he', hq'⟩
  unfold HVar.intoBuf
  rw [HVar.view_at hq, bind_ok, e, bind_ok]
  simp only [OVar.at, e2, bind_ok, pure_ok, Buf.at, hl, Nat.mul_comm]

theorem HVar.finishNoOverflow_at [Build] {h h1 : Heap} {p q : Nat} {o : OVar} {b : Buf} (he : Ev h p h1 (some q))
    (hq : h1.live q = some ⟨o.data.cells, 2⟩) (e : o.finishNoOverflow = .ok b) :
    ∃ h2, (o.at q).finishNoOverflow h1 = .ok (b.at q, h2) ∧ Ev h p h2 (some q) ∧ h2.live q = some ⟨b.cells, 2⟩ := by
  unfold OVar.finishNoOverflow at e
  obtain ⟨u, hu, e⟩ := bind_elim e
  obtain ⟨s, es, e⟩ := bind_elim e
  obtain ⟨h2, e2, he2, hq2⟩ := HVar.commit_at he hq (by rw [OVar.strip_cells es])
  obtain ⟨h3, e3, he3, hq3⟩ := HVar.intoBuf_at he2 hq2 e
  refine ⟨h3, ?_, he3, hq3⟩
  unfold HVar.finishNoOverflow
  rw [show dassert ((o.at q).sign ≠ .nan) = .ok u from hu, bind_ok, HVar.view_at hq, bind_ok, es, bind_ok, e2, bind_ok]
  exact e3

theorem HVar.finish_some_at [Build] {h h1 : Heap} {p q : Nat} {o : OVar} {b : Buf} (he : Ev h p h1 (some q))
    (hq : h1.live q = some ⟨o.data.cells, 2⟩) (e : o.finish = .ok (some b)) :
    ∃ h2, (o.at q).finish h1 = .ok (some (b.at q), h2) ∧ Ev h p h2 (some q) ∧ h2.live q = some ⟨b.cells, 2⟩ := by
  unfold OVar.finish at e
  obtain ⟨u, hu, e⟩ := bind_elim e
  obtain ⟨u', hu', e⟩ := bind_elim e
  split at e
  · cases e
  · rename_i hc
    obtain ⟨b', eb, e⟩ := bind_elim e
    cases e
    obtain ⟨h2, e2, he2, hq2⟩ := HVar.finishNoOverflow_at he hq eb
    refine ⟨h2, ?_, he2, hq2⟩
    unfold HVar.finish
    rw [show dassert ((o.at q).sign ≠ .nan) = .ok u from hu, bind_ok, show dassert ((o.at q).dscale ≥ 0) = .ok u' from hu', bind_ok,
      if_neg (by exact hc), e2]
    rfl

theorem HVar.finish_none_at [Build] {h h1 : Heap} {p q : Nat} {o : OVar} (hw : h.WF) (he : Ev h p h1 (some q))
    (hq : h1.live q = some ⟨o.data.cells, 2⟩) (e : o.finish = .ok none) :
    ∃ h2, (o.at q).finish h1 = .ok (none, h2) ∧ Ev h p h2 none := by
  unfold OVar.finish at e
  obtain ⟨u, hu, e⟩ := bind_elim e
  obtain ⟨u', hu', e⟩ := bind_elim e
  split at e
  · rename_i hc
    obtain ⟨h2, e2, he2⟩ := he.free hw hq
    refine ⟨h2, ?_, he2⟩
    unfold HVar.finish
    rw [show dassert ((o.at q).sign ≠ .nan) = .ok u from hu, bind_ok, show dassert ((o.at q).dscale ≥ 0) = .ok u' from hu', bind_ok,
      if_pos (by exact hc)]
    simp only [HData.drop, OVar.at, e2, bind_ok, pure_ok]
  · obtain ⟨b', eb, e⟩ := bind_elim e
    cases e

theorem Buf.intoVar_cells [Build] {b : Buf} {o : OVar} (e : b.intoVar = .ok o) : o.data.cells = b.cells := by
  unfold Buf.intoVar at e
  obtain ⟨a, -, e⟩ := bind_elim e
  obtain ⟨_, -, e⟩ := bind_elim e
  dsimp only at e
  have e := dassert_elim e
  split at e
  · cases e
  · obtain ⟨w, -, e⟩ := bind_elim e
    have e := dassert_elim e
    cases e; rfl

theorem HBuf.asVarOwned_at [Build] {h : Heap} {p : Nat} {b : Buf} {o : OVar} (hp : h.live p = some ⟨b.cells, 2⟩) (e : b.intoVar = .ok o) :
    (b.at p).asVarOwned h = .ok (o.at p, { b.at p with ptr := none }) ∧ h.live p = some ⟨o.data.cells, 2⟩ := by
  have hc := Buf.intoVar_cells e
  refine ⟨?_, by rw [hc]; exact hp⟩
  unfold HBuf.asVarOwned
  rw [HBuf.view_at hp, bind_ok, e, bind_ok]
  simp only [Buf.at, OVar.at, hc, pure_ok]
  congr 5
  omega

theorem HBuf.assign_null (h : Heap) (b n : HBuf) : HBuf.assign h { b with ptr := none } n = .ok (n, h) := rfl

theorem HBuf.asNumeric_at [Build] {h : Heap} {p : Nat} {b : Buf} (hp : h.live p = some ⟨b.cells, 2⟩) : (b.at p).asNumeric h = b.asNumeric := by
  unfold HBuf.asNumeric
  rw [HBuf.view_at hp]; rfl

/-- The operation on the heap succeeds like the one on the buffer, and moves its allocation only. -/
def Ref (h : Heap) (p : Nat) (m : M (HBuf × Heap)) (b' : Buf) : Prop :=
  ∃ h' q, m = .ok (b'.at q, h') ∧ Ev h p h' (some q) ∧ h'.live q = some ⟨b'.cells, 2⟩

theorem HBuf.negateMut_at [Build] {h : Heap} {p : Nat} {b b' : Buf} (hw : h.WF) (hp : h.live p = some ⟨b.cells, 2⟩)
    (e : b.negateMut = .ok b') : Ref h p ((b.at p).negateMut h) b' := by
  unfold Buf.negateMut at e
  unfold HBuf.negateMut
  rw [HBuf.asNumeric_at hp]
  obtain ⟨a, ea, e⟩ := bind_elim e
  obtain ⟨u, hu, e⟩ := bind_elim e
  rw [ea, bind_ok, hu, bind_ok]
  split at e
  · rename_i hn
    cases e
    rw [if_pos hn]
    exact ⟨h, p, rfl, Ev.refl hw, hp⟩
  · rename_i hn
    rw [if_neg hn]
    obtain ⟨o, eo, e⟩ := bind_elim e
    obtain ⟨o1, e1, e⟩ := bind_elim e
    obtain ⟨x1, x2⟩ := HBuf.asVarOwned_at hp eo
    obtain ⟨h2, y1, y2, y3⟩ := HVar.commit_at (Ev.refl hw) x2 (by rw [OVar.negate_data e1])
    obtain ⟨h3, z1, z2, z3⟩ := HVar.intoBuf_at y2 y3 e
    refine ⟨h3, p, ?_, z2, z3⟩
    rw [x1, bind_ok]
    simp only [HVar.negate]
    rw [HVar.view_at x2, bind_ok, e1, bind_ok, y1, bind_ok]
    dsimp only
    rw [z1, bind_ok]
    rfl

theorem HBuf.absMut_at [Build] {h : Heap} {p : Nat} {b b' : Buf} (hw : h.WF) (hp : h.live p = some ⟨b.cells, 2⟩)
    (e : b.absMut = .ok b') : Ref h p ((b.at p).absMut h) b' := by
  unfold Buf.absMut at e
  unfold HBuf.absMut
  rw [HBuf.asNumeric_at hp]
  obtain ⟨a, ea, e⟩ := bind_elim e
  obtain ⟨u, hu, e⟩ := bind_elim e
  rw [ea, bind_ok, hu, bind_ok]
  split at e
  · rename_i hn
    cases e
    rw [if_pos hn]
    exact ⟨h, p, rfl, Ev.refl hw, hp⟩
  · rename_i hn
    rw [if_neg hn]
    split at e
    · rename_i hg
      rw [if_pos hg]
      obtain ⟨o, eo, e⟩ := bind_elim e
      obtain ⟨o1, e1, e⟩ := bind_elim e
      obtain ⟨x1, x2⟩ := HBuf.asVarOwned_at hp eo
      obtain ⟨h2, y1, y2, y3⟩ := HVar.commit_at (Ev.refl hw) x2 (by rw [OVar.abs_data e1])
      obtain ⟨h3, z1, z2, z3⟩ := HVar.intoBuf_at y2 y3 e
      refine ⟨h3, p, ?_, z2, z3⟩
      rw [x1, bind_ok]
      simp only [HVar.abs]
      rw [HVar.view_at x2, bind_ok, e1, bind_ok, y1, bind_ok]
      dsimp only
      rw [z1, bind_ok]
      rfl
    · rename_i hg
      cases e
      rw [if_neg hg]
      exact ⟨h, p, rfl, Ev.refl hw, hp⟩

theorem HBuf.truncMut_at [Build] {h : Heap} {p : Nat} {b b' : Buf} {n : Int} (hw : h.WF) (hp : h.live p = some ⟨b.cells, 2⟩)
    (e : b.truncMut n = .ok b') : Ref h p ((b.at p).truncMut h n) b' := by
  unfold Buf.truncMut at e
  unfold HBuf.truncMut
  rw [HBuf.asNumeric_at hp]
  obtain ⟨a, ea, e⟩ := bind_elim e
  obtain ⟨u, hu, e⟩ := bind_elim e
  rw [ea, bind_ok, hu, bind_ok]
  split at e
  · rename_i hn
    cases e
    rw [if_pos hn]
    exact ⟨h, p, rfl, Ev.refl hw, hp⟩
  · rename_i hn
    rw [if_neg hn]
    obtain ⟨o, eo, e⟩ := bind_elim e
    obtain ⟨o1, e1, e⟩ := bind_elim e
    obtain ⟨x1, x2⟩ := HBuf.asVarOwned_at hp eo
    obtain ⟨h2, y1, y2, y3⟩ := HVar.commit_at (Ev.refl hw) x2 (OVar.trunc_len e1)
    obtain ⟨h3, z1, z2, z3⟩ := HVar.finishNoOverflow_at y2 y3 e
    refine ⟨h3, p, ?_, z2, z3⟩
    rw [x1, bind_ok]
    simp only [HVar.trunc]
    rw [HVar.view_at x2, bind_ok, e1, bind_ok, y1, bind_ok]
    dsimp only
    rw [z1, bind_ok]
    rfl

theorem HBuf.roundMut_at [Build] {h : Heap} {p : Nat} {b : Buf} {r : Option Buf} {n : Int} (hw : h.WF) (hp : h.live p = some ⟨b.cells, 2⟩)
    (e : b.roundMut n = .ok r) :
    (∃ b' h' q, r = some b' ∧ (b.at p).roundMut h n = .ok (false, b'.at q, h') ∧ Ev h p h' (some q) ∧ h'.live q = some ⟨b'.cells, 2⟩) ∨
    (∃ h', r = none ∧ (b.at p).roundMut h n = .ok (true, { b.at p with ptr := none }, h') ∧ Ev h p h' none) := by
  unfold Buf.roundMut at e
  unfold HBuf.roundMut
  rw [HBuf.asNumeric_at hp]
  obtain ⟨a, ea, e⟩ := bind_elim e
  obtain ⟨u, hu, e⟩ := bind_elim e
  rw [ea, bind_ok, hu, bind_ok]
  split at e
  · rename_i hn
    cases e
    rw [if_pos hn]
    exact .inl ⟨b, h, p, rfl, rfl, Ev.refl hw, hp⟩
  · rename_i hn
    rw [if_neg hn]
    obtain ⟨o, eo, e⟩ := bind_elim e
    obtain ⟨o1, e1, e⟩ := bind_elim e
    obtain ⟨x1, x2⟩ := HBuf.asVarOwned_at hp eo
    obtain ⟨h2, q, y1, y2, y3⟩ := HVar.round_at hw x2 e1
    cases r with
    | some b' =>
      obtain ⟨h3, z1, z2, z3⟩ := HVar.finish_some_at y2 y3 e
      refine .inl ⟨b', h3, q, rfl, ?_, z2, z3⟩
      rw [x1, bind_ok]
      dsimp only
      rw [y1, bind_ok]
      dsimp only
      rw [z1, bind_ok]
      rfl
    | none =>
      obtain ⟨h3, z1, z2⟩ := HVar.finish_none_at hw y2 y3 e
      refine .inr ⟨h3, rfl, ?_, z2⟩
      rw [x1, bind_ok]
      dsimp only
      rw [y1, bind_ok]
      dsimp only
      rw [z1, bind_ok]
      rfl

theorem HVar.applyTypmod_at [Build] {h : Heap} {p : Nat} {o : OVar} {r : OVar × Bool} {t : Typmod} (hw : h.WF)
    (hp : h.live p = some ⟨o.data.cells, 2⟩) (e : o.applyTypmod t = .ok r) :
    ∃ h' q, (o.at p).applyTypmod h t = .ok (r.1.at q, h', r.2) ∧ Ev h p h' (some q) ∧ h'.live q = some ⟨r.1.data.cells, 2⟩ := by
  unfold OVar.applyTypmod at e
  unfold HVar.applyTypmod
  split at e
  · rename_i hn
    cases e
    rw [if_pos hn]
    exact ⟨h, p, rfl, Ev.refl hw, hp⟩
  · rename_i hn
    rw [if_neg hn]
    obtain ⟨⟨pr, sc⟩, ex, e⟩ := bind_elim e
    obtain ⟨md, em, e⟩ := bind_elim e
    obtain ⟨r1, e1, e⟩ := bind_elim e
    obtain ⟨h2, q, y1, y2, y3⟩ := HVar.roundCommon_at hw hp e1
    obtain ⟨u, ef, e⟩ := bind_elim e
    obtain ⟨dd, ed, e⟩ := bind_elim e
    obtain ⟨u2, ef2, e⟩ := bind_elim e
    rw [ex, bind_ok]
    dsimp only
    rw [em, bind_ok, y1, bind_ok]
    dsimp only
    rw [show fits [(r1.at q).weight + 1] = .ok u from ef, bind_ok, show i32 (((r1.at q).weight + 1) * DEC_DIGITS) = .ok dd from ed, bind_ok,
      show fits [dd - (r1.at q).ndigits * DEC_DIGITS - 3] = .ok u2 from ef2, bind_ok]
    split at e
    · rename_i hc
      obtain ⟨ds, eds, e⟩ := bind_elim e
      cases e
      refine ⟨h2, q, ?_, y2, y3⟩
      rw [if_pos hc, HVar.view_at y3, bind_ok, eds, bind_ok]
      rfl
    · rename_i hc
      cases e
      refine ⟨h2, q, ?_, y2, y3⟩
      rw [if_neg hc]; rfl

theorem HBuf.applyTypmod_at [Build] {h : Heap} {p : Nat} {b : Buf} {r : Option Buf} {f : Bool} {t : Typmod} (hw : h.WF)
    (hp : h.live p = some ⟨b.cells, 2⟩) (e : b.applyTypmod t = .ok (r, f)) :
    (∃ b' h' q, r = some b' ∧ (b.at p).applyTypmod h t = .ok (f, b'.at q, h') ∧ Ev h p h' (some q) ∧ h'.live q = some ⟨b'.cells, 2⟩) ∨
    (∃ h', r = none ∧ (b.at p).applyTypmod h t = .ok (f, { b.at p with ptr := none }, h') ∧ Ev h p h' none) := by
  unfold Buf.applyTypmod at e
  unfold HBuf.applyTypmod
  obtain ⟨o, eo, e⟩ := bind_elim e
  obtain ⟨⟨o1, f1⟩, e1, e⟩ := bind_elim e
  obtain ⟨x1, x2⟩ := HBuf.asVarOwned_at hp eo
  obtain ⟨h2, q, y1, y2, y3⟩ := HVar.applyTypmod_at hw x2 e1
  dsimp only at e y1 y3
  obtain ⟨r1, er, e⟩ := bind_elim e
  rw [x1, bind_ok]
  dsimp only
  rw [y1, bind_ok]
  dsimp only
  cases r1 with
  | some b' =>
    cases e
    obtain ⟨h3, z1, z2, z3⟩ := HVar.finish_some_at y2 y3 er
    refine .inl ⟨b', h3, q, rfl, ?_, z2, z3⟩
    rw [z1, bind_ok]
    rfl
  | none =>
    cases e
    obtain ⟨h3, z1, z2⟩ := HVar.finish_none_at hw y2 y3 er
    refine .inr ⟨h3, rfl, ?_, z2⟩
    rw [z1, bind_ok]
    rfl

end PgNumeric
