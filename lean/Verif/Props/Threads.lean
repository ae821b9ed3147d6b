import Verif.Proofs.ThreadFrame
/-!
# Threads that share numbers (C66)
-/
namespace PgNumeric.Props
open PgNumeric Spec

theorem play_snoc [Build] {c : Client} {n : ℕ} {s : List Slot × List Answer} {l : List Slot} {h : List Answer} {act : Act} {ans : Answer}
    {l' : List Slot} (hp : Play c n s (l, h)) (e : c h = some act) (hs : Step act l ans l') : Play c (n + 1) s (l', h ++ [ans]) := by
  generalize ho : (l, h) = o at hp
  induction hp with
  | zero => subst ho; exact .step e hs .zero
  | stop e' => cases ho; rw [e] at e'; cases e'
  | step e1 s1 _ ih => exact .step e1 s1 (ih ho)

theorem play_idle [Build] {c : Client} {n : ℕ} {s : List Slot × List Answer} {l : List Slot} {h : List Answer} (hp : Play c n s (l, h))
    (e : c h = none) : Play c (n + 1) s (l, h) := by
  generalize ho : (l, h) = o at hp
  induction hp with
  | zero => subst ho; exact .stop e
  | stop e' => exact .stop e'
  | step e1 s1 _ ih => exact .step e1 s1 (ih ho)

/-- What thread `t` knows is true of the numbers `l`; `L` is the list of its numbers. -/
structure Knows [Build] (c : Client) (l0 : List Slot) (n : ℕ) (th : Thread) (l L : List Slot) : Prop where
  play : Play c n (l0, []) (L, th.hist)
  len : th.view.length = L.length
  more : l0.length ≤ L.length
  head : ∀ i, i < l0.length → th.view[i]? = some i
  nodup : th.view.Nodup
  agree : ∀ (i g : ℕ), th.view[i]? = some g → g < l.length ∧ l[g]? = L[i]?

structure SysInv [Build] (progs : ℕ → Client) (l0 : List Slot) (k : ℕ → ℕ) (s : System) (l : List Slot) : Prop where
  inv : Inv s.world l
  knows : ∀ t, ∃ L, Knows (progs t) l0 (k t) (s.threads t) l L
  apart : ∀ t t', t ≠ t' → ∀ g, l0.length ≤ g → g ∈ (s.threads t).view → g ∉ (s.threads t').view

theorem Knows.agreeOn [Build] {c : Client} {l0 : List Slot} {n : ℕ} {th : Thread} {l L : List Slot} (h : Knows c l0 n th l L) :
    AgreeOn (· < L.length) (fun i => th.view.getD i 0) l L := by
  intro i hi
  have hv : i < th.view.length := by rw [h.len]; exact hi
  obtain ⟨h1, h2⟩ := h.agree i _ (List.getElem?_eq_getElem hv)
  simp only [List.getD_eq_getElem?_getD, List.getElem?_eq_getElem hv, Option.getD_some]
  exact ⟨hi, h1, h2⟩

theorem Knows.injOn [Build] {c : Client} {l0 : List Slot} {n : ℕ} {th : Thread} {l L : List Slot} (h : Knows c l0 n th l L) :
    InjOn (· < L.length) (fun i => th.view.getD i 0) := by
  intro i j hi hj e
  have hv : i < th.view.length := by rw [h.len]; exact hi
  have hw : j < th.view.length := by rw [h.len]; exact hj
  simp only [List.getD_eq_getElem?_getD, List.getElem?_eq_getElem hv, List.getElem?_eq_getElem hw, Option.getD_some] at e
  exact (List.Nodup.getElem_inj_iff h.nodup).1 e

/-- A name beyond the shared ones stands for a number beyond the shared ones. -/
theorem Knows.priv [Build] {c : Client} {l0 : List Slot} {n : ℕ} {th : Thread} {l L : List Slot} (h : Knows c l0 n th l L) {i g : ℕ}
    (hi : l0.length ≤ i) (hg : th.view[i]? = some g) : l0.length ≤ g := by
  by_contra hc
  have hc : g < l0.length := by omega
  have h1 := h.head g hc
  obtain ⟨a1, b1⟩ := List.getElem?_eq_some_iff.1 h1
  obtain ⟨a2, b2⟩ := List.getElem?_eq_some_iff.1 hg
  have := (List.Nodup.getElem_inj_iff h.nodup (hi := a1) (hj := a2)).1 (b1.trans b2.symm)
  omega

/-- One turn. -/
theorem turn_sim [Build] {lm : Libm} (hlm : LibmOK lm) {lay : ℕ → Bin → Buf} (hg : GoodLayout lay) {progs : ℕ → Client} {l0 : List Slot}
    (hc : ∀ t, (progs t).Legal l0 []) (hsh : ∀ t, (progs t).Shares l0 l0.length) {k : ℕ → ℕ} {s : System} {l : List Slot}
    (hS : SysInv progs l0 k s l) (t : ℕ) :
    ∃ s' l', turn lm lay progs t s = .ok s' ∧ SysInv progs l0 (Function.update k t (k t + 1)) s' l' ∧
      (∀ t', t' ≠ t → s'.threads t' = s.threads t' ∧ ∀ g ∈ (s.threads t').view, Untouched s.world s'.world g) ∧
      ∀ g, g < l0.length → Untouched s.world s'.world g := by
  obtain ⟨L, hK⟩ := hS.knows t
  cases e : progs t (s.threads t).hist with
  | none =>
    refine ⟨s, l, by simp only [turn, e]; rfl, ⟨hS.inv, fun t' => ?_, hS.apart⟩, fun t' _ => ⟨rfl, fun g _ => .refl _ g⟩, fun g _ => .refl _ g⟩
    by_cases ht : t' = t
    · subst ht
      refine ⟨L, ?_, hK.len, hK.more, hK.head, hK.nodup, hK.agree⟩
      rw [Function.update_self]
      exact play_idle hK.play e
    · rw [Function.update_of_ne ht]
      exact hS.knows t'
  | some act =>
    have hleg := hc t _ _ _ _ hK.play e
    have hn := legal_names hleg
    obtain ⟨ans, l', w', e1, hs, hI'⟩ := callApi_sim hlm hg hS.inv (legal_transfer hK.agreeOn hK.injOn hn hleg)
    obtain ⟨L', m, M, new, hm⟩ := step_transfer hK.agreeOn hK.injOn hn hs
    have hfr := fun g h => callApi_frame hlm hg hS.inv (legal_transfer hK.agreeOn hK.injOn hn hleg) e1 (g := g) h
    -- a number the thread changes is its own
    have hch : ∀ g, g ∈ act.changes.map (fun i => (s.threads t).view.getD i 0) → l0.length ≤ g ∧ g ∈ (s.threads t).view := by
      intro g hg'
      obtain ⟨i, hi, rfl⟩ := List.mem_map.1 hg'
      have h1 := hsh t _ _ _ _ hK.play e i hi
      have h2 : i < (s.threads t).view.length := by rw [hK.len]; exact hn i (changes_names act i hi)
      simp only [List.getD_eq_getElem?_getD, List.getElem?_eq_getElem h2, Option.getD_some]
      exact ⟨hK.priv h1 (List.getElem?_eq_getElem h2), List.getElem_mem h2⟩
    have hlen : w'.regs.length = s.world.regs.length + new.length := by
      rw [hI'.len, hS.inv.len, hm.old, List.length_append, hm.len]
    have hnew : (if s.world.regs.length < w'.regs.length then [s.world.regs.length] else []) = List.replicate new.length l.length := by
      have := hm.few
      rw [hlen, hS.inv.len]
      rcases (show new.length = 0 ∨ new.length = 1 by omega) with h | h <;> simp [h]
    refine ⟨_, l', by simp only [turn, e, e1, bind_ok, hnew]; rfl, ⟨hI', fun t' => ?_, ?_⟩, fun t' ht => ⟨Function.update_of_ne ht _ _, fun g hg' => ?_⟩, fun g hg' => ?_⟩
    · by_cases ht : t' = t
      · subst ht
        simp only [Function.update_self]
        refine ⟨L', play_snoc hK.play e hm.step, ?_, ?_, ?_, ?_, ?_⟩
        · simp [hm.own, hm.lenOwn, hK.len]
        · have := hK.more
          rw [hm.own, List.length_append, hm.lenOwn]; omega
        · intro i hi
          have := hK.head i hi
          rw [List.getElem?_append_left (List.getElem?_eq_some_iff.1 this).1]; exact this
        · rw [List.nodup_append]
          refine ⟨hK.nodup, ?_, ?_⟩
          · have := hm.few
            rcases (show new.length = 0 ∨ new.length = 1 by omega) with h | h <;> simp [h]
          · intro a ha b hb
            obtain ⟨i, hi⟩ := List.getElem?_of_mem ha
            have := (hK.agree i a hi).1
            have := List.eq_of_mem_replicate hb
            omega
        · intro i g hi
          by_cases hv : i < (s.threads t').view.length
          · rw [List.getElem?_append_left hv] at hi
            have hiL : i < L.length := by rw [← hK.len]; exact hv
            obtain ⟨h1, h2, h3⟩ := hm.agree i hiL
            simp only [List.getD_eq_getElem?_getD, hi, Option.getD_some] at h2 h3
            rw [hm.old, hm.own, List.getElem?_append_left h2, List.getElem?_append_left h1, List.length_append]
            exact ⟨by omega, h3⟩
          · obtain ⟨h1, h2⟩ := List.getElem?_eq_some_iff.1 hi
            have hr := List.eq_of_mem_replicate (List.mem_of_getElem? (by rw [List.getElem?_append_right (by omega)] at hi; exact hi))
            have hf := hm.few
            rw [List.length_append, List.length_replicate] at h1
            have hi' : i = M.length := by rw [hm.lenOwn, ← hK.len]; omega
            subst hr
            rw [hm.old, hm.own, List.length_append, ← hm.len, List.getElem?_append_right (le_refl _), hi',
              List.getElem?_append_right (le_refl _), Nat.sub_self, Nat.sub_self]
            exact ⟨by omega, rfl⟩
      · simp only [Function.update_of_ne ht]
        obtain ⟨L2, hK2⟩ := hS.knows t'
        refine ⟨L2, hK2.play, hK2.len, hK2.more, hK2.head, hK2.nodup, fun i g hi => ?_⟩
        obtain ⟨h1, h2⟩ := hK2.agree i g hi
        have hnc : g ∉ act.changes.map (fun i => (s.threads t).view.getD i 0) := by
          intro hc'
          obtain ⟨h3, h4⟩ := hch g hc'
          exact hS.apart t t' (Ne.symm ht) g h3 h4 (List.mem_of_getElem? hi)
        rw [hm.old, List.length_append, hm.len, List.getElem?_append_left (by rw [hm.len]; exact h1), hm.frame g hnc]
        exact ⟨by omega, h2⟩
    · -- the threads' own numbers stay apart
      have hold : ∀ t' g, g ∈ (s.threads t').view → g < l.length := by
        intro t' g hg'
        obtain ⟨i, hi⟩ := List.getElem?_of_mem hg'
        obtain ⟨L2, hK2⟩ := hS.knows t'
        exact (hK2.agree i g hi).1
      intro t1 t2 hne g hl0 h1 h2
      simp only at h1 h2
      by_cases e1 : t1 = t
      · subst e1
        rw [Function.update_self] at h1
        rw [Function.update_of_ne (Ne.symm hne)] at h2
        rcases List.mem_append.1 h1 with h | h
        · exact hS.apart _ _ hne g hl0 h h2
        · have := List.eq_of_mem_replicate h
          have := hold t2 g h2
          omega
      · rw [Function.update_of_ne e1] at h1
        by_cases e2 : t2 = t
        · subst e2
          rw [Function.update_self] at h2
          rcases List.mem_append.1 h2 with h | h
          · exact hS.apart _ _ hne g hl0 h1 h
          · have := List.eq_of_mem_replicate h
            have := hold t1 g h1
            omega
        · rw [Function.update_of_ne e2] at h2
          exact hS.apart _ _ hne g hl0 h1 h2
    · refine hfr g (fun hc' => ?_)
      rw [rename_changes] at hc'
      obtain ⟨h3, h4⟩ := hch g hc'
      exact hS.apart t t' (Ne.symm ht) g h3 h4 hg'
    · refine hfr g (fun hc' => ?_)
      rw [rename_changes] at hc'
      have := (hch g hc').1
      omega

theorem schedule_sim [Build] {lm : Libm} (hlm : LibmOK lm) {lay : ℕ → Bin → Buf} (hg : GoodLayout lay) {progs : ℕ → Client} {l0 : List Slot}
    (hc : ∀ t, (progs t).Legal l0 []) (hsh : ∀ t, (progs t).Shares l0 l0.length) (σ : List ℕ) : ∀ {k : ℕ → ℕ} {s : System} {l : List Slot},
    SysInv progs l0 k s l → ∃ s' l', schedule lm lay progs σ s = .ok s' ∧ SysInv progs l0 (fun t => k t + σ.count t) s' l' ∧
      ∀ g, g < l0.length → Untouched s.world s'.world g := by
  induction σ with
  | nil => intro k s l hS; exact ⟨s, l, rfl, by simpa using hS, fun g _ => .refl _ g⟩
  | cons t σ ih =>
    intro k s l hS
    obtain ⟨s1, l1, e1, h1, -, u1⟩ := turn_sim hlm hg hc hsh hS t
    obtain ⟨s2, l2, e2, h2, u2⟩ := ih h1
    refine ⟨s2, l2, by simp only [schedule, e1, bind_ok, e2], ?_, fun g hg' => (u1 g hg').trans (u2 g hg')⟩
    have : (fun t' => Function.update k t (k t + 1) t' + σ.count t') = fun t' => k t' + (t :: σ).count t' := by
      funext t'
      by_cases e : t' = t
      · subst e; rw [Function.update_self, List.count_cons_self]; omega
      · rw [Function.update_of_ne e, List.count_cons_of_ne (Ne.symm e)]
    rw [this] at h2
    exact h2

theorem init_inv [Build] {w : World} {l0 : List Slot} (hI : Inv w l0) (progs : ℕ → Client) : SysInv progs l0 (fun _ => 0) (System.init w) l0 := by
  refine ⟨hI, fun t => ⟨l0, .zero, by simp [System.init, hI.len], le_refl _, fun i hi => ?_, List.nodup_range, fun i g h => ?_⟩, ?_⟩
  · simp only [System.init]
    rw [List.getElem?_range (by rw [hI.len]; exact hi)]
  · simp only [System.init] at h
    obtain ⟨h1, h2⟩ := List.getElem?_eq_some_iff.1 h
    rw [List.getElem_range] at h2
    subst h2
    rw [List.length_range, hI.len] at h1
    exact ⟨h1, rfl⟩
  · intro t t' _ g hl h
    simp only [System.init, List.mem_range, hI.len] at h
    omega

/-- A state a program can be in: `w` is what it has in memory, `l` what it owns according to the specification. -/
def Reaches [Build] (lm : Libm) (lay : ℕ → Bin → Buf) (w : World) (l : List Slot) : Prop :=
  ∃ c n h, Client.Legal c [] [] ∧ playApi lm lay c n (start, []) = .ok (w, h) ∧ Play c n ([], []) (l, h)

theorem Reaches.inv [Build] {lm : Libm} (hlm : LibmOK lm) {lay : ℕ → Bin → Buf} (hg : GoodLayout lay) {w : World} {l : List Slot}
    (h : Reaches lm lay w l) : Inv w l := by
  obtain ⟨c, n, h, hc, e, hp⟩ := h
  obtain ⟨w', l', h', e', hp', hI⟩ := play_sim hlm hg (n := n) Inv.start hc
  rw [e] at e'
  cases e'
  cases play_det hc hp hp'
  exact hI

/-- C66: a program that has numbers in memory hands references to all of them to any number of threads, each running a program of its own that
makes legal calls and borrows the shared numbers only immutably. Under every schedule every thread gets the answers it would get if it were
alone, nothing faults, the shared numbers stay as they are bit for bit, and no allocation is lost or owned twice. -/
theorem C66_threads [Build] {lm : Libm} (hlm : LibmOK lm) {lay : ℕ → Bin → Buf} (hg : GoodLayout lay) {w : World} {l : List Slot}
    (hw : Reaches lm lay w l) {progs : ℕ → Client} (hc : ∀ t, (progs t).Legal l []) (hsh : ∀ t, (progs t).Shares l l.length) (σ : List ℕ) :
    ∃ s, schedule lm lay progs σ (System.init w) = .ok s ∧
      (∀ t, ∃ w', playApi lm lay (progs t) (σ.count t) (w, []) = .ok (w', (s.threads t).hist)) ∧
      (∀ g, g < w.regs.length → Untouched w s.world g) ∧
      (∀ (i j : ℕ) x y q, s.world.regs[i]? = some (some x) → s.world.regs[j]? = some (some y) → x.ptr = some q → y.ptr = some q → i = j) ∧
      (∀ q, s.world.heap.live q ≠ none ↔ ∃ (i : ℕ) (x : HBuf), s.world.regs[i]? = some (some x) ∧ x.ptr = some q) := by
  have hI := hw.inv hlm hg
  obtain ⟨s, l', e, hS, hu⟩ := schedule_sim hlm hg hc hsh σ (init_inv hI progs)
  refine ⟨s, e, fun t => ?_, fun g h => hu g (by rw [← hI.len]; exact h), fun i j x y q h1 h2 h3 h4 => hS.inv.inj h1 h2 h3 h4, hS.inv.noleak⟩
  obtain ⟨L, hK⟩ := hS.knows t
  obtain ⟨w', l1, h1, e1, hp, -⟩ := play_sim hlm hg (n := σ.count t) hI (hc t)
  have hp' := hK.play
  simp only [Nat.zero_add] at hp'
  cases play_det (hc t) hp hp'
  exact ⟨w', e1⟩

/-- C66: two schedules that give a thread equally many turns give it the same answers. -/
theorem C66_schedule_independent [Build] {lm : Libm} (hlm : LibmOK lm) {lay : ℕ → Bin → Buf} (hg : GoodLayout lay) {w : World} {l : List Slot}
    (hw : Reaches lm lay w l) {progs : ℕ → Client} (hc : ∀ t, (progs t).Legal l []) (hsh : ∀ t, (progs t).Shares l l.length) {σ τ : List ℕ}
    {s u : System} (hs : schedule lm lay progs σ (System.init w) = .ok s) (hu : schedule lm lay progs τ (System.init w) = .ok u) {t : ℕ}
    (ht : σ.count t = τ.count t) : (s.threads t).hist = (u.threads t).hist := by
  obtain ⟨s', e, h, -⟩ := C66_threads hlm hg hw hc hsh σ
  obtain ⟨u', e', h', -⟩ := C66_threads hlm hg hw hc hsh τ
  rw [hs] at e; cases e
  rw [hu] at e'; cases e'
  obtain ⟨w1, e1⟩ := h t
  obtain ⟨w2, e2⟩ := h' t
  rw [ht, e2] at e1
  injection e1 with e1
  exact (Prod.ext_iff.1 e1).2.symm

/-- C66: while a thread is not running, nothing it can see changes, bit for bit. -/
theorem C66_stable [Build] {lm : Libm} (hlm : LibmOK lm) {lay : ℕ → Bin → Buf} (hg : GoodLayout lay) {w : World} {l : List Slot}
    (hw : Reaches lm lay w l) {progs : ℕ → Client} (hc : ∀ t, (progs t).Legal l []) (hsh : ∀ t, (progs t).Shares l l.length) (σ : List ℕ)
    {s : System} (hs : schedule lm lay progs σ (System.init w) = .ok s) (t : ℕ) :
    ∃ s', turn lm lay progs t s = .ok s' ∧
      ∀ t', t' ≠ t → s'.threads t' = s.threads t' ∧ ∀ g ∈ (s.threads t').view, Untouched s.world s'.world g := by
  obtain ⟨s1, l', e, hS, -⟩ := schedule_sim hlm hg hc hsh σ (init_inv (hw.inv hlm hg) progs)
  rw [hs] at e; cases e
  obtain ⟨s', l'', e', -, h, -⟩ := turn_sim hlm hg hc hsh hS t
  exact ⟨s', e', h⟩

/-- C66: a call changes nothing but the numbers it borrows mutably or takes by value; whatever else is in memory stays, bit for bit. -/
theorem C66_writes [Build] {lm : Libm} (hlm : LibmOK lm) {lay : ℕ → Bin → Buf} (hg : GoodLayout lay) {w : World} {l : List Slot}
    (hw : Reaches lm lay w l) {act : Act} (hl : act.Legal l) : ∃ ans w', callApi lm lay w act = .ok (ans, w') ∧
      ∀ g, g ∉ act.changes → Untouched w w' g := by
  obtain ⟨ans, l', w', e, -, -⟩ := callApi_sim hlm hg (hw.inv hlm hg) hl
  exact ⟨ans, w', e, fun g h => callApi_frame hlm hg (hw.inv hlm hg) hl e h⟩

theorem rename_id (act : Act) : act.rename (fun i => i) = act := by cases act <;> rfl

theorem Inv.same_slot [Build] {w w' : World} {l l' : List Slot} (hI : Inv w l) (hI' : Inv w' l') {i : ℕ} (hr : w.regs[i]? = w'.regs[i]?)
    (hm : ∀ x q, w.regs[i]? = some (some x) → x.ptr = some q → w.heap.live q = w'.heap.live q) : l[i]? = l'[i]? := by
  by_cases hi : i < l.length
  · have h1 : i < w.regs.length := by rw [hI.len]; exact hi
    have h2 : i < w'.regs.length := (List.getElem?_eq_some_iff.1 (hr.symm.trans (List.getElem?_eq_getElem h1))).1
    have h3 : i < l'.length := by rw [← hI'.len]; exact h2
    rw [List.getElem?_eq_getElem hi, List.getElem?_eq_getElem h3]
    congr 1
    have a1 := hI.slot (List.getElem?_eq_getElem h1) (List.getElem?_eq_getElem hi)
    have a2 := hI'.slot (hr.symm.trans (List.getElem?_eq_getElem h1)) (List.getElem?_eq_getElem h3)
    generalize hA : w.regs[i] = r at a1 a2
    have hA' : w.regs[i]? = some r := by rw [← hA]; exact List.getElem?_eq_getElem h1
    generalize l[i] = s at a1 ⊢
    generalize l'[i] = s' at a2 ⊢
    match r, s, s', a1, a2 with
    | none, .gone, .gone, _, _ => rfl
    | some x, .null, .null, _, _ => rfl
    | some x, .null, .val v, h, ⟨p, b, a, e, _, _, _⟩ => subst e; cases h
    | some x, .val v, .null, ⟨p, b, a, e, _, _, _⟩, h => subst e; cases h
    | some x, .val v, .val v', ⟨p, b, a, e, hp, ho, hv⟩, ⟨p', b', a', e', hp', ho', hv'⟩ =>
      have e2 := e.symm.trans e'
      have n1 := HBuf.asNumeric_at (b := b) hp
      have n2 := HBuf.asNumeric_at (b := b') hp'
      subst e
      have hpp : p = p' := by
        have := congrArg HBuf.ptr e2
        simp only [Buf.at] at this
        cases this; rfl
      subst hpp
      rw [← hm _ p hA' rfl] at hp'
      rw [hp] at hp'
      have hcells : b.cells = b'.cells := by injection hp' with h; injection h
      have hoff : b.hoff = b'.hoff := by
        have := congrArg HBuf.hoff e2
        simpa only [Buf.at] using this
      have hb : b = b' := by cases b; cases b'; cases hcells; cases hoff; rfl
      subst hb
      have h3 := ho.asNumeric.symm.trans ho'.asNumeric
      cases h3
      rw [represents_unique hv hv']
  · have h1 : w.regs[i]? = none := List.getElem?_eq_none (by rw [hI.len]; omega)
    have h2 : w'.regs.length ≤ i := List.getElem?_eq_none_iff.1 (hr.symm.trans h1)
    rw [List.getElem?_eq_none (by omega), List.getElem?_eq_none (by rw [← hI'.len]; exact h2)]

/-- C66: what a call answers depends only on the bits of the numbers it names, so it does not matter when it reads them as long as nobody
writes them. -/
theorem C66_reads [Build] {lm : Libm} (hlm : LibmOK lm) {lay : ℕ → Bin → Buf} (hg : GoodLayout lay) {w w' : World} {l l' : List Slot}
    (hw : Reaches lm lay w l) (hw' : Reaches lm lay w' l') {act : Act} (hl : act.Legal l) (hr : ∀ i ∈ act.names, w.regs[i]? = w'.regs[i]?)
    (hm : ∀ i ∈ act.names, ∀ x q, w.regs[i]? = some (some x) → x.ptr = some q → w.heap.live q = w'.heap.live q) :
    ∃ ans v v', callApi lm lay w act = .ok (ans, v) ∧ callApi lm lay w' act = .ok (ans, v') := by
  have hI := hw.inv hlm hg
  have hI' := hw'.inv hlm hg
  have hs : ∀ i ∈ act.names, l[i]? = l'[i]? := fun i hi => hI.same_slot hI' (hr i hi) (hm i hi)
  have hn := legal_names hl
  have hn' : ∀ i ∈ act.names, i < l'.length := by
    intro i hi
    have := hs i hi
    rw [List.getElem?_eq_getElem (hn i hi)] at this
    exact (List.getElem?_eq_some_iff.1 this.symm).1
  have hinj : InjOn (· ∈ act.names) (fun i => i) := fun i j _ _ h => h
  have hA : AgreeOn (· ∈ act.names) (fun i => i) l l' := fun i hi => ⟨hn' i hi, hn i hi, hs i hi⟩
  have hA' : AgreeOn (· ∈ act.names) (fun i => i) l' l := fun i hi => ⟨hn i hi, hn' i hi, (hs i hi).symm⟩
  have hl' : act.Legal l' := by
    have := legal_transfer hA' hinj (fun i hi => hi) hl
    rwa [rename_id] at this
  obtain ⟨a, m, v, e, hst, -⟩ := callApi_sim hlm hg hI hl
  obtain ⟨a', m', v', e', hst', -⟩ := callApi_sim hlm hg hI' hl'
  obtain ⟨L', _, _, _, h⟩ := step_transfer hA hinj (fun i hi => hi) (by rw [rename_id]; exact hst)
  obtain ⟨rfl, -⟩ := step_det hl' h.step hst'
  exact ⟨a, v, v', e, e'⟩

/-! ## Non-vacuity -/

/-- `Client.Shares` from a point on. -/
def SharesFrom [Build] (c : Client) (l : List Slot) (h : List Answer) (k : ℕ) : Prop :=
  ∀ n l' h' act, Play c n (l, h) (l', h') → c h' = some act → ∀ i ∈ act.changes, k ≤ i

theorem shares_stop [Build] {c : Client} {l : List Slot} {h : List Answer} {k : ℕ} (e : c h = none) : SharesFrom c l h k := by
  intro n l' h' act hp ha
  cases hp with
  | zero => rw [e] at ha; cases ha
  | stop => rw [e] at ha; cases ha
  | step e' => rw [e] at e'; cases e'

theorem shares_step [Build] {c : Client} {l l1 : List Slot} {h : List Answer} {act : Act} {ans : Answer} {k : ℕ} (e : c h = some act)
    (hl : act.Legal l) (hs : Step act l ans l1) (hk : ∀ i ∈ act.changes, k ≤ i) (hr : SharesFrom c l1 (h ++ [ans]) k) : SharesFrom c l h k := by
  intro n l' h' act' hp ha
  cases hp with
  | zero => rw [e] at ha; cases ha; exact hk
  | stop e' => rw [e] at e'; cases e'
  | step e' hs' hp =>
    rw [e] at e'; cases e'
    obtain ⟨rfl, rfl⟩ := step_det hl hs hs'
    exact hr _ _ _ _ hp ha

/-- The main program makes 7 and 2. -/
def demoMain : Client
  | [] => some (.int .i32 7)
  | [_] => some (.int .i32 2)
  | _ => none

/-- One thread adds them, negates the sum in place and looks at it. -/
def demoAdd : Client
  | [] => some (.checked .add 0 1)
  | [_] => some (.mutate .negate 2)
  | [_, _] => some (.text 2)
  | _ => none

/-- All the others compare them and drop a copy. -/
def demoCmp : Client
  | [] => some (.clone 0)
  | [_] => some (.lt 1 2)
  | [_, _] => some (.drop 2)
  | _ => none

/-- The hypotheses of C66 are met; in the schedule 1, 0, 2, 0, 1, 2, 0, 1, 0 the first thread sees a number, nothing, the text "-9" and stops, the
second a number, `true` and nothing. -/
example [Build] {lm : Libm} (hlm : LibmOK lm) : ∃ lay w l, GoodLayout lay ∧ Reaches lm lay w l ∧ w.regs.length = 2 ∧
    let progs : ℕ → Client := fun t => if t = 0 then demoAdd else demoCmp
    (∀ t, (progs t).Legal l []) ∧ (∀ t, (progs t).Shares l l.length) ∧
    ∃ s, schedule lm lay progs [1, 0, 2, 0, 1, 2, 0, 1, 0] (System.init w) = .ok s ∧
      (s.threads 0).hist = [.number, .unit, .text [45, 57]] ∧ (s.threads 1).hist = [.number, .flag true, .unit] ∧
      (s.threads 2).hist = [.number, .flag true] := by
  have s1 : Step (.int .i32 7) [] .number [.val (.num 7 0)] := by simpa using Step.int (ty := .i32) (n := 7) (l := [])
  have s2 : Step (.int .i32 2) [.val (.num 7 0)] .number [.val (.num 7 0), .val (.num 2 0)] := by
    simpa using Step.int (ty := .i32) (n := 2) (l := [.val (.num 7 0)])
  have hmain : demoMain.Legal [] [] :=
    legal_step rfl ⟨by simp [Convert.types], by decide, by decide⟩ s1
      (legal_step rfl ⟨by simp [Convert.types], by decide, by decide⟩ s2 (legal_stop rfl))
  have pmain : Play demoMain 2 ([], []) ([.val (.num 7 0), .val (.num 2 0)], [.number, .number]) := .step rfl s1 (.step rfl s2 .zero)
  -- the adding thread
  have a1 : Step (.checked .add 0 1) [.val (.num 7 0), .val (.num 2 0)] .number [.val (.num 7 0), .val (.num 2 0), .val (.num 9 0)] := by
    refine Step.checked (op := .add) (i := 0) (j := 1) (r := .num 9 0) (l := [.val (.num 7 0), .val (.num 2 0)]) rfl rfl
      ⟨(9, 0), ?_, ⟨lt_limit (x := 9) (by norm_num), by norm_num⟩, rfl⟩
    simp only [Op2.raw]; norm_num
  have a2 : Step (.mutate .negate 2) [.val (.num 7 0), .val (.num 2 0), .val (.num 9 0)] .unit
      [.val (.num 7 0), .val (.num 2 0), .val (.num (-9) 0)] :=
    Step.mutate (op := .negate) (i := 2) (x := 9) (s := 0) (y := -9) (t := 0) (l := [.val (.num 7 0), .val (.num 2 0), .val (.num 9 0)]) rfl rfl
  have a3 : Step (.text 2) [.val (.num 7 0), .val (.num 2 0), .val (.num (-9) 0)] (.text [45, 57])
      [.val (.num 7 0), .val (.num 2 0), .val (.num (-9) 0)] := by
    refine Step.look rfl rfl ?_
    have := Tells.text (i := 2) (x := -9) (s := 0) (N := 9) (by norm_num)
    rwa [show decimalText (decide ((-9:ℚ) < 0)) 9 0 = [45, 57] by rw [decide_eq_true (by norm_num)]; rfl] at this
  have l1 : (Act.checked .add 0 1).Legal [.val (.num 7 0), .val (.num 2 0)] := ⟨⟨_, rfl⟩, ⟨_, rfl⟩⟩
  have l2 : (Act.mutate .negate 2).Legal [.val (.num 7 0), .val (.num 2 0), .val (.num 9 0)] := ⟨trivial, .inl ⟨_, _, rfl⟩⟩
  have l3 : (Act.text 2).Legal [.val (.num 7 0), .val (.num 2 0), .val (.num (-9) 0)] := ⟨_, rfl⟩
  have padd : Play demoAdd 4 ([.val (.num 7 0), .val (.num 2 0)], []) ([.val (.num 7 0), .val (.num 2 0), .val (.num (-9) 0)],
      [.number, .unit, .text [45, 57]]) := .step rfl a1 (.step rfl a2 (.step rfl a3 (.stop rfl)))
  -- the comparing threads
  have b1 : Step (.clone 0) [.val (.num 7 0), .val (.num 2 0)] .number [.val (.num 7 0), .val (.num 2 0), .val (.num 7 0)] :=
    Step.clone (i := 0) (l := [.val (.num 7 0), .val (.num 2 0)]) rfl
  have b2 : Step (.lt 1 2) [.val (.num 7 0), .val (.num 2 0), .val (.num 7 0)] (.flag true) [.val (.num 7 0), .val (.num 2 0), .val (.num 7 0)] := by
    have := Step.lt (i := 1) (j := 2) (l := [.val (.num 7 0), .val (.num 2 0), .val (.num 7 0)]) rfl rfl
    rwa [decide_eq_true] at this
    exact WithTop.coe_lt_coe.2 (by norm_num)
  have b3 : Step (.drop 2) [.val (.num 7 0), .val (.num 2 0), .val (.num 7 0)] .unit [.val (.num 7 0), .val (.num 2 0), .gone] := Step.drop
  have k1 : (Act.clone 0).Legal [.val (.num 7 0), .val (.num 2 0)] := ⟨_, rfl⟩
  have k2 : (Act.lt 1 2).Legal [.val (.num 7 0), .val (.num 2 0), .val (.num 7 0)] := ⟨⟨_, rfl⟩, ⟨_, rfl⟩⟩
  have k3 : (Act.drop 2).Legal [.val (.num 7 0), .val (.num 2 0), .val (.num 7 0)] := .inl ⟨_, rfl⟩
  have pcmp : Play demoCmp 3 ([.val (.num 7 0), .val (.num 2 0)], []) ([.val (.num 7 0), .val (.num 2 0), .gone], [.number, .flag true, .unit]) :=
    .step rfl b1 (.step rfl b2 (.step rfl b3 .zero))
  have pcmp2 : Play demoCmp 2 ([.val (.num 7 0), .val (.num 2 0)], []) ([.val (.num 7 0), .val (.num 2 0), .val (.num 7 0)], [.number, .flag true]) :=
    .step rfl b1 (.step rfl b2 .zero)
  have ladd : demoAdd.Legal [.val (.num 7 0), .val (.num 2 0)] [] :=
    legal_step rfl l1 a1 (legal_step rfl l2 a2 (legal_step rfl l3 a3 (legal_stop rfl)))
  have lcmp : demoCmp.Legal [.val (.num 7 0), .val (.num 2 0)] [] :=
    legal_step rfl k1 b1 (legal_step rfl k2 b2 (legal_step rfl k3 b3 (legal_stop rfl)))
  have sadd : SharesFrom demoAdd [.val (.num 7 0), .val (.num 2 0)] [] 2 :=
    shares_step rfl l1 a1 (by simp [Act.changes]) (shares_step rfl l2 a2 (by simp [Act.changes]) (shares_step rfl l3 a3 (by simp [Act.changes]) (shares_stop rfl)))
  have scmp : SharesFrom demoCmp [.val (.num 7 0), .val (.num 2 0)] [] 2 :=
    shares_step rfl k1 b1 (by simp [Act.changes]) (shares_step rfl k2 b2 (by simp [Act.changes]) (shares_step rfl k3 b3 (by simp [Act.changes]) (shares_stop rfl)))
  obtain ⟨lay, hg⟩ : ∃ lay, GoodLayout lay := ⟨_, exists_layout⟩
  obtain ⟨w, l, h, e, hp, hu, hlen, -⟩ := C61_client hlm hg hmain 2
  obtain ⟨rfl, rfl⟩ := hu _ _ pmain
  have hR : Reaches lm lay w _ := ⟨demoMain, 2, _, hmain, e, pmain⟩
  have hl : ∀ t, ((fun t => if t = 0 then demoAdd else demoCmp) t).Legal [.val (.num 7 0), .val (.num 2 0)] [] := by
    intro t; dsimp only; split <;> assumption
  have hs : ∀ t, ((fun t => if t = 0 then demoAdd else demoCmp) t).Shares [.val (.num 7 0), .val (.num 2 0)] 2 := by
    intro t; dsimp only; split
    exacts [sadd, scmp]
  refine ⟨lay, w, _, hg, hR, hlen, hl, hs, ?_⟩
  obtain ⟨s, es, ha, -⟩ := C66_threads hlm hg hR hl hs [1, 0, 2, 0, 1, 2, 0, 1, 0]
  have fin : ∀ {c : Client} {n : ℕ} {L : List Slot} {h h' : List Answer} {w'}, c.Legal [.val (.num 7 0), .val (.num 2 0)] [] →
      playApi lm lay c n (w, []) = .ok (w', h) → Play c n ([.val (.num 7 0), .val (.num 2 0)], []) (L, h') → h = h' := by
    intro c n L h h' w' hc e hp
    obtain ⟨w1, l1, h1, e1, hp1, -⟩ := play_sim hlm hg (n := n) (hR.inv hlm hg) hc
    rw [e] at e1; cases e1
    cases play_det hc hp hp1; rfl
  refine ⟨s, es, ?_, ?_, ?_⟩
  · obtain ⟨w', e⟩ := ha 0; exact fin ladd e padd
  · obtain ⟨w', e⟩ := ha 1; exact fin lcmp e pcmp
  · obtain ⟨w', e⟩ := ha 2; exact fin lcmp e pcmp2

end PgNumeric.Props
