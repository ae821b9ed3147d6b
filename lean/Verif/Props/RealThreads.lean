import Verif.Model.RealThreads
import Verif.Props.RealClient
import Verif.Props.Threads
/-!
# Threads that share numbers and take roots, logarithms, exponentials and powers (C73)
-/
namespace PgNumeric.Props
open PgNumeric Spec

/-! ## The same value gives the same outcome -/

/-- The outcome of a call. -/
def Gives [Build] (m : M (Option Bin)) : Outcome → Prop
  | .number v => ∃ r, m = .ok (some r) ∧ Represents r v
  | .none => m = .ok none
  | .panic msg => m = .error (.panic msg)
  | .overflow => m = .error .overflow

theorem lawful_gives [Build] {m : M (Option Bin)} {P : Outcome → Prop} {hang : Prop} (h : Lawful m P hang) :
    (∃ o, Gives m o ∧ P o) ∨ (m = .error .diverge ∧ hang) := by
  rcases h with ⟨r, v, e, hr, hP⟩ | ⟨e, hP⟩ | ⟨msg, e, hP⟩ | ⟨e, hP⟩ | ⟨e, hh⟩
  · exact .inl ⟨.number v, ⟨r, e, hr⟩, hP⟩
  · exact .inl ⟨.none, e, hP⟩
  · exact .inl ⟨.panic msg, e, hP⟩
  · exact .inl ⟨.overflow, e, hP⟩
  · exact .inr ⟨e, hh⟩

theorem may1_nan [Build] {f : Fun1} {o : Outcome} (h : May1 f .nan o) : o = .number .nan := by cases h; rfl

theorem may2_nan [Build] {f : Fun2} {u v : Val} (hn : u = .nan ∨ v = .nan) {o o' : Outcome} (h : May2 f u v o) (h' : May2 f u v o') : o = o' := by
  rcases hn with rfl | rfl
  · cases h <;> cases h' <;> first | rfl | (exfalso; simp_all)
  · cases h <;> cases h' <;> first | rfl | (exfalso; simp_all)

theorem fun1_pair [Build] {lm : Libm} (hl : LibmOK lm) {fuel : Nat} (hf : 4200 ≤ fuel) (f : Fun1) {a b : Bin} {u : Val} (ha : Represents a u)
    (hb : Represents b u) (hL : f.Legal u) :
    (∃ o, Gives (callFun1 lm fuel f a) o ∧ Gives (callFun1 lm fuel f b) o ∧ May1 f u o) ∨
    (callFun1 lm fuel f a = .error .diverge ∧ callFun1 lm fuel f b = .error .diverge ∧ f.MayHang u) := by
  have h1 := lawful_gives (fun1_lawful hl hf f ha hL)
  cases u with
  | num x s =>
    cases Holds.unique ha hb
    rcases h1 with ⟨o, h, hP⟩ | ⟨h, hh⟩
    · exact .inl ⟨o, h, h, hP⟩
    · exact .inr ⟨h, h, hh⟩
  | nan =>
    have h2 := lawful_gives (fun1_lawful hl hf f hb hL)
    have hh : ¬ f.MayHang .nan := by cases f <;> exact fun h => h
    rcases h1 with ⟨o, h, hP⟩ | ⟨h, hc⟩
    · rcases h2 with ⟨o', h', hP'⟩ | ⟨h', hc⟩
      · cases may1_nan hP
        cases may1_nan hP'
        exact .inl ⟨_, h, h', hP⟩
      · exact absurd hc hh
    · exact absurd hc hh

theorem fun2_pair [Build] {lm : Libm} (hl : LibmOK lm) {fuel : Nat} (hf : 4200 ≤ fuel) (f : Fun2) {a a' b b' : Bin} {u v : Val} (ha : Represents a u)
    (ha' : Represents a' u) (hb : Represents b v) (hb' : Represents b' v) (hL : f.Legal u v) :
    (∃ o, Gives (callFun2 lm fuel f a b) o ∧ Gives (callFun2 lm fuel f a' b') o ∧ May2 f u v o) ∨
    (callFun2 lm fuel f a b = .error .diverge ∧ callFun2 lm fuel f a' b' = .error .diverge ∧ f.MayHang u v) := by
  have h1 := lawful_gives (fun2_lawful hl hf f ha hb hL)
  have h2 := lawful_gives (fun2_lawful hl hf f ha' hb' hL)
  by_cases hn : u = .nan ∨ v = .nan
  · have hh : ¬ f.MayHang u v := by
      rcases hn with rfl | rfl
      · cases f <;> exact fun h => h
      · cases f <;> cases u <;> exact fun h => h
    rcases h1 with ⟨o, h, hP⟩ | ⟨h, hc⟩
    · rcases h2 with ⟨o', h', hP'⟩ | ⟨h', hc⟩
      · cases may2_nan hn hP hP'
        exact .inl ⟨_, h, h', hP⟩
      · exact absurd hc hh
    · exact absurd hc hh
  · push Not at hn
    cases u with
    | nan => exact absurd rfl hn.1
    | num x s => cases v with
      | nan => exact absurd rfl hn.2
      | num y t =>
        cases Holds.unique ha ha'
        cases Holds.unique hb hb'
        rcases h1 with ⟨o, h, hP⟩ | ⟨h, hh⟩
        · exact .inl ⟨o, h, h, hP⟩
        · exact .inr ⟨h, h, hh⟩

/-- What an outcome adds to the numbers owned. -/
def Outcome.made : Outcome → List Slot
  | .number v => [.val v]
  | _ => []

theorem Outcome.owned_eq (o : Outcome) (l : List Slot) : o.owned l = l ++ Outcome.made o := by
  cases o <;> simp [Outcome.owned, Outcome.made]

theorem gives_fresh [Build] {lay : ℕ → Bin → Buf} (hg : GoodLayout lay) {w : World} {l : List Slot} (hI : Inv w l) {m : M (Option Bin)} {o : Outcome}
    (h : Gives m o) : ∃ w', realFresh lay w m = .ok (o.answer, w') ∧ Inv w' (o.owned l) ∧ ∀ g, Untouched w w' g := by
  cases o with
  | number v =>
    obtain ⟨r, rfl, hr⟩ := h
    exact ⟨_, rfl, hI.put hg hr, fun g => hI.untouched_make _ g⟩
  | none => cases h; exact ⟨_, rfl, hI, fun g => .refl _ g⟩
  | panic msg => cases h; exact ⟨_, rfl, hI, fun g => .refl _ g⟩
  | overflow => cases h; exact ⟨_, rfl, hI, fun g => .refl _ g⟩

/-! ## One call, in the common memory and alone -/

/-- The lists afterwards: the same new number at the end of both, the other numbers still agree. -/
structure Along (P : ℕ → Prop) (f : ℕ → ℕ) (act : RealAct) (l l' L L' m M new : List Slot) : Prop where
  old : l' = m ++ new
  own : L' = M ++ new
  agree : AgreeOn P f m M
  len : m.length = l.length
  lenOwn : M.length = L.length
  few : new.length ≤ 1
  frame : ∀ g, g ∉ act.changes.map f → m[g]? = l[g]?

theorem real_legal_names [Build] {act : RealAct} {L : List Slot} (h : act.Legal L) : ∀ i ∈ act.names, i < L.length := by
  have lv : ∀ {i : ℕ} {u : Val}, L[i]? = some (.val u) → i < L.length := fun h => (List.getElem?_eq_some_iff.1 h).1
  cases act with
  | base act => exact legal_names h
  | fun1 f i =>
    obtain ⟨u, hu, -⟩ := h
    intro k hk
    simp only [RealAct.names, List.mem_singleton] at hk
    subst hk; exact lv hu
  | fun2 f i j =>
    obtain ⟨u, v, hu, hv, -⟩ := h
    intro k hk
    simp only [RealAct.names, List.mem_cons, List.not_mem_nil, or_false] at hk
    rcases hk with rfl | rfl
    exacts [lv hu, lv hv]

theorem real_changes_names (act : RealAct) : ∀ i ∈ act.changes, i ∈ act.names := by
  cases act with
  | base act => exact changes_names act
  | fun1 | fun2 => intro i hi; cases hi

theorem callReal_pair [Build] {lm : Libm} (hl : LibmOK lm) {fuel : Nat} (hf : 4200 ≤ fuel) {lay : ℕ → Bin → Buf} (hg : GoodLayout lay) {w W : World}
    {l L : List Slot} (hI : Inv w l) (hI' : Inv W L) {P : ℕ → Prop} {f : ℕ → ℕ} (hA : AgreeOn P f l L) (hi : InjOn P f) {act : RealAct}
    (hn : ∀ i ∈ act.names, P i) (ha : act.Legal L) :
    (∃ ans w' l' W' L' m M new, callReal lm fuel lay w (act.rename f) = .ok (ans, w') ∧ callReal lm fuel lay W act = .ok (ans, W') ∧
      RealStep act L ans L' ∧ Inv w' l' ∧ Inv W' L' ∧ Along P f act l l' L L' m M new ∧
      ∀ g, g ∉ act.changes.map f → Untouched w w' g) ∨
    (callReal lm fuel lay w (act.rename f) = .error .diverge ∧ callReal lm fuel lay W act = .error .diverge ∧ act.MayHang L) := by
  have still : ∀ {act : RealAct} (o : Outcome), Along P f act l (o.owned l) L (o.owned L) l L (Outcome.made o) := by
    intro act o
    exact ⟨Outcome.owned_eq o l, Outcome.owned_eq o L, hA, rfl, rfl, by cases o <;> simp [Outcome.made], fun _ _ => rfl⟩
  cases act with
  | base act =>
    have hleg := legal_transfer hA hi hn ha
    obtain ⟨ans, l', w', e1, hs, h1⟩ := callApi_sim hl hg hI hleg
    obtain ⟨L', m, M, new, hm⟩ := step_transfer hA hi hn hs
    obtain ⟨ans2, L2, W', e2, hs2, h2⟩ := callApi_sim hl hg hI' ha
    obtain ⟨rfl, rfl⟩ := step_det ha hs2 hm.step
    refine .inl ⟨.plain ans2, w', l', W', L2, m, M, new, ?_, ?_, .base hs2, h1, h2, ⟨hm.old, hm.own, hm.agree, hm.len, hm.lenOwn, hm.few, hm.frame⟩,
      fun g h => callApi_frame hl hg hI hleg e1 (by rw [rename_changes]; exact h)⟩
    · simp only [RealAct.rename, callReal, e1, bind_ok, pure_ok]
    · simp only [callReal, e2, bind_ok, pure_ok]
  | fun1 g i =>
    obtain ⟨u, hu, hL⟩ := ha
    have hu' : l[f i]? = some (.val u) := ((hA i (hn i (by simp [RealAct.names]))).2.2).trans hu
    obtain ⟨a, ea, ra⟩ := hI.look hu'
    obtain ⟨b, eb, rb⟩ := hI'.look hu
    simp only [RealAct.rename, callReal, ea, eb, bind_ok]
    rcases fun1_pair hl hf g ra rb hL with ⟨o, h1, h2, hP⟩ | ⟨h1, h2, hh⟩
    · obtain ⟨w', e1, i1, u1⟩ := gives_fresh hg hI h1
      obtain ⟨W', e2, i2, -⟩ := gives_fresh hg hI' h2
      exact .inl ⟨_, _, _, _, _, _, _, _, e1, e2, .fun1 hu hP, i1, i2, still o, fun k _ => u1 k⟩
    · exact .inr ⟨by rw [h1]; rfl, by rw [h2]; rfl, u, hu, hh⟩
  | fun2 g i j =>
    obtain ⟨u, v, hu, hv, hL⟩ := ha
    have hu' : l[f i]? = some (.val u) := ((hA i (hn i (by simp [RealAct.names]))).2.2).trans hu
    have hv' : l[f j]? = some (.val v) := ((hA j (hn j (by simp [RealAct.names]))).2.2).trans hv
    obtain ⟨a, ea, ra⟩ := hI.look hu'
    obtain ⟨a', ea', ra'⟩ := hI'.look hu
    obtain ⟨b, eb, rb⟩ := hI.look hv'
    obtain ⟨b', eb', rb'⟩ := hI'.look hv
    simp only [RealAct.rename, callReal, ea, eb, ea', eb', bind_ok]
    rcases fun2_pair hl hf g ra ra' rb rb' hL with ⟨o, h1, h2, hP⟩ | ⟨h1, h2, hh⟩
    · obtain ⟨w', e1, i1, u1⟩ := gives_fresh hg hI h1
      obtain ⟨W', e2, i2, -⟩ := gives_fresh hg hI' h2
      exact .inl ⟨_, _, _, _, _, _, _, _, e1, e2, .fun2 hu hv hP, i1, i2, still o, fun k _ => u1 k⟩
    · exact .inr ⟨by rw [h1]; rfl, by rw [h2]; rfl, u, v, hu, hv, hh⟩

/-! ## Runs alone -/

theorem realPlay_snoc [Build] {c : RealClient} {n : ℕ} {s : List Slot × List RealAnswer} {l : List Slot} {h : List RealAnswer} {act : RealAct}
    {ans : RealAnswer} {l' : List Slot} (hp : RealPlay c n s (l, h)) (e : c h = some act) (hs : RealStep act l ans l') :
    RealPlay c (n + 1) s (l', h ++ [ans]) := by
  generalize ho : (l, h) = o at hp
  induction hp with
  | zero => subst ho; exact .step e hs .zero
  | stop e' => cases ho; rw [e] at e'; cases e'
  | step e1 s1 _ ih => exact .step e1 s1 (ih ho)

theorem realPlay_idle [Build] {c : RealClient} {n : ℕ} {s : List Slot × List RealAnswer} {l : List Slot} {h : List RealAnswer}
    (hp : RealPlay c n s (l, h)) (e : c h = none) : RealPlay c (n + 1) s (l, h) := by
  generalize ho : (l, h) = o at hp
  induction hp with
  | zero => subst ho; exact .stop e
  | stop e' => exact .stop e'
  | step e1 s1 _ ih => exact .step e1 s1 (ih ho)

/-- Playing on. -/
theorem playReal_add [Build] {lm : Libm} {fuel : Nat} {lay : ℕ → Bin → Buf} {c : RealClient} (n m : ℕ) : ∀ s : World × List RealAnswer,
    playReal lm fuel lay c (n + m) s = (playReal lm fuel lay c n s >>= fun s' => playReal lm fuel lay c m s') := by
  induction n with
  | zero => intro s; rw [Nat.zero_add]; rfl
  | succ n ih =>
    rintro ⟨w, h⟩
    rw [Nat.succ_add]
    simp only [playReal]
    cases e : c h with
    | none =>
      simp only [pure_ok, bind_ok]
      cases m with
      | zero => rfl
      | succ m => simp only [playReal, e, pure_ok]
    | some act =>
      simp only
      rcases callReal lm fuel lay w act with er | ⟨ans, w'⟩
      · rfl
      · simp only [bind_ok]; exact ih _

theorem playReal_one [Build] {lm : Libm} {fuel : Nat} {lay : ℕ → Bin → Buf} {c : RealClient} {w w' : World} {h : List RealAnswer} {act : RealAct}
    {ans : RealAnswer} (e : c h = some act) (e' : callReal lm fuel lay w act = .ok (ans, w')) : playReal lm fuel lay c 1 (w, h) = .ok (w', h ++ [ans]) := by
  simp only [playReal, e, e', bind_ok, pure_ok]

/-! ## The system -/

/-- What thread `t` knows is true of the numbers `l`; `L` is the list of its numbers, `W` the memory in which they would be if it were alone. -/
structure RealKnows [Build] (lm : Libm) (fuel : Nat) (lay : ℕ → Bin → Buf) (w0 : World) (c : RealClient) (l0 : List Slot) (n : ℕ) (th : RealThread)
    (l L : List Slot) (W : World) : Prop where
  play : RealPlay c n (l0, []) (L, th.hist)
  alone : playReal lm fuel lay c n (w0, []) = .ok (W, th.hist)
  inv : Inv W L
  len : th.view.length = L.length
  more : l0.length ≤ L.length
  head : ∀ i, i < l0.length → th.view[i]? = some i
  nodup : th.view.Nodup
  agree : ∀ (i g : ℕ), th.view[i]? = some g → g < l.length ∧ l[g]? = L[i]?

structure RealSysInv [Build] (lm : Libm) (fuel : Nat) (lay : ℕ → Bin → Buf) (w0 : World) (progs : ℕ → RealClient) (l0 : List Slot) (k : ℕ → ℕ)
    (s : RealSystem) (l : List Slot) : Prop where
  inv : Inv s.world l
  knows : ∀ t, ∃ L W, RealKnows lm fuel lay w0 (progs t) l0 (k t) (s.threads t) l L W
  apart : ∀ t t', t ≠ t' → ∀ g, l0.length ≤ g → g ∈ (s.threads t).view → g ∉ (s.threads t').view

section
variable [Build] {lm : Libm} {fuel : Nat} {lay : ℕ → Bin → Buf} {w0 : World} {c : RealClient} {l0 : List Slot} {n : ℕ} {th : RealThread}
  {l L : List Slot} {W : World}

theorem RealKnows.agreeOn (h : RealKnows lm fuel lay w0 c l0 n th l L W) : AgreeOn (· < L.length) (fun i => th.view.getD i 0) l L := by
  intro i hi
  have hv : i < th.view.length := by rw [h.len]; exact hi
  obtain ⟨h1, h2⟩ := h.agree i _ (List.getElem?_eq_getElem hv)
  simp only [List.getD_eq_getElem?_getD, List.getElem?_eq_getElem hv, Option.getD_some]
  exact ⟨hi, h1, h2⟩

theorem RealKnows.injOn (h : RealKnows lm fuel lay w0 c l0 n th l L W) : InjOn (· < L.length) (fun i => th.view.getD i 0) := by
  intro i j hi hj e
  have hv : i < th.view.length := by rw [h.len]; exact hi
  have hw : j < th.view.length := by rw [h.len]; exact hj
  simp only [List.getD_eq_getElem?_getD, List.getElem?_eq_getElem hv, List.getElem?_eq_getElem hw, Option.getD_some] at e
  exact (List.Nodup.getElem_inj_iff h.nodup).1 e

/-- A name beyond the shared ones stands for a number beyond the shared ones. -/
theorem RealKnows.priv (h : RealKnows lm fuel lay w0 c l0 n th l L W) {i g : ℕ} (hi : l0.length ≤ i) (hg : th.view[i]? = some g) : l0.length ≤ g := by
  by_contra hc
  have hc : g < l0.length := by omega
  have h1 := h.head g hc
  obtain ⟨a1, b1⟩ := List.getElem?_eq_some_iff.1 h1
  obtain ⟨a2, b2⟩ := List.getElem?_eq_some_iff.1 hg
  have := (List.Nodup.getElem_inj_iff h.nodup (hi := a1) (hj := a2)).1 (b1.trans b2.symm)
  omega

end

/-- One turn. -/
theorem turnReal_sim [Build] {lm : Libm} (hlm : LibmOK lm) {fuel : Nat} (hf : 4200 ≤ fuel) {lay : ℕ → Bin → Buf} (hg : GoodLayout lay) {w0 : World}
    {progs : ℕ → RealClient} {l0 : List Slot} (hc : ∀ t, (progs t).Legal l0 []) (hsh : ∀ t, (progs t).Shares l0 l0.length) {k : ℕ → ℕ} {s : RealSystem}
    {l : List Slot} (hS : RealSysInv lm fuel lay w0 progs l0 k s l) (t : ℕ) :
    (∃ s' l', turnReal lm fuel lay progs t s = .ok s' ∧ RealSysInv lm fuel lay w0 progs l0 (Function.update k t (k t + 1)) s' l' ∧
      (∀ t', t' ≠ t → s'.threads t' = s.threads t' ∧ ∀ g ∈ (s.threads t').view, Untouched s.world s'.world g) ∧
      ∀ g, g < l0.length → Untouched s.world s'.world g) ∨
    (turnReal lm fuel lay progs t s = .error .diverge ∧ playReal lm fuel lay (progs t) (k t + 1) (w0, []) = .error .diverge ∧
      ∃ L h act, RealPlay (progs t) (k t) (l0, []) (L, h) ∧ progs t h = some act ∧ act.MayHang L) := by
  obtain ⟨L, W, hK⟩ := hS.knows t
  cases e : progs t (s.threads t).hist with
  | none =>
    refine .inl ⟨s, l, by simp only [turnReal, e]; rfl, ⟨hS.inv, fun t' => ?_, hS.apart⟩, fun t' _ => ⟨rfl, fun g _ => .refl _ g⟩, fun g _ => .refl _ g⟩
    by_cases ht : t' = t
    · subst ht
      refine ⟨L, W, ?_, ?_, hK.inv, hK.len, hK.more, hK.head, hK.nodup, hK.agree⟩
      · rw [Function.update_self]
        exact realPlay_idle hK.play e
      · rw [Function.update_self, playReal_add, hK.alone]
        simp only [bind_ok, playReal, e, pure_ok]
    · rw [Function.update_of_ne ht]
      exact hS.knows t'
  | some act =>
    have hleg := hc t _ _ _ _ hK.play e
    have hn := real_legal_names hleg
    rcases callReal_pair hlm hf hg hS.inv hK.inv hK.agreeOn hK.injOn hn hleg with
      ⟨ans, w', l', W', L', m, M, new, e1, e2, hs, hI', hW', hm, hfr⟩ | ⟨e1, e2, hh⟩
    swap
    · refine .inr ⟨by simp only [turnReal, e, e1]; rfl, ?_, L, _, act, hK.play, e, hh⟩
      rw [playReal_add, hK.alone]
      simp only [bind_ok, playReal, e, e2]
      rfl
    -- a number the thread changes is its own
    have hch : ∀ g, g ∈ act.changes.map (fun i => (s.threads t).view.getD i 0) → l0.length ≤ g ∧ g ∈ (s.threads t).view := by
      intro g hg'
      obtain ⟨i, hi, rfl⟩ := List.mem_map.1 hg'
      have h1 := hsh t _ _ _ _ hK.play e i hi
      have h2 : i < (s.threads t).view.length := by rw [hK.len]; exact hn i (real_changes_names act i hi)
      simp only [List.getD_eq_getElem?_getD, List.getElem?_eq_getElem h2, Option.getD_some]
      exact ⟨hK.priv h1 (List.getElem?_eq_getElem h2), List.getElem_mem h2⟩
    have hlen : w'.regs.length = s.world.regs.length + new.length := by
      rw [hI'.len, hS.inv.len, hm.old, List.length_append, hm.len]
    have hnew : (if s.world.regs.length < w'.regs.length then [s.world.regs.length] else []) = List.replicate new.length l.length := by
      have := hm.few
      rw [hlen, hS.inv.len]
      rcases (show new.length = 0 ∨ new.length = 1 by omega) with h | h <;> simp [h]
    refine .inl ⟨_, l', by simp only [turnReal, e, e1, bind_ok, hnew]; rfl, ⟨hI', fun t' => ?_, ?_⟩, fun t' ht => ⟨Function.update_of_ne ht _ _, fun g hg' => ?_⟩, fun g hg' => ?_⟩
    · by_cases ht : t' = t
      · subst ht
        simp only [Function.update_self]
        refine ⟨L', W', realPlay_snoc hK.play e hs, ?_, hW', ?_, ?_, ?_, ?_, ?_⟩
        · rw [playReal_add, hK.alone]
          simp only [bind_ok]
          exact playReal_one e e2
        · simp [hm.own, hm.lenOwn, hK.len]
        · have := hK.more
          rw [hm.own, List.length_append, hm.lenOwn]; omega
        · intro i hi
          have := hK.head i hi
          rw [List.getElem?_append_left (List.getElem?_eq_some_iff.1 this).1]; exact this
        · rw [List.nodup_append]
          refine ⟨hK.nodup, ?_, ?_⟩
          · have := hm.few
            rcases (show new.length = 0 ∨ new.length = 1 by omega) with h | h <;> simp [h]
          · intro a ha b hb
            obtain ⟨i, hi⟩ := List.getElem?_of_mem ha
            have := (hK.agree i a hi).1
            have := List.eq_of_mem_replicate hb
            omega
        · intro i g hi
          by_cases hv : i < (s.threads t').view.length
          · rw [List.getElem?_append_left hv] at hi
            have hiL : i < L.length := by rw [← hK.len]; exact hv
            obtain ⟨h1, h2, h3⟩ := hm.agree i hiL
            simp only [List.getD_eq_getElem?_getD, hi, Option.getD_some] at h2 h3
            rw [hm.old, hm.own, List.getElem?_append_left h2, List.getElem?_append_left h1, List.length_append]
            exact ⟨by omega, h3⟩
          · obtain ⟨h1, h2⟩ := List.getElem?_eq_some_iff.1 hi
            have hr := List.eq_of_mem_replicate (List.mem_of_getElem? (by rw [List.getElem?_append_right (by omega)] at hi; exact hi))
            have hf := hm.few
            rw [List.length_append, List.length_replicate] at h1
            have hi' : i = M.length := by rw [hm.lenOwn, ← hK.len]; omega
            subst hr
            rw [hm.old, hm.own, List.length_append, ← hm.len, List.getElem?_append_right (le_refl _), hi',
              List.getElem?_append_right (le_refl _), Nat.sub_self, Nat.sub_self]
            exact ⟨by omega, rfl⟩
      · simp only [Function.update_of_ne ht]
        obtain ⟨L2, W2, hK2⟩ := hS.knows t'
        refine ⟨L2, W2, hK2.play, hK2.alone, hK2.inv, hK2.len, hK2.more, hK2.head, hK2.nodup, fun i g hi => ?_⟩
        obtain ⟨h1, h2⟩ := hK2.agree i g hi
        have hnc : g ∉ act.changes.map (fun i => (s.threads t).view.getD i 0) := by
          intro hc'
          obtain ⟨h3, h4⟩ := hch g hc'
          exact hS.apart t t' (Ne.symm ht) g h3 h4 (List.mem_of_getElem? hi)
        rw [hm.old, List.length_append, hm.len, List.getElem?_append_left (by rw [hm.len]; exact h1), hm.frame g hnc]
        exact ⟨by omega, h2⟩
    · -- the threads' own numbers stay apart
      have hold : ∀ t' g, g ∈ (s.threads t').view → g < l.length := by
        intro t' g hg'
        obtain ⟨i, hi⟩ := List.getElem?_of_mem hg'
        obtain ⟨L2, W2, hK2⟩ := hS.knows t'
        exact (hK2.agree i g hi).1
      intro t1 t2 hne g hl0 h1 h2
      simp only at h1 h2
      by_cases e1 : t1 = t
      · subst e1
        rw [Function.update_self] at h1
        rw [Function.update_of_ne (Ne.symm hne)] at h2
        rcases List.mem_append.1 h1 with h | h
        · exact hS.apart _ _ hne g hl0 h h2
        · have := List.eq_of_mem_replicate h
          have := hold t2 g h2
          omega
      · rw [Function.update_of_ne e1] at h1
        by_cases e2 : t2 = t
        · subst e2
          rw [Function.update_self] at h2
          rcases List.mem_append.1 h2 with h | h
          · exact hS.apart _ _ hne g hl0 h1 h
          · have := List.eq_of_mem_replicate h
            have := hold t1 g h1
            omega
        · rw [Function.update_of_ne e2] at h2
          exact hS.apart _ _ hne g hl0 h1 h2
    · refine hfr g (fun hc' => ?_)
      obtain ⟨h3, h4⟩ := hch g hc'
      exact hS.apart t t' (Ne.symm ht) g h3 h4 hg'
    · refine hfr g (fun hc' => ?_)
      have := (hch g hc').1
      omega

theorem scheduleReal_sim [Build] {lm : Libm} (hlm : LibmOK lm) {fuel : Nat} (hf : 4200 ≤ fuel) {lay : ℕ → Bin → Buf} (hg : GoodLayout lay) {w0 : World}
    {progs : ℕ → RealClient} {l0 : List Slot} (hc : ∀ t, (progs t).Legal l0 []) (hsh : ∀ t, (progs t).Shares l0 l0.length) (σ : List ℕ) :
    ∀ {k : ℕ → ℕ} {s : RealSystem} {l : List Slot}, RealSysInv lm fuel lay w0 progs l0 k s l →
    (∃ s' l', scheduleReal lm fuel lay progs σ s = .ok s' ∧ RealSysInv lm fuel lay w0 progs l0 (fun t => k t + σ.count t) s' l' ∧
      ∀ g, g < l0.length → Untouched s.world s'.world g) ∨
    (scheduleReal lm fuel lay progs σ s = .error .diverge ∧ ∃ σ₁ t σ₂, σ = σ₁ ++ t :: σ₂ ∧
      playReal lm fuel lay (progs t) (k t + σ₁.count t + 1) (w0, []) = .error .diverge ∧
      ∃ L h act, RealPlay (progs t) (k t + σ₁.count t) (l0, []) (L, h) ∧ progs t h = some act ∧ act.MayHang L) := by
  induction σ with
  | nil => intro k s l hS; exact .inl ⟨s, l, rfl, by simpa using hS, fun g _ => .refl _ g⟩
  | cons t σ ih =>
    intro k s l hS
    have upd : ∀ (τ : List ℕ) t', Function.update k t (k t + 1) t' + τ.count t' = k t' + (t :: τ).count t' := by
      intro τ t'
      by_cases e : t' = t
      · subst e; rw [Function.update_self, List.count_cons_self]; omega
      · rw [Function.update_of_ne e, List.count_cons_of_ne (Ne.symm e)]
    rcases turnReal_sim hlm hf hg hc hsh hS t with ⟨s1, l1, e1, h1, -, u1⟩ | ⟨e1, hd, hh⟩
    · rcases ih h1 with ⟨s2, l2, e2, h2, u2⟩ | ⟨e2, σ₁, t', σ₂, rfl, hd, hh⟩
      · refine .inl ⟨s2, l2, by simp only [scheduleReal, e1, bind_ok, e2], ?_, fun g hg' => (u1 g hg').trans (u2 g hg')⟩
        rw [show (fun t' => Function.update k t (k t + 1) t' + σ.count t') = fun t' => k t' + (t :: σ).count t' from funext (upd σ)] at h2
        exact h2
      · rw [upd σ₁ t'] at hd hh
        exact .inr ⟨by simp only [scheduleReal, e1, bind_ok, e2], t :: σ₁, t', σ₂, rfl, hd, hh⟩
    · exact .inr ⟨by simp only [scheduleReal, e1]; rfl, [], t, σ, rfl, by simpa using hd, by simpa using hh⟩

theorem real_init_inv [Build] {lm : Libm} {fuel : Nat} {lay : ℕ → Bin → Buf} {w : World} {l0 : List Slot} (hI : Inv w l0) (progs : ℕ → RealClient) :
    RealSysInv lm fuel lay w progs l0 (fun _ => 0) (RealSystem.init w) l0 := by
  refine ⟨hI, fun t => ⟨l0, w, .zero, rfl, hI, by simp [RealSystem.init, hI.len], le_refl _, fun i hi => ?_, List.nodup_range, fun i g h => ?_⟩, ?_⟩
  · simp only [RealSystem.init]
    rw [List.getElem?_range (by rw [hI.len]; exact hi)]
  · simp only [RealSystem.init] at h
    obtain ⟨h1, h2⟩ := List.getElem?_eq_some_iff.1 h
    rw [List.getElem_range] at h2
    subst h2
    rw [List.length_range, hI.len] at h1
    exact ⟨h1, rfl⟩
  · intro t t' _ g hl h
    simp only [RealSystem.init, List.mem_range, hI.len] at h
    omega

/-- A state a program can be in: `w` is what it has in memory, and each of its numbers is the one `l` says. -/
def RealReaches [Build] (lm : Libm) (fuel : Nat) (lay : ℕ → Bin → Buf) (w : World) (l : List Slot) : Prop :=
  (∃ c n h, RealClient.Legal c [] [] ∧ playReal lm fuel lay c n (start, []) = .ok (w, h)) ∧ w.regs.length = l.length ∧
    ∀ (i : ℕ) r s, w.regs[i]? = some r → l[i]? = some s → Agrees w.heap r s

theorem represents_inj [Build] {a : Bin} {u v : Val} (hu : Represents a u) (hv : Represents a v) : u = v := by
  cases u <;> cases v
  · rfl
  · exact absurd hv ((C24_nan_accessors hu).2.2.2.2 _ _)
  · exact absurd hu ((C24_nan_accessors hv).2.2.2.2 _ _)
  · obtain ⟨rfl, rfl⟩ := Holds.inj hu hv; rfl

theorem agrees_inj [Build] {h : Heap} {r : Option HBuf} {s t : Slot} (hs : SlotOk h r s) (ht : Agrees h r t) : s = t := by
  have hs' := hs.agrees
  match r, s, t, hs, hs', ht with
  | none, .gone, .gone, _, _, _ => rfl
  | some x, .null, .null, _, _, _ => rfl
  | some x, .null, .val v, h1, _, ⟨a, e, _⟩ =>
    exfalso
    have h1 : x.ptr = none := h1
    simp only [HBuf.asNumeric, HBuf.view, h1] at e
    cases e
  | some x, .val v, .null, ⟨p, b, a, hx, _⟩, _, h2 =>
    exfalso
    have h2 : x.ptr = none := h2
    subst hx
    cases h2
  | some x, .val u, .val v, _, ⟨a, e, hu⟩, ⟨b, e', hv⟩ =>
    rw [e] at e'; cases e'
    rw [represents_inj hu hv]

theorem RealReaches.inv [Build] {lm : Libm} (hlm : LibmOK lm) {fuel : Nat} (hf : 4200 ≤ fuel) {lay : ℕ → Bin → Buf} (hg : GoodLayout lay) {w : World}
    {l : List Slot} (h : RealReaches lm fuel lay w l) : Inv w l := by
  obtain ⟨⟨c, n, h, hc, e⟩, hlen, hag⟩ := h
  rcases playReal_sim hlm hf hg (n := n) Inv.start hc with ⟨w', l', h', e', hp', hI⟩ | ⟨e', -⟩
  · rw [e] at e'
    cases e'
    have : l' = l := by
      refine List.ext_getElem (by rw [← hI.len, hlen]) (fun i h1 h2 => ?_)
      have h3 : i < w.regs.length := by rw [hlen]; exact h2
      exact agrees_inj (hI.slot (List.getElem?_eq_getElem h3) (List.getElem?_eq_getElem h1))
        (hag i _ _ (List.getElem?_eq_getElem h3) (List.getElem?_eq_getElem h2))
    exact this ▸ hI
  · rw [e] at e'; cases e'

/-- C73: a program that has numbers in memory (roots and powers among them) hands references to all of them to any number of threads, each running a
program of its own that makes legal calls, also of roots, logarithms, exponentials and powers, and borrows the shared numbers only immutably. Under
every schedule every thread gets the answers it would get if it were alone, the shared numbers stay as they are bit for bit, and no allocation is
lost or owned twice; or some call runs on, and then the same thread alone would have run on in the same call. -/
theorem C73_threads [Build] {lm : Libm} (hlm : LibmOK lm) {fuel : Nat} (hf : 4200 ≤ fuel) {lay : ℕ → Bin → Buf} (hg : GoodLayout lay) {w : World}
    {l : List Slot} (hw : RealReaches lm fuel lay w l) {progs : ℕ → RealClient} (hc : ∀ t, (progs t).Legal l [])
    (hsh : ∀ t, (progs t).Shares l l.length) (σ : List ℕ) :
    (∃ s, scheduleReal lm fuel lay progs σ (RealSystem.init w) = .ok s ∧
      (∀ t, ∃ w', playReal lm fuel lay (progs t) (σ.count t) (w, []) = .ok (w', (s.threads t).hist)) ∧
      (∀ g, g < w.regs.length → Untouched w s.world g) ∧
      (∀ (i j : ℕ) x y q, s.world.regs[i]? = some (some x) → s.world.regs[j]? = some (some y) → x.ptr = some q → y.ptr = some q → i = j) ∧
      (∀ q, s.world.heap.live q ≠ none ↔ ∃ (i : ℕ) (x : HBuf), s.world.regs[i]? = some (some x) ∧ x.ptr = some q)) ∨
    (scheduleReal lm fuel lay progs σ (RealSystem.init w) = .error .diverge ∧ ∃ σ₁ t σ₂, σ = σ₁ ++ t :: σ₂ ∧
      playReal lm fuel lay (progs t) (σ₁.count t + 1) (w, []) = .error .diverge ∧
      ∃ L h act, RealPlay (progs t) (σ₁.count t) (l, []) (L, h) ∧ progs t h = some act ∧ act.MayHang L) := by
  have hI := hw.inv hlm hf hg
  rcases scheduleReal_sim hlm hf hg hc hsh σ (real_init_inv hI progs) with ⟨s, l', e, hS, hu⟩ | ⟨e, σ₁, t, σ₂, es, hd, hh⟩
  · refine .inl ⟨s, e, fun t => ?_, fun g h => hu g (by rw [← hI.len]; exact h), fun i j x y q h1 h2 h3 h4 => hS.inv.inj h1 h2 h3 h4, hS.inv.noleak⟩
    obtain ⟨L, W, hK⟩ := hS.knows t
    have := hK.alone
    simp only [Nat.zero_add] at this
    exact ⟨W, this⟩
  · simp only [Nat.zero_add] at hd hh
    exact .inr ⟨e, σ₁, t, σ₂, es, hd, hh⟩

/-- C73: if each thread alone would get its answers, then all get them, under every schedule. -/
theorem C73_all_return [Build] {lm : Libm} (hlm : LibmOK lm) {fuel : Nat} (hf : 4200 ≤ fuel) {lay : ℕ → Bin → Buf} (hg : GoodLayout lay) {w : World}
    {l : List Slot} (hw : RealReaches lm fuel lay w l) {progs : ℕ → RealClient} (hc : ∀ t, (progs t).Legal l [])
    (hsh : ∀ t, (progs t).Shares l l.length) (σ : List ℕ) (hr : ∀ t ∈ σ, playReal lm fuel lay (progs t) (σ.count t) (w, []) ≠ .error .diverge) :
    ∃ s, scheduleReal lm fuel lay progs σ (RealSystem.init w) = .ok s ∧
      ∀ t, ∃ w', playReal lm fuel lay (progs t) (σ.count t) (w, []) = .ok (w', (s.threads t).hist) := by
  rcases C73_threads hlm hf hg hw hc hsh σ with ⟨s, e, h, -⟩ | ⟨-, σ₁, t, σ₂, rfl, hd, -⟩
  · exact ⟨s, e, h⟩
  · refine absurd ?_ (hr t (by simp))
    rw [List.count_append, List.count_cons_self, show σ₁.count t + (σ₂.count t + 1) = (σ₁.count t + 1) + σ₂.count t by omega, playReal_add, hd]
    rfl

/-- C73: two schedules that give a thread equally many turns give it the same answers. -/
theorem C73_schedule_independent [Build] {lm : Libm} (hlm : LibmOK lm) {fuel : Nat} (hf : 4200 ≤ fuel) {lay : ℕ → Bin → Buf} (hg : GoodLayout lay)
    {w : World} {l : List Slot} (hw : RealReaches lm fuel lay w l) {progs : ℕ → RealClient} (hc : ∀ t, (progs t).Legal l [])
    (hsh : ∀ t, (progs t).Shares l l.length) {σ τ : List ℕ} {s u : RealSystem} (hs : scheduleReal lm fuel lay progs σ (RealSystem.init w) = .ok s)
    (hu : scheduleReal lm fuel lay progs τ (RealSystem.init w) = .ok u) {t : ℕ} (ht : σ.count t = τ.count t) :
    (s.threads t).hist = (u.threads t).hist := by
  have get : ∀ {ρ : List ℕ} {v : RealSystem}, scheduleReal lm fuel lay progs ρ (RealSystem.init w) = .ok v →
      ∃ w', playReal lm fuel lay (progs t) (ρ.count t) (w, []) = .ok (w', (v.threads t).hist) := by
    intro ρ v hv
    rcases C73_threads hlm hf hg hw hc hsh ρ with ⟨s', e, h, -⟩ | ⟨e, -⟩
    · rw [hv] at e; cases e; exact h t
    · rw [hv] at e; cases e
  obtain ⟨w1, e1⟩ := get hs
  obtain ⟨w2, e2⟩ := get hu
  rw [ht, e2] at e1
  injection e1 with e1
  exact (Prod.ext_iff.1 e1).2.symm

/-- C73: while a thread is not running, nothing it can see changes, bit for bit. -/
theorem C73_stable [Build] {lm : Libm} (hlm : LibmOK lm) {fuel : Nat} (hf : 4200 ≤ fuel) {lay : ℕ → Bin → Buf} (hg : GoodLayout lay) {w : World}
    {l : List Slot} (hw : RealReaches lm fuel lay w l) {progs : ℕ → RealClient} (hc : ∀ t, (progs t).Legal l [])
    (hsh : ∀ t, (progs t).Shares l l.length) {σ : List ℕ} {s s' : RealSystem} (hs : scheduleReal lm fuel lay progs σ (RealSystem.init w) = .ok s)
    {t : ℕ} (ht : turnReal lm fuel lay progs t s = .ok s') :
    ∀ t', t' ≠ t → s'.threads t' = s.threads t' ∧ ∀ g ∈ (s.threads t').view, Untouched s.world s'.world g := by
  rcases scheduleReal_sim hlm hf hg hc hsh σ (real_init_inv (hw.inv hlm hf hg) progs) with ⟨s1, l', e, hS, -⟩ | ⟨e, -⟩
  · rw [hs] at e; cases e
    rcases turnReal_sim hlm hf hg hc hsh hS t with ⟨s2, l2, e2, -, h, -⟩ | ⟨e2, -⟩
    · rw [ht] at e2; cases e2; exact h
    · rw [ht] at e2; cases e2
  · rw [hs] at e; cases e

/-! ## Non-vacuity -/

/-- The main program makes 4. -/
def demoFour : RealClient
  | [] => some (.base (.int .i32 4))
  | _ => none

/-- One thread takes its root and the exponential of the root. -/
def demoRoot : RealClient
  | [] => some (.fun1 .sqrt 0)
  | [.plain .number] => some (.fun1 .exp 1)
  | _ => none

/-- All the others raise it to its own power and negate the result in place. -/
def demoPower : RealClient
  | [] => some (.fun2 .pow 0 0)
  | [.plain .number] => some (.base (.mutate .negate 1))
  | _ => none

theorem demoRoot_inv [Build] {n : ℕ} {l : List Slot} {h : List RealAnswer} (hp : RealPlay demoRoot n ([.val (.num 4 0)], []) (l, h)) :
    (h = [] ∧ l = [.val (.num 4 0)]) ∨ (h ≠ [] ∧ (h = [.plain .number] → ∃ y t, l = [.val (.num 4 0), .val (.num y t)])) := by
  refine real_invariant (P := fun l h => (h = [] ∧ l = [.val (.num 4 0)]) ∨ (h ≠ [] ∧ (h = [.plain .number] → ∃ y t, l = [.val (.num 4 0), .val (.num y t)])))
    ?_ hp (.inl ⟨rfl, rfl⟩)
  rintro l h act ans l' (⟨rfl, rfl⟩ | ⟨hne, -⟩) e hs
  · cases e
    cases hs with
    | fun1 hu hm =>
      cases hu
      cases hm with
      | sqrt => exact .inr ⟨by simp, fun _ => ⟨_, _, rfl⟩⟩
      | sqrtNegative => exact .inr ⟨by simp, fun hb => by simp [Outcome.answer] at hb⟩
      | sqrtTiny => exact .inr ⟨by simp, fun hb => by simp [Outcome.answer] at hb⟩
      | sqrtOverflow => exact .inr ⟨by simp, fun hb => by simp [Outcome.answer] at hb⟩
      | logDomain h => cases h
      | logOverflow h => cases h
  · exact .inr ⟨by simp, fun hb => by cases h <;> simp at hb hne⟩

theorem demoPower_inv [Build] {n : ℕ} {l : List Slot} {h : List RealAnswer} (hp : RealPlay demoPower n ([.val (.num 4 0)], []) (l, h)) :
    (h = [] ∧ l = [.val (.num 4 0)]) ∨ (h ≠ [] ∧ (h = [.plain .number] → ∃ y t, l = [.val (.num 4 0), .val (.num y t)])) := by
  refine real_invariant (P := fun l h => (h = [] ∧ l = [.val (.num 4 0)]) ∨ (h ≠ [] ∧ (h = [.plain .number] → ∃ y t, l = [.val (.num 4 0), .val (.num y t)])))
    ?_ hp (.inl ⟨rfl, rfl⟩)
  rintro l h act ans l' (⟨rfl, rfl⟩ | ⟨hne, -⟩) e hs
  · cases e
    cases hs with
    | fun2 hu hv hm =>
      cases hu
      cases hv
      have num : ∀ {x y : ℚ} {s t : ℤ} {o : Outcome}, May2 .pow (.num x s) (.num y t) o → ∀ v, o = .number v → ∃ y t, v = .num y t := by
        intro x y s t o hm v ho
        cases hm <;> cases ho <;> exact ⟨_, _, rfl⟩
      rename_i o
      refine .inr ⟨by simp, fun hb => ?_⟩
      cases o with
      | number v =>
        obtain ⟨y, t, rfl⟩ := num hm v rfl
        exact ⟨y, t, rfl⟩
      | none => simp [Outcome.answer] at hb
      | panic => simp [Outcome.answer] at hb
      | overflow => simp [Outcome.answer] at hb
  · exact .inr ⟨by simp, fun hb => by cases h <;> simp at hb hne⟩

/-- The hypotheses of C73 are met. -/
example [Build] {lm : Libm} (hlm : LibmOK lm) {fuel : Nat} (hf : 4200 ≤ fuel) : ∃ lay w l, GoodLayout lay ∧ RealReaches lm fuel lay w l ∧
    w.regs.length = 1 ∧ let progs : ℕ → RealClient := fun t => if t = 0 then demoRoot else demoPower
    (∀ t, (progs t).Legal l []) ∧ (∀ t, (progs t).Shares l l.length) := by
  have hi : IntExponent 4 := ⟨4, by norm_num, by norm_num, by norm_num⟩
  obtain ⟨lay, hg⟩ : ∃ lay, GoodLayout lay := ⟨_, exists_layout⟩
  have four : ∀ {l : List Slot} {h : List RealAnswer}, RealPlay demoFour 1 ([], []) (l, h) → l = [.val (.num 4 0)] := by
    intro l h hp
    cases hp with
    | stop e => cases e
    | step e hs hp =>
      cases e
      cases hp
      cases hs with
      | base hs =>
        cases hs with
        | int => rfl
        | look h => cases h
  have main : demoFour.Legal [] [] := by
    intro n l h act hp e
    match h, e with
    | [], e =>
      cases e
      exact ⟨by simp [Convert.types], by decide, by decide⟩
  rcases C68_client hlm hf hg main 1 with ⟨w, l, h, e, hp, hlen, hag, -⟩ | ⟨-, m, l, h, act, hm, hp, e, hh⟩
  · cases four hp
    refine ⟨lay, w, _, hg, ⟨⟨_, _, _, main, e⟩, hlen, hag⟩, hlen, fun t => ?_, fun t => ?_⟩
    · dsimp only
      split
      · intro n l h act hp e
        rcases demoRoot_inv hp with ⟨rfl, rfl⟩ | ⟨hne, h1⟩
        · cases e; exact ⟨_, rfl, trivial⟩
        · match h, e with
          | [], _ => exact absurd rfl hne
          | [.plain .number], e =>
            cases e
            obtain ⟨y, t, rfl⟩ := h1 rfl
            exact ⟨_, rfl, trivial⟩
      · intro n l h act hp e
        rcases demoPower_inv hp with ⟨rfl, rfl⟩ | ⟨hne, h1⟩
        · cases e; exact ⟨_, _, rfl, rfl, by norm_num, by norm_num, fun _ h => absurd hi h⟩
        · match h, e with
          | [], _ => exact absurd rfl hne
          | [.plain .number], e =>
            cases e
            obtain ⟨y, t, rfl⟩ := h1 rfl
            exact ⟨trivial, .inl ⟨_, _, rfl⟩⟩
    · dsimp only
      split
      · intro n l h act hp e i hi
        match h, e with
        | [], e => cases e; cases hi
        | [.plain .number], e => cases e; cases hi
      · intro n l h act hp e i hi
        match h, e with
        | [], e => cases e; cases hi
        | [.plain .number], e => cases e; simp [RealAct.changes, Act.changes] at hi; simp [hi]
  · have : m = 0 := by omega
    subst this
    cases hp
    cases e
    exact absurd hh id

end PgNumeric.Props
