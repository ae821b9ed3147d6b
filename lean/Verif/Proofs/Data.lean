import Verif.SpecBuf
import Verif.Model.Data
import Verif.Proofs.Typmod
/-! The owned-buffer layer refines the digit-list layer. -/
namespace PgNumeric
open Spec

/-! ## Cells -/

theorem readCell_append {pre post : Cells} {x : Int} : readCell (pre ++ some x :: post) pre.length = .ok x := by
  unfold readCell; simp

theorem writeCell_append {pre post : Cells} {o : Option Int} {x : Int} :
    writeCell (pre ++ o :: post) pre.length x = .ok (pre ++ some x :: post) := by
  unfold writeCell
  rw [if_pos (by simp)]
  simp

theorem readCells_append (ds : List Int) (pre post : Cells) :
    readCells (pre ++ (ds.map some ++ post)) pre.length ds.length = .ok ds := by
  induction ds generalizing pre with
  | nil => rfl
  | cons d ds ih =>
    simp only [List.length_cons, readCells, List.map_cons, List.cons_append]
    rw [readCell_append]
    have := ih (pre ++ [some d])
    simp only [List.append_assoc, List.singleton_append, List.length_append, List.length_singleton] at this
    simp only [bind_ok, this, pure_ok]

theorem writeCells_append (xs : List Int) (pre mid post : Cells) (h : mid.length = xs.length) :
    writeCells (pre ++ (mid ++ post)) pre.length xs = .ok (pre ++ (xs.map some ++ post)) := by
  induction xs generalizing pre mid with
  | nil =>
    have : mid = [] := by simpa using h
    simp [writeCells, this]
  | cons x xs ih =>
    cases mid with
    | nil => simp at h
    | cons m mid =>
      simp only [writeCells, List.cons_append]
      rw [writeCell_append]
      have := ih (pre ++ [some x]) mid (by simpa using h)
      simp only [List.append_assoc, List.singleton_append, List.length_append, List.length_singleton] at this
      simp only [bind_ok, this, List.map_cons, List.cons_append]

/-- The live digits of an allocation. -/
def Live (d : Data) (ds : List Int) : Prop :=
  ∃ pre post : Cells, d.cells = pre ++ (ds.map some ++ post) ∧ pre.length = d.offset

theorem Live.digits [Build] {d : Data} {ds : List Int} (h : Live d ds) : d.digits ds.length = .ok ds := by
  obtain ⟨pre, post, e, hl⟩ := h
  unfold Data.digits
  rw [dassert_ok (by rw [e, ← hl]; simp), bind_ok, e, ← hl, readCells_append]

theorem ofDigits_ok (ds : List Int) :
    Data.ofDigits ds = .ok ⟨List.replicate 5 none ++ (ds.map some ++ []), 5⟩ := by
  unfold Data.ofDigits Data.withNdigits
  have : (List.replicate (ds.length + HEADER_CELLS + 1) none : Cells)
      = List.replicate 5 none ++ (List.replicate ds.length none ++ []) := by
    rw [List.append_nil, ← List.replicate_add]; congr 1; simp only [HEADER_CELLS]; omega
  have h := writeCells_append ds (List.replicate 5 none) (List.replicate ds.length none) [] (by simp)
  simp only [List.length_replicate] at h
  simp only [this, HEADER_CELLS]
  rw [h]; rfl

theorem Live.ofDigits (ds : List Int) :
    ∃ d, Data.ofDigits ds = .ok d ∧ Live d ds ∧ d.offset = 5 :=
  ⟨_, ofDigits_ok ds, ⟨_, _, rfl, by simp⟩, rfl⟩

/-- `o` is an owned variable with the contents of `v`, with room for a header in front of its digits. -/
structure Rep (o : OVar) (v : Var) : Prop where
  ndigits : o.ndigits = v.digits.length
  weight : o.weight = v.weight
  dscale : o.dscale = v.dscale
  sign : o.sign = v.sign
  live : Live o.data v.digits
  room : 4 ≤ o.data.offset

theorem Rep.ofVar (v : Var) : ∃ o, OVar.ofVar v = .ok o ∧ Rep o v := by
  obtain ⟨d, e, hl, ho⟩ := Live.ofDigits v.digits
  refine ⟨⟨v.digits.length, v.weight, v.dscale, v.sign, d⟩, ?_, rfl, rfl, rfl, rfl, hl, by simp only; omega⟩
  unfold OVar.ofVar
  rw [e]; rfl

/-! ## Rounding -/

theorem carryCells_zero [Build] (p : Nat) (c : Cells) : OVar.carryCells p c 0 = .ok (c, p) := by
  cases p <;> simp [OVar.carryCells]

theorem carryUp_zero [Build] (ds : List Int) : Var.carryUp ds 0 = .ok (ds, 0) := by
  induction ds with
  | nil => rfl
  | cons d ds ih => simp [Var.carryUp, ih]

theorem carryUp_snoc [Build] (ds : List Int) (d : Int) :
    Var.carryUp (ds ++ [d]) 1 = (do
      let s ← i32 (1 + d)
      if s ≥ NBASE then do
        let (ds', c') ← Var.carryUp ds 1
        pure (ds' ++ [s - NBASE], c')
      else do
        let (ds', c') ← Var.carryUp ds 0
        pure (ds' ++ [s], c')) := by
  induction ds with
  | nil =>
    simp only [List.nil_append, Var.carryUp, pure_ok, bind_ok]
    rw [if_pos (by norm_num)]
  | cons a ds ih =>
    simp only [List.cons_append, Var.carryUp, ih]
    rcases i32 (1 + d) with e | s
    · rfl
    · simp only [bind_ok]
      split
      · rcases Var.carryUp ds 1 with e | ⟨l, c⟩
        · rfl
        · simp only [bind_ok, pure_ok]
          split
          · rcases i32 (c + a) with e | s'
            · rfl
            · simp only [bind_ok]; split <;> rfl
          · rfl
      · simp only [carryUp_zero, bind_ok, pure_ok]
        rw [if_neg (by norm_num)]
        rfl

theorem carryCells_spec [Build] (pre : Cells) (ds : List Int) (post : Cells) (c : Int) (hc : c = 0 ∨ c = 1)
    {ds' : List Int} {c' : Int} (h : Var.carryUp ds c = .ok (ds', c')) :
    (c' = 0 ∧ ∃ p, OVar.carryCells (pre.length + 1 + ds.length) (pre ++ some 0 :: (ds.map some ++ post)) c =
        .ok (pre ++ some 0 :: (ds'.map some ++ post), p) ∧ pre.length + 1 ≤ p) ∨
    (c' = 1 ∧ OVar.carryCells (pre.length + 1 + ds.length) (pre ++ some 0 :: (ds.map some ++ post)) c =
        .ok (pre ++ some 1 :: (ds'.map some ++ post), pre.length)) := by
  induction ds using List.reverseRecOn generalizing post c ds' c' with
  | nil =>
    rcases hc with rfl | rfl
    · simp only [Var.carryUp, pure_ok, Except.ok.injEq, Prod.mk.injEq] at h
      obtain ⟨rfl, rfl⟩ := h
      exact .inl ⟨rfl, _, carryCells_zero _ _, by simp⟩
    · simp only [Var.carryUp, pure_ok, Except.ok.injEq, Prod.mk.injEq] at h
      obtain ⟨rfl, rfl⟩ := h
      refine .inr ⟨rfl, ?_⟩
      simp only [List.length_nil, Nat.add_zero, OVar.carryCells]
      rw [if_pos (by norm_num), readCell_append, bind_ok, i32_ok (by norm_num) (by norm_num), bind_ok, if_neg (by norm_num),
        writeCell_append, bind_ok, carryCells_zero]
      rfl
  | append_singleton ds d ih =>
    rcases hc with rfl | rfl
    · rw [carryUp_zero] at h
      simp only [Except.ok.injEq, Prod.mk.injEq] at h
      obtain ⟨rfl, rfl⟩ := h
      exact .inl ⟨rfl, _, carryCells_zero _ _, by omega⟩
    · rw [carryUp_snoc] at h
      have hlen : pre.length + 1 + (ds ++ [d]).length = (pre.length + 1 + ds.length) + 1 := by simp; omega
      rw [hlen]
      have hcells : pre ++ some 0 :: ((ds ++ [d]).map some ++ post)
          = (pre ++ some 0 :: ds.map some) ++ some d :: post := by simp
      have hpl : (pre ++ some (0:Int) :: ds.map some).length = pre.length + 1 + ds.length := by simp; omega
      rw [hcells]
      unfold OVar.carryCells
      rw [if_pos (by norm_num), ← hpl, readCell_append, bind_ok]
      rcases hs : i32 (1 + d) with e | s
      · rw [hs] at h; cases h
      · rw [hs] at h
        simp only [bind_ok] at h ⊢
        have back : ∀ x : Int, pre ++ some 0 :: ds.map some ++ some x :: post
            = pre ++ some 0 :: (ds.map some ++ some x :: post) := by intro x; simp
        by_cases hN : s ≥ NBASE
        · rw [if_pos hN] at h ⊢
          rcases hcu : Var.carryUp ds 1 with e | ⟨l, k⟩
          · rw [hcu] at h; cases h
          · rw [hcu] at h
            simp only [bind_ok, pure_ok, Except.ok.injEq, Prod.mk.injEq] at h
            obtain ⟨rfl, rfl⟩ := h
            rw [writeCell_append, bind_ok, hpl, back]
            rcases ih (some (s - NBASE) :: post) 1 (.inr rfl) hcu with ⟨h1, p, h2, h3⟩ | ⟨h1, h2⟩
            · exact .inl ⟨h1, p, by rw [h2]; simp, h3⟩
            · exact .inr ⟨h1, by rw [h2]; simp⟩
        · rw [if_neg hN] at h ⊢
          rw [carryUp_zero] at h
          simp only [bind_ok, pure_ok, Except.ok.injEq, Prod.mk.injEq] at h
          obtain ⟨rfl, rfl⟩ := h
          rw [writeCell_append, bind_ok, carryCells_zero, hpl, back]
          exact .inl ⟨rfl, _, by simp; rfl, by omega⟩

/-- After reserving, there is a spare cell in front of the digits. -/
theorem reserve_spec [Build] {d : Data} {ds : List Int} (hl : Live d ds) (_ : 4 ≤ d.offset) (hne : 0 < ds.length) :
    ∃ d' pre x post, d.reserveRoundingDigit ds.length = .ok d' ∧ d'.cells = pre ++ x :: (ds.map some ++ post) ∧
      d'.offset = pre.length + 1 ∧ 4 ≤ pre.length := by
  unfold Data.reserveRoundingDigit
  rw [dassert_ok hne, bind_ok]
  by_cases h : d.offset ≤ HEADER_CELLS
  · rw [if_pos h, hl.digits, bind_ok]
    obtain ⟨d', e, hl', ho⟩ := Live.ofDigits ds
    exact ⟨_, List.replicate 4 none, none, [], ofDigits_ok ds, rfl, by simp, by simp⟩
  · rw [if_neg h]
    simp only [HEADER_CELLS] at h
    obtain ⟨pre, post, e, hlen⟩ := hl
    have hpne : pre ≠ [] := by intro h0; rw [h0] at hlen; simp at hlen; omega
    refine ⟨d, pre.dropLast, pre.getLast hpne, post, rfl, ?_, ?_, ?_⟩
    · rw [e]
      conv_lhs => rw [← List.dropLast_append_getLast hpne]
      simp
    · rw [List.length_dropLast]; omega
    · rw [List.length_dropLast]; omega

theorem split_at (ds : List Int) (k : Nat) (h : k < ds.length) : ds = ds.take k ++ ds[k] :: ds.drop (k + 1) := by
  conv_lhs => rw [← List.take_append_drop k ds, List.drop_eq_getElem_cons h]

theorem map_split_at (ds : List Int) (k : Nat) (h : k < ds.length) :
    ds.map some = (ds.take k).map some ++ some ds[k] :: (ds.drop (k + 1)).map some := by
  rw [← List.map_cons, ← List.map_append, ← split_at ds k h]

theorem carryUp_ok_cases [Build] {ds : List Int} (h : Digits ds) (c : Int) (hc : c = 0 ∨ c = 1) :
    ∃ ds' c', Var.carryUp ds c = .ok (ds', c') ∧ (c' = 0 ∨ c' = 1) ∧ ds'.length = ds.length := by
  obtain ⟨ds', c', e, -, h1, h2, -⟩ := carryUp_spec ds c h hc
  exact ⟨ds', c', e, h1, h2⟩

theorem OVar.roundCommon_rep [Build] {o : OVar} {v v' : Var} {s : Int} (hd : Digits v.digits) (hr : Rep o v)
    (h : Var.roundCommon v s = .ok v') : ∃ o', o.roundCommon s = .ok o' ∧ Rep o' v' := by
  obtain ⟨n, w, sc, sg, dat⟩ := o
  obtain ⟨wv, sv, sgv, ds⟩ := v
  obtain ⟨h1, h2, h3, h4, hl, hroom⟩ := hr
  simp only at h1 h2 h3 h4 hl hroom hd
  subst h1 h2 h3 h4
  unfold Var.roundCommon at h
  unfold OVar.roundCommon
  rcases ha : dassert (sg ≠ .nan) with e | u
  · rw [ha] at h; cases h
  rw [ha] at h
  simp only [bind_ok, DEC_DIGITS, Var.ndigits, HALF_NBASE] at h ⊢
  rcases hf : fits [w + 1, (w + 1) * 4, (w + 1) * 4 + s, (w + 1) * 4 + s + 4] with e | _
  · rw [hf] at h; cases h
  rw [hf] at h
  simp only [bind_ok] at h ⊢
  by_cases hdi : (w + 1) * 4 + s < 0
  · rw [if_pos hdi] at h ⊢
    simp only [pure_ok, Except.ok.injEq] at h ⊢
    subst h
    refine ⟨_, rfl, rfl, rfl, rfl, rfl, ?_, hroom⟩
    obtain ⟨pre, post, e, hlen⟩ := hl
    exact ⟨pre, ds.map some ++ post, by simpa using e, hlen⟩
  rw [if_neg hdi] at h ⊢
  generalize hnd : ((w + 1) * 4 + s + 4 - 1) / 4 = nd at h ⊢
  generalize hrem : ((w + 1) * 4 + s) % 4 = di at h ⊢
  have hnd0 : 0 ≤ nd := by omega
  have hdi0 : 0 ≤ di ∧ di < 4 := by omega
  have hndpos : di > 0 → 1 ≤ nd := by omega
  by_cases hb : nd < (ds.length : Int) ∨ nd = (ds.length : Int) ∧ di > 0
  swap
  · rw [if_neg hb] at h ⊢
    simp only [pure_ok, Except.ok.injEq] at h ⊢
    subst h
    exact ⟨_, rfl, rfl, rfl, rfl, rfl, hl, hroom⟩
  rw [if_pos hb] at h ⊢
  have hlen : 0 < ds.length := by rcases hb with h | ⟨h, h'⟩ <;> omega
  obtain ⟨d', pre, x, post, er, hcells, hoff, hpre⟩ := reserve_spec hl hroom hlen
  rw [if_pos hlen, er, bind_ok, dassert_ok (.inl (by rw [hoff]; simp only [HEADER_CELLS]; omega)), bind_ok,
    dassert_ok (by rw [hoff, hcells]; simp; omega), bind_ok]
  -- what remains after the last kept digit has been rounded
  suffices key : ∀ (k : Nat) (A : List Int) (B : Cells) (c : Int) (tl : List Int) (cells : Cells),
      (c = 0 ∨ c = 1) → Digits A → A.length = k → nd.toNat = k + tl.length →
      cells = pre ++ x :: (A.map some ++ (tl.map some ++ B)) →
      (do
        let (ds', carry) ← Var.carryUp A c
        if carry > 0 then pure (⟨w + 1, s, sg, carry :: (ds' ++ tl)⟩ : Var) else pure ⟨w, s, sg, ds' ++ tl⟩) = .ok v' →
      ∃ o', (do
        dassert (d'.offset > HEADER_CELLS)
        let c' ← writeCell cells (d'.offset - 1) 0
        let (c', p) ← OVar.carryCells (d'.offset + k) c' c
        if p < d'.offset then do
          dassert (p + 1 = d'.offset)
          let d ← Data.offsetSub ⟨c', d'.offset⟩ 1
          pure (⟨nd.toNat + 1, w + 1, s, sg, d⟩ : OVar)
        else pure ⟨nd.toNat, w, s, sg, ⟨c', d'.offset⟩⟩) = .ok o' ∧ Rep o' v' by
    by_cases hdz : di = 0
    · have hlt : nd.toNat < ds.length := by omega
      rw [if_pos hdz] at h ⊢
      rw [getM_ok hlt] at h
      have hrd : readCell d'.cells (d'.offset + nd.toNat) = .ok ds[nd.toNat] := by
        have e1 : d'.cells = (pre ++ x :: (ds.take nd.toNat).map some) ++ some ds[nd.toNat] :: ((ds.drop (nd.toNat + 1)).map some ++ post) := by
          rw [hcells, map_split_at ds _ hlt]
          simp
        have e2 : d'.offset + nd.toNat = (pre ++ x :: (ds.take nd.toNat).map some).length := by
          rw [hoff]; simp; omega
        rw [e1, e2, readCell_append]
      rw [if_pos hlt, hrd]
      simp only [bind_ok, pure_ok] at h ⊢
      refine key nd.toNat (ds.take nd.toNat) ((ds.drop nd.toNat).map some ++ post) _ [] d'.cells ?_ (hd.take _)
        (by simp; omega) (by simp) ?_ ?_
      · split <;> simp
      · rw [hcells]
        simp only [List.map_nil, List.nil_append, List.map_take, List.map_drop]
        rw [← List.append_assoc (List.take _ _), List.take_append_drop]
      · simp only [List.append_nil]
        rw [← h]
        rcases Var.carryUp (List.take nd.toNat ds) (if ds[nd.toNat] ≥ 5000 then 1 else 0) with e | ⟨l, c⟩
        · rfl
        · simp only [bind_ok, pure_ok]
    · have hpos : di > 0 := by omega
      have := hndpos hpos
      have hlt : nd.toNat - 1 < ds.length := by omega
      rw [if_neg hdz] at h ⊢
      rw [getM_ok hlt] at h
      have e1 : d'.cells = (pre ++ x :: (ds.take (nd.toNat - 1)).map some) ++ some ds[nd.toNat - 1] :: ((ds.drop (nd.toNat - 1 + 1)).map some ++ post) := by
        rw [hcells, map_split_at ds _ hlt]
        simp
      have e2 : d'.offset + (nd.toNat - 1) = (pre ++ x :: (ds.take (nd.toNat - 1)).map some).length := by
        rw [hoff]; simp; omega
      obtain ⟨d2, c2, erd, -, hc2, -⟩ := roundDigit_spec ds[nd.toNat - 1] (roundPower di) (hd.get hlt)
        (by rcases roundPower_cases hpos hdi0.2 with h | h | h <;> simp [h.2])
      simp only [bind_ok] at h ⊢
      rw [erd] at h
      have hrd : readCell d'.cells (d'.offset + (nd.toNat - 1)) = .ok ds[nd.toNat - 1] := by
        rw [e1, e2, readCell_append]
      have hwr : writeCell d'.cells (d'.offset + (nd.toNat - 1)) d2 = .ok
          ((pre ++ x :: (ds.take (nd.toNat - 1)).map some) ++ some d2 :: ((ds.drop (nd.toNat - 1 + 1)).map some ++ post)) := by
        rw [e1, e2, writeCell_append]
      rw [hrd, bind_ok, erd, bind_ok]
      simp only [hwr, bind_ok, pure_ok] at h ⊢
      refine key (nd.toNat - 1) (ds.take (nd.toNat - 1)) ((ds.drop (nd.toNat - 1 + 1)).map some ++ post) c2 [d2] _ hc2
        (hd.take _) (by simp; omega) (by simp; omega) (by simp) ?_
      rw [← h]
      rcases Var.carryUp (List.take (nd.toNat - 1) ds) c2 with e | ⟨l, c⟩
      · rfl
      · simp only [bind_ok, pure_ok]
  intro k A B c tl cells hc hA hAk hndk hce hv'
  obtain ⟨A', cA, eA, hcA, hAl⟩ := carryUp_ok_cases hA c hc
  rw [eA] at hv'
  simp only [bind_ok] at hv'
  rw [dassert_ok (by rw [hoff]; simp only [HEADER_CELLS]; omega), bind_ok, hce, hoff, Nat.add_sub_cancel, writeCell_append,
    bind_ok, ← hAk]
  rcases carryCells_spec pre A (tl.map some ++ B) c hc eA with ⟨h0, p, hp, hpl⟩ | ⟨h0, hp⟩
  · rw [hp, bind_ok]
    subst h0
    rw [if_neg (by norm_num)] at hv'
    simp only [pure_ok, Except.ok.injEq] at hv'
    subst hv'
    simp only [pure_ok]
    rw [if_neg (by omega)]
    refine ⟨_, rfl, by simp [hAl]; omega, rfl, rfl, rfl, ⟨pre ++ [some 0], B, by simp, by simp⟩, by simp; omega⟩
  · rw [hp, bind_ok]
    subst h0
    rw [if_pos (by norm_num)] at hv'
    simp only [pure_ok, Except.ok.injEq] at hv'
    subst hv'
    simp only [pure_ok]
    rw [if_pos (by omega), dassert_true, bind_ok]
    unfold Data.offsetSub
    rw [dassert_ok (by simp)]
    simp only [bind_ok, pure_ok]
    refine ⟨_, rfl, by simp [hAl]; omega, rfl, rfl, rfl, ⟨pre, B, by simp, by simp⟩, by simp; omega⟩

/-! ## Truncation -/

theorem Live.take {d : Data} {ds : List Int} (h : Live d ds) (n : Nat) : Live d (ds.take n) := by
  obtain ⟨pre, post, e, hlen⟩ := h
  refine ⟨pre, (ds.drop n).map some ++ post, ?_, hlen⟩
  rw [e]
  simp only [List.map_take, List.map_drop]
  rw [← List.append_assoc (List.take _ _), List.take_append_drop]

theorem OVar.truncCommon_rep [Build] {o : OVar} {v v' : Var} {s : Int} (hr : Rep o v)
    (h : Var.truncCommon v s = .ok v') : ∃ o', o.truncCommon s = .ok o' ∧ Rep o' v' := by
  obtain ⟨n, w, sc, sg, dat⟩ := o
  obtain ⟨wv, sv, sgv, ds⟩ := v
  obtain ⟨h1, h2, h3, h4, hl, hroom⟩ := hr
  simp only at h1 h2 h3 h4 hl hroom
  subst h1 h2 h3 h4
  unfold Var.truncCommon at h
  unfold OVar.truncCommon
  rcases ha : dassert (sg ≠ .nan) with e | u
  · rw [ha] at h; cases h
  rw [ha] at h
  simp only [bind_ok, DEC_DIGITS, Var.ndigits] at h ⊢
  rcases hf : fits [w + 1, (w + 1) * 4, (w + 1) * 4 + s, (w + 1) * 4 + s + 4] with e | _
  · rw [hf] at h; cases h
  rw [hf] at h
  simp only [bind_ok] at h ⊢
  by_cases hdi : (w + 1) * 4 + s ≤ 0
  · rw [if_pos hdi] at h ⊢
    simp only [pure_ok, Except.ok.injEq] at h ⊢
    subst h
    exact ⟨_, rfl, rfl, rfl, rfl, rfl, hl.take 0, hroom⟩
  rw [if_neg hdi] at h ⊢
  generalize hnd : ((w + 1) * 4 + s + 4 - 1) / 4 = nd at h ⊢
  generalize hrem : ((w + 1) * 4 + s) % 4 = di at h ⊢
  by_cases hb : nd ≤ (ds.length : Int)
  swap
  · rw [if_neg hb] at h ⊢
    simp only [pure_ok, Except.ok.injEq] at h ⊢
    subst h
    exact ⟨_, rfl, rfl, rfl, rfl, rfl, hl, hroom⟩
  rw [if_pos hb] at h ⊢
  by_cases hd : di > 0
  · rw [if_pos hd] at h ⊢
    have hlt : nd.toNat - 1 < ds.length := by omega
    rw [getM_ok hlt] at h
    simp only [bind_ok, pure_ok, Except.ok.injEq] at h
    subst h
    obtain ⟨pre, post, e, hlen⟩ := hl
    have e1 : dat.cells = (pre ++ (ds.take (nd.toNat - 1)).map some) ++ some ds[nd.toNat - 1] :: ((ds.drop (nd.toNat - 1 + 1)).map some ++ post) := by
      rw [e, map_split_at ds _ hlt]
      simp
    have e2 : dat.offset + (nd.toNat - 1) = (pre ++ (ds.take (nd.toNat - 1)).map some).length := by
      rw [← hlen]; simp; omega
    rw [dassert_ok (by rw [e, ← hlen]; simp; omega), bind_ok, e1, e2, readCell_append, bind_ok, writeCell_append, bind_ok]
    simp only [pure_ok]
    refine ⟨_, rfl, by simp; omega, rfl, rfl, rfl, ⟨pre, (ds.drop (nd.toNat - 1 + 1)).map some ++ post, by simp, hlen⟩, hroom⟩
  · rw [if_neg hd] at h ⊢
    simp only [pure_ok, Except.ok.injEq] at h ⊢
    subst h
    exact ⟨_, rfl, by simp; omega, rfl, rfl, rfl, hl.take _, hroom⟩

/-! ## Stripping -/

theorem stripLead_eq (ds : List Int) (w : Int) :
    Var.stripLead ds w = (ds.drop (ds.takeWhile (· = 0)).length, w - (ds.takeWhile (· = 0)).length) := by
  induction ds generalizing w with
  | nil => simp [Var.stripLead]
  | cons d ds ih =>
    unfold Var.stripLead
    by_cases h : d = 0
    · rw [if_pos h, ih]
      subst h
      simp; omega
    · rw [if_neg h]
      simp [h]

theorem stripTrail_eq (ds : List Int) : Var.stripTrail ds = ds.take (ds.reverse.dropWhile (· = 0)).length := by
  induction ds with
  | nil => simp [Var.stripTrail]
  | cons d ds ih =>
    unfold Var.stripTrail
    rw [ih]
    simp only [List.reverse_cons, List.dropWhile_append]
    by_cases h : (ds.reverse.dropWhile (· = 0)) = []
    · rw [h]
      by_cases hd : d = 0 <;> simp [hd]
    · have hl : 0 < (ds.reverse.dropWhile (· = 0)).length := List.length_pos_of_ne_nil h
      have hle : (ds.reverse.dropWhile (· = 0)).length ≤ ds.length := by
        have := List.IsSuffix.length_le (List.dropWhile_suffix (l := ds.reverse) (· = 0))
        simpa using this
      have hne : ds.take (ds.reverse.dropWhile (· = 0)).length ≠ [] := by
        intro h0
        have := congrArg List.length h0
        simp only [List.length_take, List.length_nil] at this
        omega
      split
      · rename_i heq; exact absurd heq hne
      · rw [if_neg (by simpa using h)]; simp

theorem OVar.strip_rep [Build] {o : OVar} {v : Var} (hr : Rep o v) (hst : Var.stripM v = .ok (Var.strip v)) :
    ∃ o', o.strip = .ok o' ∧ Rep o' (Var.strip v) := by
  obtain ⟨n, w, sc, sg, dat⟩ := o
  obtain ⟨wv, sv, sgv, ds⟩ := v
  obtain ⟨h1, h2, h3, h4, hl, hroom⟩ := hr
  simp only at h1 h2 h3 h4 hl hroom
  subst h1 h2 h3 h4
  unfold OVar.strip
  simp only [hl.digits, bind_ok]
  generalize hi : (ds.takeWhile (· = 0)).length = i
  have hf : fits [w - i] = .ok () := by
    unfold Var.stripM at hst
    simp only [stripLead_eq, hi] at hst
    rcases hf : fits [w - i] with e | _
    · rw [hf] at hst; cases hst
    · rfl
  rw [hf, bind_ok]
  have hile : i ≤ ds.length := by rw [← hi]; exact (List.takeWhile_prefix _).length_le
  obtain ⟨pre, post, e, hlen⟩ := hl
  have hl' : Live ⟨dat.cells, dat.offset + i⟩ (ds.drop i) := by
    refine ⟨pre ++ (ds.take i).map some, post, ?_, by simp [hlen]; omega⟩
    simp only [e, List.append_assoc, List.map_take, List.map_drop]
    rw [← List.append_assoc (List.take _ _), List.take_append_drop]
  unfold Data.offsetAdd
  rw [dassert_ok (by rw [e, ← hlen]; simp; omega), bind_ok, pure_ok, bind_ok]
  generalize hn : ((ds.drop i).reverse.dropWhile (· = 0)).length = n
  have hnle : n ≤ (ds.drop i).length := by
    have := List.IsSuffix.length_le (List.dropWhile_suffix (l := (ds.drop i).reverse) (· = 0))
    rw [← hn]; simpa using this
  have hs : Var.strip ⟨w, sc, sg, ds⟩ =
      if n = 0 then ⟨0, sc, .pos, []⟩ else ⟨w - i, sc, sg, (ds.drop i).take n⟩ := by
    unfold Var.strip
    simp only [stripLead_eq, hi, stripTrail_eq, hn]
    by_cases h0 : n = 0
    · simp [h0]
    · rw [if_neg h0, if_neg]
      intro hnil
      have := congrArg List.length hnil
      simp only [List.length_take, List.length_nil] at this
      omega
  rw [hs]
  by_cases h0 : n = 0
  · rw [if_pos h0, if_pos h0]
    exact ⟨_, rfl, rfl, rfl, rfl, rfl, hl'.take 0, by simp only; omega⟩
  · rw [if_neg h0, if_neg h0]
    refine ⟨_, rfl, ?_, rfl, rfl, rfl, hl'.take n, by simp only; omega⟩
    simp only [List.length_take]; omega

/-! ## Writing the header, and reading it back -/

theorem cellsWord_wordCells (w : BitVec 32) :
    Buf.cellsWord (w.extractLsb' 0 16).toInt (w.extractLsb' 16 16).toInt = w := by
  unfold Buf.cellsWord
  rw [BitVec.ofInt_toInt, BitVec.ofInt_toInt]
  apply BitVec.eq_of_getLsbD_eq
  intro i hi
  simp only [BitVec.getLsbD_append, BitVec.getLsbD_extractLsb']
  by_cases h : i < 16
  · simp [h]
  · have : 16 + (i - 16) = i := by omega
    simp [h, this]; omega

theorem Spec.Owned.asNumeric [Build] {b : Buf} {a : Bin} (h : Owned b a) : b.asNumeric = .ok a := by
  obtain ⟨⟨pre, post, e, ho, -⟩, hlen⟩ := h
  unfold Bin.len Bin.size at hlen
  have hh : b.hoff / 2 = pre.length := by omega
  have r0 : readCell b.cells pre.length = .ok (a.vlLen.extractLsb' 0 16).toInt := by
    rw [e]; simp only [Data.wordCells, List.cons_append, List.map_cons, List.nil_append]; exact readCell_append
  have r1 : readCell b.cells (pre.length + 1) = .ok (a.vlLen.extractLsb' 16 16).toInt := by
    rw [e]; simp only [Data.wordCells, List.cons_append, List.map_cons, List.nil_append]
    have := readCell_append (pre := pre ++ [some (a.vlLen.extractLsb' 0 16).toInt])
      (post := some a.header.toInt :: ((a.rest.map BitVec.toInt).map some ++ post)) (x := (a.vlLen.extractLsb' 16 16).toInt)
    simpa using this
  have r2 : readCell b.cells (pre.length + 2) = .ok a.header.toInt := by
    rw [e]; simp only [Data.wordCells, List.cons_append, List.map_cons, List.nil_append]
    have := readCell_append (pre := pre ++ [some (a.vlLen.extractLsb' 0 16).toInt, some (a.vlLen.extractLsb' 16 16).toInt])
      (post := ((a.rest.map BitVec.toInt).map some ++ post)) (x := a.header.toInt)
    simpa using this
  have r3 : readCells b.cells (pre.length + 3) a.rest.length = .ok (a.rest.map BitVec.toInt) := by
    rw [e]; simp only [Data.wordCells, List.cons_append, List.map_cons, List.nil_append]
    have := readCells_append (a.rest.map BitVec.toInt)
      (pre ++ [some (a.vlLen.extractLsb' 0 16).toInt, some (a.vlLen.extractLsb' 16 16).toInt, some a.header.toInt]) post
    simpa using this
  unfold Buf.asNumeric
  simp only [hh, r0, r1, bind_ok, cellsWord_wordCells, hlen]
  rw [dassert_ok (by rw [ho, e]; simp [Data.wordCells]; omega), bind_ok, if_neg (by omega), r2, bind_ok,
    show (6 + 2 * a.rest.length - 6) / 2 = a.rest.length by omega, r3]
  simp only [bind_ok, pure_ok, BitVec.ofInt_toInt, List.map_map, Function.comp_def]
  simp

theorem Spec.Owned.headerSize_encode [Build] {v : Var} (hv : Bin.Storable v) :
    (Bin.encode v).headerSize = if v.dscale ≤ 63 ∧ v.weight ≤ 63 ∧ -64 ≤ v.weight then 6 else 8 := by
  unfold Bin.headerSize
  rw [Bin.headerIsShort_flag, Bin.encode_flag hv]
  split
  · simp
  · have := Bin.signWord_short_ne hv.not_nan
    simp [this]

theorem OVar.intoBuf_rep [Build] {o : OVar} {v : Var} (hv : Bin.Storable v) (hr : Rep o v) :
    ∃ b, o.intoBuf = .ok b ∧ Owned b (Bin.encode v) := by
  obtain ⟨n, w, sc, sg, dat⟩ := o
  obtain ⟨wv, sv, sgv, ds⟩ := v
  obtain ⟨h1, h2, h3, h4, hl, hroom⟩ := hr
  simp only at h1 h2 h3 h4 hl hroom
  subst h1 h2 h3 h4
  have hlen := Bin.encode_len hv
  have hsz := Spec.Owned.headerSize_encode hv
  have hshort := Bin.canBeShort_iff hv.weight_ge hv.weight_le hv.dscale_nonneg hv.dscale_le
  simp only at hsz hshort
  unfold OVar.intoBuf Data.setHeader
  simp only
  rw [if_neg (fun h => hv.not_nan h.1), dassert_ok (by simpa using hroom)]
  simp only [bind_ok, pure_ok]
  obtain ⟨pre, post, e, hpl⟩ := hl
  have hmap : ∀ l : List Int, Digits l → (l.map (BitVec.ofInt 16)).map BitVec.toInt = l := fun l h => Bin.map_toInt h
  by_cases hs : sc ≤ 63 ∧ w ≤ 63 ∧ -64 ≤ w
  · have e1 := Bin.encode_short hv hs
    simp only at e1
    rw [if_pos (hshort.2 hs), if_neg (by omega)]
    rw [if_pos hs] at hsz
    -- split the prefix into what stays and the three header cells
    have hsp : pre = pre.take (pre.length - 3) ++ pre.drop (pre.length - 3) := (List.take_append_drop _ _).symm
    have hw := writeCells_append (Data.wordCells (Bin.encodeLen (6#32 + BitVec.ofNat 32 ds.length * 2#32)) ++
      [(Bin.shortHeader (BitVec.ofInt 16 w) (BitVec.ofInt 16 sc) (Bin.signWord sg)).toInt]) (pre.take (pre.length - 3))
      (pre.drop (pre.length - 3)) (ds.map some ++ post) (by simp [Data.wordCells]; omega)
    rw [← List.append_assoc (List.take _ _), ← hsp, ← e, show (pre.take (pre.length - 3)).length = dat.offset - 3 by simp; omega] at hw
    rw [hw]
    simp only [bind_ok]
    rw [dassert_ok (by simp; omega)]
    refine ⟨_, rfl, ⟨pre.take (pre.length - 3), post, ?_, ?_, ?_⟩, hlen⟩
    · rw [e1]
      simp only [hmap ds hv.digits]
      simp
    · simp; omega
    · rw [hsz]; simp only; omega
  · have e1 := Bin.encode_long hv hs
    simp only at e1
    rw [if_neg (fun h => hs (hshort.1 h)), if_neg (by omega)]
    rw [if_neg hs] at hsz
    have hsp : pre = pre.take (pre.length - 4) ++ pre.drop (pre.length - 4) := (List.take_append_drop _ _).symm
    have hw := writeCells_append (Data.wordCells (Bin.encodeLen (8#32 + BitVec.ofNat 32 ds.length * 2#32)) ++
      [(Bin.longHeader (BitVec.ofInt 16 sc) (Bin.signWord sg)).toInt, (BitVec.ofInt 16 w).toInt]) (pre.take (pre.length - 4))
      (pre.drop (pre.length - 4)) (ds.map some ++ post) (by simp [Data.wordCells]; omega)
    rw [← List.append_assoc (List.take _ _), ← hsp, ← e, show (pre.take (pre.length - 4)).length = dat.offset - 4 by simp; omega] at hw
    rw [hw]
    simp only [bind_ok]
    rw [dassert_ok (by simp; omega)]
    refine ⟨_, rfl, ⟨pre.take (pre.length - 4), post, ?_, ?_, ?_⟩, hlen⟩
    · rw [e1]
      simp only [List.map_cons, hmap ds hv.digits]
      simp
    · simp; omega
    · rw [hsz]; omega

end PgNumeric
