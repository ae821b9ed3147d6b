import Verif.Model.Threads
import Verif.Props.Client
/-!
# Threads: a call sees only the numbers it names
-/
namespace PgNumeric.Props
open PgNumeric Spec

/-- The names in `P` stand for the same numbers on both sides. -/
def AgreeOn (P : ℕ → Prop) (f : ℕ → ℕ) (l L : List Slot) : Prop := ∀ i, P i → i < L.length ∧ f i < l.length ∧ l[f i]? = L[i]?

def InjOn (P : ℕ → Prop) (f : ℕ → ℕ) : Prop := ∀ i j, P i → P j → f i = f j → i = j

theorem AgreeOn.set {P : ℕ → Prop} {f : ℕ → ℕ} {l L : List Slot} (h : AgreeOn P f l L) (hf : InjOn P f) {i : ℕ} (hi : P i) (s : Slot) :
    AgreeOn P f (l.set (f i) s) (L.set i s) := by
  intro k hk
  obtain ⟨h1, h2, h3⟩ := h k hk
  refine ⟨by simpa using h1, by simpa using h2, ?_⟩
  by_cases e : k = i
  · subst e
    rw [List.getElem?_set_self h2, List.getElem?_set_self h1]
  · rw [List.getElem?_set_ne (fun e' => e (hf _ _ hk hi e'.symm)), List.getElem?_set_ne (Ne.symm e)]; exact h3

theorem AgreeOn.taken {P : ℕ → Prop} {f : ℕ → ℕ} {l L : List Slot} (h : AgreeOn P f l L) (hf : InjOn P f) {i : ℕ} (hi : P i) (b : Bool) :
    AgreeOn P f (taken b (f i) l) (taken b i L) := by
  cases b with
  | false => exact h
  | true => exact h.set hf hi _

/-- A call on the renamed numbers is the same call on the thread's own list. -/
structure Same [Build] (P : ℕ → Prop) (f : ℕ → ℕ) (act : Act) (l : List Slot) (ans : Answer) (l' L L' m M new : List Slot) : Prop where
  step : Step act L ans L'
  old : l' = m ++ new
  own : L' = M ++ new
  agree : AgreeOn P f m M
  len : m.length = l.length
  lenOwn : M.length = L.length
  few : new.length ≤ 1
  frame : ∀ g, g ∉ act.changes.map f → m[g]? = l[g]?

theorem Same.still [Build] {P : ℕ → Prop} {f : ℕ → ℕ} {act : Act} {l L : List Slot} {ans : Answer} (hA : AgreeOn P f l L)
    (h : Step act L ans L) : ∃ L' m M new, Same P f act l ans l L L' m M new :=
  ⟨L, l, L, [], h, by simp, by simp, hA, rfl, rfl, by simp, fun _ _ => rfl⟩

theorem Same.push [Build] {P : ℕ → Prop} {f : ℕ → ℕ} {act : Act} {l L : List Slot} {ans : Answer} {s : Slot} (hA : AgreeOn P f l L)
    (h : Step act L ans (L ++ [s])) : ∃ L' m M new, Same P f act l ans (l ++ [s]) L L' m M new :=
  ⟨L ++ [s], l, L, [s], h, rfl, rfl, hA, rfl, rfl, by simp, fun _ _ => rfl⟩

theorem Same.write [Build] {P : ℕ → Prop} {f : ℕ → ℕ} {act : Act} {l L : List Slot} {ans : Answer} {s : Slot} {i : ℕ} (hA : AgreeOn P f l L)
    (hf : InjOn P f) (hi : P i) (hc : i ∈ act.changes) (h : Step act L ans (L.set i s)) :
    ∃ L' m M new, Same P f act l ans (l.set (f i) s) L L' m M new :=
  ⟨L.set i s, l.set (f i) s, L.set i s, [], h, by simp, by simp, hA.set hf hi s, by simp, by simp, by simp, fun g hg =>
    List.getElem?_set_ne (by rintro rfl; exact hg (List.mem_map_of_mem hc))⟩

theorem tells_rename [Build] {f : ℕ → ℕ} {act : Act} {v : Val} {ans : Answer} (h : Tells (act.rename f) v ans) : Tells act v ans := by
  cases act <;> cases h
  case isNan => exact .isNan
  case isNegative.isNegative => exact .isNegative
  case isNegative.isNegativeNan => exact .isNegativeNan
  case isPositive.isPositive => exact .isPositive
  case isPositive.isPositiveNan => exact .isPositiveNan
  case scaleOf.scale => exact .scale
  case scaleOf.scaleNan => exact .scaleNan
  case text.text h => exact .text h
  case text.textNan => exact .textNan
  case normalize.normalize h1 h2 => exact .normalize h1 h2
  case normalize.normalizeNan => exact .normalizeNan
  case sci.sci h1 h2 h3 h4 h5 h6 h7 h8 => exact .sci h1 h2 h3 h4 h5 h6 h7 h8
  case sci.sciTiny h1 h2 => exact .sciTiny h1 h2
  case sci.sciZero => exact .sciZero
  case sci.sciNan => exact .sciNan
  case toInt.int h => exact .int h
  case toFloat.toF64 => exact .toF64
  case toFloat.toF32 => exact .toF32
  case toFloat.toFloatNan => exact .toFloatNan
  case toInt.intNan => exact .intNan
  case bytes.bytes h1 h2 h3 => exact .bytes h1 h2 h3

theorem operator_transfer [Build] {P : ℕ → Prop} {f : ℕ → ℕ} {op : Op2} {i j : ℕ} {l L l' : List Slot} {ans : Answer} (hA : AgreeOn P f l L)
    (hi : P i) (hj : P j) (h : Step (.operator op (f i) (f j)) l ans l') :
    ∃ new, Step (.operator op i j) L ans (L ++ new) ∧ l' = l ++ new ∧ new.length ≤ 1 ∧ (ans ≠ .number → new = []) := by
  have ei := (hA i hi).2.2
  have ej := (hA j hj).2.2
  cases h with
  | look h => cases h
  | operator h1 h2 h => exact ⟨_, .operator (ei ▸ h1) (ej ▸ h2) h, rfl, by simp, fun h => absurd rfl h⟩
  | operatorPanic h1 h2 h h' => exact ⟨[], by rw [List.append_nil]; exact .operatorPanic (ei ▸ h1) (ej ▸ h2) h h', by simp, by simp, fun _ => rfl⟩
  | operatorAssert h1 h2 h h' => exact ⟨[], by rw [List.append_nil]; exact .operatorAssert (ei ▸ h1) (ej ▸ h2) h h', by simp, by simp, fun _ => rfl⟩

theorem assign_transfer [Build] {P : ℕ → Prop} {f : ℕ → ℕ} {op : Op2} {i j : ℕ} {l L l' : List Slot} {ans : Answer} (hA : AgreeOn P f l L)
    (hf : InjOn P f) (hi : P i) (hj : P j) (h : Step (.assign op (f i) (f j)) l ans l') :
    ∃ L', Step (.assign op i j) L ans L' ∧ AgreeOn P f l' L' ∧ l'.length = l.length ∧ L'.length = L.length ∧ ∀ g, g ≠ f i → l'[g]? = l[g]? := by
  have ei := (hA i hi).2.2
  have ej := (hA j hj).2.2
  cases h with
  | look h => cases h
  | assign h1 h2 h =>
    exact ⟨_, .assign (ei ▸ h1) (ej ▸ h2) h, hA.set hf hi _, by simp, by simp, fun g hg => List.getElem?_set_ne (Ne.symm hg)⟩
  | assignFail hs ha =>
    obtain ⟨new, h1, -, -, h2⟩ := operator_transfer hA hi hj hs
    rw [h2 ha, List.append_nil] at h1
    exact ⟨L, .assignFail h1 ha, hA, rfl, rfl, fun _ _ => rfl⟩

theorem taken_append (b : Bool) {i : ℕ} {l : List Slot} (hi : i < l.length) (m : List Slot) : taken b i (l ++ m) = taken b i l ++ m := by
  cases b with
  | false => rfl
  | true => exact List.set_append_left _ _ hi

theorem taken_length (b : Bool) (i : ℕ) (l : List Slot) : (taken b i l).length = l.length := by
  cases b with
  | false => rfl
  | true => simp [taken]

theorem taken_ne (b : Bool) {i g : ℕ} {l : List Slot} (h : b = true → g ≠ i) : (taken b i l)[g]? = l[g]? := by
  cases b with
  | false => rfl
  | true => exact List.getElem?_set_ne (Ne.symm (h rfl))

/-- What a call does to the numbers with global names is what it does to the thread's own list. -/
theorem step_transfer [Build] {P : ℕ → Prop} {f : ℕ → ℕ} {act : Act} {l L l' : List Slot} {ans : Answer} (hA : AgreeOn P f l L)
    (hf : InjOn P f) (hn : ∀ i ∈ act.names, P i) (h : Step (act.rename f) l ans l') : ∃ L' m M new, Same P f act l ans l' L L' m M new := by
  have e : ∀ {i}, i ∈ act.names → l[f i]? = L[i]? := fun hi => (hA _ (hn _ hi)).2.2
  cases act with
  | parse s => cases h with
    | parse h => exact Same.push hA (.parse h)
    | parseEmpty h => exact Same.still hA (.parseEmpty h)
    | parseInvalid h => exact Same.still hA (.parseInvalid h)
    | parseOverflow h => exact Same.still hA (.parseOverflow h)
    | look h => cases h
  | int ty n => cases h with
    | int => exact Same.push hA .int
    | look h => cases h
  | factorial n => cases h with
    | factorial h => exact Same.push hA (.factorial h)
    | factorialNone h => exact Same.still hA (.factorialNone h)
    | look h => cases h
  | zero => cases h with
    | zero => exact Same.push hA .zero
    | look h => cases h
  | nan => cases h with
    | nan => exact Same.push hA .nan
    | look h => cases h
  | bool b => cases h with
    | bool => exact Same.push hA .bool
    | look h => cases h
  | float wide x => cases h with
    | float h => exact Same.push hA (.float h)
    | floatNan => exact Same.push hA .floatNan
    | floatInf => exact Same.still hA .floatInf
    | look h => cases h
  | op1 op i =>
    have ei := e (i := i) (by simp [Act.names])
    cases h with
    | op1 h1 h2 => exact Same.push hA (.op1 (ei ▸ h1) h2)
    | op1Panic h1 h2 => exact Same.still hA (.op1Panic (ei ▸ h1) h2)
    | look h => cases h
  | checked op i j =>
    have ei := e (i := i) (by simp [Act.names])
    have ej := e (i := j) (by simp [Act.names])
    cases h with
    | checked h1 h2 h => exact Same.push hA (.checked (ei ▸ h1) (ej ▸ h2) h)
    | checkedNone h1 h2 h h' => exact Same.still hA (.checkedNone (ei ▸ h1) (ej ▸ h2) h h')
    | checkedAssert h1 h2 h h' => exact Same.still hA (.checkedAssert (ei ▸ h1) (ej ▸ h2) h h')
    | look h => cases h
  | operator op i j =>
    obtain ⟨new, h1, rfl, h2, -⟩ := operator_transfer hA (hn i (by simp [Act.names])) (hn j (by simp [Act.names])) h
    exact ⟨_, l, L, new, h1, rfl, rfl, hA, rfl, rfl, h2, fun _ _ => rfl⟩
  | operatorTake op left right i j =>
    have hi := hn i (by simp [Act.names])
    have hj := hn j (by simp [Act.names])
    obtain ⟨i1, i2, -⟩ := hA i hi
    obtain ⟨j1, j2, -⟩ := hA j hj
    cases h with
    | look h => cases h
    | operatorTake h =>
      obtain ⟨new, h1, rfl, h2, -⟩ := operator_transfer hA hi hj h
      refine ⟨_, taken left (f i) (taken right (f j) l), taken left i (taken right j L), new, .operatorTake h1, ?_, ?_,
        (hA.taken hf hj right).taken hf hi left, by simp [taken_length], by simp [taken_length], h2, ?_⟩
      · rw [taken_append _ j2, taken_append _ (by rw [taken_length]; exact i2)]
      · rw [taken_append _ j1, taken_append _ (by rw [taken_length]; exact i1)]
      · intro g hg
        simp only [Act.changes, List.map_append, List.mem_append, not_or] at hg
        rw [taken_ne _ (fun h => by rintro rfl; simp [h] at hg), taken_ne _ (fun h => by rintro rfl; simp [h] at hg)]
  | assign op i j =>
    obtain ⟨L', h1, h2, h3, h4, h5⟩ := assign_transfer hA hf (hn i (by simp [Act.names])) (hn j (by simp [Act.names])) h
    exact ⟨L', l', L', [], h1, by simp, by simp, h2, h3, h4, by simp, fun g hg => h5 g (by simpa [Act.changes] using hg)⟩
  | assignTake op i j =>
    cases h with
    | look h => cases h
    | assignTake h =>
      have hj := hn j (by simp [Act.names])
      obtain ⟨L', h1, h2, h3, h4, h5⟩ := assign_transfer hA hf (hn i (by simp [Act.names])) hj h
      refine ⟨_, _, _, [], .assignTake h1, (List.append_nil _).symm, (List.append_nil _).symm, h2.taken hf hj true, by rw [taken_length, h3], by rw [taken_length, h4], by simp, ?_⟩
      intro g hg
      simp only [Act.changes, List.map_cons, List.map_nil, List.mem_cons, List.not_mem_nil, or_false, not_or] at hg
      rw [taken_ne _ (fun _ => hg.2), h5 g hg.1]
  | reread b i =>
    have ei := e (i := i) (by simp [Act.names])
    cases h with
    | reread h => exact Same.push hA (.reread (ei ▸ h))
    | look h => cases h
  | clone i =>
    have ei := e (i := i) (by simp [Act.names])
    cases h with
    | clone h => exact Same.push hA (.clone (ei ▸ h))
    | look h => cases h
  | mutate op i =>
    have ei := e (i := i) (by simp [Act.names])
    have hi := hn i (by simp [Act.names])
    cases h with
    | mutate h1 h2 => exact Same.write hA hf hi (by simp [Act.changes]) (.mutate (ei ▸ h1) h2)
    | mutateFail h1 h2 => exact Same.write hA hf hi (by simp [Act.changes]) (.mutateFail (ei ▸ h1) h2)
    | mutateNan h1 h2 => exact Same.still hA (.mutateNan (ei ▸ h1) h2)
    | look h => cases h
  | drop i =>
    have hi := hn i (by simp [Act.names])
    cases h with
    | drop => exact Same.write hA hf hi (by simp [Act.changes]) .drop
    | look h => cases h
  | cmp i j =>
    have ei := e (i := i) (by simp [Act.names])
    have ej := e (i := j) (by simp [Act.names])
    cases h with
    | cmp h1 h2 => exact Same.still hA (.cmp (ei ▸ h1) (ej ▸ h2))
    | look h => cases h
  | eq i j =>
    have ei := e (i := i) (by simp [Act.names])
    have ej := e (i := j) (by simp [Act.names])
    cases h with
    | eq h1 h2 => exact Same.still hA (.eq (ei ▸ h1) (ej ▸ h2))
    | look h => cases h
  | lt i j =>
    have ei := e (i := i) (by simp [Act.names])
    have ej := e (i := j) (by simp [Act.names])
    cases h with
    | lt h1 h2 => exact Same.still hA (.lt (ei ▸ h1) (ej ▸ h2))
    | look h => cases h
  | le i j =>
    have ei := e (i := i) (by simp [Act.names])
    have ej := e (i := j) (by simp [Act.names])
    cases h with
    | le h1 h2 => exact Same.still hA (.le (ei ▸ h1) (ej ▸ h2))
    | look h => cases h
  | sameHash i j =>
    have ei := e (i := i) (by simp [Act.names])
    have ej := e (i := j) (by simp [Act.names])
    cases h with
    | sameHash h1 h2 => exact Same.still hA (.sameHash (ei ▸ h1) (ej ▸ h2))
    | look h => cases h
  | _ =>
    cases h with
    | look hs hv ht =>
      cases hs
      exact Same.still hA (.look rfl ((e List.mem_cons_self).symm.trans hv) (tells_rename ht))

/-- A legal call names only numbers the thread has. -/
theorem legal_names [Build] {act : Act} {L : List Slot} (h : act.Legal L) : ∀ i ∈ act.names, i < L.length := by
  have lv : ∀ {i}, Spec.Live L i → i < L.length := fun ⟨_, h⟩ => (List.getElem?_eq_some_iff.1 h).1
  have two : ∀ {i j}, Spec.Live L i → Spec.Live L j → ∀ k ∈ [i, j], k < L.length := by
    intro i j hi hj k hk
    simp only [List.mem_cons, List.not_mem_nil, or_false] at hk
    rcases hk with rfl | rfl
    exacts [lv hi, lv hj]
  have one : ∀ {i}, i < L.length → ∀ k ∈ [i], k < L.length := by
    intro i hi k hk
    rw [List.mem_singleton.1 hk]; exact hi
  cases act with
  | checked | cmp | eq | lt | le | sameHash => exact two h.1 h.2
  | operator => exact two h.2.1 h.2.2
  | operatorTake | assign | assignTake => exact two h.2.1 h.2.2.1
  | mutate op i =>
    refine one ?_
    rcases h.2 with ⟨x, s, h⟩ | ⟨h, -⟩ <;> exact (List.getElem?_eq_some_iff.1 h).1
  | drop i =>
    refine one ?_
    rcases h with h | h
    exacts [lv h, (List.getElem?_eq_some_iff.1 h).1]
  | toInt ty i => exact one (lv h.2)
  | bytes i => obtain ⟨x, s, h⟩ := h; exact one (List.getElem?_eq_some_iff.1 h).1
  | op1 | reread | clone | isNan | isNegative | isPositive | scaleOf | text | sci | normalize | toFloat => exact one (lv h)
  | parse | int | factorial | zero | nan | bool | float => intro i hi; cases hi

/-- A legal call of the thread is a legal call under the global names. -/
theorem legal_transfer [Build] {P : ℕ → Prop} {f : ℕ → ℕ} {act : Act} {l L : List Slot} (hA : AgreeOn P f l L)
    (hf : InjOn P f) (hn : ∀ i ∈ act.names, P i) (h : act.Legal L) : (act.rename f).Legal l := by
  have e : ∀ {i}, i ∈ act.names → l[f i]? = L[i]? := fun hi => (hA _ (hn _ hi)).2.2
  have lv : ∀ {i}, i ∈ act.names → Spec.Live L i → Spec.Live l (f i) := fun hi ⟨v, h⟩ => ⟨v, (e hi).trans h⟩
  have ne : ∀ {i j}, i ∈ act.names → j ∈ act.names → i ≠ j → f i ≠ f j := fun hi hj h e => h (hf _ _ (hn _ hi) (hn _ hj) e)
  have m1 : ∀ {i : ℕ} {l : List ℕ}, i ∈ i :: l := List.mem_cons_self
  have m2 : ∀ {i j : ℕ}, j ∈ [i, j] := by intro i j; simp
  cases act with
  | checked | cmp | eq | lt | le | sameHash => exact ⟨lv m1 h.1, lv m2 h.2⟩
  | operator => exact ⟨h.1, lv m1 h.2.1, lv m2 h.2.2⟩
  | operatorTake => exact ⟨h.1, lv m1 h.2.1, lv m2 h.2.2.1, fun hh => ne m1 m2 (h.2.2.2 hh)⟩
  | assign | assignTake => exact ⟨h.1, lv m1 h.2.1, lv m2 h.2.2.1, ne m1 m2 h.2.2.2⟩
  | mutate op i =>
    refine ⟨h.1, ?_⟩
    rcases h.2 with ⟨x, s, h⟩ | ⟨h, h'⟩
    exacts [.inl ⟨x, s, (e m1).trans h⟩, .inr ⟨(e m1).trans h, h'⟩]
  | drop i => exact h.imp (lv m1) (fun h => (e m1).trans h)
  | toInt ty i => exact ⟨h.1, lv m1 h.2⟩
  | bytes i => obtain ⟨x, s, h⟩ := h; exact ⟨x, s, (e m1).trans h⟩
  | op1 | reread | clone | isNan | isNegative | isPositive | scaleOf | text | sci | normalize | toFloat => exact lv m1 h
  | parse | int | factorial | zero | nan | bool | float => exact h

theorem rename_changes (f : ℕ → ℕ) (act : Act) : (act.rename f).changes = act.changes.map f := by
  cases act <;> try rfl
  case operatorTake op left right i j => cases left <;> cases right <;> rfl

theorem changes_names (act : Act) : ∀ i ∈ act.changes, i ∈ act.names := by
  cases act <;> simp [Act.changes, Act.names]
  case operatorTake op left right i j => cases left <;> cases right <;> simp

end PgNumeric.Props
