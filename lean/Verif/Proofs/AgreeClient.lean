import Verif.Proofs.Agree3
import Verif.Model.RealClient
/-!
# Debug and release builds agree: whole programs

A program may catch the panics of a debug build and go on; up to the first failed assertion or overflow check it gets the answers of a
release build.
-/
namespace PgNumeric.Props
open PgNumeric Spec
variable {e : Bool}

theorem agree_call1 (op : Op1) (a : Bin) : Agree (@call1 (dbg e) op a) (@call1 (rel e) op a) := by
  cases op <;> simp only [call1] <;> agree
macro_rules | `(tactic| agree_lemma) => `(tactic| with_reducible exact PgNumeric.Props.agree_call1 _ _)

theorem agree_call2 (op : Op2) (a b : Bin) : Agree (@call2 (dbg e) op a b) (@call2 (rel e) op a b) := by
  cases op <;> simp only [call2] <;> agree
macro_rules | `(tactic| agree_lemma) => `(tactic| with_reducible exact PgNumeric.Props.agree_call2 _ _ _)

theorem agree_callOp (op : Op2) (a b : Bin) : Agree (@callOp (dbg e) op a b) (@callOp (rel e) op a b) := by
  cases op <;> simp only [callOp] <;> agree
macro_rules | `(tactic| agree_lemma) => `(tactic| with_reducible exact PgNumeric.Props.agree_callOp _ _ _)

theorem agree_callMut (h : Heap) (x : HBuf) (op : MutOp) : Agree (@callMut (dbg e) h x op) (@callMut (rel e) h x op) := by
  cases op <;> simp only [callMut] <;> agree
macro_rules | `(tactic| agree_lemma) => `(tactic| with_reducible exact PgNumeric.Props.agree_callMut _ _ _)

theorem agree_memStep (w : World) (op : MemOp) : Agree (@memStep (dbg e) w op) (@memStep (rel e) w op) := by
  cases op with
  | mutate op i => cases op <;> simp only [memStep] <;> agree
  | _ => simp only [memStep]; agree
macro_rules | `(tactic| agree_lemma) => `(tactic| with_reducible exact PgNumeric.Props.agree_memStep _ _)

theorem agree_get (w : World) (i : ℕ) : Agree (@World.get (dbg e) w i) (@World.get (rel e) w i) := by
  unfold World.get; agree
macro_rules | `(tactic| agree_lemma) => `(tactic| with_reducible exact PgNumeric.Props.agree_get _ _)

theorem agree_take (w : World) (t : Bool) (i : ℕ) : Agree (@World.take (dbg e) w t i) (@World.take (rel e) w t i) := by
  unfold World.take; agree
macro_rules | `(tactic| agree_lemma) => `(tactic| with_reducible exact PgNumeric.Props.agree_take _ _ _)

theorem agree_callFun1 (lm : Libm) (fuel : ℕ) (f : Fun1) (a : Bin) :
    Agree (@callFun1 (dbg e) lm fuel f a) (@callFun1 (rel e) lm fuel f a) := by
  cases f <;> simp only [callFun1] <;> agree

theorem agree_callFun2 (lm : Libm) (fuel : ℕ) (f : Fun2) (a b : Bin) :
    Agree (@callFun2 (dbg e) lm fuel f a b) (@callFun2 (rel e) lm fuel f a b) := by
  cases f <;> simp only [callFun2] <;> agree

/-- The answer of the debug build, unless it is a failed assertion, is that of the release build. -/
def SameAnswer (d r : M (Answer × World)) : Prop := ∀ ans w, d = .ok (ans, w) → ans ≠ .assertion → r = .ok (ans, w)

theorem SameAnswer.of {d r : M (Answer × World)} (h : Agree d r) : SameAnswer d r := by
  intro ans w hd _
  rcases h with h | h | h
  · rw [← h, hd]
  · rw [h] at hd; cases hd
  · rw [h] at hd; cases hd

theorem SameAnswer.caught {w : World} {d r : M (Answer × World)} (h : Agree d r) : SameAnswer (caught w d) (caught w r) := by
  intro ans w' hd ha
  rcases h with h | h | h
  · rw [← h, hd]
  · rw [h] at hd; simp only [Props.caught] at hd; cases hd; exact absurd rfl ha
  · rw [h] at hd; simp only [Props.caught] at hd; cases hd

theorem SameAnswer.bind {α : Type} {m m' : M α} {k k' : α → M (Answer × World)} (h : Agree m m') (hk : ∀ x, SameAnswer (k x) (k' x)) :
    SameAnswer (m >>= k) (m' >>= k') := by
  rcases h with rfl | rfl | rfl
  · cases m with
    | error f => intro _ _ hd; cases hd
    | ok x => exact hk x
  · intro _ _ hd; cases hd
  · intro _ _ hd; cases hd

/-- The answer is passed on. -/
theorem SameAnswer.after {m m' : M (Answer × World)} {k k' : World → M World} (h : SameAnswer m m') (hk : ∀ w, Agree (k w) (k' w)) :
    SameAnswer (do let (ans, w) ← m; let w ← k w; pure (ans, w)) (do let (ans, w) ← m'; let w ← k' w; pure (ans, w)) := by
  intro ans w hd ha
  cases hm : m with
  | error f => rw [hm] at hd; cases hd
  | ok p =>
    obtain ⟨a1, w1⟩ := p
    rw [hm] at hd
    change (do let w ← k w1; pure (a1, w)) = _ at hd
    cases hk1 : k w1 with
    | error f => rw [hk1] at hd; cases hd
    | ok w2 =>
      rw [hk1] at hd
      cases hd
      have := h _ _ hm ha
      rw [this]
      change (do let w ← k' w1; pure (ans, w)) = _
      rcases hk w1 with h' | h' | h'
      · rw [← h', hk1]; rfl
      · rw [hk1] at h'; cases h'
      · rw [hk1] at h'; cases h'

theorem same_fresh {lay : ℕ → Bin → Buf} {w : World} {m m' : M Bin} (h : Agree m m') : SameAnswer (fresh lay w m) (fresh lay w m') := by
  unfold fresh; exact SameAnswer.caught (by agree)

theorem same_freshOption {lay : ℕ → Bin → Buf} {w : World} {m m' : M (Option Bin)} (h : Agree m m') :
    SameAnswer (freshOption lay w m) (freshOption lay w m') := by
  unfold freshOption; exact SameAnswer.caught (by agree)

theorem same_tell {w : World} {m m' : M Answer} (h : Agree m m') : SameAnswer (tell w m) (tell w m') := by
  unfold tell; exact SameAnswer.caught (by agree)

theorem same_assign {lay : ℕ → Bin → Buf} {w : World} {i : ℕ} {m m' : M Bin} (h : Agree m m') :
    SameAnswer (@World.assign (dbg e) lay w i m) (@World.assign (rel e) lay w i m') := by
  unfold World.assign; exact SameAnswer.caught (by agree)

theorem same_callApi (lm : Libm) (lay : ℕ → Bin → Buf) (w : World) (act : Act) :
    SameAnswer (@callApi (dbg e) lm lay w act) (@callApi (rel e) lm lay w act) := by
  cases act with
  | parse s => simp only [callApi]; exact .caught (by agree)
  | float wide f => simp only [callApi]; exact .caught (by agree)
  | int ty n => simp only [callApi]; exact same_fresh (by agree)
  | factorial n => simp only [callApi]; exact same_freshOption (by agree)
  | zero => simp only [callApi]; exact same_fresh (by agree)
  | nan => simp only [callApi]; exact same_fresh (by agree)
  | bool b => simp only [callApi]; exact same_fresh (by agree)
  | op1 op i => simp only [callApi]; exact .bind (agree_get _ _) fun _ => same_fresh (by agree)
  | checked op i j =>
    simp only [callApi]; exact .bind (agree_get _ _) fun _ => .bind (agree_get _ _) fun _ => same_freshOption (by agree)
  | operator op i j =>
    simp only [callApi]; exact .bind (agree_get _ _) fun _ => .bind (agree_get _ _) fun _ => same_fresh (by agree)
  | operatorTake op left right i j =>
    simp only [callApi]
    refine .bind (agree_get _ _) fun a => .bind (agree_get _ _) fun b => ?_
    have := SameAnswer.after (k := fun w => do let w ← @World.take (dbg e) w right j; @World.take (dbg e) w left i)
      (k' := fun w => do let w ← @World.take (rel e) w right j; @World.take (rel e) w left i)
      (same_fresh (lay := lay) (w := w) (agree_callOp (e := e) op a b)) (fun w => by agree)
    simpa only [bind_assoc] using this
  | assign op i j =>
    simp only [callApi]; exact .bind (agree_get _ _) fun _ => .bind (agree_get _ _) fun _ => same_assign (by agree)
  | assignTake op i j =>
    simp only [callApi]
    refine .bind (agree_get _ _) fun a => .bind (agree_get _ _) fun b => ?_
    have := SameAnswer.after (k := fun w => @World.take (dbg e) w true j) (k' := fun w => @World.take (rel e) w true j)
      (same_assign (e := e) (lay := lay) (w := w) (i := i) (agree_callOp (e := e) op a b)) (fun w => by agree)
    simpa only using this
  | reread human i => simp only [callApi]; exact .bind (agree_get _ _) fun _ => same_freshOption (by agree)
  | clone i => simp only [callApi]; exact .of (by agree)
  | mutate op i => simp only [callApi]; exact .of (by agree)
  | drop i => simp only [callApi]; exact .of (by agree)
  | cmp i j | eq i j | lt i j | le i j | sameHash i j =>
    simp only [callApi]; exact .bind (agree_get _ _) fun _ => .bind (agree_get _ _) fun _ => same_tell (by agree)
  | isNan i | isNegative i | isPositive i | scaleOf i | text i | sci c i | normalize i | toInt ty i | toFloat wide i | bytes i =>
    simp only [callApi]; exact .bind (agree_get _ _) fun _ => same_tell (by agree)

theorem same_realFresh {lay : ℕ → Bin → Buf} {w : World} {m m' : M (Option Bin)} (h : Agree m m') {ans : RealAnswer} {w' : World}
    (hd : realFresh lay w m = .ok (ans, w')) (ha : ¬ Check ans) : realFresh lay w m' = .ok (ans, w') := by
  rcases h with rfl | rfl | rfl
  · exact hd
  · simp only [realFresh, freshOption] at hd
    cases hd; exact absurd trivial ha
  · simp only [realFresh, freshOption] at hd
    cases hd; exact absurd trivial ha

theorem ok_of_bind {α β : Type} {m : M α} {k : α → M β} {y : β} (h : (m >>= k) = .ok y) : ∃ x, m = .ok x ∧ k x = .ok y := by
  cases m with
  | error f => cases h
  | ok x => exact ⟨x, rfl, h⟩

theorem Agree.ok {α : Type} {d r : M α} {x : α} (h : Agree d r) (hd : d = .ok x) : r = .ok x := by
  rcases h with h | h | h
  · rw [← h, hd]
  · rw [h] at hd; cases hd
  · rw [h] at hd; cases hd

theorem same_callReal (lm : Libm) (fuel : ℕ) (lay : ℕ → Bin → Buf) (w : World) (act : RealAct) {ans : RealAnswer} {w' : World}
    (hd : @callReal (dbg e) lm fuel lay w act = .ok (ans, w')) (ha : ¬ Check ans) :
    @callReal (rel e) lm fuel lay w act = .ok (ans, w') := by
  cases act with
  | base act =>
    simp only [callReal] at hd ⊢
    obtain ⟨⟨a, w1⟩, h1, h2⟩ := ok_of_bind hd
    cases h2
    have : a ≠ .assertion := by rintro rfl; exact ha trivial
    rw [same_callApi lm lay w act a w1 h1 this]; rfl
  | fun1 f i =>
    simp only [callReal] at hd ⊢
    obtain ⟨a, h1, h2⟩ := ok_of_bind hd
    rw [Agree.ok (agree_get w i) h1]
    exact same_realFresh (agree_callFun1 lm fuel f a) h2 ha
  | fun2 f i j =>
    simp only [callReal] at hd ⊢
    obtain ⟨a, h1, h2⟩ := ok_of_bind hd
    obtain ⟨b, h3, h4⟩ := ok_of_bind h2
    rw [Agree.ok (agree_get w i) h1]
    change (do let b ← @World.get (rel e) w j; _) = _
    rw [Agree.ok (agree_get w j) h3]
    exact same_realFresh (agree_callFun2 lm fuel f a b) h4 ha

/-- The answers so far are kept. -/
theorem playReal_history [Build] (lm : Libm) (fuel : ℕ) (lay : ℕ → Bin → Buf) (c : RealClient) (n : ℕ) (w : World) (h : List RealAnswer)
    {w' : World} {h' : List RealAnswer} (hd : playReal lm fuel lay c n (w, h) = .ok (w', h')) : ∃ l, h' = h ++ l := by
  induction n generalizing w h with
  | zero => simp only [playReal] at hd; cases hd; exact ⟨[], by simp⟩
  | succ n ih =>
    simp only [playReal] at hd
    split at hd
    · cases hd; exact ⟨[], by simp⟩
    · obtain ⟨⟨a, w1⟩, _, h2⟩ := ok_of_bind hd
      obtain ⟨l, hl⟩ := ih _ _ h2
      exact ⟨a :: l, by rw [hl]; simp⟩

theorem same_playReal (lm : Libm) (fuel : ℕ) (lay : ℕ → Bin → Buf) (c : RealClient) (n : ℕ) (w : World) (h : List RealAnswer)
    {w' : World} {h' : List RealAnswer} (hd : @playReal (dbg e) lm fuel lay c n (w, h) = .ok (w', h'))
    (ha : ∀ a ∈ h', ¬ Check a) : @playReal (rel e) lm fuel lay c n (w, h) = .ok (w', h') := by
  induction n generalizing w h with
  | zero => simp only [playReal] at hd ⊢; exact hd
  | succ n ih =>
    simp only [playReal] at hd ⊢
    split at hd
    · exact hd
    · obtain ⟨⟨a, w1⟩, h1, h2⟩ := ok_of_bind hd
      obtain ⟨l, hl⟩ := @playReal_history (dbg e) lm fuel lay c n _ _ _ _ h2
      have : ¬ Check a := ha a (by rw [hl]; simp)
      rw [same_callReal lm fuel lay w _ h1 this]
      exact ih _ _ h2

end PgNumeric.Props
