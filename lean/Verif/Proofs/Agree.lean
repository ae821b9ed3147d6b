import Verif.SpecBuild
import Verif.Model.Var
/-!
# Debug and release builds: a relation between their runs

The relation `Spec.Agree` passes through sequencing and branching, so that it holds of every function.
-/
namespace PgNumeric
open Spec

theorem Spec.Agree.refl {α : Type} (m : M α) : Agree m m := .inl rfl

theorem Spec.Agree.bind {α β : Type} {m m' : M α} {k k' : α → M β} (h : Agree m m') (hk : ∀ x, Agree (k x) (k' x)) :
    Agree (m >>= k) (m' >>= k') := by
  rcases h with rfl | rfl | rfl
  · cases m with
    | error f => exact .inl rfl
    | ok x => exact hk x
  · exact .inr (.inl rfl)
  · exact .inr (.inr rfl)

theorem Spec.Agree.map {α β : Type} {m m' : M α} (f : α → β) (h : Agree m m') : Agree (f <$> m) (f <$> m') := by
  rcases h with rfl | rfl | rfl
  · exact .inl rfl
  · exact .inr (.inl rfl)
  · exact .inr (.inr rfl)

theorem Spec.Agree.ite {α : Type} {c : Prop} [Decidable c] {m m' n n' : M α} (h : Agree m m') (h' : Agree n n') :
    Agree (if c then m else n) (if c then m' else n') := by split <;> assumption

theorem Spec.Agree.dassert {e : Bool} {c : Prop} [Decidable c] : Agree (@dassert (dbg e) c _) (@PgNumeric.dassert (rel e) c _) := by
  unfold PgNumeric.dassert
  by_cases h : c
  · left; simp [h]
  · right; left; simp [h]

theorem Spec.Agree.i32 {e : Bool} {x : Int} : Agree (@i32 (dbg e) x) (@PgNumeric.i32 (rel e) x) := by
  unfold PgNumeric.i32
  split
  · exact .refl _
  · right; right; rfl

theorem Spec.Agree.i16 {e : Bool} {x : Int} : Agree (@i16 (dbg e) x) (@PgNumeric.i16 (rel e) x) := by
  unfold PgNumeric.i16
  split
  · exact .refl _
  · right; right; rfl

/-- Extended with the lemma on each function. -/
syntax "agree_lemma" : tactic
macro_rules | `(tactic| agree_lemma) => `(tactic| with_reducible exact Agree.refl _)
macro_rules | `(tactic| agree_lemma) => `(tactic| with_reducible exact Agree.dassert)
macro_rules | `(tactic| agree_lemma) => `(tactic| with_reducible exact Agree.i32)
macro_rules | `(tactic| agree_lemma) => `(tactic| with_reducible exact Agree.i16)
macro_rules | `(tactic| agree_lemma) => `(tactic| assumption)

/-- One step. -/
macro "agree_step" : tactic => `(tactic| first
  | agree_lemma
  | refine Agree.bind ?_ ?_
  | refine Agree.ite ?_ ?_
  | refine Agree.map _ ?_
  | (refine Prod.forall.2 ?_; intro _ _; try dsimp only)
  | (intro _; try dsimp only)
  | split)

/-- All steps. -/
macro "agree" : tactic => `(tactic| (try dsimp only) <;> repeat' agree_step)

/-- All steps of a recursive function, with the induction hypothesis. -/
macro "agree_with" t:term : tactic => `(tactic| (try dsimp only) <;> repeat' (first | apply $t | agree_step))

namespace Var
variable {e : Bool}

theorem agree_zeroScaled (s : Int) : Agree (@zeroScaled (dbg e) s) (@zeroScaled (rel e) s) := by
  unfold zeroScaled; agree
macro_rules | `(tactic| agree_lemma) => `(tactic| with_reducible exact agree_zeroScaled _)

theorem agree_carryUp (l : List Int) (c : Int) : Agree (@carryUp (dbg e) l c) (@carryUp (rel e) l c) := by
  induction l generalizing c with
  | nil => simp only [carryUp]; agree
  | cons d l ih => simp only [carryUp]; have := ih c; agree
macro_rules | `(tactic| agree_lemma) => `(tactic| with_reducible exact agree_carryUp _ _)

theorem agree_roundDigit (d p : Int) : Agree (@roundDigit (dbg e) d p) (@roundDigit (rel e) d p) := by
  unfold roundDigit; agree
macro_rules | `(tactic| agree_lemma) => `(tactic| with_reducible exact agree_roundDigit _ _)

theorem agree_roundCommon (v : Var) (s : Int) : Agree (@roundCommon (dbg e) v s) (@roundCommon (rel e) v s) := by
  unfold roundCommon; agree
macro_rules | `(tactic| agree_lemma) => `(tactic| with_reducible exact agree_roundCommon _ _)

theorem agree_truncCommon (v : Var) (s : Int) : Agree (@truncCommon (dbg e) v s) (@truncCommon (rel e) v s) := by
  unfold truncCommon; agree
macro_rules | `(tactic| agree_lemma) => `(tactic| with_reducible exact agree_truncCommon _ _)

theorem agree_addLoop (d1 : List Int) (d2 : List Int) (x0 : Nat) (x1 : Int) (x2 : Int) (x3 : Int) (x4 : List Int) :
    Agree (@addLoop (dbg e) d1 d2 x0 x1 x2 x3 x4) (@addLoop (rel e) d1 d2 x0 x1 x2 x3 x4) := by
  induction x0 generalizing x1 x2 x3 x4 with
  | zero => simp only [addLoop]; agree
  | succ n ih => simp only [addLoop]; agree_with ih
macro_rules | `(tactic| agree_lemma) => `(tactic| with_reducible exact agree_addLoop _ _ _ _ _ _ _)

theorem agree_addAbs (a : Var) (b : Var) :
    Agree (@addAbs (dbg e) a b) (@addAbs (rel e) a b) := by
  unfold addAbs; agree
macro_rules | `(tactic| agree_lemma) => `(tactic| with_reducible exact agree_addAbs _ _)

theorem agree_subLoop (d1 : List Int) (d2 : List Int) (x0 : Nat) (x1 : Int) (x2 : Int) (x3 : Int) (x4 : List Int) :
    Agree (@subLoop (dbg e) d1 d2 x0 x1 x2 x3 x4) (@subLoop (rel e) d1 d2 x0 x1 x2 x3 x4) := by
  induction x0 generalizing x1 x2 x3 x4 with
  | zero => simp only [subLoop]; agree
  | succ n ih => simp only [subLoop]; agree_with ih
macro_rules | `(tactic| agree_lemma) => `(tactic| with_reducible exact agree_subLoop _ _ _ _ _ _ _)

theorem agree_subAbs (a : Var) (b : Var) :
    Agree (@subAbs (dbg e) a b) (@subAbs (rel e) a b) := by
  unfold subAbs; agree
macro_rules | `(tactic| agree_lemma) => `(tactic| with_reducible exact agree_subAbs _ _)

theorem agree_addCommon (a : Var) (b : Var) :
    Agree (@addCommon (dbg e) a b) (@addCommon (rel e) a b) := by
  unfold addCommon; agree
macro_rules | `(tactic| agree_lemma) => `(tactic| with_reducible exact agree_addCommon _ _)

theorem agree_subCommon (a : Var) (b : Var) :
    Agree (@subCommon (dbg e) a b) (@subCommon (rel e) a b) := by
  unfold subCommon; agree
macro_rules | `(tactic| agree_lemma) => `(tactic| with_reducible exact agree_subCommon _ _)

theorem agree_mulCarryPass (x0 : List Int) :
    Agree (@mulCarryPass (dbg e) x0) (@mulCarryPass (rel e) x0) := by
  induction x0 with
  | nil => simp only [mulCarryPass]; agree
  | cons d ds ih => simp only [mulCarryPass]; agree_with ih
macro_rules | `(tactic| agree_lemma) => `(tactic| with_reducible exact agree_mulCarryPass _)

theorem agree_mulRow (v2 : List Int) (d1 : Int) (i1 : Nat) (x0 : Nat) (x1 : List Int) :
    Agree (@mulRow (dbg e) v2 d1 i1 x0 x1) (@mulRow (rel e) v2 d1 i1 x0 x1) := by
  induction x0 generalizing x1 with
  | zero => simp only [mulRow]; agree
  | succ n ih => simp only [mulRow]; agree_with ih
macro_rules | `(tactic| agree_lemma) => `(tactic| with_reducible exact agree_mulRow _ _ _ _ _)

theorem agree_mulNormalize (dig : List Int) (maxDig : Int) (d1 : Int) :
    Agree (@mulNormalize (dbg e) dig maxDig d1) (@mulNormalize (rel e) dig maxDig d1) := by
  unfold mulNormalize; agree
macro_rules | `(tactic| agree_lemma) => `(tactic| with_reducible exact agree_mulNormalize _ _ _)

theorem agree_mulOuter (v1 : List Int) (v2 : List Int) (resN : Int) (x0 : Nat) (x1 : List Int) (x2 : Int) :
    Agree (@mulOuter (dbg e) v1 v2 resN x0 x1 x2) (@mulOuter (rel e) v1 v2 resN x0 x1 x2) := by
  induction x0 generalizing x1 x2 with
  | zero => simp only [mulOuter]; agree
  | succ n ih => simp only [mulOuter]; agree_with ih
macro_rules | `(tactic| agree_lemma) => `(tactic| with_reducible exact agree_mulOuter _ _ _ _ _ _)

theorem agree_mulCommon (self : Var) (other : Var) (rscale : Int) :
    Agree (@mulCommon (dbg e) self other rscale) (@mulCommon (rel e) self other rscale) := by
  unfold mulCommon; agree
macro_rules | `(tactic| agree_lemma) => `(tactic| with_reducible exact agree_mulCommon _ _ _)

theorem agree_divSingle (dividend : List Int) (divisor1 : Int) (x0 : Nat) (x1 : Nat) (x2 : Int) :
    Agree (@divSingle (dbg e) dividend divisor1 x0 x1 x2) (@divSingle (rel e) dividend divisor1 x0 x1 x2) := by
  induction x0 generalizing x1 x2 with
  | zero => simp only [divSingle]; agree
  | succ n ih => simp only [divSingle]; agree_with ih
macro_rules | `(tactic| agree_lemma) => `(tactic| with_reducible exact agree_divSingle _ _ _ _ _)

theorem agree_scaleUp (d : Int) (x0 : List Int) :
    Agree (@scaleUp (dbg e) d x0) (@scaleUp (rel e) d x0) := by
  induction x0 with
  | nil => simp only [scaleUp]; agree
  | cons d ds ih => simp only [scaleUp]; agree_with ih
macro_rules | `(tactic| agree_lemma) => `(tactic| with_reducible exact agree_scaleUp _ _)

theorem agree_adjustQhat (divisor1 : Int) (divisor2 : Int) (next2 : Int) (third : Int) (x0 : Nat) (x1 : Int) :
    Agree (@adjustQhat (dbg e) divisor1 divisor2 next2 third x0 x1) (@adjustQhat (rel e) divisor1 divisor2 next2 third x0 x1) := by
  induction x0 generalizing x1 with
  | zero => simp only [adjustQhat]; agree
  | succ n ih => simp only [adjustQhat]; agree_with ih
macro_rules | `(tactic| agree_lemma) => `(tactic| with_reducible exact agree_adjustQhat _ _ _ _ _ _)

theorem agree_mulSub (qhat : Int) (x0 : List Int) (x1 : List Int) :
    Agree (@mulSub (dbg e) qhat x0 x1) (@mulSub (rel e) qhat x0 x1) := by
  induction x0 generalizing x1 with
  | nil => cases x1 <;> simp only [mulSub] <;> agree
  | cons d ds ih => cases x1 <;> simp only [mulSub] <;> agree_with ih
macro_rules | `(tactic| agree_lemma) => `(tactic| with_reducible exact agree_mulSub _ _ _)

theorem agree_addBack (x0 : List Int) (x1 : List Int) :
    Agree (@addBack (dbg e) x0 x1) (@addBack (rel e) x0 x1) := by
  induction x0 generalizing x1 with
  | nil => cases x1 <;> simp only [addBack] <;> agree
  | cons d ds ih => cases x1 <;> simp only [addBack] <;> agree_with ih
macro_rules | `(tactic| agree_lemma) => `(tactic| with_reducible exact agree_addBack _ _)

theorem agree_knuthStep (divisor : List Int) (j : Nat) (dividend : List Int) :
    Agree (@knuthStep (dbg e) divisor j dividend) (@knuthStep (rel e) divisor j dividend) := by
  unfold knuthStep; agree
macro_rules | `(tactic| agree_lemma) => `(tactic| with_reducible exact agree_knuthStep _ _ _)

theorem agree_knuthLoop (divisor : List Int) (x0 : Nat) (x1 : Nat) (x2 : List Int) :
    Agree (@knuthLoop (dbg e) divisor x0 x1 x2) (@knuthLoop (rel e) divisor x0 x1 x2) := by
  induction x0 generalizing x1 x2 with
  | zero => simp only [knuthLoop]; agree
  | succ n ih => simp only [knuthLoop]; agree_with ih
macro_rules | `(tactic| agree_lemma) => `(tactic| with_reducible exact agree_knuthLoop _ _ _ _)

theorem agree_divDigits (d1 : List Int) (d2 : List Int) (resN : Nat) (divN : Nat) :
    Agree (@divDigits (dbg e) d1 d2 resN divN) (@divDigits (rel e) d1 d2 resN divN) := by
  unfold divDigits; agree
macro_rules | `(tactic| agree_lemma) => `(tactic| with_reducible exact agree_divDigits _ _ _ _)

theorem agree_divCommon (self : Var) (other : Var) (rscale : Int) (round : Bool) :
    Agree (@divCommon (dbg e) self other rscale round) (@divCommon (rel e) self other rscale round) := by
  unfold divCommon; agree
macro_rules | `(tactic| agree_lemma) => `(tactic| with_reducible exact agree_divCommon _ _ _ _)

theorem agree_modCommon (self : Var) (other : Var) :
    Agree (@modCommon (dbg e) self other) (@modCommon (rel e) self other) := by
  unfold modCommon; agree
macro_rules | `(tactic| agree_lemma) => `(tactic| with_reducible exact agree_modCommon _ _)

theorem agree_checkedDiv (self : Var) (other : Var) :
    Agree (@checkedDiv (dbg e) self other) (@checkedDiv (rel e) self other) := by
  unfold checkedDiv; agree
macro_rules | `(tactic| agree_lemma) => `(tactic| with_reducible exact agree_checkedDiv _ _)

theorem agree_checkedDivTrunc (self : Var) (other : Var) :
    Agree (@checkedDivTrunc (dbg e) self other) (@checkedDivTrunc (rel e) self other) := by
  unfold checkedDivTrunc; agree
macro_rules | `(tactic| agree_lemma) => `(tactic| with_reducible exact agree_checkedDivTrunc _ _)

theorem agree_ceilCommon (v : Var) :
    Agree (@ceilCommon (dbg e) v) (@ceilCommon (rel e) v) := by
  unfold ceilCommon; agree
macro_rules | `(tactic| agree_lemma) => `(tactic| with_reducible exact agree_ceilCommon _)

theorem agree_floorCommon (v : Var) :
    Agree (@floorCommon (dbg e) v) (@floorCommon (rel e) v) := by
  unfold floorCommon; agree
macro_rules | `(tactic| agree_lemma) => `(tactic| with_reducible exact agree_floorCommon _)

theorem agree_inc (v : Var) :
    Agree (@inc (dbg e) v) (@inc (rel e) v) := by
  unfold inc; agree
macro_rules | `(tactic| agree_lemma) => `(tactic| with_reducible exact agree_inc _)

theorem agree_round (v : Var) (scale : Int) :
    Agree (@round (dbg e) v scale) (@round (rel e) v scale) := by
  unfold round; agree
macro_rules | `(tactic| agree_lemma) => `(tactic| with_reducible exact agree_round _ _)

theorem agree_trunc (v : Var) (scale : Int) :
    Agree (@trunc (dbg e) v scale) (@trunc (rel e) v scale) := by
  unfold trunc; agree
macro_rules | `(tactic| agree_lemma) => `(tactic| with_reducible exact agree_trunc _ _)

theorem agree_makeResult (v : Var) :
    Agree (@makeResult (dbg e) v) (@makeResult (rel e) v) := by
  unfold makeResult; agree
macro_rules | `(tactic| agree_lemma) => `(tactic| with_reducible exact agree_makeResult _)

theorem agree_makeResultNoOverflow (v : Var) :
    Agree (@makeResultNoOverflow (dbg e) v) (@makeResultNoOverflow (rel e) v) := by
  unfold makeResultNoOverflow; agree
macro_rules | `(tactic| agree_lemma) => `(tactic| with_reducible exact agree_makeResultNoOverflow _)

end Var
end PgNumeric
