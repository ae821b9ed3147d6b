import Verif.Proofs.Agree2
import Verif.Model.Heap
/-!
# Debug and release builds agree: owned buffers and the allocator

See `Proofs/Agree.lean`.
-/
namespace PgNumeric
open Spec
variable {e : Bool}

theorem Bin.encodeLen_debug (w : BitVec 32) : @Bin.encodeLen (dbg e) w = @Bin.encodeLen (rel e) w := rfl
theorem Bin.decodeLen_debug (w : BitVec 32) : @Bin.decodeLen (dbg e) w = @Bin.decodeLen (rel e) w := rfl

namespace Data

theorem agree_digits (d : Data) (n : Nat) :
    Agree (@digits (dbg e) d n) (@digits (rel e) d n) := by
  unfold digits; agree
macro_rules | `(tactic| agree_lemma) => `(tactic| with_reducible exact PgNumeric.Data.agree_digits _ _)

theorem agree_reserveRoundingDigit (d : Data) (n : Nat) :
    Agree (@reserveRoundingDigit (dbg e) d n) (@reserveRoundingDigit (rel e) d n) := by
  unfold reserveRoundingDigit; agree
macro_rules | `(tactic| agree_lemma) => `(tactic| with_reducible exact PgNumeric.Data.agree_reserveRoundingDigit _ _)

theorem agree_offsetAdd (d : Data) (k : Nat) :
    Agree (@offsetAdd (dbg e) d k) (@offsetAdd (rel e) d k) := by
  unfold offsetAdd; agree
macro_rules | `(tactic| agree_lemma) => `(tactic| with_reducible exact PgNumeric.Data.agree_offsetAdd _ _)

theorem agree_offsetSub (d : Data) (k : Nat) :
    Agree (@offsetSub (dbg e) d k) (@offsetSub (rel e) d k) := by
  unfold offsetSub; agree
macro_rules | `(tactic| agree_lemma) => `(tactic| with_reducible exact PgNumeric.Data.agree_offsetSub _ _)

theorem agree_setHeader (d : Data) (weight : BitVec 16) (dscale : BitVec 16) (sign : BitVec 16) (n : Nat) :
    Agree (@setHeader (dbg e) d weight dscale sign n) (@setHeader (rel e) d weight dscale sign n) := by
  unfold setHeader; simp only [Bin.encodeLen_debug]; agree
macro_rules | `(tactic| agree_lemma) => `(tactic| with_reducible exact PgNumeric.Data.agree_setHeader _ _ _ _ _)

end Data

namespace OVar

theorem agree_intoBuf (o : OVar) :
    Agree (@intoBuf (dbg e) o) (@intoBuf (rel e) o) := by
  unfold intoBuf; agree
macro_rules | `(tactic| agree_lemma) => `(tactic| with_reducible exact PgNumeric.OVar.agree_intoBuf _)

theorem agree_carryCells (x0 : Nat) (x1 : Cells) (x2 : Int) :
    Agree (@carryCells (dbg e) x0 x1 x2) (@carryCells (rel e) x0 x1 x2) := by
  induction x0 generalizing x1 x2 with
  | zero => simp only [carryCells]; agree
  | succ n ih => simp only [carryCells]; agree_with ih
macro_rules | `(tactic| agree_lemma) => `(tactic| with_reducible exact PgNumeric.OVar.agree_carryCells _ _ _)

theorem agree_roundCommon (o : OVar) (rscale : Int) :
    Agree (@roundCommon (dbg e) o rscale) (@roundCommon (rel e) o rscale) := by
  unfold roundCommon; agree
macro_rules | `(tactic| agree_lemma) => `(tactic| with_reducible exact PgNumeric.OVar.agree_roundCommon _ _)

theorem agree_truncCommon (o : OVar) (rscale : Int) :
    Agree (@truncCommon (dbg e) o rscale) (@truncCommon (rel e) o rscale) := by
  unfold truncCommon; agree
macro_rules | `(tactic| agree_lemma) => `(tactic| with_reducible exact PgNumeric.OVar.agree_truncCommon _ _)

theorem agree_strip (o : OVar) :
    Agree (@strip (dbg e) o) (@strip (rel e) o) := by
  unfold strip; agree
macro_rules | `(tactic| agree_lemma) => `(tactic| with_reducible exact PgNumeric.OVar.agree_strip _)

theorem agree_round (o : OVar) (scale : Int) :
    Agree (@round (dbg e) o scale) (@round (rel e) o scale) := by
  unfold round; agree
macro_rules | `(tactic| agree_lemma) => `(tactic| with_reducible exact PgNumeric.OVar.agree_round _ _)

theorem agree_trunc (o : OVar) (scale : Int) :
    Agree (@trunc (dbg e) o scale) (@trunc (rel e) o scale) := by
  unfold trunc; agree
macro_rules | `(tactic| agree_lemma) => `(tactic| with_reducible exact PgNumeric.OVar.agree_trunc _ _)

theorem agree_negate (o : OVar) :
    Agree (@negate (dbg e) o) (@negate (rel e) o) := by
  unfold negate; agree
macro_rules | `(tactic| agree_lemma) => `(tactic| with_reducible exact PgNumeric.OVar.agree_negate _)

theorem agree_abs (o : OVar) :
    Agree (@abs (dbg e) o) (@abs (rel e) o) := by
  unfold abs; agree
macro_rules | `(tactic| agree_lemma) => `(tactic| with_reducible exact PgNumeric.OVar.agree_abs _)

theorem agree_finishNoOverflow (o : OVar) :
    Agree (@finishNoOverflow (dbg e) o) (@finishNoOverflow (rel e) o) := by
  unfold finishNoOverflow; agree
macro_rules | `(tactic| agree_lemma) => `(tactic| with_reducible exact PgNumeric.OVar.agree_finishNoOverflow _)

theorem agree_finish (o : OVar) :
    Agree (@finish (dbg e) o) (@finish (rel e) o) := by
  unfold finish; agree
macro_rules | `(tactic| agree_lemma) => `(tactic| with_reducible exact PgNumeric.OVar.agree_finish _)

theorem agree_applyTypmod (o : OVar) (typmod : Typmod) :
    Agree (@applyTypmod (dbg e) o typmod) (@applyTypmod (rel e) o typmod) := by
  unfold applyTypmod; agree
macro_rules | `(tactic| agree_lemma) => `(tactic| with_reducible exact PgNumeric.OVar.agree_applyTypmod _ _)

end OVar

namespace Buf

theorem agree_asNumeric (b : Buf) :
    Agree (@asNumeric (dbg e) b) (@asNumeric (rel e) b) := by
  unfold asNumeric; simp only [Bin.decodeLen_debug]; agree; all_goals exact Agree.dassert
macro_rules | `(tactic| agree_lemma) => `(tactic| with_reducible exact PgNumeric.Buf.agree_asNumeric _)

theorem agree_intoVar (b : Buf) :
    Agree (@intoVar (dbg e) b) (@intoVar (rel e) b) := by
  unfold intoVar; simp only [Bin.len_debug]; agree; all_goals exact Agree.dassert
macro_rules | `(tactic| agree_lemma) => `(tactic| with_reducible exact PgNumeric.Buf.agree_intoVar _)

theorem agree_ofVar (v : Var) :
    Agree (@ofVar (dbg e) v) (@ofVar (rel e) v) := by
  unfold ofVar; agree
macro_rules | `(tactic| agree_lemma) => `(tactic| with_reducible exact PgNumeric.Buf.agree_ofVar _)

theorem agree_nan  :
    Agree (@nan (dbg e) ) (@nan (rel e) ) := by
  unfold nan; agree
macro_rules | `(tactic| agree_lemma) => `(tactic| with_reducible exact PgNumeric.Buf.agree_nan )

theorem agree_negateMut (b : Buf) :
    Agree (@negateMut (dbg e) b) (@negateMut (rel e) b) := by
  unfold negateMut; agree
macro_rules | `(tactic| agree_lemma) => `(tactic| with_reducible exact PgNumeric.Buf.agree_negateMut _)

theorem agree_absMut (b : Buf) :
    Agree (@absMut (dbg e) b) (@absMut (rel e) b) := by
  unfold absMut; agree
macro_rules | `(tactic| agree_lemma) => `(tactic| with_reducible exact PgNumeric.Buf.agree_absMut _)

theorem agree_roundMut (b : Buf) (scale : Int) :
    Agree (@roundMut (dbg e) b scale) (@roundMut (rel e) b scale) := by
  unfold roundMut; agree
macro_rules | `(tactic| agree_lemma) => `(tactic| with_reducible exact PgNumeric.Buf.agree_roundMut _ _)

theorem agree_truncMut (b : Buf) (scale : Int) :
    Agree (@truncMut (dbg e) b scale) (@truncMut (rel e) b scale) := by
  unfold truncMut; agree
macro_rules | `(tactic| agree_lemma) => `(tactic| with_reducible exact PgNumeric.Buf.agree_truncMut _ _)

theorem agree_applyTypmod (b : Buf) (typmod : Typmod) :
    Agree (@applyTypmod (dbg e) b typmod) (@applyTypmod (rel e) b typmod) := by
  unfold applyTypmod; agree
macro_rules | `(tactic| agree_lemma) => `(tactic| with_reducible exact PgNumeric.Buf.agree_applyTypmod _ _)

end Buf

namespace HVar

theorem agree_reserve (h : Heap) (v : HVar) :
    Agree (@reserve (dbg e) h v) (@reserve (rel e) h v) := by
  unfold reserve; agree
macro_rules | `(tactic| agree_lemma) => `(tactic| with_reducible exact PgNumeric.HVar.agree_reserve _ _)

theorem agree_roundCommon (h : Heap) (v : HVar) (rscale : Int) :
    Agree (@roundCommon (dbg e) h v rscale) (@roundCommon (rel e) h v rscale) := by
  unfold roundCommon; agree
macro_rules | `(tactic| agree_lemma) => `(tactic| with_reducible exact PgNumeric.HVar.agree_roundCommon _ _ _)

theorem agree_trunc (h : Heap) (v : HVar) (scale : Int) :
    Agree (@trunc (dbg e) h v scale) (@trunc (rel e) h v scale) := by
  unfold trunc; agree
macro_rules | `(tactic| agree_lemma) => `(tactic| with_reducible exact PgNumeric.HVar.agree_trunc _ _ _)

theorem agree_round (h : Heap) (v : HVar) (scale : Int) :
    Agree (@round (dbg e) h v scale) (@round (rel e) h v scale) := by
  unfold round; agree
macro_rules | `(tactic| agree_lemma) => `(tactic| with_reducible exact PgNumeric.HVar.agree_round _ _ _)

theorem agree_negate (h : Heap) (v : HVar) :
    Agree (@negate (dbg e) h v) (@negate (rel e) h v) := by
  unfold negate; agree
macro_rules | `(tactic| agree_lemma) => `(tactic| with_reducible exact PgNumeric.HVar.agree_negate _ _)

theorem agree_abs (h : Heap) (v : HVar) :
    Agree (@abs (dbg e) h v) (@abs (rel e) h v) := by
  unfold abs; agree
macro_rules | `(tactic| agree_lemma) => `(tactic| with_reducible exact PgNumeric.HVar.agree_abs _ _)

theorem agree_applyTypmod (h : Heap) (v : HVar) (typmod : Typmod) :
    Agree (@applyTypmod (dbg e) h v typmod) (@applyTypmod (rel e) h v typmod) := by
  unfold applyTypmod; agree
macro_rules | `(tactic| agree_lemma) => `(tactic| with_reducible exact PgNumeric.HVar.agree_applyTypmod _ _ _)

theorem agree_intoBuf (h : Heap) (v : HVar) :
    Agree (@intoBuf (dbg e) h v) (@intoBuf (rel e) h v) := by
  unfold intoBuf; agree
macro_rules | `(tactic| agree_lemma) => `(tactic| with_reducible exact PgNumeric.HVar.agree_intoBuf _ _)

theorem agree_finishNoOverflow (h : Heap) (v : HVar) :
    Agree (@finishNoOverflow (dbg e) h v) (@finishNoOverflow (rel e) h v) := by
  unfold finishNoOverflow; agree
macro_rules | `(tactic| agree_lemma) => `(tactic| with_reducible exact PgNumeric.HVar.agree_finishNoOverflow _ _)

theorem agree_finish (h : Heap) (v : HVar) :
    Agree (@finish (dbg e) h v) (@finish (rel e) h v) := by
  unfold finish; agree
macro_rules | `(tactic| agree_lemma) => `(tactic| with_reducible exact PgNumeric.HVar.agree_finish _ _)

end HVar

namespace HBuf

theorem agree_asNumeric (h : Heap) (b : HBuf) :
    Agree (@asNumeric (dbg e) h b) (@asNumeric (rel e) h b) := by
  unfold asNumeric; agree
macro_rules | `(tactic| agree_lemma) => `(tactic| with_reducible exact PgNumeric.HBuf.agree_asNumeric _ _)

theorem agree_asVarOwned (h : Heap) (b : HBuf) :
    Agree (@asVarOwned (dbg e) h b) (@asVarOwned (rel e) h b) := by
  unfold asVarOwned; agree
macro_rules | `(tactic| agree_lemma) => `(tactic| with_reducible exact PgNumeric.HBuf.agree_asVarOwned _ _)

theorem agree_negateMut (h : Heap) (b : HBuf) :
    Agree (@negateMut (dbg e) h b) (@negateMut (rel e) h b) := by
  unfold negateMut; agree
macro_rules | `(tactic| agree_lemma) => `(tactic| with_reducible exact PgNumeric.HBuf.agree_negateMut _ _)

theorem agree_absMut (h : Heap) (b : HBuf) :
    Agree (@absMut (dbg e) h b) (@absMut (rel e) h b) := by
  unfold absMut; agree
macro_rules | `(tactic| agree_lemma) => `(tactic| with_reducible exact PgNumeric.HBuf.agree_absMut _ _)

theorem agree_roundMut (h : Heap) (b : HBuf) (scale : Int) :
    Agree (@roundMut (dbg e) h b scale) (@roundMut (rel e) h b scale) := by
  unfold roundMut; agree
macro_rules | `(tactic| agree_lemma) => `(tactic| with_reducible exact PgNumeric.HBuf.agree_roundMut _ _ _)

theorem agree_truncMut (h : Heap) (b : HBuf) (scale : Int) :
    Agree (@truncMut (dbg e) h b scale) (@truncMut (rel e) h b scale) := by
  unfold truncMut; agree
macro_rules | `(tactic| agree_lemma) => `(tactic| with_reducible exact PgNumeric.HBuf.agree_truncMut _ _ _)

theorem agree_applyTypmod (h : Heap) (b : HBuf) (typmod : Typmod) :
    Agree (@applyTypmod (dbg e) h b typmod) (@applyTypmod (rel e) h b typmod) := by
  unfold applyTypmod; agree
macro_rules | `(tactic| agree_lemma) => `(tactic| with_reducible exact PgNumeric.HBuf.agree_applyTypmod _ _ _)

theorem agree_clone (h : Heap) (b : HBuf) :
    Agree (@clone (dbg e) h b) (@clone (rel e) h b) := by
  unfold clone; agree
macro_rules | `(tactic| agree_lemma) => `(tactic| with_reducible exact PgNumeric.HBuf.agree_clone _ _)

end HBuf

end PgNumeric
