import Verif.Proofs.Agree
import Verif.Model.Power
import Verif.Model.Typmod
import Verif.Model.Factorial
import Verif.Model.Float
/-!
# Debug and release builds agree: the rest of the code

One lemma per function of the model, see `Proofs/Agree.lean`. The length word does not depend on the kind of build.
-/
namespace PgNumeric
open Spec
variable {e : Bool}

namespace Var

theorem agree_fdigit (fquotient : ℚ) :
    Agree (@fdigit (dbg e) fquotient) (@fdigit (rel e) fquotient) := by
  unfold fdigit; agree
macro_rules | `(tactic| agree_lemma) => `(tactic| with_reducible exact PgNumeric.Var.agree_fdigit _)

theorem agree_festimate (inv : ℚ) (x : Int) (xs : List Int) :
    Agree (@festimate (dbg e) inv x xs) (@festimate (rel e) inv x xs) := by
  unfold festimate; agree
macro_rules | `(tactic| agree_lemma) => `(tactic| with_reducible exact PgNumeric.Var.agree_festimate _ _ _)

theorem agree_signedCarry (x0 : List Int) :
    Agree (@signedCarry (dbg e) x0) (@signedCarry (rel e) x0) := by
  induction x0 with
  | nil => simp only [signedCarry]; agree
  | cons d ds ih => simp only [signedCarry]; agree_with ih
macro_rules | `(tactic| agree_lemma) => `(tactic| with_reducible exact PgNumeric.Var.agree_signedCarry _)

theorem agree_subRow (q : Int) (x0 : List Int) (x1 : List Int) :
    Agree (@subRow (dbg e) q x0 x1) (@subRow (rel e) q x0 x1) := by
  induction x0 generalizing x1 with
  | nil => simp only [subRow]; agree
  | cons d ds ih => cases x1 <;> simp only [subRow] <;> agree_with ih
macro_rules | `(tactic| agree_lemma) => `(tactic| with_reducible exact PgNumeric.Var.agree_subRow _ _ _)

theorem agree_fastStep (v : List Int) (inv : ℚ) (x : Int) (xs : List Int) (maxDiv : Int) :
    Agree (@fastStep (dbg e) v inv x xs maxDiv) (@fastStep (rel e) v inv x xs maxDiv) := by
  unfold fastStep; agree
macro_rules | `(tactic| agree_lemma) => `(tactic| with_reducible exact PgNumeric.Var.agree_fastStep _ _ _ _ _)

theorem agree_fastLoop (v : List Int) (inv : ℚ) (x0 : Nat) (x1 : List Int) (x2 : Int) :
    Agree (@fastLoop (dbg e) v inv x0 x1 x2) (@fastLoop (rel e) v inv x0 x1 x2) := by
  induction x0 generalizing x1 x2 with
  | zero => simp only [fastLoop]; agree
  | succ n ih => simp only [fastLoop]; agree_with ih
macro_rules | `(tactic| agree_lemma) => `(tactic| with_reducible exact PgNumeric.Var.agree_fastLoop _ _ _ _ _)

theorem agree_divFastCommon (self : Var) (other : Var) (rscale : Int) (round : Bool) :
    Agree (@divFastCommon (dbg e) self other rscale round) (@divFastCommon (rel e) self other rscale round) := by
  unfold divFastCommon; agree
macro_rules | `(tactic| agree_lemma) => `(tactic| with_reducible exact PgNumeric.Var.agree_divFastCommon _ _ _ _)

end Var

namespace Bin

theorem encode_debug (v : Var) : @encode (dbg e) v = @encode (rel e) v := rfl
theorem len_debug (b : Bin) : @len (dbg e) b = @len (rel e) b := rfl

theorem agree_intoBuf (v : Var) :
    Agree (@intoBuf (dbg e) v) (@intoBuf (rel e) v) := by
  unfold intoBuf; simp only [encode_debug]; agree
macro_rules | `(tactic| agree_lemma) => `(tactic| with_reducible exact PgNumeric.Bin.agree_intoBuf _)

theorem agree_asVar (b : Bin) :
    Agree (@asVar (dbg e) b) (@asVar (rel e) b) := by
  have h1 : @Build.debug (dbg e) = true := rfl
  have h2 : @Build.debug (rel e) = false := rfl
  unfold asVar; refine Agree.bind Agree.dassert ?_; simp only [len_debug, h1, h2, if_true, Bool.false_eq_true, if_false]; agree
  all_goals exact Or.inr (Or.inr rfl)
macro_rules | `(tactic| agree_lemma) => `(tactic| with_reducible exact PgNumeric.Bin.agree_asVar _)

end Bin

namespace Num

theorem agree_asBinary (b : Bin) :
    Agree (@asBinary (dbg e) b) (@asBinary (rel e) b) := by
  exact Agree.dassert
macro_rules | `(tactic| agree_lemma) => `(tactic| with_reducible exact PgNumeric.Num.agree_asBinary _)

theorem agree_nan  :
    Agree (@nan (dbg e) ) (@nan (rel e) ) := by
  unfold nan; agree
macro_rules | `(tactic| agree_lemma) => `(tactic| with_reducible exact PgNumeric.Num.agree_nan )

theorem agree_zero  :
    Agree (@zero (dbg e) ) (@zero (rel e) ) := by
  unfold zero; agree
macro_rules | `(tactic| agree_lemma) => `(tactic| with_reducible exact PgNumeric.Num.agree_zero )

theorem agree_finish (v : Var) :
    Agree (@finish (dbg e) v) (@finish (rel e) v) := by
  unfold finish; agree
macro_rules | `(tactic| agree_lemma) => `(tactic| with_reducible exact PgNumeric.Num.agree_finish _)

theorem agree_finishNoOverflow (v : Var) :
    Agree (@finishNoOverflow (dbg e) v) (@finishNoOverflow (rel e) v) := by
  unfold finishNoOverflow; agree
macro_rules | `(tactic| agree_lemma) => `(tactic| with_reducible exact PgNumeric.Num.agree_finishNoOverflow _)

theorem agree_isNan (a : Bin) :
    Agree (@isNan (dbg e) a) (@isNan (rel e) a) := by
  unfold isNan; agree
macro_rules | `(tactic| agree_lemma) => `(tactic| with_reducible exact PgNumeric.Num.agree_isNan _)

theorem agree_isNegative (a : Bin) :
    Agree (@isNegative (dbg e) a) (@isNegative (rel e) a) := by
  unfold isNegative; agree
macro_rules | `(tactic| agree_lemma) => `(tactic| with_reducible exact PgNumeric.Num.agree_isNegative _)

theorem agree_isPositive (a : Bin) :
    Agree (@isPositive (dbg e) a) (@isPositive (rel e) a) := by
  unfold isPositive; agree
macro_rules | `(tactic| agree_lemma) => `(tactic| with_reducible exact PgNumeric.Num.agree_isPositive _)

theorem agree_scale (a : Bin) :
    Agree (@scale (dbg e) a) (@scale (rel e) a) := by
  unfold scale; agree
macro_rules | `(tactic| agree_lemma) => `(tactic| with_reducible exact PgNumeric.Num.agree_scale _)

theorem agree_negate (a : Bin) :
    Agree (@negate (dbg e) a) (@negate (rel e) a) := by
  unfold negate; agree
macro_rules | `(tactic| agree_lemma) => `(tactic| with_reducible exact PgNumeric.Num.agree_negate _)

theorem agree_signum (a : Bin) :
    Agree (@signum (dbg e) a) (@signum (rel e) a) := by
  unfold signum; agree
macro_rules | `(tactic| agree_lemma) => `(tactic| with_reducible exact PgNumeric.Num.agree_signum _)

theorem agree_inc (a : Bin) :
    Agree (@inc (dbg e) a) (@inc (rel e) a) := by
  unfold inc; agree
macro_rules | `(tactic| agree_lemma) => `(tactic| with_reducible exact PgNumeric.Num.agree_inc _)

theorem agree_checkedAdd (a : Bin) (b : Bin) :
    Agree (@checkedAdd (dbg e) a b) (@checkedAdd (rel e) a b) := by
  unfold checkedAdd; agree
macro_rules | `(tactic| agree_lemma) => `(tactic| with_reducible exact PgNumeric.Num.agree_checkedAdd _ _)

theorem agree_checkedSub (a : Bin) (b : Bin) :
    Agree (@checkedSub (dbg e) a b) (@checkedSub (rel e) a b) := by
  unfold checkedSub; agree
macro_rules | `(tactic| agree_lemma) => `(tactic| with_reducible exact PgNumeric.Num.agree_checkedSub _ _)

theorem agree_checkedMul (a : Bin) (b : Bin) :
    Agree (@checkedMul (dbg e) a b) (@checkedMul (rel e) a b) := by
  unfold checkedMul; agree
macro_rules | `(tactic| agree_lemma) => `(tactic| with_reducible exact PgNumeric.Num.agree_checkedMul _ _)

theorem agree_overflowingDiv (a : Bin) (b : Bin) :
    Agree (@overflowingDiv (dbg e) a b) (@overflowingDiv (rel e) a b) := by
  unfold overflowingDiv; agree
macro_rules | `(tactic| agree_lemma) => `(tactic| with_reducible exact PgNumeric.Num.agree_overflowingDiv _ _)

theorem agree_checkedDiv (a : Bin) (b : Bin) :
    Agree (@checkedDiv (dbg e) a b) (@checkedDiv (rel e) a b) := by
  unfold checkedDiv; agree
macro_rules | `(tactic| agree_lemma) => `(tactic| with_reducible exact PgNumeric.Num.agree_checkedDiv _ _)

theorem agree_checkedDivTrunc (a : Bin) (b : Bin) :
    Agree (@checkedDivTrunc (dbg e) a b) (@checkedDivTrunc (rel e) a b) := by
  unfold checkedDivTrunc; agree
macro_rules | `(tactic| agree_lemma) => `(tactic| with_reducible exact PgNumeric.Num.agree_checkedDivTrunc _ _)

theorem agree_overflowingRem (a : Bin) (b : Bin) :
    Agree (@overflowingRem (dbg e) a b) (@overflowingRem (rel e) a b) := by
  unfold overflowingRem; agree
macro_rules | `(tactic| agree_lemma) => `(tactic| with_reducible exact PgNumeric.Num.agree_overflowingRem _ _)

theorem agree_checkedRem (a : Bin) (b : Bin) :
    Agree (@checkedRem (dbg e) a b) (@checkedRem (rel e) a b) := by
  unfold checkedRem; agree
macro_rules | `(tactic| agree_lemma) => `(tactic| with_reducible exact PgNumeric.Num.agree_checkedRem _ _)

theorem agree_round (a : Bin) (scale : Int) :
    Agree (@round (dbg e) a scale) (@round (rel e) a scale) := by
  unfold round; agree
macro_rules | `(tactic| agree_lemma) => `(tactic| with_reducible exact PgNumeric.Num.agree_round _ _)

theorem agree_trunc (a : Bin) (scale : Int) :
    Agree (@trunc (dbg e) a scale) (@trunc (rel e) a scale) := by
  unfold trunc; agree
macro_rules | `(tactic| agree_lemma) => `(tactic| with_reducible exact PgNumeric.Num.agree_trunc _ _)

theorem agree_ceil (a : Bin) :
    Agree (@ceil (dbg e) a) (@ceil (rel e) a) := by
  unfold ceil; agree
macro_rules | `(tactic| agree_lemma) => `(tactic| with_reducible exact PgNumeric.Num.agree_ceil _)

theorem agree_floor (a : Bin) :
    Agree (@floor (dbg e) a) (@floor (rel e) a) := by
  unfold floor; agree
macro_rules | `(tactic| agree_lemma) => `(tactic| with_reducible exact PgNumeric.Num.agree_floor _)

theorem agree_abs (a : Bin) :
    Agree (@abs (dbg e) a) (@abs (rel e) a) := by
  unfold abs; agree
macro_rules | `(tactic| agree_lemma) => `(tactic| with_reducible exact PgNumeric.Num.agree_abs _)

theorem agree_cmp (a : Bin) (b : Bin) :
    Agree (@cmp (dbg e) a b) (@cmp (rel e) a b) := by
  unfold cmp; agree
macro_rules | `(tactic| agree_lemma) => `(tactic| with_reducible exact PgNumeric.Num.agree_cmp _ _)

theorem agree_toOwned (a : Bin) :
    Agree (@toOwned (dbg e) a) (@toOwned (rel e) a) := by
  unfold toOwned; agree
macro_rules | `(tactic| agree_lemma) => `(tactic| with_reducible exact PgNumeric.Num.agree_toOwned _)

theorem agree_clone (a : Bin) :
    Agree (@clone (dbg e) a) (@clone (rel e) a) := by
  unfold clone; agree
macro_rules | `(tactic| agree_lemma) => `(tactic| with_reducible exact PgNumeric.Num.agree_clone _)

theorem agree_hash (a : Bin) :
    Agree (@hash (dbg e) a) (@hash (rel e) a) := by
  unfold hash; agree
macro_rules | `(tactic| agree_lemma) => `(tactic| with_reducible exact PgNumeric.Num.agree_hash _)

theorem agree_opAdd (a : Bin) (b : Bin) :
    Agree (@opAdd (dbg e) a b) (@opAdd (rel e) a b) := by
  unfold opAdd; agree
macro_rules | `(tactic| agree_lemma) => `(tactic| with_reducible exact PgNumeric.Num.agree_opAdd _ _)

theorem agree_opSub (a : Bin) (b : Bin) :
    Agree (@opSub (dbg e) a b) (@opSub (rel e) a b) := by
  unfold opSub; agree
macro_rules | `(tactic| agree_lemma) => `(tactic| with_reducible exact PgNumeric.Num.agree_opSub _ _)

theorem agree_opMul (a : Bin) (b : Bin) :
    Agree (@opMul (dbg e) a b) (@opMul (rel e) a b) := by
  unfold opMul; agree
macro_rules | `(tactic| agree_lemma) => `(tactic| with_reducible exact PgNumeric.Num.agree_opMul _ _)

theorem agree_opDiv (a : Bin) (b : Bin) :
    Agree (@opDiv (dbg e) a b) (@opDiv (rel e) a b) := by
  unfold opDiv; agree
macro_rules | `(tactic| agree_lemma) => `(tactic| with_reducible exact PgNumeric.Num.agree_opDiv _ _)

theorem agree_opRem (a : Bin) (b : Bin) :
    Agree (@opRem (dbg e) a b) (@opRem (rel e) a b) := by
  unfold opRem; agree
macro_rules | `(tactic| agree_lemma) => `(tactic| with_reducible exact PgNumeric.Num.agree_opRem _ _)

theorem agree_opNeg (a : Bin) :
    Agree (@opNeg (dbg e) a) (@opNeg (rel e) a) := by
  unfold opNeg; agree
macro_rules | `(tactic| agree_lemma) => `(tactic| with_reducible exact PgNumeric.Num.agree_opNeg _)

theorem agree_eq (a : Bin) (b : Bin) :
    Agree (@eq (dbg e) a b) (@eq (rel e) a b) := by
  unfold eq; agree
macro_rules | `(tactic| agree_lemma) => `(tactic| with_reducible exact PgNumeric.Num.agree_eq _ _)

theorem agree_partialCmp (a : Bin) (b : Bin) :
    Agree (@partialCmp (dbg e) a b) (@partialCmp (rel e) a b) := by
  unfold partialCmp; agree
macro_rules | `(tactic| agree_lemma) => `(tactic| with_reducible exact PgNumeric.Num.agree_partialCmp _ _)

theorem agree_lt (a : Bin) (b : Bin) :
    Agree (@lt (dbg e) a b) (@lt (rel e) a b) := by
  unfold lt; agree
macro_rules | `(tactic| agree_lemma) => `(tactic| with_reducible exact PgNumeric.Num.agree_lt _ _)

theorem agree_le (a : Bin) (b : Bin) :
    Agree (@le (dbg e) a b) (@le (rel e) a b) := by
  unfold le; agree
macro_rules | `(tactic| agree_lemma) => `(tactic| with_reducible exact PgNumeric.Num.agree_le _ _)

end Num

namespace Convert

theorem agree_ofInt (ty : IntTy) (x : Int) :
    Agree (@ofInt (dbg e) ty x) (@ofInt (rel e) ty x) := by
  unfold ofInt; agree
macro_rules | `(tactic| agree_lemma) => `(tactic| with_reducible exact PgNumeric.Convert.agree_ofInt _ _)

theorem agree_ofBool (b : Bool) :
    Agree (@ofBool (dbg e) b) (@ofBool (rel e) b) := by
  unfold ofBool; agree
macro_rules | `(tactic| agree_lemma) => `(tactic| with_reducible exact PgNumeric.Convert.agree_ofBool _)

theorem agree_castT (ty : IntTy) (x : Int) :
    Agree (@castT (dbg e) ty x) (@castT (rel e) ty x) := by
  unfold castT; agree
macro_rules | `(tactic| agree_lemma) => `(tactic| with_reducible exact PgNumeric.Convert.agree_castT _ _)

theorem agree_intoSigned (ty : IntTy) (v : Var) :
    Agree (@intoSigned (dbg e) ty v) (@intoSigned (rel e) ty v) := by
  unfold intoSigned; agree
macro_rules | `(tactic| agree_lemma) => `(tactic| with_reducible exact PgNumeric.Convert.agree_intoSigned _ _)

theorem agree_intoUnsigned (ty : IntTy) (v : Var) :
    Agree (@intoUnsigned (dbg e) ty v) (@intoUnsigned (rel e) ty v) := by
  unfold intoUnsigned; agree
macro_rules | `(tactic| agree_lemma) => `(tactic| with_reducible exact PgNumeric.Convert.agree_intoUnsigned _ _)

theorem agree_toInt (ty : IntTy) (a : Bin) :
    Agree (@toInt (dbg e) ty a) (@toInt (rel e) ty a) := by
  unfold toInt; agree
macro_rules | `(tactic| agree_lemma) => `(tactic| with_reducible exact PgNumeric.Convert.agree_toInt _ _)

end Convert

namespace Parse

theorem agree_readLoop (x0 : List Nat) (x1 : Int) :
    Agree (@readLoop (dbg e) x0 x1) (@readLoop (rel e) x0 x1) := by
  induction x0 generalizing x1 with
  | nil => simp only [readLoop]; agree
  | cons d ds ih => simp only [readLoop]; agree_with ih
macro_rules | `(tactic| agree_lemma) => `(tactic| with_reducible exact PgNumeric.Parse.agree_readLoop _ _)

theorem agree_readNumericDigit (s : List Nat) :
    Agree (@readNumericDigit (dbg e) s) (@readNumericDigit (rel e) s) := by
  unfold readNumericDigit; agree
macro_rules | `(tactic| agree_lemma) => `(tactic| with_reducible exact PgNumeric.Parse.agree_readNumericDigit _)

theorem agree_readChunks (x0 : Nat) (x1 : List Nat) :
    Agree (@readChunks (dbg e) x0 x1) (@readChunks (rel e) x0 x1) := by
  induction x0 generalizing x1 with
  | zero => simp only [readChunks]; agree
  | succ n ih => simp only [readChunks]; agree_with ih
macro_rules | `(tactic| agree_lemma) => `(tactic| with_reducible exact PgNumeric.Parse.agree_readChunks _ _)

theorem agree_align (intLen : Nat) (fracLen : Nat) (exp : Int) :
    Agree (@align (dbg e) intLen fracLen exp) (@align (rel e) intLen fracLen exp) := by
  unfold align; agree
macro_rules | `(tactic| agree_lemma) => `(tactic| with_reducible exact PgNumeric.Parse.agree_align _ _ _)

theorem agree_parseStr (s : Str) :
    Agree (@parseStr (dbg e) s) (@parseStr (rel e) s) := by
  unfold parseStr; agree
macro_rules | `(tactic| agree_lemma) => `(tactic| with_reducible exact PgNumeric.Parse.agree_parseStr _)

theorem agree_fromStr (s : Str) :
    Agree (@fromStr (dbg e) s) (@fromStr (rel e) s) := by
  unfold fromStr; agree
macro_rules | `(tactic| agree_lemma) => `(tactic| with_reducible exact PgNumeric.Parse.agree_fromStr _)

end Parse

namespace Text

theorem agree_intLoop (ds : List Int) (x0 : Nat) (x1 : Int) :
    Agree (@intLoop (dbg e) ds x0 x1) (@intLoop (rel e) ds x0 x1) := by
  induction x0 generalizing x1 with
  | zero => simp only [intLoop]; agree
  | succ n ih => simp only [intLoop]; agree_with ih
macro_rules | `(tactic| agree_lemma) => `(tactic| with_reducible exact PgNumeric.Text.agree_intLoop _ _ _)

theorem agree_intText (v : Var) :
    Agree (@intText (dbg e) v) (@intText (rel e) v) := by
  unfold intText; agree
macro_rules | `(tactic| agree_lemma) => `(tactic| with_reducible exact PgNumeric.Text.agree_intText _)

theorem agree_write (v : Var) :
    Agree (@write (dbg e) v) (@write (rel e) v) := by
  unfold write; agree
macro_rules | `(tactic| agree_lemma) => `(tactic| with_reducible exact PgNumeric.Text.agree_write _)

theorem agree_normalize (v : Var) :
    Agree (@normalize (dbg e) v) (@normalize (rel e) v) := by
  unfold normalize; agree
macro_rules | `(tactic| agree_lemma) => `(tactic| with_reducible exact PgNumeric.Text.agree_normalize _)

end Text

namespace Num
open Var

theorem agree_toString (a : Bin) :
    Agree (@toString (dbg e) a) (@toString (rel e) a) := by
  unfold toString; agree
macro_rules | `(tactic| agree_lemma) => `(tactic| with_reducible exact PgNumeric.Num.agree_toString _)

theorem agree_normalize (a : Bin) :
    Agree (@normalize (dbg e) a) (@normalize (rel e) a) := by
  unfold normalize; agree
macro_rules | `(tactic| agree_lemma) => `(tactic| with_reducible exact PgNumeric.Num.agree_normalize _)

theorem agree_serialize (humanReadable : Bool) (a : Bin) :
    Agree (@serialize (dbg e) humanReadable a) (@serialize (rel e) humanReadable a) := by
  unfold serialize; agree
macro_rules | `(tactic| agree_lemma) => `(tactic| with_reducible exact PgNumeric.Num.agree_serialize _ _)

theorem agree_deserialize (x0 : Str ⊕ List (BitVec 8)) :
    Agree (@deserialize (dbg e) x0) (@deserialize (rel e) x0) := by
  unfold deserialize; agree
macro_rules | `(tactic| agree_lemma) => `(tactic| with_reducible exact PgNumeric.Num.agree_deserialize _)

end Num

namespace Convert

theorem agree_ofFloat (precision : ℕ) (f : Float) :
    Agree (@ofFloat (dbg e) precision f) (@ofFloat (rel e) precision f) := by
  unfold ofFloat; agree
macro_rules | `(tactic| agree_lemma) => `(tactic| with_reducible exact PgNumeric.Convert.agree_ofFloat _ _)

end Convert

namespace Convert

theorem agree_toF64 (strtod : Str → Option Float) (v : Var) :
    Agree (@toF64 (dbg e) strtod v) (@toF64 (rel e) strtod v) := by
  unfold toF64; agree
macro_rules | `(tactic| agree_lemma) => `(tactic| with_reducible exact PgNumeric.Convert.agree_toF64 _ _)

theorem agree_toF32 (strtod : Str → Option Float) (v : Var) :
    Agree (@toF32 (dbg e) strtod v) (@toF32 (rel e) strtod v) := by
  unfold toF32; agree
macro_rules | `(tactic| agree_lemma) => `(tactic| with_reducible exact PgNumeric.Convert.agree_toF32 _ _)

end Convert

namespace Num
open Var

theorem agree_toF64 (strtod : Str → Option Convert.Float) (a : Bin) :
    Agree (@toF64 (dbg e) strtod a) (@toF64 (rel e) strtod a) := by
  unfold toF64; agree
macro_rules | `(tactic| agree_lemma) => `(tactic| with_reducible exact PgNumeric.Num.agree_toF64 _ _)

theorem agree_toF32 (strtod : Str → Option Convert.Float) (a : Bin) :
    Agree (@toF32 (dbg e) strtod a) (@toF32 (rel e) strtod a) := by
  unfold toF32; agree
macro_rules | `(tactic| agree_lemma) => `(tactic| with_reducible exact PgNumeric.Num.agree_toF32 _ _)

end Num

namespace Var

theorem agree_sqrtStep (self : Var) (result : Var) (localRscale : Int) :
    Agree (@sqrtStep (dbg e) self result localRscale) (@sqrtStep (rel e) self result localRscale) := by
  unfold sqrtStep; agree
macro_rules | `(tactic| agree_lemma) => `(tactic| with_reducible exact PgNumeric.Var.agree_sqrtStep _ _ _)

theorem agree_sqrtLoop (self : Var) (localRscale : Int) (x0 : Nat) (x1 : Var) :
    Agree (@sqrtLoop (dbg e) self localRscale x0 x1) (@sqrtLoop (rel e) self localRscale x0 x1) := by
  induction x0 generalizing x1 with
  | zero => simp only [sqrtLoop]; agree
  | succ n ih => simp only [sqrtLoop]; agree_with ih
macro_rules | `(tactic| agree_lemma) => `(tactic| with_reducible exact PgNumeric.Var.agree_sqrtLoop _ _ _ _)

theorem agree_sqrtCommon (fuel : Nat) (self : Var) (rscale : Int) :
    Agree (@sqrtCommon (dbg e) fuel self rscale) (@sqrtCommon (rel e) fuel self rscale) := by
  unfold sqrtCommon; agree
macro_rules | `(tactic| agree_lemma) => `(tactic| with_reducible exact PgNumeric.Var.agree_sqrtCommon _ _ _)

theorem agree_sqrt (fuel : Nat) (self : Var) :
    Agree (@sqrt (dbg e) fuel self) (@sqrt (rel e) fuel self) := by
  unfold sqrt; agree
macro_rules | `(tactic| agree_lemma) => `(tactic| with_reducible exact PgNumeric.Var.agree_sqrt _ _)

end Var

namespace Num
open Var

theorem agree_sqrt (fuel : Nat) (a : Bin) :
    Agree (@sqrt (dbg e) fuel a) (@sqrt (rel e) fuel a) := by
  unfold sqrt; agree
macro_rules | `(tactic| agree_lemma) => `(tactic| with_reducible exact PgNumeric.Num.agree_sqrt _ _)

end Num

theorem Libm.agree_toF64 (lm : Libm) (v : Var) :
    Agree (@Libm.toF64 (dbg e) lm v) (@Libm.toF64 (rel e) lm v) := by
  unfold Libm.toF64; agree
macro_rules | `(tactic| agree_lemma) => `(tactic| with_reducible exact PgNumeric.Libm.agree_toF64 _ _)

namespace Var

theorem agree_powScale (sig : Int) (a : Var) (b : Var) :
    Agree (@powScale (dbg e) sig a b) (@powScale (rel e) sig a b) := by
  unfold powScale; agree
macro_rules | `(tactic| agree_lemma) => `(tactic| with_reducible exact PgNumeric.Var.agree_powScale _ _ _)

theorem agree_powMul (sig : Int) (mask : Int) (base : Var) (result : Var) :
    Agree (@powMul (dbg e) sig mask base result) (@powMul (rel e) sig mask base result) := by
  unfold powMul; agree
macro_rules | `(tactic| agree_lemma) => `(tactic| with_reducible exact PgNumeric.Var.agree_powMul _ _ _ _)

theorem agree_powLoop (sig : Int) (x0 : Nat) (x1 : Int) (x2 : Bool) (x3 : Var) (x4 : Var) :
    Agree (@powLoop (dbg e) sig x0 x1 x2 x3 x4) (@powLoop (rel e) sig x0 x1 x2 x3 x4) := by
  induction x0 generalizing x1 x2 x3 x4 with
  | zero => simp only [powLoop]; agree
  | succ n ih => simp only [powLoop]; agree_with ih
macro_rules | `(tactic| agree_lemma) => `(tactic| with_reducible exact PgNumeric.Var.agree_powLoop _ _ _ _ _ _)

theorem agree_powSig (lm : Libm) (f : ℚ) (rscale : Int) (m : Int) :
    Agree (@powSig (dbg e) lm f rscale m) (@powSig (rel e) lm f rscale m) := by
  unfold powSig; agree
macro_rules | `(tactic| agree_lemma) => `(tactic| with_reducible exact PgNumeric.Var.agree_powSig _ _ _ _)

theorem agree_powerInt (lm : Libm) (self : Var) (exp : Int) (rscale : Int) :
    Agree (@powerInt (dbg e) lm self exp rscale) (@powerInt (rel e) lm self exp rscale) := by
  unfold powerInt; agree
macro_rules | `(tactic| agree_lemma) => `(tactic| with_reducible exact PgNumeric.Var.agree_powerInt _ _ _ _)

theorem agree_lnReduce (again : Var → Bool) (rscale : Int) (sqrtFuel : Nat) (x0 : Nat) (x1 : Var) (x2 : Var) :
    Agree (@lnReduce (dbg e) again rscale sqrtFuel x0 x1 x2) (@lnReduce (rel e) again rscale sqrtFuel x0 x1 x2) := by
  induction x0 generalizing x1 x2 with
  | zero => simp only [lnReduce]; agree
  | succ n ih => simp only [lnReduce]; agree_with ih
macro_rules | `(tactic| agree_lemma) => `(tactic| with_reducible exact PgNumeric.Var.agree_lnReduce _ _ _ _ _ _)

theorem agree_lnSeries (x : Var) (l : Int) (x0 : Nat) (x1 : Var) (x2 : Var) (x3 : Var) :
    Agree (@lnSeries (dbg e) x l x0 x1 x2 x3) (@lnSeries (rel e) x l x0 x1 x2 x3) := by
  induction x0 generalizing x1 x2 x3 with
  | zero => simp only [lnSeries]; agree
  | succ n ih => simp only [lnSeries]; agree_with ih
macro_rules | `(tactic| agree_lemma) => `(tactic| with_reducible exact PgNumeric.Var.agree_lnSeries _ _ _ _ _ _)

theorem agree_lnCommon (fuel : Nat) (self : Var) (rscale : Int) :
    Agree (@lnCommon (dbg e) fuel self rscale) (@lnCommon (rel e) fuel self rscale) := by
  unfold lnCommon; agree
macro_rules | `(tactic| agree_lemma) => `(tactic| with_reducible exact PgNumeric.Var.agree_lnCommon _ _ _)

theorem agree_estimateLnDweight (lm : Libm) (self : Var) :
    Agree (@estimateLnDweight (dbg e) lm self) (@estimateLnDweight (rel e) lm self) := by
  unfold estimateLnDweight; agree
macro_rules | `(tactic| agree_lemma) => `(tactic| with_reducible exact PgNumeric.Var.agree_estimateLnDweight _ _)

theorem agree_logCommon (lm : Libm) (fuel : Nat) (self : Var) (base : Var) :
    Agree (@logCommon (dbg e) lm fuel self base) (@logCommon (rel e) lm fuel self base) := by
  unfold logCommon; agree
macro_rules | `(tactic| agree_lemma) => `(tactic| with_reducible exact PgNumeric.Var.agree_logCommon _ _ _ _)

theorem agree_ln (lm : Libm) (fuel : Nat) (self : Var) :
    Agree (@ln (dbg e) lm fuel self) (@ln (rel e) lm fuel self) := by
  unfold ln; agree
macro_rules | `(tactic| agree_lemma) => `(tactic| with_reducible exact PgNumeric.Var.agree_ln _ _ _)

theorem agree_log (lm : Libm) (fuel : Nat) (self : Var) (base : Var) :
    Agree (@log (dbg e) lm fuel self base) (@log (rel e) lm fuel self base) := by
  unfold log; agree
macro_rules | `(tactic| agree_lemma) => `(tactic| with_reducible exact PgNumeric.Var.agree_log _ _ _ _)

theorem agree_expHalve (x0 : Nat) (x1 : ℚ) (x2 : Int) (x3 : Var) :
    Agree (@expHalve (dbg e) x0 x1 x2 x3) (@expHalve (rel e) x0 x1 x2 x3) := by
  induction x0 generalizing x1 x2 x3 with
  | zero => simp only [expHalve]; agree
  | succ n ih => simp only [expHalve]; agree_with ih
macro_rules | `(tactic| agree_lemma) => `(tactic| with_reducible exact PgNumeric.Var.agree_expHalve _ _ _ _)

theorem agree_expSeries (x : Var) (l : Int) (x0 : Nat) (x1 : Var) (x2 : Var) (x3 : Var) :
    Agree (@expSeries (dbg e) x l x0 x1 x2 x3) (@expSeries (rel e) x l x0 x1 x2 x3) := by
  induction x0 generalizing x1 x2 x3 with
  | zero => simp only [expSeries]; agree
  | succ n ih => simp only [expSeries]; agree_with ih
macro_rules | `(tactic| agree_lemma) => `(tactic| with_reducible exact PgNumeric.Var.agree_expSeries _ _ _ _ _ _)

theorem agree_expSquare (sig : Int) (x0 : Nat) (x1 : Var) :
    Agree (@expSquare (dbg e) sig x0 x1) (@expSquare (rel e) sig x0 x1) := by
  induction x0 generalizing x1 with
  | zero => simp only [expSquare]; agree
  | succ n ih => simp only [expSquare]; agree_with ih
macro_rules | `(tactic| agree_lemma) => `(tactic| with_reducible exact PgNumeric.Var.agree_expSquare _ _ _)

theorem agree_expReduce (fuel : Nat) (self : Var) (val : ℚ) :
    Agree (@expReduce (dbg e) fuel self val) (@expReduce (rel e) fuel self val) := by
  unfold expReduce; agree
macro_rules | `(tactic| agree_lemma) => `(tactic| with_reducible exact PgNumeric.Var.agree_expReduce _ _ _)

theorem agree_expCommon (lm : Libm) (fuel : Nat) (self : Var) (rscale : Int) :
    Agree (@expCommon (dbg e) lm fuel self rscale) (@expCommon (rel e) lm fuel self rscale) := by
  unfold expCommon; agree
macro_rules | `(tactic| agree_lemma) => `(tactic| with_reducible exact PgNumeric.Var.agree_expCommon _ _ _ _)

theorem agree_exp (lm : Libm) (fuel : Nat) (self : Var) :
    Agree (@exp (dbg e) lm fuel self) (@exp (rel e) lm fuel self) := by
  unfold exp; agree
macro_rules | `(tactic| agree_lemma) => `(tactic| with_reducible exact PgNumeric.Var.agree_exp _ _ _)

theorem agree_powerReal (lm : Libm) (fuel : Nat) (self : Var) (exp : Var) :
    Agree (@powerReal (dbg e) lm fuel self exp) (@powerReal (rel e) lm fuel self exp) := by
  unfold powerReal; agree
macro_rules | `(tactic| agree_lemma) => `(tactic| with_reducible exact PgNumeric.Var.agree_powerReal _ _ _ _)

theorem agree_powerCommon (lm : Libm) (fuel : Nat) (self : Var) (exp : Var) :
    Agree (@powerCommon (dbg e) lm fuel self exp) (@powerCommon (rel e) lm fuel self exp) := by
  unfold powerCommon; agree
macro_rules | `(tactic| agree_lemma) => `(tactic| with_reducible exact PgNumeric.Var.agree_powerCommon _ _ _ _)

theorem agree_pow (lm : Libm) (fuel : Nat) (self : Var) (exp : Var) :
    Agree (@pow (dbg e) lm fuel self exp) (@pow (rel e) lm fuel self exp) := by
  unfold pow; agree
macro_rules | `(tactic| agree_lemma) => `(tactic| with_reducible exact PgNumeric.Var.agree_pow _ _ _ _)

theorem agree_writeSci (lm : Libm) (self : Var) (rscale : Int) (c : Nat) :
    Agree (@writeSci (dbg e) lm self rscale c) (@writeSci (rel e) lm self rscale c) := by
  unfold writeSci; agree
macro_rules | `(tactic| agree_lemma) => `(tactic| with_reducible exact PgNumeric.Var.agree_writeSci _ _ _ _)

theorem agree_selectSciScale (self : Var) :
    Agree (@selectSciScale (dbg e) self) (@selectSciScale (rel e) self) := by
  unfold selectSciScale; agree
macro_rules | `(tactic| agree_lemma) => `(tactic| with_reducible exact PgNumeric.Var.agree_selectSciScale _)

end Var

namespace Num
open Var

theorem agree_ln (lm : Libm) (fuel : Nat) (a : Bin) :
    Agree (@ln (dbg e) lm fuel a) (@ln (rel e) lm fuel a) := by
  unfold ln; agree
macro_rules | `(tactic| agree_lemma) => `(tactic| with_reducible exact PgNumeric.Num.agree_ln _ _ _)

theorem agree_log (lm : Libm) (fuel : Nat) (a : Bin) (base : Bin) :
    Agree (@log (dbg e) lm fuel a base) (@log (rel e) lm fuel a base) := by
  unfold log; agree
macro_rules | `(tactic| agree_lemma) => `(tactic| with_reducible exact PgNumeric.Num.agree_log _ _ _ _)

theorem agree_log2 (lm : Libm) (fuel : Nat) (a : Bin) :
    Agree (@log2 (dbg e) lm fuel a) (@log2 (rel e) lm fuel a) := by
  unfold log2; agree
macro_rules | `(tactic| agree_lemma) => `(tactic| with_reducible exact PgNumeric.Num.agree_log2 _ _ _)

theorem agree_log10 (lm : Libm) (fuel : Nat) (a : Bin) :
    Agree (@log10 (dbg e) lm fuel a) (@log10 (rel e) lm fuel a) := by
  unfold log10; agree
macro_rules | `(tactic| agree_lemma) => `(tactic| with_reducible exact PgNumeric.Num.agree_log10 _ _ _)

theorem agree_exp (lm : Libm) (fuel : Nat) (a : Bin) :
    Agree (@exp (dbg e) lm fuel a) (@exp (rel e) lm fuel a) := by
  unfold exp; agree
macro_rules | `(tactic| agree_lemma) => `(tactic| with_reducible exact PgNumeric.Num.agree_exp _ _ _)

theorem agree_pow (lm : Libm) (fuel : Nat) (a : Bin) (b : Bin) :
    Agree (@pow (dbg e) lm fuel a b) (@pow (rel e) lm fuel a b) := by
  unfold pow; agree
macro_rules | `(tactic| agree_lemma) => `(tactic| with_reducible exact PgNumeric.Num.agree_pow _ _ _ _)

theorem agree_sci (lm : Libm) (c : Nat) (a : Bin) :
    Agree (@sci (dbg e) lm c a) (@sci (rel e) lm c a) := by
  unfold sci; agree
macro_rules | `(tactic| agree_lemma) => `(tactic| with_reducible exact PgNumeric.Num.agree_sci _ _ _)

end Num

namespace Typmod

theorem agree_newUnchecked (precision : BitVec 32) (scale : BitVec 32) :
    Agree (@newUnchecked (dbg e) precision scale) (@newUnchecked (rel e) precision scale) := by
  unfold newUnchecked; agree
macro_rules | `(tactic| agree_lemma) => `(tactic| with_reducible exact PgNumeric.Typmod.agree_newUnchecked _ _)

theorem agree_new (precision : BitVec 32) (scale : BitVec 32) :
    Agree (@new (dbg e) precision scale) (@new (rel e) precision scale) := by
  unfold new; agree
macro_rules | `(tactic| agree_lemma) => `(tactic| with_reducible exact PgNumeric.Typmod.agree_new _ _)

theorem agree_withPrecisionUnchecked (precision : BitVec 32) :
    Agree (@withPrecisionUnchecked (dbg e) precision) (@withPrecisionUnchecked (rel e) precision) := by
  unfold withPrecisionUnchecked; agree
macro_rules | `(tactic| agree_lemma) => `(tactic| with_reducible exact PgNumeric.Typmod.agree_withPrecisionUnchecked _)

theorem agree_withPrecision (precision : BitVec 32) :
    Agree (@withPrecision (dbg e) precision) (@withPrecision (rel e) precision) := by
  unfold withPrecision; agree
macro_rules | `(tactic| agree_lemma) => `(tactic| with_reducible exact PgNumeric.Typmod.agree_withPrecision _)

theorem agree_extract (t : Typmod) :
    Agree (@extract (dbg e) t) (@extract (rel e) t) := by
  unfold extract; agree
macro_rules | `(tactic| agree_lemma) => `(tactic| with_reducible exact PgNumeric.Typmod.agree_extract _)

end Typmod

namespace Var

theorem agree_applyTypmod (v : Var) (typmod : Typmod) :
    Agree (@applyTypmod (dbg e) v typmod) (@applyTypmod (rel e) v typmod) := by
  unfold applyTypmod; agree
macro_rules | `(tactic| agree_lemma) => `(tactic| with_reducible exact PgNumeric.Var.agree_applyTypmod _ _)

end Var

namespace Num
open Var

theorem agree_applyTypmod (a : Bin) (typmod : Typmod) :
    Agree (@applyTypmod (dbg e) a typmod) (@applyTypmod (rel e) a typmod) := by
  unfold applyTypmod; agree
macro_rules | `(tactic| agree_lemma) => `(tactic| with_reducible exact PgNumeric.Num.agree_applyTypmod _ _)

end Num

namespace Var

theorem agree_factorialLoop (x0 : Nat) (x1 : Var) :
    Agree (@factorialLoop (dbg e) x0 x1) (@factorialLoop (rel e) x0 x1) := by
  induction x0 generalizing x1 with
  | zero => simp only [factorialLoop]; agree
  | succ n ih => simp only [factorialLoop]; agree_with ih
macro_rules | `(tactic| agree_lemma) => `(tactic| with_reducible exact PgNumeric.Var.agree_factorialLoop _ _)

theorem agree_factorial (num : Int) :
    Agree (@factorial (dbg e) num) (@factorial (rel e) num) := by
  unfold factorial; agree
macro_rules | `(tactic| agree_lemma) => `(tactic| with_reducible exact PgNumeric.Var.agree_factorial _)

end Var

namespace Num
open Var

theorem agree_factorial (num : Int) :
    Agree (@factorial (dbg e) num) (@factorial (rel e) num) := by
  unfold factorial; agree
macro_rules | `(tactic| agree_lemma) => `(tactic| with_reducible exact PgNumeric.Num.agree_factorial _)

end Num

end PgNumeric
