import Verif.Proofs.AgreeClient
/-!
# C71: a debug build and a release build never disagree

`Spec.Agree` (in `Verif/SpecBuild.lean`): the debug build ends as the release build does, or at a debug assertion or an overflow check. So what is
seen in tests of a debug build that passes its checks is what happens in a release build, for every function of the API and every argument, also
for byte strings that hold no proper number; and the checks have no effect but to stop.
-/
namespace PgNumeric.Props
open PgNumeric Spec

/-- C71: the functions of one number that give a number. -/
theorem C71_unary (e : Bool) (op : Op1) (a : Bin) : Agree (@call1 (dbg e) op a) (@call1 (rel e) op a) := agree_call1 op a

/-- C71: the checked functions, the operators, and the two functions that report an overflow. -/
theorem C71_binary (e : Bool) (op : Op2) (a b : Bin) :
    Agree (@call2 (dbg e) op a b) (@call2 (rel e) op a b) ∧
    Agree (@callOp (dbg e) op a b) (@callOp (rel e) op a b) ∧
    Agree (@Num.overflowingDiv (dbg e) a b) (@Num.overflowingDiv (rel e) a b) ∧
    Agree (@Num.overflowingRem (dbg e) a b) (@Num.overflowingRem (rel e) a b) :=
  ⟨agree_call2 op a b, agree_callOp op a b, Num.agree_overflowingDiv a b, Num.agree_overflowingRem a b⟩

/-- C71: roots, logarithms, exponentials and powers. `fuel` bounds the rounds of the loops; running out of it stands for running on. -/
theorem C71_functions (e : Bool) (lm : Libm) (fuel : ℕ) (f : Fun1) (g : Fun2) (a b : Bin) :
    Agree (@callFun1 (dbg e) lm fuel f a) (@callFun1 (rel e) lm fuel f a) ∧
    Agree (@callFun2 (dbg e) lm fuel g a b) (@callFun2 (rel e) lm fuel g a b) :=
  ⟨agree_callFun1 lm fuel f a, agree_callFun2 lm fuel g a b⟩

/-- C71: comparison, hashing and the other questions about numbers. -/
theorem C71_queries (e : Bool) (a b : Bin) :
    Agree (@Num.cmp (dbg e) a b) (@Num.cmp (rel e) a b) ∧ Agree (@Num.eq (dbg e) a b) (@Num.eq (rel e) a b) ∧
    Agree (@Num.partialCmp (dbg e) a b) (@Num.partialCmp (rel e) a b) ∧
    Agree (@Num.lt (dbg e) a b) (@Num.lt (rel e) a b) ∧ Agree (@Num.le (dbg e) a b) (@Num.le (rel e) a b) ∧
    Agree (@Num.hash (dbg e) a) (@Num.hash (rel e) a) ∧ Agree (@Num.isNan (dbg e) a) (@Num.isNan (rel e) a) ∧
    Agree (@Num.isNegative (dbg e) a) (@Num.isNegative (rel e) a) ∧ Agree (@Num.isPositive (dbg e) a) (@Num.isPositive (rel e) a) ∧
    Agree (@Num.scale (dbg e) a) (@Num.scale (rel e) a) :=
  ⟨Num.agree_cmp a b, Num.agree_eq a b, Num.agree_partialCmp a b, Num.agree_lt a b, Num.agree_le a b, Num.agree_hash a, Num.agree_isNan a,
    Num.agree_isNegative a, Num.agree_isPositive a, Num.agree_scale a⟩

/-- C71: text, in and out; serialisation. -/
theorem C71_text (e : Bool) (lm : Libm) (letter : ℕ) (human : Bool) (a : Bin) (s : Str) (d : Str ⊕ List (BitVec 8)) :
    Agree (@Parse.fromStr (dbg e) s) (@Parse.fromStr (rel e) s) ∧
    Agree (@Num.toString (dbg e) a) (@Num.toString (rel e) a) ∧
    Agree (@Num.sci (dbg e) lm letter a) (@Num.sci (rel e) lm letter a) ∧
    Agree (@Num.normalize (dbg e) a) (@Num.normalize (rel e) a) ∧
    Agree (@Num.serialize (dbg e) human a) (@Num.serialize (rel e) human a) ∧
    Agree (@Num.deserialize (dbg e) d) (@Num.deserialize (rel e) d) :=
  ⟨Parse.agree_fromStr s, Num.agree_toString a, Num.agree_sci lm letter a, Num.agree_normalize a, Num.agree_serialize human a,
    Num.agree_deserialize d⟩

/-- C71: conversions from and to integers and floating-point numbers, and the factorial. -/
theorem C71_conversions (e : Bool) (ty : IntTy) (n : ℤ) (b : Bool) (precision : ℕ) (f : Convert.Float) (strtod : Str → Option Convert.Float)
    (a : Bin) :
    Agree (@Convert.ofInt (dbg e) ty n) (@Convert.ofInt (rel e) ty n) ∧
    Agree (@Convert.ofBool (dbg e) b) (@Convert.ofBool (rel e) b) ∧
    Agree (@Convert.toInt (dbg e) ty a) (@Convert.toInt (rel e) ty a) ∧
    Agree (@Convert.ofFloat (dbg e) precision f) (@Convert.ofFloat (rel e) precision f) ∧
    Agree (@Num.toF64 (dbg e) strtod a) (@Num.toF64 (rel e) strtod a) ∧
    Agree (@Num.toF32 (dbg e) strtod a) (@Num.toF32 (rel e) strtod a) ∧
    Agree (@Num.factorial (dbg e) n) (@Num.factorial (rel e) n) :=
  ⟨Convert.agree_ofInt ty n, Convert.agree_ofBool b, Convert.agree_toInt ty a, Convert.agree_ofFloat precision f, Num.agree_toF64 strtod a,
    Num.agree_toF32 strtod a, Num.agree_factorial n⟩

/-- C71: type modifiers, and the operations in place, on any buffer. -/
theorem C71_in_place (e : Bool) (p s : BitVec 32) (t : Typmod) (n : ℤ) (b : Buf) :
    Agree (@Typmod.new (dbg e) p s) (@Typmod.new (rel e) p s) ∧
    Agree (@Typmod.withPrecision (dbg e) p) (@Typmod.withPrecision (rel e) p) ∧
    Agree (@Typmod.extract (dbg e) t) (@Typmod.extract (rel e) t) ∧
    Agree (@Buf.applyTypmod (dbg e) b t) (@Buf.applyTypmod (rel e) b t) ∧
    Agree (@Buf.negateMut (dbg e) b) (@Buf.negateMut (rel e) b) ∧ Agree (@Buf.absMut (dbg e) b) (@Buf.absMut (rel e) b) ∧
    Agree (@Buf.roundMut (dbg e) b n) (@Buf.roundMut (rel e) b n) ∧ Agree (@Buf.truncMut (dbg e) b n) (@Buf.truncMut (rel e) b n) :=
  ⟨Typmod.agree_new p s, Typmod.agree_withPrecision p, Typmod.agree_extract t, Buf.agree_applyTypmod b t, Buf.agree_negateMut b,
    Buf.agree_absMut b, Buf.agree_roundMut b n, Buf.agree_truncMut b n⟩

/-- C71: whole programs. A program that chooses its calls from the answers it gets, and that never is told of a debug assertion or an overflow
check in a debug build, gets the same answers in a release build, and the memory is the same in the end. -/
theorem C71_programs (e : Bool) (lm : Libm) (fuel : ℕ) (lay : ℕ → Bin → Buf) (c : RealClient) (n : ℕ) (w : World) (answers : List RealAnswer)
    (hd : @playReal (dbg e) lm fuel lay c n (start, []) = .ok (w, answers)) (no : ∀ a ∈ answers, ¬ Check a) :
    @playReal (rel e) lm fuel lay c n (start, []) = .ok (w, answers) :=
  same_playReal lm fuel lay c n start [] hd no

/-! ## Examples -/

/-- Both builds panic alike: `1 / 0`. -/
example : @Num.opDiv (dbg false) (@Bin.encode (dbg false) Var.one) (@Bin.encode (dbg false) Var.zero) = .error (.panic DIVIDE_BY_ZERO_MSG) := by
  rfl

/-- The debug build may stop where the release build goes on: `make_result` asserts that the scale is not negative. -/
example : @Var.makeResult (dbg false) ⟨0, -1, .pos, []⟩ = .error .assert ∧
    @Var.makeResult (rel false) ⟨0, -1, .pos, []⟩ = .ok (some ⟨0, -1, .pos, []⟩) := ⟨rfl, rfl⟩

/-- A program that makes two numbers and adds them. -/
def adder : RealClient := fun h => match h.length with
  | 0 => some (.base (.int .i32 5))
  | 1 => some (.base (.int .i32 (-7)))
  | 2 => some (.base (.checked .add 0 1))
  | _ => none

/-- Room for a layout: two unused cells, then the numeric. -/
def roomy (b : Bin) : Buf :=
  ⟨[none, none] ++ (Data.wordCells b.vlLen ++ b.header.toInt :: b.rest.map BitVec.toInt).map some, 4⟩

/-- It runs in a debug build without a failed check: the hypotheses of `C71_programs` hold. -/
example (lm : Libm) (fuel : ℕ) : ∃ w, @playReal (dbg false) lm fuel (fun _ b => roomy b) adder 3 (start, []) =
    .ok (w, [.plain .number, .plain .number, .plain .number]) := ⟨_, rfl⟩

end PgNumeric.Props
