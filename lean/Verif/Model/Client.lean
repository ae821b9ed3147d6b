import Verif.SpecClient
import Verif.Model.Heap
import Verif.Model.Num
import Verif.Model.Power
import Verif.Model.Factorial
import Verif.Model.Convert
import Verif.Model.Float
import Verif.Model.ToFloat
/-!
# Programs on top of the model

The numbers of a program live in the allocator of `Verif/Model/Heap.lean`; every call of a program is the model of the public function.
-/
namespace PgNumeric.Props
open PgNumeric Spec

/-- The state of a program: the allocator, and the numbers it created; `none` for those it dropped. -/
structure World where
  heap : Heap
  regs : List (Option HBuf)

/-- One step of a program, with the API's own functions. Using a number that was dropped does not compile; here it is a fault. -/
def memStep [Build] (w : World) : MemOp → M World
  | .make b =>
    let (x, h) := HBuf.make w.heap b
    pure ⟨h, w.regs ++ [some x]⟩
  | .copy i => match w.regs[i]? with
    | some (some x) => do
      let (y, h) ← x.clone w.heap
      pure ⟨h, w.regs ++ [some y]⟩
    | _ => throw .assert
  | .mutate op i => match w.regs[i]? with
    | some (some x) => match op with
      | .negate => do
        let (x, h) ← x.negateMut w.heap
        pure ⟨h, w.regs.set i (some x)⟩
      | .abs => do
        let (x, h) ← x.absMut w.heap
        pure ⟨h, w.regs.set i (some x)⟩
      | .round n => do
        let (_, x, h) ← x.roundMut w.heap n
        pure ⟨h, w.regs.set i (some x)⟩
      | .trunc n => do
        let (x, h) ← x.truncMut w.heap n
        pure ⟨h, w.regs.set i (some x)⟩
      | .typmod p s => do
        match ← Typmod.new p s with
        | none => pure w
        | some t => do
          let (_, x, h) ← x.applyTypmod w.heap t
          pure ⟨h, w.regs.set i (some x)⟩
    | _ => throw .assert
  | .drop i => match w.regs[i]? with
    | some (some x) => do
      let h ← x.drop w.heap
      pure ⟨h, w.regs.set i none⟩
    | _ => throw .assert

/-- A whole program. -/
def memRun [Build] : List MemOp → World → M World
  | [], w => pure w
  | op :: prog, w => do
    let w ← memStep w op
    memRun prog w

/-- The program starts with nothing allocated. -/
def start : World := ⟨Heap.empty, []⟩

/-- The numeric that number `i` of the program is. -/
def World.get [Build] (w : World) (i : ℕ) : M Bin :=
  match w.regs[i]? with
  | some (some x) => x.asNumeric w.heap
  | _ => throw .oob

/-- The library returns a number: it is in a new allocation, laid out by `lay` (which sees how many allocations there were). -/
def World.put (lay : ℕ → Bin → Buf) (w : World) (a : Bin) : World :=
  let (x, h) := HBuf.make w.heap (lay w.heap.next a)
  ⟨h, w.regs ++ [some x]⟩

/-- A panic is caught; the program then owns what it owned before. -/
def caught (w : World) : M (Answer × World) → M (Answer × World)
  | .error (.panic msg) => pure (.panic msg, w)
  | .error .assert => pure (.assertion, w)
  | r => r

/-- A call that returns a number. -/
def fresh (lay : ℕ → Bin → Buf) (w : World) (m : M Bin) : M (Answer × World) :=
  caught w (do let a ← m; pure (.number, w.put lay a))

/-- A call that returns `Option<NumericBuf>`. -/
def freshOption (lay : ℕ → Bin → Buf) (w : World) (m : M (Option Bin)) : M (Answer × World) :=
  caught w (do
    match ← m with
    | some a => pure (.number, w.put lay a)
    | none => pure (.none, w))

/-- A number that was passed by value is dropped at the end of the call. -/
def World.take [Build] (w : World) (take : Bool) (i : ℕ) : M World := if take then memStep w (.drop i) else pure w

/-- The last number is moved to the variable `i`, which was dropped. -/
def World.moveLast (w : World) (i : ℕ) : World := ⟨w.heap, w.regs.dropLast.set i w.regs.getLast?.join⟩

/-- `let result = …; *self = result;` (src/ops.rs:110-135, 222-247, 334-359, 446-481, 568-603): the old value is dropped, the result is moved. -/
def World.assign [Build] (lay : ℕ → Bin → Buf) (w : World) (i : ℕ) (m : M Bin) : M (Answer × World) :=
  caught w (do
    let a ← m
    let w ← memStep (w.put lay a) (.drop i)
    pure (.unit, w.moveLast i))

/-- A call that returns something else. -/
def tell (w : World) (m : M Answer) : M (Answer × World) :=
  caught w (do let a ← m; pure (a, w))

/-- The one-operand functions (src/num.rs, the functions cited in `Verif/Model/Num.lean`). -/
def call1 [Build] : Op1 → Bin → M Bin
  | .negate, a => Num.negate a
  | .abs, a => Num.abs a
  | .signum, a => Num.signum a
  | .inc, a => Num.inc a
  | .ceil, a => Num.ceil a
  | .floor, a => Num.floor a
  | .round n, a => Num.round a n
  | .trunc n, a => Num.trunc a n
  | .copy, a => Num.toOwned a

/-- The checked functions (src/num.rs:504-660, cited one by one in `Verif/Model/Num.lean`). -/
def call2 [Build] : Op2 → Bin → Bin → M (Option Bin)
  | .add, a, b => Num.checkedAdd a b
  | .sub, a, b => Num.checkedSub a b
  | .mul, a, b => Num.checkedMul a b
  | .div, a, b => Num.checkedDiv a b
  | .divTrunc, a, b => Num.checkedDivTrunc a b
  | .rem, a, b => Num.checkedRem a b

/-- The operators (src/ops.rs, cited in `Verif/Model/Num.lean`). There is none for `divTrunc`. -/
def callOp [Build] : Op2 → Bin → Bin → M Bin
  | .add, a, b => Num.opAdd a b
  | .sub, a, b => Num.opSub a b
  | .mul, a, b => Num.opMul a b
  | .div, a, b => Num.opDiv a b
  | .rem, a, b => Num.opRem a b
  | .divTrunc, _, _ => throw .oob

/-- The in-place functions, with their answers (src/num.rs `negate_mut`, `abs_mut`, `round_mut`, `trunc_mut`, `apply_typmod`, cited in
`Verif/Model/Heap.lean`). -/
def callMut [Build] (h : Heap) (x : HBuf) : MutOp → M (Answer × HBuf × Heap)
  | .negate => do
    let (x, h) ← x.negateMut h
    pure (.unit, x, h)
  | .abs => do
    let (x, h) ← x.absMut h
    pure (.unit, x, h)
  | .round n => do
    let (panicked, x, h) ← x.roundMut h n
    pure (if panicked then .panic VALUE_OVERFLOW_MSG else .unit, x, h)
  | .trunc n => do
    let (x, h) ← x.truncMut h n
    pure (.unit, x, h)
  | .typmod p s => do
    match ← Typmod.new p s with
    | none => throw .oob
    | some t => do
      let (flag, x, h) ← x.applyTypmod h t
      pure (.flag flag, x, h)

/-- One call of the public API: the models of the functions, applied to the numerics in memory. `lm` are the platform's floating-point
functions. Simplification: the temporaries of the functions that return a number are not in the heap. -/
def callApi [Build] (lm : Libm) (lay : ℕ → Bin → Buf) (w : World) : Act → M (Answer × World)
  | .parse s => caught w (do
      match ← Parse.fromStr s with
      | .ok a => pure (.number, w.put lay a)
      | .error e => pure (.rejected e, w))
  | .int ty n => fresh lay w (Convert.ofInt ty n)
  | .factorial n => freshOption lay w (Num.factorial n)
  | .zero => fresh lay w Num.zero
  | .nan => fresh lay w Num.nan
  | .bool b => fresh lay w (Convert.ofBool b)
  | .float wide f => caught w (do
      match ← Convert.ofFloat (if wide then 15 else 6) f with
      | .ok a => pure (.number, w.put lay a)
      | .error e => pure (.refused e, w))
  | .op1 op i => do
    let a ← w.get i
    fresh lay w (call1 op a)
  | .checked op i j => do
    let a ← w.get i
    let b ← w.get j
    freshOption lay w (call2 op a b)
  | .operator op i j => do
    let a ← w.get i
    let b ← w.get j
    fresh lay w (callOp op a b)
  | .operatorTake op left right i j => do
    let a ← w.get i
    let b ← w.get j
    let (ans, w) ← fresh lay w (callOp op a b)
    let w ← w.take right j
    let w ← w.take left i
    pure (ans, w)
  | .assign op i j => do
    let a ← w.get i
    let b ← w.get j
    w.assign lay i (callOp op a b)
  | .assignTake op i j => do
    let a ← w.get i
    let b ← w.get j
    let (ans, w) ← w.assign lay i (callOp op a b)
    let w ← w.take true j
    pure (ans, w)
  | .reread human i => do
    let a ← w.get i
    freshOption lay w (do
      let d ← Num.serialize human a
      Num.deserialize d)
  | .clone i => do
    let w ← memStep w (.copy i)
    pure (.number, w)
  | .mutate op i => match w.regs[i]? with
    | some (some x) => do
      let (ans, x, h) ← callMut w.heap x op
      pure (ans, ⟨h, w.regs.set i (some x)⟩)
    | _ => throw .oob
  | .drop i => do
    let w ← memStep w (.drop i)
    pure (.unit, w)
  | .cmp i j => do
    let a ← w.get i
    let b ← w.get j
    tell w (do let o ← Num.cmp a b; pure (.order o))
  | .eq i j => do
    let a ← w.get i
    let b ← w.get j
    tell w (do let o ← Num.eq a b; pure (.flag o))
  | .lt i j => do
    let a ← w.get i
    let b ← w.get j
    tell w (do let o ← Num.lt a b; pure (.flag o))
  | .le i j => do
    let a ← w.get i
    let b ← w.get j
    tell w (do let o ← Num.le a b; pure (.flag o))
  | .sameHash i j => do
    let a ← w.get i
    let b ← w.get j
    tell w (do
      let x ← Num.hash a
      let y ← Num.hash b
      pure (.flag (decide (x = y))))
  | .isNan i => do
    let a ← w.get i
    tell w (do let o ← Num.isNan a; pure (.flag o))
  | .isNegative i => do
    let a ← w.get i
    tell w (do let o ← Num.isNegative a; pure (.flag o))
  | .isPositive i => do
    let a ← w.get i
    tell w (do let o ← Num.isPositive a; pure (.flag o))
  | .scaleOf i => do
    let a ← w.get i
    tell w (do let o ← Num.scale a; pure (.scale o))
  | .text i => do
    let a ← w.get i
    tell w (do let o ← Num.toString a; pure (.text o))
  | .sci c i => do
    let a ← w.get i
    tell w (do let o ← Num.sci lm c a; pure (.text o))
  | .normalize i => do
    let a ← w.get i
    tell w (do let o ← Num.normalize a; pure (.text o))
  | .toInt ty i => do
    let a ← w.get i
    tell w (do let o ← Convert.toInt ty a; pure (.int o))
  | .toFloat wide i => do
    let a ← w.get i
    tell w (do
      let o ← if wide then Num.toF64 lm.strtod a else Num.toF32 lm.strtod a
      pure (.float (o.map seen)))
  | .bytes i => do
    let a ← w.get i
    tell w (pure (.bytes (a.asBytes.map BitVec.toNat)))

/-- Up to `n` calls of the program, each chosen from the answers so far. -/
def playApi [Build] (lm : Libm) (lay : ℕ → Bin → Buf) (c : Client) : ℕ → World × List Answer → M (World × List Answer)
  | 0, s => pure s
  | n + 1, (w, h) => match c h with
    | none => pure (w, h)
    | some act => do
      let (ans, w) ← callApi lm lay w act
      playApi lm lay c n (w, h ++ [ans])

end PgNumeric.Props
