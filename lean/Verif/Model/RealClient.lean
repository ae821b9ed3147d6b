import Verif.SpecReal
import Verif.Model.Client
/-!
# Programs that also take roots, logarithms, exponentials and powers, on top of the model
-/
namespace PgNumeric.Props
open PgNumeric Spec

/-- `sqrt`, `ln`, `log2`, `log10`, `exp` (src/num.rs:759-863; models in `Verif/Model/Sqrt.lean` and `Verif/Model/Power.lean`). -/
def callFun1 [Build] (lm : Libm) (fuel : Nat) : Fun1 → Bin → M (Option Bin)
  | .sqrt, a => do let r ← Num.sqrt fuel a; pure (some r)
  | .ln, a => do let r ← Num.ln lm fuel a; pure (some r)
  | .log2, a => do let r ← Num.log2 lm fuel a; pure (some r)
  | .log10, a => do let r ← Num.log10 lm fuel a; pure (some r)
  | .exp, a => Num.exp lm fuel a

/-- `log`, `pow` (src/num.rs:796-814, 864-879; models in `Verif/Model/Power.lean`). -/
def callFun2 [Build] (lm : Libm) (fuel : Nat) : Fun2 → Bin → Bin → M (Option Bin)
  | .log, a, b => do let r ← Num.log lm fuel a b; pure (some r)
  | .pow, a, b => Num.pow lm fuel a b

/-- A call that returns `Option<NumericBuf>` or a number; panics and the overflow checks of a debug build are caught. -/
def realFresh (lay : ℕ → Bin → Buf) (w : World) (m : M (Option Bin)) : M (RealAnswer × World) :=
  match freshOption lay w m with
  | .ok (ans, w) => .ok (.plain ans, w)
  | .error .overflow => .ok (.overflow, w)
  | .error f => .error f

/-- One call. `fuel` bounds the rounds of the loops of the approximations; running out of it stands for running on. -/
def callReal [Build] (lm : Libm) (fuel : Nat) (lay : ℕ → Bin → Buf) (w : World) : RealAct → M (RealAnswer × World)
  | .base act => do
    let (ans, w) ← callApi lm lay w act
    pure (.plain ans, w)
  | .fun1 f i => do
    let a ← w.get i
    realFresh lay w (callFun1 lm fuel f a)
  | .fun2 f i j => do
    let a ← w.get i
    let b ← w.get j
    realFresh lay w (callFun2 lm fuel f a b)

/-- Up to `n` calls of the program, each chosen from the answers so far. -/
def playReal [Build] (lm : Libm) (fuel : Nat) (lay : ℕ → Bin → Buf) (c : RealClient) :
    ℕ → World × List RealAnswer → M (World × List RealAnswer)
  | 0, s => pure s
  | n + 1, (w, h) => match c h with
    | none => pure (w, h)
    | some act => do
      let (ans, w) ← callReal lm fuel lay w act
      playReal lm fuel lay c n (w, h ++ [ans])

end PgNumeric.Props
