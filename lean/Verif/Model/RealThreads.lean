import Verif.Model.RealClient
import Verif.SpecRealThreads
/-!
# Threads on top of the model, with roots, logarithms, exponentials and powers
-/
namespace PgNumeric.Props
open PgNumeric Spec

/-- The numbers in memory, and what each thread (numbered) knows. -/
structure RealSystem where
  world : World
  threads : ℕ → RealThread

/-- Thread `t` makes its next call, if it makes one. A number the call returns gets the next name of the thread. `NumericBuf` is `Send` and
`Sync` (src/num.rs:40-41, src/data.rs:38-39). Simplification: calls are not interrupted, as in `turn`. -/
def turnReal [Build] (lm : Libm) (fuel : Nat) (lay : ℕ → Bin → Buf) (progs : ℕ → RealClient) (t : ℕ) (s : RealSystem) : M RealSystem :=
  match progs t (s.threads t).hist with
  | none => pure s
  | some act => do
    let th := s.threads t
    let (ans, w) ← callReal lm fuel lay s.world (act.rename fun i => th.view.getD i 0)
    let new := if s.world.regs.length < w.regs.length then [s.world.regs.length] else []
    pure ⟨w, Function.update s.threads t ⟨th.view ++ new, th.hist ++ [ans]⟩⟩

/-- The threads take turns in the order of the schedule (src/num.rs:40-41). A call that runs on is the end of the schedule. -/
def scheduleReal [Build] (lm : Libm) (fuel : Nat) (lay : ℕ → Bin → Buf) (progs : ℕ → RealClient) : List ℕ → RealSystem → M RealSystem
  | [], s => pure s
  | t :: ts, s => do
    let s ← turnReal lm fuel lay progs t s
    scheduleReal lm fuel lay progs ts s

/-- All threads start with references to the numbers of `w` (src/num.rs:40-41). -/
def RealSystem.init (w : World) : RealSystem := ⟨w, fun _ => ⟨List.range w.regs.length, []⟩⟩

end PgNumeric.Props
