import Verif.Model.Client
import Verif.SpecThreads
/-!
# Threads on top of the model
-/
namespace PgNumeric.Props
open PgNumeric Spec

/-- The numbers in memory, and what each thread (numbered) knows. -/
structure System where
  world : World
  threads : ℕ → Thread

/-- Thread `t` makes its next call, if it makes one. A number the call returns gets the next name of the thread. `NumericBuf` is `Send` and
`Sync` (src/num.rs:40-41, src/data.rs:38-39). Simplification: calls are not interrupted; `C66_stable` and `C66_reads` justify that. -/
def turn [Build] (lm : Libm) (lay : ℕ → Bin → Buf) (progs : ℕ → Client) (t : ℕ) (s : System) : M System :=
  match progs t (s.threads t).hist with
  | none => pure s
  | some act => do
    let th := s.threads t
    let (ans, w) ← callApi lm lay s.world (act.rename fun i => th.view.getD i 0)
    let new := if s.world.regs.length < w.regs.length then [s.world.regs.length] else []
    pure ⟨w, Function.update s.threads t ⟨th.view ++ new, th.hist ++ [ans]⟩⟩

/-- The threads take turns in the order of the schedule. -/
def schedule [Build] (lm : Libm) (lay : ℕ → Bin → Buf) (progs : ℕ → Client) : List ℕ → System → M System
  | [], s => pure s
  | t :: ts, s => do
    let s ← turn lm lay progs t s
    schedule lm lay progs ts s

/-- All threads start with references to the numbers of `w`. -/
def System.init (w : World) : System := ⟨w, fun _ => ⟨List.range w.regs.length, []⟩⟩

end PgNumeric.Props
