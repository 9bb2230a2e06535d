import Verif.Spec.Progress

/-!
# Vocabulary for the end of `execute` after a hard cancellation (specification side)
-/

namespace Verif.Sys
open Verif Verif.Tracker

/-- Is the action one that execgraph takes by itself (`selfAct`), or the panic of a loop? Not so: the clock, everything from outside,
ends of processes. -/
def byItself (a : Act) : Bool := selfAct a || isDie a

/-- No part of execgraph is left waiting for ever by the scheduler: neither the server, the loops and the processes, nor any single
handler, nor the reaper. A panic counts as going on: a loop with a task whose process can not be started panics. -/
structure Relentless (c : Cfg) (σ : Nat → State) (α : Nat → Act) : Prop where
  work : Strong c σ α (fun s a => working s a)
  handler : ∀ h, Strong c σ α (fun _ a => ofHandler h a)
  reaper : Strong c σ α (fun _ a => reapAct a)

end Verif.Sys
