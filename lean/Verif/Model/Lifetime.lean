import Verif.Model.System

/-!
# The lifetime of the tracker (execgraph.rs:251-258, 279-333, 386-397; pylib.rs:350-364)

`tracker` and `subgraph` (whose nodes are references to the commands of the graph) belong to `execute`; the spawned tasks get references to them
whose lifetimes are extended by `transmute`. They are valid until `execute` returns or unwinds. `Runtime` is dropped after that (pylib.rs:351: `rt`
outlives the future given to `block_on`); only then are the spawned tasks dropped that still exist. Here `Model/System` is run with this in
mind. What happens when a dangling reference is used is not defined; the model notes it and goes on as if the memory was still there. The admin server
is left out (see `Model/Lifecycle`: its requests are answered before it ends).
-/

namespace Verif.Lifetime
open Verif Verif.Tracker Verif.Sys

/-- Where `execute` is: its variables exist; it has returned (execgraph.rs:414); it has panicked (execgraph.rs:391, 397). -/
inductive Frame where
  | active | returned | unwound
deriving DecidableEq, Repr

/-- Everything (execgraph.rs:279-333). -/
structure State where
  sys : Sys.State
  frame : Frame
  /-- Does the runtime exist? -/
  runtime : Bool
  /-- ghost: a spawned task has used the tracker or a command after they were gone. -/
  dangling : Bool

/-- Actions (execgraph.rs:386-397, pylib.rs:350-364; the rest as in `Verif.Model.System`). -/
inductive Act where
  /-- `execute`, a spawned task or somebody outside goes on. -/
  | sys (a : Sys.Act)
  /-- `execute` returns (execgraph.rs:399-414). -/
  | ret
  /-- `execute` panics: in `background_serve` or `drain`, or because one of them reports an error (printing or writing fails). -/
  | unwind
  /-- The runtime is dropped, and with it all tasks (end of pylib.rs:364). -/
  | drop

/-- Actions of `execute` itself: `background_serve`, `join_all`, `drain` (execgraph.rs:386-397). -/
def byExecute : Sys.Act → Bool
  | .joinDone => true
  | .server (.begin _ _) | .server .sendNext | .server (.sendDone _) | .server (.recvStarted _) | .server (.recvFinished _ _)
  | .server .seeTrigger | .server .seeHard | .server .ctrlC | .server (.drain _ _) => true
  | _ => false

/-- Actions of spawned tasks in which the tracker or a command is used: `recv` (localrunner.rs:46, server.rs:362; with its steps `pop` and `claim`),
the preamble and the start of a process (localrunner.rs:47-89, server.rs:371-372), reports (localrunner.rs:101-152, server.rs:143-151, 427-437, 475-489),
the answer with the command (server.rs:380-397). -/
def uses : Sys.Act → Bool
  | .server (.pop _ _) | .server (.claim _) => true
  | .loopRecv _ | .loopClosed _ _ | .loopGot _ _ | .loopSpawn _ _ | .loopDie _ | .loopStarted _ _ _ | .loopReport _ => true
  | .request ⟨_, _, .begun _ _ _⟩ => true
  | .hRecv _ | .hLeave _ _ _ | .hGot _ _ | .hTimer _ _ | .hDie _ | .hInsert _ | .hReport _ => true
  | .reapSend => true
  | _ => false

/-- The beginning (execgraph.rs:280-333). -/
def init (c : Sys.Cfg) (lf : LogFile) (now : Int) : State := ⟨Sys.init c lf now, .active, true, false⟩

/-- The transition function (execgraph.rs:279-333, 386-397, pylib.rs:350-364). -/
def step (c : Sys.Cfg) (s : State) : Act → Res Unit State
  | .sys a =>
    if s.runtime = false ∨ (byExecute a = true ∧ s.frame ≠ .active) then .err ()
    else (Sys.step c s.sys a).bind (fun t => .ok { s with
      sys := t
      dangling := s.dangling || (uses a && s.frame != .active) })
  | .ret => if s.frame = .active ∧ s.sys.tr.pc = .done then .ok { s with frame := .returned } else .err ()
  | .unwind => if s.frame = .active ∧ s.sys.tr.pc ≠ .done then .ok { s with frame := .unwound } else .err ()
  | .drop => if s.frame ≠ .active ∧ s.runtime = true then .ok { s with runtime := false } else .err ()

end Verif.Lifetime
