import Verif.Spec.System

/-!
# Vocabulary for the end of `execute` with local loops only (specification side)
-/

namespace Verif.Sys
open Verif Verif.Tracker

/-- Is the action one of execgraph itself or of a process it has started? The others come from outside: the clock, the
shutdown requests, Ctrl-C, HTTP requests. -/
def internal : Act → Bool
  | .server (.tick _) | .server .trigger | .server (.cancel _) | .server .ctrlC | .request _ => false
  | _ => true

/-- Is the action one of execgraph itself, other than a panic of a local loop? -/
def ownAct : Act → Bool
  | .loopOutput _ _ _ | .loopDie _ => false
  | a => internal a

/-- Does somebody ask for a soft shutdown? -/
def isTrigger : Act → Bool
  | .server .trigger => true
  | _ => false

/-- Does a local loop panic? -/
def isDie : Act → Bool
  | .loopDie _ => true
  | _ => false

/-- Does a process run in a local loop? -/
def ProcessRunning (s : State) : Prop := ∃ v start, Loop.running v start ∈ s.loops

/-- What the local loops can do all of: every task has a command, its input has a descriptor other than 3, which is for the values, and
it accepts runner type 0 or 1. -/
def LocallyRunnable (c : Cfg) : Prop :=
  ∀ cmd ∈ c.tr.g.nodes, (cmd.cmdline ≠ [] ∧ cmd.fdInput.map (·.1) ≠ some 3) ∧ (cmd.affinity.getLsbD 0 = true ∨ cmd.affinity.getLsbD 1 = true)

/-- Does something go wrong here? A shutdown request, Ctrl-C, a panic of a loop, a process that cannot be started or ends
with an exit code other than 0. -/
def wrong : Act → Bool
  | .server .trigger | .server .ctrlC | .server (.cancel _) | .loopDie _ | .loopSpawn _ false => true
  | .loopOutput _ code _ => decide (code ≠ 0)
  | _ => false

/-- An infinite run of `execute`: the clock may go on for ever. -/
structure InfRun (c : Cfg) (lf : LogFile) (now : Int) (σ : Nat → State) (α : Nat → Act) : Prop where
  start : σ 0 = init c lf now
  next : ∀ k, polite c (σ k) (α k) = true ∧ step c (σ k) (α k) = .ok (σ (k + 1))

/-- Something of what can happen inside happens: nobody waits for ever in front of a possible action. -/
def Fair (c : Cfg) (σ : Nat → State) (α : Nat → Act) : Prop :=
  ∀ k, (∃ a s', internal a = true ∧ isDie a = false ∧ step c (σ k) a = .ok s') → ∃ j, k ≤ j ∧ internal (α j) = true

end Verif.Sys
