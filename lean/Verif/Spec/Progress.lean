import Verif.Spec.Terminate

/-!
# Vocabulary for the end of `execute` with remote runners (specification side)
-/

namespace Verif.Sys
open Verif Verif.Tracker

/-- Does the action bring the tasks forward? The others: the clock and what comes from outside (requests, shutdown requests,
Ctrl-C), an HTTP handler starting or ceasing to wait for a task, and the reaper looking for connections to remove. -/
def working (s : State) : Act → Bool
  | .server (.tick _) | .server .trigger | .server (.cancel _) | .server .ctrlC => false
  | .request _ | .hRecv _ | .hLeave _ _ _ | .hDrop _ _ | .hFlag _ | .reapTick | .reapRemove | .reapCheck _ => false
  | .reapSend => match s.reaper with | .sending (_ :: _) => true | _ => false
  | _ => true

/-- The actions of a run that bring the tasks forward. -/
def workObs (s : State) (a : Act) : List Act := if working s a then [a] else []

/-- Does an HTTP handler start or cease to wait? -/
def waitAct : Act → Bool
  | .hRecv _ | .hLeave _ _ _ | .hDrop _ _ | .hFlag _ => true
  | _ => false

/-- Is it a request? -/
def isRequest : Act → Bool
  | .request _ => true
  | _ => false

/-- Is the action one that execgraph takes by itself, without a clock or anybody else? Not so: time-outs of waiting handlers, the
tick of the reaper, clients hanging up, panics, ends of processes, everything from outside. -/
def selfAct : Act → Bool
  | .reapTick | .hLeave _ _ true | .hDrop _ _ | .hDie _ => false
  | a => ownAct a

/-- Does a local loop or a handler enter `recv`? It has to wait for the rate limiter before. -/
def limited : Act → Bool
  | .loopRecv _ | .hRecv _ => true
  | _ => false

/-- execgraph has nothing left to do by itself, unless the rate limiter lets somebody through. -/
def AtRest (c : Cfg) (s : State) : Prop := ¬ ∃ a s', selfAct a = true ∧ limited a = false ∧ step c s a = .ok s'

/-- Nothing has been lost: no local loop, no handler and not the reaper has panicked, and no connection was dropped without a
report (drawn again as id of another, or ended by another job). -/
structure Intact (s : State) : Prop where
  loops : ∀ v, Loop.dead v ∉ s.loops
  handlers : ∀ v, Handler.dead v ∉ s.handlers
  reaper : ∀ e, s.reaper ≠ .dead e
  conns : s.forgotten = []

/-- Is somebody in `recv` with runner type `r`: a local loop or a handler? -/
def Waits (c : Cfg) (s : State) (r : Nat) : Prop :=
  (∃ i : Nat, s.loops[i]? = some .inRecv ∧ loopType c i = r) ∨ ∃ j, Handler.inRecv r j ∈ s.handlers

/-- Task `v` is ready and nobody has claimed it; it is in the queues of all types it accepts, from which tasks are handed out, and
nobody in `recv` accepts it: a runner is missing. -/
def RunnerMissing (c : Cfg) (s : State) (v : Nat) : Prop :=
  v < c.tr.g.n ∧ s.tr.readyOpen = true ∧ Unclaimed s.tr v ∧
  ∀ r, (cmdOf c.tr.g v).affinity.getLsbD r = true → (∃ it ∈ s.tr.queues r, it.id = v) ∧ ¬ Waits c s r

/-- Can the process of every task be started: has it a command, and its input a descriptor other than 3, which is for the values? -/
def Startable (c : Cfg) : Prop := ∀ cmd ∈ c.tr.g.nodes, cmd.cmdline ≠ [] ∧ cmd.fdInput.map (·.1) ≠ some 3

/-- Strong fairness: what is possible again and again happens again and again. -/
def Strong (c : Cfg) (σ : Nat → State) (α : Nat → Act) (P : State → Act → Bool) : Prop :=
  (∀ k, ∃ j, k ≤ j ∧ ∃ a s', P (σ j) a = true ∧ step c (σ j) a = .ok s') → ∀ k, ∃ j, k ≤ j ∧ P (σ j) (α j) = true

/-- Does a local loop or a handler panic? -/
def panics : Act → Bool
  | .loopDie _ | .hDie _ => true
  | _ => false

/-- Does handler `h` go on by itself where it waits? -/
def ofHandler (h : Nat) : Act → Bool
  | .hRecv i | .hFlag i | .hLeave i _ false => i == h
  | _ => false

/-- Does the reaper go on in its round? -/
def reapAct : Act → Bool
  | .reapRemove | .reapCheck _ | .reapSend => true
  | _ => false

/-- No part of execgraph is left waiting for ever by the scheduler: neither the server, the loops and the processes (which end), nor
any single handler, nor the reaper. -/
structure Justly (c : Cfg) (σ : Nat → State) (α : Nat → Act) : Prop where
  work : Strong c σ α (fun s a => working s a && !panics a)
  handler : ∀ h, Strong c σ α (fun _ a => ofHandler h a)
  reaper : Strong c σ α (fun _ a => reapAct a)

/-- Every connection ends (by `/end`, or removed by the reaper), if there is no hard cancellation before. -/
def ConnsEnd (σ : Nat → State) : Prop :=
  ∀ k txn, txn ∈ (σ k).conns.map (·.1) → ∃ j, k ≤ j ∧ (txn ∉ (σ j).conns.map (·.1) ∨ (σ j).tr.token = some .hard)

/-- Every connection ends or falls silent, if there is no hard cancellation before. -/
def ConnsEndOrSilent (c : Cfg) (σ : Nat → State) (α : Nat → Act) : Prop :=
  ∀ k txn, txn ∈ (σ k).conns.map (·.1) → ∃ j, k ≤ j ∧ (txn ∉ (σ j).conns.map (·.1) ∨ (σ j).tr.token = some .hard ∨
    ∀ i, j ≤ i → aliveObs c txn (σ i) (α i) = [])

/-- At moment `j` somebody asks for a task of runner type `r`: an authorized `/start` for a job that is not marked as terminated. They
do not hang up, and the rate limiter lets them through before the holding time is over. -/
def Applies (c : Cfg) (σ : Nat → State) (α : Nat → Act) (j r : Nat) : Prop :=
  ∃ job, α j = .request ⟨some c.secret, some (some job), .start r⟩ ∧ job ∉ (σ j).cancelledJobs ∧
    (∀ i k, j < i → α i ≠ .hDrop (σ j).handlers.length k) ∧
    ∀ i k rt job', j < i → (σ i).handlers[(σ j).handlers.length]? = some (.toRecv rt job') → α i ≠ .hLeave (σ j).handlers.length k true

/-- What is expected of the outside, besides: until there is a hard cancellation, for a ready task that nobody takes, somebody who
accepts it will ask (or be waiting already). After a hard cancellation the requests cease (nobody can connect any more). -/
structure Cooperative (c : Cfg) (σ : Nat → State) (α : Nat → Act) : Prop where
  asks : ∀ k v, RunnerMissing c (σ k) v → ∃ j, k ≤ j ∧ ((∃ r, (cmdOf c.tr.g v).affinity.getLsbD r = true ∧
    (Waits c (σ j) r ∨ Applies c σ α j r)) ∨ (σ j).tr.token = some .hard)
  cease : ∃ k, ∀ j, k ≤ j → (σ j).tr.token = some .hard → isRequest (α j) = false

/-- Does something go wrong here, with remote runners? As in `wrong`, and: a runner reports an exit code other than 0; the reaper
reports a task as disconnected. -/
def wrongAt (s : State) : Act → Bool
  | .request ⟨_, _, .finish _ code _ _⟩ => decide (code ≠ 0)
  | .reapSend => match s.reaper with | .sending (_ :: _) => true | _ => false
  | a => wrong a

/-- Everything has returned: `execute`, all loops, all handlers, the reaper. -/
def over (s : State) : Bool :=
  s.tr.pc == .done && s.tr.waiting.isEmpty && s.tr.popped.isEmpty && s.tr.claimed.isEmpty && allExited s.loops &&
    allDone s.handlers && reaperEnded s.reaper

end Verif.Sys
