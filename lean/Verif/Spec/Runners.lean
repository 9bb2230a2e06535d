import Verif.Spec.Cluster
import Verif.Spec.Progress

/-!
# Vocabulary for the end of `execute` with the actual remote runners (specification side)
-/

namespace Verif.Cluster
open Verif

/-- The action as the server sees it; what is none of its business is for it a moment in which nothing happens. -/
def seen (s : State) (a : Act) : Sys.Act := (sysAct s a).headD (.server (.tick 0))

/-- An infinite run of server and runners: the clocks may go on for ever. -/
structure InfRun (c : Sys.Cfg) (lf : LogFile) (now : Int) (σ : Nat → State) (α : Nat → Act) : Prop where
  start : σ 0 = init c lf now
  next : ∀ k, step c (σ k) (α k) = .ok (σ (k + 1))

/-- The run as the server sees it: its states, -/
def sysStates (σ : Nat → State) (k : Nat) : Sys.State := (σ k).sys

/-- and what happens. -/
def sysActs (σ : Nat → State) (α : Nat → Act) (k : Nat) : Sys.Act := seen (σ k) (α k)

/-- No transaction id is ever drawn twice. -/
def AllFresh (c : Sys.Cfg) (lf : LogFile) (now : Int) (α : Nat → Act) : Prop :=
  ∀ k, Fresh c lf now ((List.range k).map α)

/-- The transaction of the task a runner has: from the answer with the task until the next answer to `/end`. -/
def atTask : Remote.Phase → Option Nat
  | .got r | .feeding r _ | .beginning r _ | .begun r _ | .waiting r _ _ | .gasping r | .finishing r _ | .ending r _ => some r.txn
  | _ => none

/-- The place in `run_command` where a runner with a task is: before `spawn`, at the input of the child, before `/begun`, at it,
waiting for the child, before `/end`, at it (or at the one because of Slurm). -/
def place : Remote.Phase → Nat
  | .got _ => 1
  | .feeding _ _ => 2
  | .beginning _ _ => 3
  | .begun _ _ => 4
  | .waiting _ _ _ => 5
  | .finishing _ _ => 6
  | .ending _ _ => 7
  | .gasping _ => 8
  | _ => 0

/-- No runner with a task stays for ever at one place: processes read their input and end, and a request is answered or fails (the
client has a time-out, execgraph-remote.rs:153). -/
def RunnersMove (σ : Nat → State) : Prop :=
  ∀ (k i : Nat) (r : Runner), (σ k).runners[i]? = some r → atTask r.st.phase ≠ none →
    ∃ (j : Nat) (r' : Runner), k ≤ j ∧ (σ j).runners[i]? = some r' ∧ place r'.st.phase ≠ place r.st.phase

/-- Is it a ping for transaction `T`? -/
def isPing (c : Sys.Cfg) (T : Nat) : Act → Bool
  | .other ⟨some t, _, .ping U⟩ => decide (t = c.secret) && decide (U = T)
  | _ => false

/-- Pings are sent by the runners only: when no runner has the task any more, after some time no ping for it arrives
(`_drop_guard`, execgraph-remote.rs:242, 285-287). -/
def PingsStop (c : Sys.Cfg) (σ : Nat → State) (α : Nat → Act) : Prop :=
  ∀ (k T : Nat), (∀ j, k ≤ j → ∀ (i : Nat) (r : Runner), (σ j).runners[i]? = some r → atTask r.st.phase ≠ some T) →
    ∃ j, k ≤ j ∧ ∀ i, j ≤ i → isPing c T (α i) = false

/-- Nothing of the server panics: no local loop, no handler, not the reaper. -/
structure NoPanic (σ : Nat → State) (α : Nat → Act) : Prop where
  acts : ∀ k, Sys.panics (seen (σ k) (α k)) = false
  reaper : ∀ k e, (σ k).sys.reaper ≠ .dead e

/-- Does something go wrong around a task of a remote runner? Its process cannot be started, does not take its input, ends with an
exit code other than 0, or `wait` fails; Slurm ends the job. -/
def fails : Remote.Act → Bool
  | .spawn none | .fed false | .waitFails | .slurm => true
  | .output out => decide (out.code ≠ 0)
  | _ => false

/-- Does something go wrong here? On the server's side as in `Sys.wrongAt`; somebody without the token reports a failure; a task fails
on a remote runner; or, before `execute` comes to its end (hard cancellation), an answer gets lost or a runner gives the server up. -/
def trouble (s : State) : Act → Bool
  | .server a => Sys.wrongAt s.sys a
  | .other r => Sys.wrongAt s.sys (.request r)
  | .runner _ .lose => decide (s.sys.tr.token ≠ some .hard)
  | .runner _ a => fails a
  | .fail _ => decide (s.sys.tr.token ≠ some .hard)
  | _ => false

/-- Every request arrives, unless there is a hard cancellation before. -/
def RequestsArrive (σ : Nat → State) : Prop :=
  ∀ (k m : Nat) (p : Packet), (σ k).packets[m]? = some p →
    ∃ j, k ≤ j ∧ ((∃ p' : Packet, (σ j).packets[m]? = some p' ∧ p'.handler ≠ none) ∨ (σ j).sys.tr.token = some .hard)

/-- Every answer arrives: a runner does not wait for ever for one that was given. -/
def AnswersArrive (σ : Nat → State) : Prop :=
  ∀ (k i m h : Nat) (r : Runner) (p : Packet) (y : Option Sys.Reply), (σ k).runners[i]? = some r → r.waits = some m →
    (σ k).packets[m]? = some p → p.handler = some h → (σ k).sys.handlers[h]? = some (.done y) →
    ∃ (j : Nat) (r' : Runner), k ≤ j ∧ (σ j).runners[i]? = some r' ∧ r'.waits ≠ some m

end Verif.Cluster
