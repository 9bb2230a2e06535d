import Verif.Spec.Tracker

/-!
# Where a log entry comes from (specification side)
-/

namespace Verif.Tracker
open Verif

/-- Does `drain` run? -/
def Act.isDrain : Act → Bool | .drain _ _ => true | _ => false

/-- The runner called `send_started` for task `v`. -/
def ReportedStart (as : List Act) (v : Nat) : Prop := ∃ h p j, Act.sendStarted v h p j ∈ as

/-- Where an entry appended by an `execute` whose actions were `as` comes from.

Ready: it shows key, runcount, storage root and command of a task of the graph. Started: it shows what the runner reported;
or it was made up (empty host, pid 0) for a task for which the runner reported only the end; or it was written by `drain`
(host "host", pid 0). Finished: it shows exit code and values the runner reported; or `drain` made it up (-1, no values)
for a task reported as started. Nothing else is written. -/
def Origin (c : Cfg) (as : List Act) : LogEntry → Prop
  | .ready r => ∃ (v : Nat) (cmd : Cmd), c.g.nodes[v]? = some cmd ∧ r.key = cmd.key ∧ r.runcount = cmd.runcount ∧
      r.storageRoot = cmd.storageRoot ∧ cmd.displayText = some r.command
  | .started x =>
    (∃ v h p j, Act.sendStarted v h p j ∈ as ∧ x.key = keyOf c v ∧ x.host = h ∧ x.pid = p ∧ x.slurmJobid = j) ∨
    (∃ e, Act.sendFinished e ∈ as ∧ x.key = keyOf c e.id ∧ x.host = "" ∧ x.pid = 0 ∧ x.slurmJobid = "") ∨
    ((∃ a ∈ as, a.isDrain = true) ∧ ∃ v, ReportedStart as v ∧ x.key = keyOf c v ∧ x.host = "host" ∧ x.pid = 0 ∧
      x.slurmJobid = "")
  | .finished x =>
    (∃ e, Act.sendFinished e ∈ as ∧ x.key = keyOf c e.id ∧ x.status = e.status.asI32 ∧ x.values = e.values) ∨
    ((∃ a ∈ as, a.isDrain = true) ∧ ∃ v, ReportedStart as v ∧ x.key = keyOf c v ∧ x.status = -1 ∧ x.values = [])
  | .header _ => False
  | .backref _ => False

/-- The flags with which finish reports were sent, in order. -/
def sentFlags (as : List Act) : List Nat := as.filterMap (fun a => match a with | .sendFinished e => e.flag | _ => none)

/-- Did this action log at least one Ready entry? (`s`, `s'`: before and after.) -/
def makesReady (s s' : State) : Bool := !(readyKeys (s'.lf.entries.drop s.lf.entries.length)).isEmpty

/-- Number of actions of a run that logged Ready entries. -/
def readyBatches (c : Cfg) : State → List Act → Nat
  | _, [] => 0
  | s, a :: as => match step c s a with
    | .ok s1 => (makesReady s s1).toNat + readyBatches c s1 as
    | _ => 0

end Verif.Tracker
