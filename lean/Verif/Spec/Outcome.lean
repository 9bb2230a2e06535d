import Verif.Spec.Tracker

/-!
# What the tasks do, independently of when they are run (specification side)
-/

namespace Verif.Tracker
open Verif

/-- What the tasks do when they are run: exit status and values of each. -/
structure Behaviour where
  status : Nat → ExitStatus
  values : Nat → List (List (String × String))

/-- Every report sent to the tracker says what the task does. -/
def Faithful (b : Behaviour) (as : List Act) : Prop :=
  ∀ e, Act.sendFinished e ∈ as → e.status = b.status e.id ∧ e.values = b.values e.id

/-- The graph alone says that `v` is to be run: everything it transitively depends on succeeds. -/
def Due (c : Cfg) (b : Behaviour) (v : Nat) : Prop := v < c.g.n ∧ ∀ u, c.g.Reach u v → b.status u = .code 0

/-- Key, exit code and values of a Finished entry. -/
def outcome? : LogEntry → Option (String × Int × List (List (String × String)))
  | .finished f => some (f.key, f.status, f.values)
  | _ => none

/-- Keys, exit codes and values of the Finished entries. -/
def outcomes (es : List LogEntry) : List (String × Int × List (List (String × String))) := es.filterMap outcome?

/-- The same tasks and dependencies; everything else (affinity, priority, resources, command lines, run counts, number of
quick failures allowed) may differ. -/
def SameTasks (c c' : Cfg) : Prop := c.g.nodes.map (·.key) = c'.g.nodes.map (·.key) ∧ c.g.edges = c'.g.edges

end Verif.Tracker
