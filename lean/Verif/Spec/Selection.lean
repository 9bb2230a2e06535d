import Verif.Spec.Graph
import Verif.Model.ExecGraph

/-!
# Which tasks an `execute` call should run (specification side)
-/

namespace Verif.Spec
open Verif

variable (deps : DiGraph Cmd) (completed : List String) (log : LogMem) (target : Option Nat) (rerunFailures : Bool)

/-- Task `i` is the target or something the target (transitively) depends on; every task if there is no target. -/
def Considered (i : Nat) : Prop :=
  i < deps.n ∧ ∀ t, target = some t → i = t ∨ deps.Reach i t

/-- Task `i` was finished earlier in this session. -/
def DoneInSession (i : Nat) : Prop := ∃ c, deps.nodes[i]? = some c ∧ c.key ∈ completed

/-- The log records a success for task `i`. -/
def Succeeded (i : Nat) : Prop := ∃ c, deps.nodes[i]? = some c ∧ log.hasSuccess c.key = true

/-- The log records a failure for task `i`. -/
def Failed (i : Nat) : Prop := ∃ c, deps.nodes[i]? = some c ∧ log.hasFailure c.key = true

/-- Considered, and neither done in this session nor recorded as successful. -/
def Pending (i : Nat) : Prop :=
  Considered deps target i ∧ ¬ DoneInSession deps completed i ∧ ¬ Succeeded deps log i

/-- The tasks to run: pending and, if failures are not to be rerun, neither failed nor downstream of a pending failed
task through pending tasks. -/
def Selected (i : Nat) : Prop :=
  Pending deps completed log target i ∧
  (rerunFailures = false → ¬ Failed deps log i ∧
    ∀ j, Failed deps log j → ¬ deps.ReachVia (Pending deps completed log target) j i)

/-- The choices left open by libraries are such as these libraries promise: `toposort` returns topological orders,
iterating a hash set visits each element once. -/
structure ValidChoices (ch : Choices) : Prop where
  prio : deps.Topo ch.ordPrio
  rev : deps.reverse.Topo ch.ordRev
  filt : (pendingGraph (targetGraph deps target ch.ordRev) completed log).Topo ch.ordFilt
  reuse : ch.reuseOrder.Perm (select deps completed log target rerunFailures ch).2

end Verif.Spec
