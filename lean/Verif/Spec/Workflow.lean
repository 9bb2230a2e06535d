import Verif.Spec.Anywhere
import Verif.Spec.Resume

/-!
# Resuming interrupted work in whole deployments (specification side)
-/

namespace Verif.Deploy
open Verif
open Verif.World (Does Fits FailsIn)

/-- Something that happens while `execute` runs: in its own cluster, or with a remote runner left over from an earlier call. -/
def within : Act → Bool
  | .cluster _ | .late _ _ => true
  | _ => false

/-- Any number of sessions, each ended in any way, each `execute` with its local loops and remote runners, which may outlive it.
Then a session is open whose first `execute`, `call`, runs to its end, with failures to be rerun; nothing goes wrong around the processes of
this call, and its server hears of the runners that have a task. Processes of this call end as `B` says of their task, and whenever a
process ends with 0, no matter when and where, this is what `B` says. Fewer tasks fail than there may be quick failures. -/
structure Redeployment (D : String → String → Prop) (B : Does) (target : Option Nat) (as : List Act) (call : Act) (mid : List Act)
    (d d1 d' : State) : Prop where
  history : Runs init as d
  deps : World.SameDeps D (collect worldAct init as)
  first : d.world.executes = 0
  called : ∃ fizzles ch now numParallel remote secret, call = .exec target true fizzles ch now numParallel remote secret ∧
    ∀ l : List Nat, l.Nodup → (∀ i ∈ l, FailsIn B d.world.tasks target i) → l.length < fizzles
  runs : Runs d (call :: mid) d1
  inside : ∀ a ∈ mid, within a = true
  calm : ∀ l, d1.live = some l → (∀ a ∈ l.acts, Cluster.disturbed a = false) ∧ Cluster.Heard l.cfg l.lf l.now l.acts
  honest : ∀ l, d1.live = some l → ∀ x ∈ Cluster.collect Cluster.exits l.cfg (Cluster.init l.cfg l.lf l.now) l.acts,
    B (l.key x.1) = (.code x.2.1, x.2.2)
  successes : ∀ k v, (k, 0, v) ∈ collect ended init (as ++ call :: mid) → B k = (.code 0, v)
  returned : d1.live = none ∧ d' = d1 ∨ step d1 (.world .finish) = .ok d'

end Verif.Deploy
