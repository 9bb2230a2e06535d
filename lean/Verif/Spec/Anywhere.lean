import Verif.Spec.Deploy
import Verif.Spec.Program

/-!
# Tasks that do the same wherever they run (specification side)
-/

namespace Verif.Cluster
open Verif Verif.Tracker

/-- Does something go wrong around the processes? A shutdown request, Ctrl-C, a cancellation, a process that cannot be started, a runner
told by Slurm to stop. -/
def disturbed : Act → Bool
  | .server (.server .trigger) | .server (.server .ctrlC) | .server (.server (.cancel _)) | .server (.loopSpawn _ false) => true
  | .runner _ (.spawn none) | .runner _ .slurm => true
  | _ => false

/-- Every process that ends, of a local loop or of a remote runner, ends as `b` says of its task. -/
def EndsAs (b : Behaviour) (c : Sys.Cfg) (lf : LogFile) (now : Int) (as : List Act) : Prop :=
  ∀ x ∈ collect exits c (init c lf now) as, b.status x.1 = .code x.2.1 ∧ b.values x.1 = x.2.2

/-- The server hears of every runner that has a task at least every 255 ticks of its wheel (35 s), and its handlers are prompt. -/
def Heard (c : Sys.Cfg) (lf : LogFile) (now : Int) (as : List Act) : Prop :=
  Sys.Prompt c (Sys.init c lf now) (served c lf now as) ∧
  ∀ txn v, ¬ Sys.WasSilent c (Sys.init c lf now) (served c lf now as) txn v 255

end Verif.Cluster
