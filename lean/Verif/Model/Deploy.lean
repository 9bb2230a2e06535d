import Verif.Model.World
import Verif.Model.Cluster

/-!
# Whole deployments: sessions over one log file, each `execute` with its server and its remote runners

The histories of `Verif.Model.World`, where between the start and the return of `execute` it is the cluster of
`Verif.Model.Cluster` that acts: local loops, HTTP server, reaper, network and remote runners. When `execute` returns, or the
process is killed, its remote runners are not gone: they go on by themselves, and answers on their way still arrive. Local
child processes of a killed process are not followed further.
-/

namespace Verif.Deploy
open Verif

/-- The cluster of an `execute` call (execgraph.rs:289-415). -/
structure Live where
  cfg : Sys.Cfg
  /-- The log as the scheduler finds it (execgraph.rs:277-289), and the time. -/
  lf : LogFile
  now : Int
  st : Cluster.State
  /-- ghost: the tasks of the session; whether it is the first `execute` of the session; what happened so far. -/
  tasks : DiGraph Cmd
  first : Bool
  acts : List Cluster.Act

/-- The world; the cluster of the `execute` call in progress; those of earlier calls, of this and of earlier sessions (the
remote runners of which, execgraph-remote.rs, are processes of their own). -/
structure State where
  world : World.World
  live : Option Live
  old : List Live

/-- Actions (pylib.rs:62-122, 260-288, 329-369; execgraph.rs:242-415; execgraph-remote.rs). -/
inductive Act where
  /-- The constructor, `add_task`, the return of `execute`, or the end of the process. -/
  | world (a : World.Act)
  /-- `execute` is called (execgraph.rs:242-250, pylib.rs:329-369), with the token made for it (execgraph.rs:325). -/
  | exec (target : Option Nat) (rerun : Bool) (fizzles : Nat) (ch : Choices) (now : Int) (numParallel : Nat) (remote : Bool)
      (secret : String)
  /-- Something happens in the cluster of the `execute` call in progress. -/
  | cluster (a : Cluster.Act)
  /-- A remote runner of an earlier `execute` call, the `n`-th, does something. -/
  | late (n : Nat) (a : Cluster.Act)

/-- Nothing has happened: no log file (pylib.rs:62-122 makes it). -/
def init : State := ⟨World.init, none, []⟩

/-- What can still happen when the server is gone: what runners do by themselves, errors of the network, and answers that were
sent before (execgraph-remote.rs:172-502). -/
def runnerOnly : Cluster.Act → Bool
  | .runner _ _ | .answer _ | .fail _ => true
  | _ => false

/-- The cluster as `execute` starts it (execgraph.rs:289-383), if there is anything to run. -/
def launch (w : World.World) (numParallel : Nat) (remote : Bool) (secret : String) : Option Live :=
  w.sess.bind (fun s => s.run.map (fun r =>
    let c : Sys.Cfg := ⟨r.cfg, numParallel, remote, secret⟩
    ⟨c, s.g.logfile, r.now0, Cluster.init c s.g.logfile r.now0, s.g.deps, decide (s.executes ≤ 1), []⟩))

/-- The cluster takes a step (as in `Verif.Model.Cluster`). No counterpart in the code: interleaving. -/
def Live.step (l : Live) (a : Cluster.Act) : Res Unit Live :=
  (Cluster.step l.cfg l.st a).bind (fun t => .ok { l with
    st := t
    acts := l.acts ++ [a] })

/-- The tracker inside the world is the one of the cluster: both stand for the `ReadyTrackerServer` of the call
(execgraph.rs:277-289). -/
def sync (w : World.World) (t : Tracker.State) : World.World :=
  { w with sess := w.sess.map (fun s => { s with run := s.run.map (fun r => { r with st := t }) }) }

/-- One action (see `Act`). No counterpart in the code: interleaving of pylib.rs:62-121, 260-367, server and runners. -/
def step (d : State) : Act → Res Unit State
  | .world a =>
    match a with
    | .open .. | .add .. => (World.step d.world a).bind (fun w => .ok { d with world := w })
    | .finish | .stop _ => (World.step d.world a).bind (fun w => .ok ⟨w, none, d.old ++ d.live.toList⟩)
    | .exec .. | .trk _ => .err ()
  | .exec target rerun fizzles ch now numParallel remote secret =>
    (World.step d.world (.exec target rerun fizzles ch now)).bind (fun w => .ok { d with
      world := w
      live := launch w numParallel remote secret })
  | .cluster a =>
    match d.live with
    | some l => (l.step a).bind (fun l' => .ok { d with
      world := sync d.world l'.st.sys.tr
      live := some l' })
    | none => .err ()
  | .late n a =>
    match d.old[n]? with
    | some l => if runnerOnly a then (l.step a).bind (fun l' => .ok { d with old := d.old.set n l' }) else .err ()
    | none => .err ()

end Verif.Deploy
