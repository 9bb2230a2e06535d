import Verif.Model.Family
import Verif.Model.Cluster

/-!
# Server, local loops, remote runners and all the processes they start

`Verif.Model.Cluster` leaves open what the processes do, `Verif.Model.Family` has the processes of the local loops only. Here all of it
is run together: also a process started by a remote runner has its pipes and a program (execgraph-remote.rs:309-471 with
`wait_with_output` of localrunner.rs:160-194), and what the runner reports is what comes out of them.
-/

namespace Verif.Grid
open Verif

variable {P : Type}

/-- The pipes of task `v` started by a remote runner: stdout, stderr and descriptor 3 (execgraph-remote.rs:309-340), and the input if
there is one (310-330, 393-399). -/
def farCfg (c : Family.Cfg P) (v : Nat) : ChildIo.Cfg P where
  op := c.op v
  start := c.start v
  cap := c.cap
  piped := fun _ => true
  input := (Tracker.cmdOf c.sys.tr.g v).fdInput.map (·.2)

/-- The task whose process a runner has started last, the pipes and processes, and (ghost) what happened in them since
(src/bin/execgraph-remote.rs:309-471). -/
structure Far (P : Type) where
  task : Nat
  st : ChildIo.State P
  hist : List ChildIo.Act

/-- The server with the local loops and their processes, the runners, the requests, and the processes of the runners.
No counterpart in the code: server.rs, localrunner.rs and src/bin/execgraph-remote.rs together. -/
structure State (P : Type) where
  fam : Family.State P
  runners : List Cluster.Runner
  packets : List Cluster.Packet
  far : Nat → Option (Far P)

/-- What `Verif.Model.Cluster` sees of it. No counterpart in the code. -/
def cluster (s : State P) : Cluster.State := ⟨s.fam.sys, s.runners, s.packets⟩

/-- Before anything is started (execgraph.rs:291-383). -/
def init (c : Family.Cfg P) (lf : LogFile) (now : Int) : State P := ⟨Family.init c lf now, [], [], fun _ => none⟩

/-- Actions: of server, loops and runners (those which concern processes are taken together with them); what happens between a
local loop and its processes or in them only; the same for a remote runner (localrunner.rs:46-194, src/bin/execgraph-remote.rs:309-471). -/
inductive Act where
  | cl (a : Cluster.Act)
  | near (i : Nat) (a : ChildIo.Act)
  | far (i : Nat) (a : ChildIo.Act)

/-- The local side of an action. No counterpart in the code: interleaving. -/
def near (c : Family.Cfg P) (s : State P) : Cluster.Act → Res Unit (Family.State P)
  | .server b => Family.step c s.fam (.sys b)
  | .other r => Family.step c s.fam (.sys (.request r))
  | .arrive k => match s.packets[k]? with | some p => Family.step c s.fam (.sys (.request p.req)) | none => .err ()
  | _ => .ok s.fam

/-- Something happens in the pipes and processes of a runner (src/bin/execgraph-remote.rs:309-471, localrunner.rs:160-194). -/
def does (c : Family.Cfg P) (a : ChildIo.Act) (k : Far P) : Option (Far P) :=
  match ChildIo.step (farCfg c k.task) k.st a with
  | .ok st => some ⟨k.task, st, k.hist ++ [a]⟩
  | _ => none

/-- `run_command` returns with an error, or the runner dies: the pipes are closed, but nothing is killed (execgraph-remote.rs:331-340:
no `kill_on_drop`). -/
def drop (k : Far P) : Far P := { k with st := { k.st with stage := .cancelled } }

/-- The runner cannot write the input, as nobody has it open any more (`unwrap`, execgraph-remote.rs:397-398); it panics. Nothing is killed. -/
def unread (k : Far P) : Option (Far P) :=
  match k.st.stage with
  | .feeding (_ :: _) => if k.st.procs.any (·.input) then none else some { k with st := { k.st with stage := .panicked } }
  | _ => none

/-- Is this what comes out of `wait_with_output` (execgraph-remote.rs:480-491, localrunner.rs:188-193, 211-230)? -/
def reports (out : Remote.Output) (k : Far P) : Bool :=
  match k.st.stage with
  | .ended st bytes => decide (Fd3.code st = .code out.code) && decide (out.values = Fd3.fd3Values ⟨(bytes .val).toArray⟩)
  | _ => false

/-- What the step of a runner from phase `p` to phase `q` means for pipes and processes; `v`: the task it received last. `none`: it is not
possible.
* A process is started (execgraph-remote.rs:331-345).
* The input is written (393-399), or cannot be.
* The server has answered to /begun; `wait_with_output` is called (406-421).
* `wait_with_output` returns (427-430).
* `run_command` gives up, or the error of `wait_with_output` is converted (414-417, 429-433, 457-460). -/
def follow (c : Family.Cfg P) (v : Option Nat) (p q : Remote.Phase) (k : Option (Far P)) : Option (Option (Far P)) :=
  match p, q with
  | .got _, .feeding _ _ | .got _, .beginning _ (some _) => v.map (fun v => some ⟨v, ChildIo.init (farCfg c v), []⟩)
  | .feeding _ _, .beginning _ _ => (k.bind (does c .fed)).map some
  | .feeding _ _, .panicked => (k.bind unread).map some
  | .begun _ (some _), .waiting _ _ _ => (k.bind (does c .started)).map some
  | .waiting _ _ _, .finishing _ (some out) =>
    match k.bind (does c .finish) with
    | some k' => if reports out k' then some (some k') else none
    | none => none
  | .beginning _ (some _), .cleaning | .begun _ (some _), .cleaning | .waiting _ _ _, .cleaning | .gasping _, .cleaning
  | .waiting _ _ _, .stuck => some (k.map drop)
  | _, _ => some k

/-- The end of the child is known to the system when it has ended (localrunner.rs:182-183). -/
def childOver (k : Option (Far P)) : Cluster.Act → Bool
  | .runner _ (.childEnds _) => (k.bind (·.st.status)).isSome
  | _ => true

/-- The runner an action is about. No counterpart in the code. -/
def who : Cluster.Act → Option Nat
  | .runner i _ | .answer i | .fail i => some i
  | _ => none

/-- The remote side of an action; `t`: the state afterwards (src/bin/execgraph-remote.rs:309-471). -/
def far (c : Family.Cfg P) (s : State P) (t : Cluster.State) (a : Cluster.Act) : Option (Nat → Option (Far P)) :=
  match who a with
  | some i =>
    match s.runners[i]?, t.runners[i]? with
    | some r, some r' =>
      if childOver (s.far i) a then
        (follow c (r.tasks.getLast?.map (·.2.2)) r.st.phase r'.st.phase (s.far i)).map (fun k j => if j = i then k else s.far j)
      else none
    | _, _ => none
  | none => some s.far

/-- What happens between a remote runner and its processes, or in these, without being seen by the rest
(src/bin/execgraph-remote.rs:309-349, localrunner.rs:161-183, and the operating system). -/
def private_ : ChildIo.Act → Bool
  | .fed | .started | .finish | .cancel => false
  | _ => true

/-- Has the writing of the input just failed? (localrunner.rs:117-122; src/bin/execgraph-remote.rs:309-349). -/
def panicked (k : Far P) : Bool := match k.st.stage with | .panicked => true | _ => false

/-- The transition function. No counterpart in the code: interleaving. -/
def step (c : Family.Cfg P) (s : State P) : Act → Res Unit (State P)
  | .cl a =>
    (Cluster.step c.sys (cluster s) a).bind (fun t =>
      (near c s a).bind (fun f =>
        match far c s t a with
        | some k => .ok ⟨f, t.runners, t.packets, k⟩
        | none => .err ()))
  | .near i a => (Family.step c s.fam (.kid i a)).bind (fun f => .ok { s with fam := f })
  | .far i a =>
    if private_ a then
      match (s.far i).bind (fun k => (does c a k).filter (fun k' => !(panicked k') || panicked k)) with
      | some k => .ok { s with far := fun j => if j = i then some k else s.far j }
      | none => .err ()
    else .err ()

end Verif.Grid
