import Verif.Model.System
import Verif.Model.ChildIo

/-!
# Local loops together with the processes they start (localrunner.rs:46-153)

The system of `Verif.Model.System` leaves open what a local process does: its end, exit code and values are part of the action
`loopOutput`. The model `Verif.Model.ChildIo` describes one task with its pipes and processes and nothing around it. Here both
are run together: every task has a program, every local loop has the pipes and the processes of its current task, and the steps
of localrunner.rs that belong to both are taken by both.
-/

namespace Verif.Family
open Verif Verif.Tracker

variable {P : Type}

/-- An `execute` call together with the programs of the tasks (`op v` is the machine, `start v` its first state) and the
capacity of a pipe. No counterpart in the code: localrunner.rs:34-153 with the processes. -/
structure Cfg (P : Type) where
  sys : Sys.Cfg
  op : Nat → P → ChildIo.Op P
  start : Nat → P
  cap : Nat

/-- The pipes of task `v` in loop `i`: a normal loop takes stdout, stderr and descriptor 3, the console loop descriptor 3 only
(localrunner.rs:72-88); the input is that of the command (localrunner.rs:52-57, 117-122). -/
def childCfg (c : Cfg P) (i v : Nat) : ChildIo.Cfg P where
  op := c.op v
  start := c.start v
  cap := c.cap
  piped := fun o => decide (Sys.loopType c.sys i = 0) || decide (o = .val)
  input := (cmdOf c.sys.tr.g v).fdInput.map (·.2)

/-- The task last started by a loop, its pipes and its processes (localrunner.rs:72-131). -/
structure Kid (P : Type) where
  task : Nat
  st : ChildIo.State P

/-- The system, and for every local loop the task it has started last, if any. What is left of the processes of earlier
tasks (they have no pipes to execgraph any more, see C118) is forgotten when the loop starts the next one. -/
structure State (P : Type) where
  sys : Sys.State
  kids : List (Option (Kid P))

/-- Before anything is started (execgraph.rs:291-316). -/
def init (c : Cfg P) (lf : LogFile) (now : Int) : State P where
  sys := Sys.init c.sys lf now
  kids := (Sys.init c.sys lf now).loops.map (fun _ => none)

/-- Actions: of the system (those of `run_local_process_loop` are taken together with the pipes), and what happens between a
loop and its processes, or in the processes, only (localrunner.rs:46-153). -/
inductive Act where
  | sys (a : Sys.Act)
  | kid (i : Nat) (a : ChildIo.Act)

/-- The task of loop `i`. No counterpart in the code. -/
def kidOf (s : State P) (i : Nat) : Option (Kid P) := (s.kids[i]?).getD none

/-- The system does `a`, nothing happens to the processes. No counterpart in the code: interleaving. -/
def alone (c : Cfg P) (s : State P) (a : Sys.Act) : Res Unit (State P) :=
  (Sys.step c.sys s.sys a).bind (fun t => .ok { s with sys := t })

/-- The system does `a`, and loop `i` has the task `k` afterwards. No counterpart in the code: interleaving. -/
def both (c : Cfg P) (s : State P) (a : Sys.Act) (i : Nat) (k : Kid P) : Res Unit (State P) :=
  (Sys.step c.sys s.sys a).bind (fun t => .ok ⟨t, s.kids.set i (some k)⟩)

/-- The system does `a` and the task of loop `i` does `b`, after which `q` holds. No counterpart in the code: interleaving. -/
def withKid (c : Cfg P) (s : State P) (a : Sys.Act) (i : Nat) (b : ChildIo.Act) (q : Kid P → Bool) : Res Unit (State P) :=
  match kidOf s i with
  | some k =>
    match ChildIo.step (childCfg c i k.task) k.st b with
    | .ok st => if q ⟨k.task, st⟩ then both c s a i ⟨k.task, st⟩ else .err ()
    | _ => .err ()
  | none => .err ()

/-- Has the writing of the input panicked (localrunner.rs:120-121)? -/
def panicked (k : Kid P) : Bool := match k.st.stage with | .panicked => true | _ => false

/-- Is this what is reported: exit code and values (`to_event`, localrunner.rs:150-152, 221-230)? -/
def reports (code : Int) (values : List (List (String × String))) (k : Kid P) : Bool :=
  match k.st.stage with
  | .ended st bytes => decide (ChildIo.report k.task st bytes = ⟨k.task, .code code, values, none⟩)
  | _ => false

/-- What happens between a loop and its processes without being seen by the rest
(localrunner.rs:117-122, 161-183, and the operating system). -/
def private_ : ChildIo.Act → Bool
  | .started | .finish | .cancel => false
  | _ => true

/-- The transition function (localrunner.rs:46-153). -/
def step (c : Cfg P) (s : State P) : Act → Res Unit (State P)
  /- The process is started (localrunner.rs:71-96). -/
  | .sys (.loopSpawn i true) =>
    match s.sys.loops[i]? with
    | some (.got v) => both c s (.loopSpawn i true) i ⟨v, ChildIo.init (childCfg c i v)⟩
    | _ => .err ()
  /- `send_started` (localrunner.rs:129-131), or after a failed start (101-103). -/
  | .sys (.loopStarted i host pid) =>
    match s.sys.loops[i]? with
    | some (.spawned _ _) => withKid c s (.loopStarted i host pid) i .started (fun _ => true)
    | _ => alone c s (.loopStarted i host pid)
  /- A panic: the input is not read (localrunner.rs:120-121), or the preamble fails in `send_started` (129; `child` is dropped,
  which kills it); or before the start. -/
  | .sys (.loopDie i) =>
    match s.sys.loops[i]? with
    | some (.spawned v _) =>
      match kidOf s i with
      | some k =>
        match k.st.stage with
        | .starting =>
          if (cmdOf c.sys.tr.g v).preamble.isSome then
            both c s (.loopDie i) i ⟨k.task, ChildIo.killChild { k.st with stage := .panicked }⟩
          else .err ()
        | _ => withKid c s (.loopDie i) i .feed panicked
      | none => .err ()
    | _ => alone c s (.loopDie i)
  /- `soft_cancelled` returns (localrunner.rs:134-143). -/
  | .sys (.loopSoft i) => withKid c s (.loopSoft i) i .cancel (fun _ => true)
  | .sys (.loopHard i) => withKid c s (.loopHard i) i .cancel (fun _ => true)
  /- `wait_with_output` returns (localrunner.rs:144-147). -/
  | .sys (.loopOutput i code values) => withKid c s (.loopOutput i code values) i .finish (reports code values)
  /- Everything else has nothing to do with local processes. -/
  | .sys a => alone c s a
  | .kid i a =>
    if private_ a then
      match kidOf s i with
      | some k =>
        match ChildIo.step (childCfg c i k.task) k.st a with
        | .ok st => if panicked ⟨k.task, st⟩ && !(panicked k) then .err () else .ok { s with kids := s.kids.set i (some ⟨k.task, st⟩) }
        | _ => .err ()
      | none => .err ()
    else .err ()

end Verif.Family
