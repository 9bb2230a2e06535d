import Verif.Model.Fd3

/-!
# Input and output of a local task (localrunner.rs:50-194)

One task in a local loop, from the spawn to the report: the pipes, the loop itself (the parent), the child and everything it
starts. The programs are arbitrary: a process is a state of some machine, and the machine says what the process does next.
Bytes pass one at a time.
-/

namespace Verif.ChildIo
open Verif Verif.Fd3

/-- The output descriptors: stdout, stderr, descriptor 3 (localrunner.rs:51, 72-88). -/
inductive Out where
  | out | err | val
deriving DecidableEq, Repr

/-- What a process does next (no counterpart in the code: the program of the task). Errors (writing to a closed descriptor, for
instance) are ignored by `put` and look like the end of the file to `get`. -/
inductive Op (P : Type) where
  /-- Write a byte. -/
  | put (o : Out) (b : UInt8) (next : P)
  /-- Read a byte of the input; `none` is the end of the file. -/
  | get (next : Option UInt8 → P)
  | close (o : Out) (next : P)
  | closeInput (next : P)
  /-- Start another process, which inherits the descriptors. -/
  | fork (next other : P)
  /-- Anything else. -/
  | work (next : P)
  | exit (code : Nat)

/-- A process: what it is about to do, the ends of pipes it has, and whether it is the child itself (or a descendant of it).
No counterpart in the code: operating system; the child is spawned at localrunner.rs:72-89. -/
structure Proc (P : Type) where
  state : P
  holds : Out → Bool
  input : Bool
  child : Bool

/-- Where the loop is (localrunner.rs:111-149). -/
inductive Stage where
  /-- `write_all` and `flush` (localrunner.rs:117-122), still to be written. -/
  | feeding (rest : List UInt8)
  /-- Before `send_started` (localrunner.rs:129). -/
  | starting
  /-- In the `select!` (localrunner.rs:133-147). -/
  | waiting
  /-- `wait_with_output` has returned (localrunner.rs:188-193). -/
  | ended (st : ProcStatus) (bytes : Out → List UInt8)
  /-- `soft_cancelled` has returned (localrunner.rs:134-143). -/
  | cancelled
  /-- `unwrap` of a failed write (localrunner.rs:120-121). -/
  | panicked

/-- A task: the machine, where the child starts, how much fits into a pipe, which of the output descriptors are pipes (all of them in
a normal loop, only descriptor 3 in the console loop: localrunner.rs:72-88), the bytes of `fd_input` if any. -/
structure Cfg (P : Type) where
  op : P → Op P
  start : P
  cap : Nat
  piped : Out → Bool
  input : Option (List UInt8)

/-- Loop, pipes and processes (localrunner.rs:72-194; pipes and processes belong to the operating system). -/
structure State (P : Type) where
  stage : Stage
  /-- What is in the pipe to the child. -/
  inBuf : List UInt8
  /-- What is in the pipes from the child. -/
  buf : Out → List UInt8
  /-- The buffers of `read_to_end` (localrunner.rs:165-180). -/
  got : Out → List UInt8
  /-- Has this `read_to_end` returned? -/
  eof : Out → Bool
  /-- How the child has ended, if it has. -/
  status : Option ProcStatus
  /-- Has `child.wait()` returned (localrunner.rs:182-183)? -/
  reaped : Bool
  procs : List (Proc P)

variable {P : Type}

/-- After the spawn (localrunner.rs:89-96, 117): the child has the ends of the pipes, the parent has closed them. -/
def init (c : Cfg P) : State P where
  stage := match c.input with | some bytes => .feeding bytes | none => .starting
  inBuf := []
  buf := fun _ => []
  got := fun _ => []
  eof := fun _ => false
  status := none
  reaped := false
  procs := [⟨c.start, c.piped, c.input.isSome, true⟩]

/-- Has the parent still the reading ends of the pipes? It drops them when the loop body ends (localrunner.rs:161-194). -/
def reading : Stage → Bool
  | .feeding _ | .starting | .waiting => true
  | _ => false

/-- Has the parent still the writing end of the input (dropped with `writer`, localrunner.rs:122)? -/
def writing : Stage → Bool
  | .feeding _ => true
  | _ => false

/-- What can happen (localrunner.rs:111-194). -/
inductive Act where
  /-- The parent writes a byte of the input, or finds that nobody can read it any more (localrunner.rs:120-121). -/
  | feed
  /-- Everything is written; the writing end is dropped (localrunner.rs:122). -/
  | fed
  /-- `send_started` (localrunner.rs:129-131). -/
  | started
  /-- `read_to_end` gets a byte (localrunner.rs:170). -/
  | collect (o : Out)
  /-- `read_to_end` comes to the end of the file. -/
  | eof (o : Out)
  /-- `child.wait()` returns (localrunner.rs:182-183). -/
  | reap
  /-- `try_join4` returns (localrunner.rs:183-194). -/
  | finish
  /-- `soft_cancelled` returns first (localrunner.rs:134-143); the child is killed (`kill_on_drop`, localrunner.rs:76, 82). -/
  | cancel
  /-- The `i`-th process does what it is about to do. -/
  | run (i : Nat)
  /-- A process is killed from outside. -/
  | kill (i : Nat) (sig : Nat)

/-- The `i`-th process ends; its descriptors are closed (operating system). No counterpart in the code. -/
def endProc (i : Nat) (p : Proc P) (st : ProcStatus) (s : State P) : State P :=
  { s with
    procs := s.procs.eraseIdx i
    status := if p.child then some st else s.status }

/-- `kill_on_drop` (localrunner.rs:76, 82): SIGKILL to the child, not to its descendants. -/
def killChild (s : State P) : State P :=
  match s.procs.findIdx? (·.child) with
  | some i => { s with
      procs := s.procs.eraseIdx i
      status := some (.signaled 9) }
  | none => s

/-- The `i`-th process goes on to another state. No counterpart in the code: operating system. -/
def setProc (i : Nat) (p : Proc P) (s : State P) : State P := { s with procs := s.procs.set i p }

/-- A step of process `i`, which is `p` (the semantics of pipes, operating system): a write to a full pipe blocks, a write to a pipe
nobody reads ends the process by SIGPIPE; a read from an empty pipe blocks as long as somebody may write to it.
No counterpart in the code. -/
def runProc (c : Cfg P) (s : State P) (i : Nat) (p : Proc P) : Res Unit (State P) :=
  match c.op p.state with
  | .put o b next =>
    if c.piped o && p.holds o then
      if reading s.stage then
        if (s.buf o).length < c.cap then
          .ok (setProc i { p with state := next } { s with buf := fun x => if x = o then s.buf o ++ [b] else s.buf x })
        else .err ()
      else .ok (endProc i p (.signaled 13) s)
    else .ok (setProc i { p with state := next } s)
  | .get next =>
    if p.input then
      match s.inBuf with
      | b :: rest => .ok (setProc i { p with state := next (some b) } { s with inBuf := rest })
      | [] => if writing s.stage then .err () else .ok (setProc i { p with state := next none } s)
    else .ok (setProc i { p with state := next none } s)
  | .close o next => .ok (setProc i { p with state := next, holds := fun x => if x = o then false else p.holds x } s)
  | .closeInput next => .ok (setProc i { p with state := next, input := false } s)
  | .fork next other => .ok { s with procs := s.procs.set i { p with state := next } ++ [{ p with state := other, child := false }] }
  | .work next => .ok (setProc i { p with state := next } s)
  | .exit code => .ok (endProc i p (.exited code) s)

/-- All output ends. The descriptors 1, 2 and 3 of the child (localrunner.rs:46-89). -/
def outs : List Out := [.out, .err, .val]

/-- The transition function (localrunner.rs:111-194). -/
def step (c : Cfg P) (s : State P) : Act → Res Unit (State P)
  | .feed =>
    match s.stage with
    | .feeding (b :: rest) =>
      if s.procs.any (·.input) then
        if s.inBuf.length < c.cap then .ok { s with
          stage := .feeding rest
          inBuf := s.inBuf ++ [b] }
        else .err ()
      else .ok (killChild { s with stage := .panicked })
    | _ => .err ()
  | .fed => match s.stage with | .feeding [] => .ok { s with stage := .starting } | _ => .err ()
  | .started => match s.stage with | .starting => .ok { s with stage := .waiting } | _ => .err ()
  | .collect o =>
    match s.stage, s.buf o with
    | .waiting, b :: rest => .ok { s with
        buf := fun x => if x = o then rest else s.buf x
        got := fun x => if x = o then s.got o ++ [b] else s.got x }
    | _, _ => .err ()
  | .eof o =>
    match s.stage, s.buf o with
    | .waiting, [] =>
      if c.piped o && !(s.procs.any (fun p => p.holds o)) && !(s.eof o) then
        .ok { s with eof := fun x => if x = o then true else s.eof x }
      else .err ()
    | _, _ => .err ()
  | .reap =>
    match s.stage, s.status with
    | .waiting, some _ => if s.reaped then .err () else .ok { s with reaped := true }
    | _, _ => .err ()
  | .finish =>
    match s.stage, s.status with
    | .waiting, some st =>
      if s.reaped && outs.all (fun o => !(c.piped o) || s.eof o) then .ok { s with stage := .ended st s.got } else .err ()
    | _, _ => .err ()
  | .cancel => match s.stage with | .waiting => .ok (killChild { s with stage := .cancelled }) | _ => .err ()
  | .run i => match s.procs[i]? with | some p => runProc c s i p | none => .err ()
  | .kill i sig => match s.procs[i]? with | some p => .ok (endProc i p (.signaled sig) s) | none => .err ()

/-- What is reported (`to_event`, localrunner.rs:221-230, 150-152). -/
def report (id : Nat) (st : ProcStatus) (bytes : Out → List UInt8) : Tracker.Fin :=
  toEvent id st ⟨(bytes .val).toArray⟩

end Verif.ChildIo
