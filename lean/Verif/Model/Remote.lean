import Verif.Model.ExecGraph

/-!
# The remote runner (src/bin/execgraph-remote.rs)

Times are in nanoseconds.
-/

namespace Verif.Remote
open Verif

/-- One second. Unit of the durations at src/bin/execgraph-remote.rs:31-32. -/
def sec : Int := 1000000000

/-! ## The deadline (execgraph-remote.rs:846-865) -/

/-- `SEND_SIGTERM_BEFORE_DEADLINE` (execgraph-remote.rs:31). -/
def sigtermBefore : Int := 60 * sec

/-- `ONE_YEAR` (execgraph-remote.rs:32). -/
def oneYear : Int := 31536000 * sec

/-- The duration in force (execgraph-remote.rs:848). -/
def duration (opt : Option Int) : Int := min (opt.getD oneYear) oneYear

/-- `time_allocated_for_upload_and_stuff` (execgraph-remote.rs:849-853). -/
def reserve (opt : Option Int) : Int := if duration opt > sigtermBefore * 2 then sigtermBefore else 0

/-- `deadline` (execgraph-remote.rs:855-857), with `saturating_sub`. -/
def deadline (start : Int) (opt : Option Int) : Int := start + max 0 (duration opt - reserve opt)

/-- The three durations of `description` (execgraph-remote.rs:858-863): time before the signal, total, reserve. The
subtraction of durations panics if the result is negative. -/
def description (opt : Option Int) : Res Unit (Int × Int × Int) :=
  if duration opt < reserve opt then .panic "overflow when subtracting durations"
  else .ok (duration opt - reserve opt, duration opt, sigtermBefore)

/-! ## Cleaning up child processes (execgraph-remote.rs:731-814) -/

/-- The signals sent (src/bin/execgraph-remote.rs:731-814). -/
inductive Signal where
  | term
  | kill
deriving DecidableEq, Repr

/-- A child process in a snapshot: its pid, which process it is (ghost: pids are used again by the system), and the time at
which the loop (execgraph-remote.rs:764-782) comes to it. -/
structure Child where
  pid : Nat
  proc : Nat
  time : Int
deriving DecidableEq, Repr

/-- A signal sent (ghost `proc`: to which process) (src/bin/execgraph-remote.rs:731-814). -/
structure Sent where
  proc : Nat
  signal : Signal
  time : Int
deriving DecidableEq, Repr

/-- What is sent to a child: nothing, SIGTERM or SIGKILL (execgraph-remote.rs:765-769). -/
def choose (sigtermedAt : Option Int) (cutoff : Int) : Option Signal :=
  match sigtermedAt with
  | some t => if t < cutoff then some .kill else none
  | none => some .term

/-- The loop over the children (execgraph-remote.rs:764-782); `m`: `sigtermed_at`, newest entry first. -/
def signalAll (cutoff : Int) : List (Nat × Int) → List Child → List (Nat × Int) × List Sent
  | m, [] => (m, [])
  | m, p :: ps =>
    match choose (m.lookup p.pid) cutoff with
    | some .term =>
      let r := signalAll cutoff ((p.pid, p.time) :: m) ps
      (r.1, ⟨p.proc, .term, p.time⟩ :: r.2)
    | some .kill =>
      let r := signalAll cutoff m ps
      (r.1, ⟨p.proc, .kill, p.time⟩ :: r.2)
    | none => signalAll cutoff m ps

/-- One turn of the outer loop as the environment sees it: the time read (763), the snapshot (754), and whether `waitpid` fails
with an unexpected error (804-810). -/
structure Turn where
  now : Int
  children : List Child
  waitFails : Bool
deriving DecidableEq, Repr

/-- `cleanup_child_processes_carefully` (execgraph-remote.rs:731-814), for the given turns: the signals of each turn, and
whether the function has returned. -/
def cleanup (m : List (Nat × Int)) : List Turn → List (List Sent) × Bool
  | [] => ([], false)
  | t :: ts =>
    if t.children = [] then ([], true)
    else
      let r := signalAll (t.now - 5 * sec) m t.children
      if t.waitFails then ([r.2], true)
      else
        let rest := cleanup r.1 ts
        (r.2 :: rest.1, rest.2)

/-! ## Conversion of errors (execgraph-remote.rs:632-636) -/

/-- `RemoteError::from(ChildProcessError)` with a stack of `depth` frames: `e.into()` is `RemoteError::from(e)`, the function
itself; `none`: the stack is exhausted (src/bin/execgraph-remote.rs:632-636). -/
def fromChildError {ε ρ : Type} : Nat → ε → Option ρ
  | 0, _ => none
  | depth + 1, e => fromChildError depth e

/-! ## Noticing a lost server (execgraph-remote.rs:235-307) -/

/-- The task that consumes pongs (execgraph-remote.rs:292-307): pongs arrive at the given times; the time at which it cancels
the token. `last`: when the wait began. A pong that arrives just when the time is out is in time. -/
def giveUpTime (timeout : Int) : Int → List Int → Int
  | last, [] => last + timeout
  | last, t :: ts => if t ≤ last + timeout then giveUpTime timeout t ts else last + timeout

/-! ## The runner (execgraph-remote.rs:85-516) -/

/-- `StartResponse` (httpinterface.rs:97-102); of `fd_input` only the descriptor. -/
structure StartResp where
  txn : Nat
  cmdline : List OsStr
  inputFd : Option Int
deriving DecidableEq, Repr

/-- Of a `ChildOutput` (localrunner.rs:211-216): the code and the values. -/
structure Output where
  code : Int
  values : List (List (String × String))
deriving DecidableEq, Repr

/-- Command line arguments (execgraph-remote.rs:46-73) and `START_TIME`. -/
structure Cfg where
  startTime : Int
  maxTimeAccepting : Option Int
  duration : Option Int
deriving DecidableEq, Repr

/-- Where the main task is.
* `top`: at the beginning of `run_command` without a start response (execgraph-remote.rs:220-232);
* `starting`: the request to /start is out;
* `got r`: before `spawn` (235-340);
* `feeding r pid`: writes the input to the child (394-399);
* `beginning r pid`: before the request to /begun; `begun r pid`: the request is out (351-366, 406-419); `none`: no child;
* `waiting r pid late`: waits for the child (426-471); `late`: `stderr_prefix` is set;
* `gasping r`: the request to /end after an error of Slurm is out (449-460);
* `finishing r out`: before the request to /end (480-495); `ending r asked`: the request is out (496-515); `asked`: for another task;
  `none`: after a failed `spawn` (369-389);
* `cleaning`: in `cleanup_child_processes_carefully` (196); `exited`: `main` has returned;
* `panicked`; `stuck`: in the conversion of an error. -/
inductive Phase where
  | top
  | starting
  | got (r : StartResp)
  | feeding (r : StartResp) (pid : Nat)
  | beginning (r : StartResp) (pid : Option Nat)
  | begun (r : StartResp) (pid : Option Nat)
  | waiting (r : StartResp) (pid : Nat) (late : Bool)
  | gasping (r : StartResp)
  | finishing (r : StartResp) (out : Option Output)
  | ending (r : StartResp) (asked : Bool)
  | cleaning
  | exited
  | panicked
  | stuck
deriving DecidableEq, Repr

/-- What the outside sees of the runner (src/bin/execgraph-remote.rs:201-516). -/
inductive Obs where
  | start
  | received (r : StartResp)
  | spawn (pid : Option Nat)
  | begun (txn pid : Nat)
  | sigterm (pid : Nat)
  | output (pid : Nat) (out : Output)
  | finish (txn : Nat) (status : Int) (values : List (List (String × String))) (next : Bool)
deriving DecidableEq, Repr

/-- State of the runner: the clock, `SIGUSR1_RECEIVED`, the cancellation token of the present `run_command`, where it is, the
child processes that have not ended (as the system knows them), and what was seen so far (ghost)
(src/bin/execgraph-remote.rs:33, 201-516). -/
structure State where
  now : Int
  usr1 : Bool
  lost : Bool
  phase : Phase
  running : List Nat
  trace : List Obs
deriving DecidableEq, Repr

/-- Actions: time and signals; the background tasks cancel the token (execgraph-remote.rs:254-307); then those of the main
task, with what the environment answers. -/
inductive Act where
  | tick (d : Nat)
  | usr1
  | lose
  /-- A child process ends (its pipes may be kept open by others). -/
  | childEnds (pid : Nat)
  | sendStart
  /-- `none`: an error of any kind. -/
  | startReply (r : Option StartResp)
  /-- `none`: `spawn` fails. -/
  | spawn (pid : Option Nat)
  /-- The input is written; `false`: the child has closed its end. -/
  | fed (ok : Bool)
  | sendBegun
  | begunReply (ok : Bool)
  /-- The branch `token3.cancelled()` of a `select!`. -/
  | giveUp
  | output (out : Output)
  | waitFails
  | slurm
  | gasped
  | deadline
  | sendEnd
  | endReply (r : Option (Option StartResp))
  /-- One of the snapshots of the cleanup is empty. -/
  | cleaned
deriving DecidableEq, Repr

/-- Initial state of the main task (src/bin/execgraph-remote.rs:88-198). -/
def init (c : Cfg) : State := ⟨c.startTime, false, false, .top, [], []⟩

/-- `still_accepting_tasks` (execgraph-remote.rs:518-528). -/
def accepting (c : Cfg) (s : State) : Bool :=
  !s.usr1 && (match c.maxTimeAccepting with
    | none => true
    | some t => decide (s.now - c.startTime < t))

/-- Change of phase with observations. No counterpart in the code. -/
def State.goto (s : State) (p : Phase) (obs : List Obs) : State := { s with phase := p, trace := s.trace ++ obs }

/-- The request to /end after the child has ended (execgraph-remote.rs:480-491), or after a failed `spawn` (371-378), where
the status is 13. -/
def endRequest (c : Cfg) (s : State) (r : StartResp) (out : Option Output) : Obs :=
  match out with
  | some o => .finish r.txn o.code o.values (accepting c s)
  | none => .finish r.txn 13 [] (accepting c s)

/-- One step of the runner. `err ()`: the action is not possible (src/bin/execgraph-remote.rs:88-516). -/
def step (c : Cfg) (s : State) : Act → Res Unit State
  | .tick d => .ok { s with now := s.now + d }
  | .usr1 => .ok { s with usr1 := true }
  | .lose => .ok { s with lost := true }
  | .childEnds pid => if pid ∈ s.running then .ok { s with running := s.running.erase pid } else .err ()
  | .sendStart =>
    match s.phase with
    | .top => .ok (s.goto .starting [.start])
    | _ => .err ()
  /- execgraph-remote.rs:222-231; an error ends `run_command`, and `main` its loop (174-177). -/
  | .startReply none =>
    match s.phase with
    | .starting => .ok (s.goto .cleaning [])
    | _ => .err ()
  | .startReply (some r) =>
    match s.phase with
    | .starting => .ok ({ s with lost := false }.goto (.got r) [.received r])
    | _ => .err ()
  /- `cmdline[0]` (execgraph-remote.rs:331) panics if there is none; `fd_mappings` (338-339) if descriptor 3 is used twice. -/
  | .spawn pid =>
    match s.phase with
    | .got r =>
      if r.cmdline = [] ∨ r.inputFd = some 3 then .ok (s.goto .panicked [])
      else
        match pid with
        | none => .ok (s.goto (.beginning r none) [.spawn none])
        | some p =>
          if p ∈ s.running then .err ()
          else .ok ({ s with running := p :: s.running }.goto
            (if r.inputFd.isSome then .feeding r p else .beginning r (some p)) [.spawn (some p)])
    | _ => .err ()
  /- execgraph-remote.rs:397-398. -/
  | .fed ok =>
    match s.phase with
    | .feeding r p => if ok then .ok (s.goto (.beginning r (some p)) []) else .ok (s.goto .panicked [])
    | _ => .err ()
  | .sendBegun =>
    match s.phase with
    | .beginning r p => .ok (s.goto (.begun r p) [.begun r.txn (p.getD 0)])
    | _ => .err ()
  /- An error of any kind ends `run_command` (359-361, 414). -/
  | .begunReply ok =>
    match s.phase with
    | .begun r p =>
      if ok then
        match p with
        | some p => .ok (s.goto (.waiting r p false) [])
        | none => .ok (s.goto (.finishing r none) [])
      else .ok (s.goto .cleaning [])
    | _ => .err ()
  /- execgraph-remote.rs:364, 387, 417, 432, 513: `run_command` returns an error, `main` leaves its loop (174-177). -/
  | .giveUp =>
    if s.lost then
      match s.phase with
      | .beginning _ _ | .begun _ _ | .waiting _ _ _ | .finishing _ _ | .ending _ _ => .ok (s.goto .cleaning [])
      | _ => .err ()
    else .err ()
  /- `wait_with_output` is ready (execgraph-remote.rs:428-430): the child has ended and its pipes are closed. -/
  | .output out =>
    match s.phase with
    | .waiting r p _ => if p ∈ s.running then .err () else .ok (s.goto (.finishing r (some out)) [.output p out])
    | _ => .err ()
  /- `wait_with_output` fails (execgraph-remote.rs:429): the error is converted. -/
  | .waitFails =>
    match s.phase with
    | .waiting _ _ _ => .ok (s.goto .stuck [])
    | _ => .err ()
  /- execgraph-remote.rs:434-459. -/
  | .slurm =>
    match s.phase with
    | .waiting r p _ => .ok (s.goto (.gasping r) [.sigterm p, .finish r.txn (-15) [] false])
    | _ => .err ()
  /- The answer is not looked at (execgraph-remote.rs:449, 457-460). -/
  | .gasped =>
    match s.phase with
    | .gasping _ => .ok (s.goto .cleaning [])
    | _ => .err ()
  /- execgraph-remote.rs:462-468. -/
  | .deadline =>
    match s.phase with
    | .waiting r p _ =>
      if Remote.deadline c.startTime c.duration ≤ s.now then .ok (s.goto (.waiting r p true) [.sigterm p]) else .err ()
    | _ => .err ()
  | .sendEnd =>
    match s.phase with
    | .finishing r out => .ok (s.goto (.ending r (accepting c s)) [endRequest c s r out])
    | _ => .err ()
  /- execgraph-remote.rs:380-384, 497-510, and the loop of `main` (163-186): with another task `run_command` is called again
  with it and a new token (238). The server sends a task only if asked (server.rs:493-507). -/
  | .endReply r =>
    match s.phase with
    | .ending _ asked =>
      match r with
      | none => .ok (s.goto .cleaning [])
      | some none => .ok (s.goto .cleaning [])
      | some (some r') => if asked then .ok ({ s with lost := false }.goto (.got r') [.received r']) else .err ()
    | _ => .err ()
  /- execgraph-remote.rs:196-198. Simplified: the cleanup does not end by an unexpected error of `waitpid`. -/
  | .cleaned =>
    match s.phase with
    | .cleaning => if s.running = [] then .ok (s.goto .exited []) else .err ()
    | _ => .err ()

end Verif.Remote
