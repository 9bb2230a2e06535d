import Verif.Model.Tracker
import Verif.Spec.Graph

/-!
# Histories: sessions, `execute` calls and process ends over one log file

One process at a time works on the log file (the lock is in `Verif.Model.Lock`). A process opens the log (Python
constructor), adds tasks and calls `execute` any number of times, and ends in any way: normally, or killed at any moment.
Panics are outcomes of `step`. Not modelled: io errors, a line torn by the end of the process (`Verif.Model.Json`), and
`write_logfile` (pylib.rs:412-420), with which the user can write anything.

Fields marked *ghost* do not exist in the code and influence nothing else.
-/

namespace Verif.World
open Verif

/-- The choices are such as petgraph's `toposort` and hash set iteration can make (execgraph.rs:446-520; crate petgraph). -/
def legal (g : ExecGraph) (target : Option Nat) (rerun : Bool) (ch : Choices) : Bool :=
  let deps := withPriorities g.deps ch.ordPrio
  deps.isTopo ch.ordPrio && deps.reverse.isTopo ch.ordRev &&
  (pendingGraph (targetGraph deps target ch.ordRev) g.completed g.logfile.mem).isTopo ch.ordFilt &&
  ch.reuseOrder.isPerm (select deps g.completed g.logfile.mem target rerun ch).2

/-- An `execute` call between its `get_subgraph` and its return (execgraph.rs:277-414). -/
structure Running where
  cfg : Tracker.Cfg
  /-- ghost: the time of `new_ready_tracker`. -/
  now0 : Int
  /-- ghost: the keys in `completed` when `execute` was called. -/
  completed0 : List String
  st : Tracker.State

/-- A process with an open log (pylib.rs:41-48). -/
structure Sess where
  g : ExecGraph
  run : Option Running
  /-- Number of entries known to be on disk, not only in the buffer of the process (`flush`, execgraph.rs:413). -/
  flushed : Nat
  /-- ghost: number of calls of `execute` in this session. -/
  executes : Nat
  /-- ghost: result of the last `execute` that returned (execgraph.rs:414, 270). -/
  result : Option (Nat × List String)

/-- The file, and the process working on it, if any. While a process runs `file` is what the file was when it opened it.
No counterpart in the code: the file and pylib.rs:41-48. -/
structure World where
  file : List LogEntry
  sess : Option Sess
  /-- ghost: some session called `execute` more than once. -/
  multi : Bool

/-- Nothing has happened. No counterpart in the code. -/
def init : World := ⟨[], none, false⟩

/-- The log as the running process has written it, or the file. No counterpart in the code. -/
def World.log (w : World) : List LogEntry :=
  match w.sess with
  | none => w.file
  | some s => match s.run with
    | none => s.g.logfile.entries
    | some r => r.st.lf.entries

/-- Actions (pylib.rs:62-121, 260-367; the end of a process has no counterpart in the code). -/
inductive Act where
  /-- A process starts and calls the Python constructor (pylib.rs:62-122). -/
  | open (dir : String) (roots : List String) (newKey : String) (info : HeaderEntry)
  /-- Python `add_task` (pylib.rs:260-288). -/
  | add (cmd : Cmd) (deps : List Nat)
  /-- `execute` is called (execgraph.rs:242-289, pylib.rs:329-369); `fizzles` is `failures_allowed` as stored. -/
  | exec (target : Option Nat) (rerun : Bool) (fizzles : Nat) (ch : Choices) (now : Int)
  /-- The scheduler or a runner does something (execgraph.rs:291-397). -/
  | trk (a : Tracker.Act)
  /-- `execute` returns (execgraph.rs:399-414). -/
  | finish
  /-- The process ends; the first `keep` entries are on disk. -/
  | stop (keep : Nat)

/-- `self.completed.insert` (execgraph.rs:409-411). -/
def insertKeys (completed : List String) : List String → List String
  | [] => completed
  | k :: ks => insertKeys (if k ∈ completed then completed else completed ++ [k]) ks

/-- Would `add_node` be called with 2^32 - 1 nodes already there? petgraph then panics. (execgraph.rs:217-227) -/
def tooMany (g : ExecGraph) (cmd : Cmd) : Bool :=
  (g.keyToId cmd.key).isNone && !cmd.cmdline.isEmpty && decide (g.deps.n ≥ 2 ^ 32 - 1)

/-- `execute` up to the start of the scheduler (execgraph.rs:260-289). -/
def startExec (w : World) (s : Sess) (target : Option Nat) (rerun : Bool) (fizzles : Nat) (ch : Choices) (now : Int) :
    Res Unit World :=
  match getSubgraph s.g target rerun ch with
  | .ok (sub, g) =>
    if sub.nodes.isEmpty then .ok { w with
      sess := some { s with
        g := g
        executes := s.executes + 1
        result := some (0, []) }
      multi := w.multi || decide (s.executes ≠ 0) }
    else .ok { w with
      sess := some { s with
        g := g
        executes := s.executes + 1
        run := some ⟨⟨sub, fizzles⟩, now, s.g.completed, Tracker.init ⟨sub, fizzles⟩ g.logfile now⟩ }
      multi := w.multi || decide (s.executes ≠ 0) }
  | .err _ => .err ()
  | .panic m => .panic m

/-- The end of `execute` (execgraph.rs:399-414): the keys of `finished_order` count as completed, failed ones too. -/
def endExec (w : World) (s : Sess) (r : Running) : World :=
  let keys := r.st.processed.map (fun x => (Tracker.cmdOf r.cfg.g x.1).key)
  { w with sess := some { s with
      g := { s.g with
        logfile := r.st.lf
        completed := insertKeys s.g.completed keys }
      run := none
      flushed := r.st.lf.entries.length
      result := some (r.st.nFailed, keys) } }

/-- The transition function; `.err ()`: not possible now (or an error reported to the caller that changes nothing)
(pylib.rs:62-121, 260-367). -/
def step (w : World) : Act → Res Unit World
  | .open dir roots newKey info =>
    match w.sess with
    | some _ => .err ()
    | none =>
      match pyNew w.file dir roots newKey info with
      | .ok g => .ok { w with sess := some ⟨g, none, w.file.length, 0, none⟩ }
      | .err _ => .err ()
      | .panic m => .panic m
  | .add cmd deps =>
    match w.sess with
    | none => .err ()
    | some s =>
      if s.run.isSome then .err ()
      else if tooMany s.g cmd then .panic "node index overflow"
      else
        match pyAddTask s.g cmd deps with
        | .ok r => .ok { w with sess := some { s with g := r.2 } }
        | .err _ => .err ()
        | .panic m => .panic m
  | .exec target rerun fizzles ch now =>
    match w.sess with
    | none => .err ()
    | some s =>
      if s.run.isSome || !legal s.g target rerun ch then .err ()
      else startExec w s target rerun fizzles ch now
  | .trk a =>
    match w.sess with
    | none => .err ()
    | some s =>
      match s.run with
      | none => .err ()
      | some r =>
        if Tracker.disciplined r.st a = false then .err ()
        else (Tracker.step r.cfg r.st a).bind (fun st => .ok { w with sess := some { s with run := some { r with st := st } } })
  | .finish =>
    match w.sess with
    | none => .err ()
    | some s =>
      match s.run with
      | none => .err ()
      | some r => if r.st.pc ≠ .done then .err () else .ok (endExec w s r)
  | .stop keep =>
    match w.sess with
    | none => .err ()
    | some s =>
      if s.flushed ≤ keep ∧ keep ≤ w.log.length then .ok { w with file := w.log.take keep, sess := none }
      else .err ()

end Verif.World
