import Verif.Model.World

/-!
# Histories in which `execute` panics, or its last flush fails, and the session goes on

`background_serve` and `drain` return an error when printing or flushing fails (sync.rs:288-289, 303-311, 433-467), and `execute` turns it into a panic
(execgraph.rs:388-391, 397). To Python this is an exception: the process need not end, and the graph can be used again (as in an interactive
session). When everything is done, `execute` flushes the log, and after that the printed lines are flushed; if one of these fails the
caller gets an exception, too (execgraph.rs:413, pylib.rs:367). Failures of writes to the log itself are in `Model/LogIo`.
-/

namespace Verif.Abort
open Verif Verif.World

/-- Actions: those of `World`, `execute` panicking (execgraph.rs:388-391, 397), and its last flush failing (execgraph.rs:413, pylib.rs:367). -/
inductive Act where
  | world (a : World.Act)
  /-- `execute` panics; of the entries the action `a` of the scheduler would write, `k` have been written (between two actions: `k = 0`). -/
  | panics (a : Option (Tracker.Act × Nat))
  /-- `execute` ends with an error instead of its result; `k` entries are on disk. -/
  | unflushed (k : Nat)

/-- The log when action `a` is broken off after `k` entries (sync.rs: `?` behind each `logfile.write` and `rawlog!`). -/
def cutStep (r : Running) : Option (Tracker.Act × Nat) → Res Unit LogFile
  | none => .ok r.st.lf
  | some (a, k) =>
    if Tracker.disciplined r.st a = false then .err ()
    else
      match Tracker.step r.cfg r.st a with
      | .ok st =>
        match r.st.lf.writeAll ((st.lf.entries.drop r.st.lf.entries.length).take k) with
        | .ok lf => .ok lf
        | _ => .err ()
      | _ => .err ()

/-- What remains of the session after a panic (execgraph.rs:388-414 not reached): the log in memory; `completed` is as `get_subgraph` has
left it. After a failing flush: what `execute` has done before it (execgraph.rs:399-411). -/
def step (w : World) : Act → Res Unit World
  | .world a => World.step w a
  | .panics a =>
    match w.sess with
    | none => .err ()
    | some s =>
      match s.run with
      | none => .err ()
      | some r =>
        (cutStep r a).bind (fun lf => .ok { w with sess := some { s with
          g := { s.g with logfile := lf }
          run := none } })
  | .unflushed k =>
    match w.sess with
    | none => .err ()
    | some s =>
      match s.run with
      | none => .err ()
      | some r =>
        if r.st.pc ≠ .done ∨ k < s.flushed ∨ r.st.lf.entries.length < k then .err ()
        else .ok { w with sess := some { s with
          g := { s.g with
            logfile := r.st.lf
            completed := insertKeys s.g.completed (r.st.processed.map (fun x => (Tracker.cmdOf r.cfg.g x.1).key)) }
          run := none
          flushed := k } }

end Verif.Abort
