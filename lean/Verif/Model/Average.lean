import Verif.Model.Tracker
import Verif.Model.Ring

/-!
# The average runtime in the status, over an `execute` (sync.rs:82, 95, 143, 164, 176, 412-423, 600-604)

The server of `Verif.Model.Tracker` together with the ring buffer of `Verif.Model.Ring`.

Simplified: the conversion of the average to f32 seconds (server.rs:234) is not modelled. The lock around the buffer
(simpleringbuffer.rs:22, 39) makes each push and each mean one step.
-/

namespace Verif.Average
open Verif Verif.Tracker

/-- The server and `recently_inflight_elapsed_time` (sync.rs:82), which the clients view (sync.rs:95, 176). -/
structure State where
  tr : Tracker.State
  ring : Ring.Ring

/-- `new_ready_tracker` (sync.rs:143, 164): room for 100 runtimes. -/
def init (c : Cfg) (lf : LogFile) (now : Int) : Res Unit State :=
  (Ring.mkNew 100).bind (fun r => .ok ⟨Tracker.init c lf now, r⟩)

/-- The part of `_finished_bookkeeping_1` on runtimes (sync.rs:412-422); `infl` is `self.inflight`. Instants are never negative, and
`now - started` is 0 if `started` were later. -/
def record (infl : List (Nat × Int)) (now : Int) (r : Ring.Ring) (e : Fin) : Ring.Ring :=
  match infl.lookup e.id with
  | some started => if e.status.isSuccess then Ring.push r (now - started).toNat else r
  | none => r

/-- The runtimes recorded by `drain` (sync.rs:186-229): `self.inflight` stays as it was until the channel is empty (sync.rs:184, 231); the
made-up reports after that are no successes (sync.rs:233-236). -/
def recordAll (infl : List (Nat × Int)) (now : Int) : Ring.Ring → List Event → Ring.Ring
  | r, [] => r
  | r, .finished e :: es => recordAll infl now (record infl now r e) es
  | r, .started _ _ _ _ :: es => recordAll infl now r es

/-- What an action does to the runtimes (sync.rs:303-308, 198-200). -/
def ringAfter (s : State) : Act → Ring.Ring
  | .recvFinished _ _ =>
    match s.tr.chan with
    | .finished e :: _ => record s.tr.inflight s.tr.now s.ring e
    | _ => s.ring
  | .drain _ _ => recordAll s.tr.inflight s.tr.now s.ring s.tr.chan
  | _ => s.ring

/-- One action (sync.rs:183-714). -/
def step (c : Cfg) (s : State) (a : Act) : Res Unit State :=
  (Tracker.step c s.tr a).bind (fun t => .ok ⟨t, ringAfter s a⟩)

/-- `get_average_recent_task_runtime` (sync.rs:600-604), in milliseconds. -/
def average (s : State) : Res Unit Nat := Ring.mean s.ring

end Verif.Average
