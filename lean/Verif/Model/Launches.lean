import Verif.Model.Tracker
import Verif.Model.RateCounter

/-!
# The launch rate in the status, over an `execute` (sync.rs:93, 174, 584-587, 637)

The server and its clients of `Verif.Model.Tracker` together with the rate counter of `Verif.Model.RateCounter`.

Simplified: reading the clock and updating the counter (sync.rs:637) are one step with the update of the queue counters (sync.rs:634-636).
Numbers are real numbers.
-/

namespace Verif.Launches
open Verif Verif.Tracker

/-- A moment of the clock (nanoseconds) in seconds. -/
noncomputable def secs (t : Int) : ℝ := (t : ℝ) / 1000000000

/-- The server, its clients and `ratecounter_launch` (sync.rs:93). -/
structure State where
  tr : Tracker.State
  ctr : RateCounter.Counter

/-- `new_ready_tracker` (sync.rs:174): a decay time of 30 s (constants.rs:7). -/
noncomputable def init (c : Cfg) (lf : LogFile) (now : Int) : State :=
  ⟨Tracker.init c lf now, RateCounter.new 30 (secs now) (secs now)⟩

/-- `recv` updates the counter when it returns a task (sync.rs:637); nothing else does. -/
noncomputable def ctrAfter (s : State) : Act → RateCounter.Counter
  | .account _ => RateCounter.update s.ctr (secs s.tr.now)
  | _ => s.ctr

/-- One action (sync.rs:183-714). -/
noncomputable def step (c : Cfg) (s : State) (a : Act) : Res Unit State :=
  (Tracker.step c s.tr a).bind (fun t => .ok ⟨t, ctrAfter s a⟩)

/-- `get_launch_rate` (sync.rs:584-587). -/
noncomputable def rate (s : State) : ℝ := RateCounter.getRate s.ctr (secs s.tr.now)

end Verif.Launches
