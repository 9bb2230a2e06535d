import Verif.Model.Limited
import Verif.Model.RateCounter

/-!
# An `execute` with its rate limiter and its launch counter (sync.rs:92-93, 173-174, 612-641)

`Verif.Model.Limited` together with the rate counter of `Verif.Model.RateCounter`.

Simplified: reading the clock and updating the counter (sync.rs:637) are one step with the return of `recv`. Numbers are real numbers.
-/

namespace Verif.Metered
open Verif Verif.Sys

/-- A moment of the clock (nanoseconds) in seconds. -/
noncomputable def secs (t : Nat) : ℝ := (t : ℝ) / 1000000000

/-- The execute with its limiter, and `ratecounter_launch` (sync.rs:93). -/
structure State where
  lim : Limited.State
  ctr : RateCounter.Counter

/-- The start of `execute` at time `t` with `ratelimit_per_second = rate` (sync.rs:173-174, constants.rs:7). -/
noncomputable def init (c : Sys.Cfg) (lf : LogFile) (now : Int) (t rate : Nat) : State :=
  ⟨Limited.init c lf now t rate, RateCounter.new 30 (secs t) (secs t)⟩

/-- `recv` updates the counter when it returns a task, to a local loop or to a request of a remote runner (sync.rs:637). -/
noncomputable def ctrAfter (s : State) : Limited.Act → RateCounter.Counter
  | .sys (.loopGot _ _) => RateCounter.update s.ctr (secs s.lim.now)
  | .sys (.hGot _ _) => RateCounter.update s.ctr (secs s.lim.now)
  | _ => s.ctr

/-- One action (sync.rs:612-641). -/
noncomputable def step (c : Sys.Cfg) (s : State) (a : Limited.Act) : Res Unit State :=
  (Limited.step c s.lim a).bind (fun l => .ok ⟨l, ctrAfter s a⟩)

/-- `get_launch_rate` (sync.rs:584-587), the `rate` of a status reply (server.rs:230). -/
noncomputable def rate (s : State) : ℝ := RateCounter.getRate s.ctr (secs s.lim.now)

end Verif.Metered
