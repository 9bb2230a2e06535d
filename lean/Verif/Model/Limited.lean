import Verif.Model.System
import Verif.Model.Gcra

/-!
# An `execute` with its rate limiter (sync.rs:92, 173, 575-577, 612-641)

The runners and the server as in `Verif.Model.System`, where a call of `recv` gets past the rate limiter at any moment. Here it needs a
permit of the limiter of `Verif.Model.Gcra`.

Simplified: a call of `compute` (time/gcra.rs:73-92) is one action, with the clock as it is then (`Verif.Model.Gcra` has the single
accesses of concurrent callers). The clock of the limiter (time/gcra.rs:115-117) and that of the log are not tied to each other.
-/

namespace Verif.Limited
open Verif Verif.Tracker Verif.Sys

/-- The execute, `ratelimiter_launch` (sync.rs:92) and its clock in nanoseconds. -/
structure State where
  sys : Sys.State
  lim : Gcra.Limiter
  now : Nat

/-- The start of `execute` at time `t` of the limiter's clock, with `ratelimit_per_second = rate` (execgraph.rs:242-340, sync.rs:173). -/
def init (c : Sys.Cfg) (lf : LogFile) (now : Int) (t rate : Nat) : State := ⟨Sys.init c lf now, Gcra.mkNew t rate, t⟩

/-- What happens: an action of the execute; time passes; somebody who waits for the limiter is told to wait on (time/gcra.rs:66-69);
`POST /ratelimit` (admin_server.rs:20-26). -/
inductive Act where
  | sys (a : Sys.Act)
  | pass (d : Nat)
  | refused
  | setRate (rate : Nat)

/-- Does the action begin with `until_ready` (sync.rs:614; localrunner.rs:46, server.rs:362)? -/
def asksPermit : Sys.Act → Bool
  | .loopRecv _ | .hRecv _ => true
  | _ => false

/-- Is anybody in `until_ready` (sync.rs:614)? -/
def anyAsking (s : Sys.State) : Bool :=
  s.loops.any (fun l => match l with | .top => true | _ => false) || s.handlers.any (fun h => match h with | .toRecv _ _ => true | _ => false)

/-- `compute(1)` (time/gcra.rs:73-92): the limiter afterwards and the time to wait. -/
def compute (s : State) : Gcra.Limiter × Nat :=
  let r := Gcra.computeRaw s.now s.lim.tat s.lim.tau 1
  ({ s.lim with tat := r.1 }, r.2)

/-- One action (sync.rs:575-577, 612-641, time/gcra.rs:43-92). -/
def step (c : Sys.Cfg) (s : State) : Act → Res Unit State
  | .sys a =>
    if asksPermit a then
      if (compute s).2 = 0 then (Sys.step c s.sys a).bind (fun y => .ok ⟨y, (compute s).1, s.now⟩) else .err ()
    else (Sys.step c s.sys a).bind (fun y => .ok { s with sys := y })
  | .pass d => .ok { s with now := s.now + d }
  | .refused => if anyAsking s.sys ∧ (compute s).2 ≠ 0 then .ok { s with lim := (compute s).1 } else .err ()
  | .setRate rate => .ok { s with lim := Gcra.mkNew s.now rate }

end Verif.Limited
