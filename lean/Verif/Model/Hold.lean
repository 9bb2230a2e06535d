import Verif.Model.System

/-!
# How long a request for a task is held (server.rs:346-369)

The rest of an execute as in `Verif.Model.System`, where the time-out of a request that waits for a task may happen at any moment. Here
the moment matters: `tokio::time::sleep(HOLD_RATETIMITED_TIME)`. Not modelled: the time a request and its answer are on the way.
-/

namespace Verif.Hold
open Verif Verif.Tracker Verif.Sys

/-- `HOLD_RATETIMITED_TIME` (constants.rs:6) in nanoseconds. -/
def hold : Int := 30000000000

/-- How long a remote runner waits for an answer before it gives up the request: `timeout` of its HTTP client
(execgraph-remote.rs:153). -/
def patience : Int := 2 * hold

/-- The execute; when each request arrived; when its `sleep` was made: on arrival, or when `start_request_impl` is called from `/end`
(server.rs:342, 360, 502). -/
structure State where
  sys : Sys.State
  came : List Int
  held : List Int

/-- The start of `execute` (execgraph.rs:242-340). No request has come. -/
def init (c : Sys.Cfg) (lf : LogFile) (now : Int) : State := ⟨Sys.init c lf now, [], []⟩

/-- The time-out happens only when the `sleep` is over (server.rs:360-362). -/
def due (s : State) : Sys.Act → Bool
  | .hLeave h _ true => match s.held[h]? with | some t => decide (t + hold ≤ s.sys.tr.now) | none => false
  | _ => true

/-- The times after an action: a request arrives (server.rs:306-344), `/end` goes on to ask for another task (server.rs:496-505). -/
def stamp (s : State) : Sys.Act → List Int × List Int
  | .request _ => (s.came ++ [s.sys.tr.now], s.held ++ [s.sys.tr.now])
  | .hFlag h => (s.came, s.held.set h s.sys.tr.now)
  | _ => (s.came, s.held)

/-- One action (server.rs:111-158, 240-508). -/
def step (c : Sys.Cfg) (s : State) (a : Sys.Act) : Res Unit State :=
  if due s a then (Sys.step c s.sys a).bind (fun y => .ok ⟨y, (stamp s a).1, (stamp s a).2⟩) else .err ()

end Verif.Hold
