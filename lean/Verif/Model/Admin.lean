import Verif.Model.System
import Verif.Model.Gcra
import Verif.Model.Mirror

/-!
# Requests to the admin socket (admin_server.rs:20-69)

The four routes of the admin server beside the rest of an execute. Not modelled: the socket (see `Model/Sockets`), HTTP, and of the answer to
every request (`status_handler`, server.rs:191-237) everything but the rate limit and the provisioner info (see `Model/Status`, `Model/Snapshot`
and `Model/RateCounter` for the rest). A handler that panics ends the connection it was called for (hyper runs each in a task of its own), nothing else.
-/

namespace Verif.Admin
open Verif

/-- A request: `UpdateRatelimitRequest`, `UpdateRemoteProvisionerInfoRequest`, `ShutdownRequest` (httpinterface.rs:28-43), `/status`; `bad`: another route, or a body
that is not the JSON asked for. -/
inductive Req where
  | ratelimit (perSecond : Nat)
  | info (i : Option String)
  | status
  | shutdown (username : String) (soft : Bool)
  | bad
deriving DecidableEq, Repr

/-- What a handler finds around it: the clock of the limiter in ns; the number of threads of the process; the date as RFC 2822 text. -/
structure Env where
  now : Nat
  threads : Nat
  date : String
deriving DecidableEq, Repr

/-- Does the crate `time` 0.3.28 (Cargo.lock:1788) refuse to read the time zone in a process with several threads? It does by default, but importing the module
turns that off: `set_soundness(Soundness::Unsound)` (pylib.rs:424-426). -/
def refusesThreads : Bool := false

/-- The answer. `status`: 200, with the rate limit and the provisioner info of `StatusReply` (server.rs:233, 235); `refused`: 4xx by router or extractor; `panic`: no
answer, the connection is closed. -/
inductive Answer where
  | status (ratelimit : Nat) (info : Option String)
  | refused
  | panic
deriving DecidableEq, Repr

/-- The scheduler and all its runners, the limiter, `provisioner.info` (server.rs:67-70), the output. -/
structure State where
  sys : Sys.State
  lim : Gcra.Limiter
  info : Option String
  out : Mirror.Dual

/-- `OffsetDateTime::now_local()` (admin_server.rs:45) on Linux, in `time` 0.3.28. Simplified: `localtime_r` itself does not fail, and the date can be written as
RFC 2822 asks (admin_server.rs:49: the year is at least 1900). -/
def nowLocal (e : Env) : Option String := if refusesThreads && e.threads != 1 then none else some e.date

/-- The pieces of the warning (admin_server.rs:47-52), as `write_fmt` hands them out. -/
def warning (date user : String) (soft : Bool) : List String :=
  ["[", date, "]: \x1b[1;33mWarning\x1b[0m: ", if soft then "Soft" else "Hard", " shutdown triggered by admin '", user, "'\n"]

/-- Bytes of the pieces. What `write_fmt` passes to `write_all` (logging.rs:171-176). -/
def raw (ps : List String) : List Mirror.Bytes := ps.map (fun t => t.toByteArray.data.toList)

/-- `status_handler(Extension(state), None)` (server.rs:191-237, called at admin_server.rs:25, 36, 59): of the answer, what the admin can set.
`get_launch_ratelimit` casts to `u32` (sync.rs:581). -/
def answer (s : State) : Answer := .status (Gcra.ratePerSecond s.lim % 2 ^ 32) s.info

/-- What the shutdown does (admin_server.rs:54-58). -/
def shutdownAct (soft : Bool) : Sys.Act := .server (if soft then .trigger else .cancel .hard)

/-- `post_shutdown_handler` (admin_server.rs:39-60): the date (45), the warning (47-53), and only then the shutdown (54-58). `unwrap` (45) and `expect` (53) panic.
`cancel` and `trigger_soft_shutdown` always succeed. -/
def shutdown (c : Sys.Cfg) (e : Env) (user : String) (soft : Bool) (s : State) : State × Answer :=
  match nowLocal e with
  | none => (s, .panic)
  | some d =>
    match Mirror.rawlog s.out (raw (warning d user soft)) with
    | (out, .ok _) =>
      match Sys.step c s.sys (shutdownAct soft) with
      | .ok y => ({ s with sys := y, out := out }, answer s)
      | _ => ({ s with out := out }, .panic)
    | (out, _) => ({ s with out := out }, .panic)

/-- The admin router (admin_server.rs:20-69). `set_ratelimit` is `reset` of the limiter (sync.rs:575-577, gcra.rs:43-52). -/
def handle (c : Sys.Cfg) (e : Env) (s : State) : Req → State × Answer
  | .ratelimit r => ({ s with lim := Gcra.mkNew e.now r }, answer { s with lim := Gcra.mkNew e.now r })
  | .info i => ({ s with info := i }, answer { s with info := i })
  | .status => (s, answer s)
  | .shutdown user soft => shutdown c e user soft s
  | .bad => (s, .refused)

/-- Actions: of the rest of the execute (its shutdown requests come from the admin, so that `trigger` is not among them), a permit asked for (sync.rs:614, gcra.rs:73-92), a
`rawlog!` of the scheduler, a request. -/
inductive Act where
  | sys (a : Sys.Act)
  | permit (now : Nat)
  | print (ps : List Mirror.Bytes)
  | admin (e : Env) (r : Req)

/-- Not a soft shutdown by the admin. That one is only made by the handler (admin_server.rs:39-60). -/
def own : Sys.Act → Bool
  | .server .trigger => false
  | _ => true

/-- One step. A permit and a request take one step each here (see `Model/Gcra` for the atomic accesses).
Requests: admin_server.rs:20-60; permits: time/gcra.rs:63-92; printing: logging.rs:171-176. -/
def step (c : Sys.Cfg) (s : State) : Act → Res Unit (State × Option Answer)
  | .sys a => if own a then (Sys.step c s.sys a).bind (fun y => .ok ({ s with sys := y }, none)) else .err ()
  | .permit now => .ok ({ s with lim := { s.lim with tat := (Gcra.computeRaw now s.lim.tat s.lim.tau 1).1 } }, none)
  | .print ps => .ok ({ s with out := (Mirror.rawlog s.out ps).1 }, none)
  | .admin e r => .ok ((handle c e s r).1, some (handle c e s r).2)

end Verif.Admin
