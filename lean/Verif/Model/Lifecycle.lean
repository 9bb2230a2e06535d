import Verif.Model.Base

/-!
# The tasks behind `execute` with a provisioner (execgraph.rs:320-395, 419-443, admin_server.rs:71-116)

HTTP server, admin server and provisioner run beside the main loop; `execute` returns when all of them have ended. Here only their
beginning and end are modelled, what the requests do is in `Model/System`. The local loops are left out (see there).
-/

namespace Verif.Lifecycle
open Verif

/-- Where a server is (execgraph.rs:337-364, admin_server.rs:71-116). -/
inductive Srv where
  | starting
  | up
  /-- `with_graceful_shutdown`: no new requests, the old ones are answered (execgraph.rs:346, 355; admin_server.rs:111-112). -/
  | draining
  /-- The ping reaper is told to stop and awaited (execgraph.rs:359-360). Simplification: it has not panicked. -/
  | stopping
  | done
  /-- No place for the admin socket (admin_server.rs:79-97). -/
  | skipped
  /-- A panic. -/
  | dead
deriving DecidableEq, Repr

/-- Where the task of the provisioner is (execgraph.rs:367-382). -/
inductive Prov where
  /-- Waiting for the address of the HTTP server (368). -/
  | awaiting
  /-- In the `select!` (execgraph.rs:430-440). -/
  | running
  | done
  | dead
deriving DecidableEq, Repr

/-- The process of the provisioner (execgraph.rs:419-443). -/
inductive Proc where
  | none | alive
  /-- It has exited by itself. -/
  | ended
  /-- SIGINT (execgraph.rs:433), then at once SIGKILL, as the `Child` is dropped (`kill_on_drop`, execgraph.rs:428). -/
  | killed
deriving DecidableEq, Repr

/-- Where `execute` itself is: in `background_serve` (388-391), in `join_all` (395), behind it. -/
inductive Main where
  | serving | joining | returned
deriving DecidableEq, Repr

/-- A request being answered. A status request is answered when something becomes ready, or else at the moment `until` (its start and the larger
of `timeout_ms` and `timemin_ms`: server.rs:204-211, sync.rs:687-704); it does not look at the token. For the others `none`: they come to an end by
themselves, or when the token is cancelled (server.rs:356-361, 493-496). -/
structure Req where
  due : Option Nat
deriving DecidableEq, Repr

/-- The state of everything (execgraph.rs:320-395). -/
structure State where
  now : Nat
  /-- Is the token hard cancelled? -/
  hard : Bool
  main : Main
  http : Srv
  httpReqs : List Req
  /-- Has the address been sent (execgraph.rs:343-345)? -/
  addr : Bool
  admin : Srv
  adminReqs : List Req
  /-- Is there a socket file? -/
  sock : Bool
  prov : Prov
  proc : Proc
deriving DecidableEq, Repr

/-- After `tokio::spawn` (execgraph.rs:338-367). -/
def init (now : Nat) : State := ⟨now, false, .serving, .starting, [], false, .starting, [], false, .awaiting, .none⟩

/-- What can happen (execgraph.rs:320-395, 419-443, admin_server.rs:71-116). -/
inductive Act where
  | tick (d : Nat)
  /-- `background_serve` returns; hard cancellation (execgraph.rs:388-392). -/
  | mainEnd
  /-- `join_all` returns (execgraph.rs:395). -/
  | joinDone
  /-- Bound, address sent (execgraph.rs:340-345). -/
  | httpUp
  /-- `Server::bind` panics (execgraph.rs:341). -/
  | httpBindFail
  | httpRequest (due : Option Nat)
  /-- The token is seen to be cancelled (execgraph.rs:346). -/
  | httpSeeHard
  /-- All requests are answered (execgraph.rs:355). -/
  | httpDrained
  /-- The reaper has stopped; hard cancellation (execgraph.rs:359-361). -/
  | httpDone
  /-- Bound (admin_server.rs:105-106). -/
  | adminUp
  /-- admin_server.rs:79-97 -/
  | adminSkip
  /-- `unwrap` of a failed `bind` (admin_server.rs:106). -/
  | adminBindFail
  | adminRequest (due : Option Nat)
  /-- A request for a hard shutdown (admin_server.rs:56-58). -/
  | adminHard
  | adminSeeHard
  /-- All requests are answered; the socket file is removed, or `unwrap` of the failure to do so (admin_server.rs:112-115). -/
  | adminDrained
  /-- Somebody else removes the socket file. -/
  | sockRemoved
  /-- A request of the HTTP server is answered. -/
  | answer (i : Nat)
  | adminAnswer (i : Nat)
  /-- A client hangs up, its request is dropped (hyper). -/
  | hangup (i : Nat)
  | adminHangup (i : Nat)
  /-- The provisioner is started (execgraph.rs:424-429), or cannot be started: hard cancellation (370-380). -/
  | provSpawn (ok : Bool)
  /-- `expect` on the address that never comes (execgraph.rs:368). -/
  | provNoAddr
  /-- The process of the provisioner exits. -/
  | procExit
  /-- Its exit is seen: hard cancellation (execgraph.rs:436-439, 380). -/
  | provSeeExit
  /-- The token is seen to be cancelled (execgraph.rs:432-434, 380): SIGINT, then SIGKILL. There is no time in between, but the process may
  be fast (`exited`). -/
  | provCancel (exited : Bool)
deriving DecidableEq, Repr

/-- Can a request be answered now? (execgraph.rs:337-364, admin_server.rs:103-112; crate hyper). -/
def answerable (s : State) (r : Req) : Bool :=
  match r.due with
  | none => true
  | some d => decide (d ≤ s.now) || s.main == .serving

/-- Has this task ended (`JoinHandle`; a panic is an end, too)? (execgraph.rs:395). -/
def ended : Srv → Bool
  | .done | .skipped | .dead => true
  | _ => false

/-- The transition function (execgraph.rs:320-395, 419-443, admin_server.rs:71-116). -/
def step (s : State) : Act → Res Unit State
  | .tick d => .ok { s with now := s.now + d }
  | .mainEnd => if s.main = .serving then .ok { s with
      main := .joining
      hard := true } else .err ()
  | .joinDone =>
    if s.main = .joining && ended s.http && ended s.admin && (s.prov = .done || s.prov = .dead) then .ok { s with main := .returned }
    else .err ()
  | .httpUp => if s.http = .starting then .ok { s with
      http := .up
      addr := true } else .err ()
  | .httpBindFail => if s.http = .starting then .ok { s with http := .dead } else .err ()
  | .httpRequest due => if s.http = .up then .ok { s with httpReqs := s.httpReqs ++ [⟨due⟩] } else .err ()
  | .httpSeeHard => if s.http = .up && s.hard then .ok { s with http := .draining } else .err ()
  | .httpDrained => if s.http = .draining && s.httpReqs.isEmpty then .ok { s with http := .stopping } else .err ()
  | .httpDone => if s.http = .stopping then .ok { s with
      http := .done
      hard := true } else .err ()
  | .adminUp => if s.admin = .starting then .ok { s with
      admin := .up
      sock := true } else .err ()
  | .adminSkip => if s.admin = .starting then .ok { s with admin := .skipped } else .err ()
  | .adminBindFail => if s.admin = .starting then .ok { s with admin := .dead } else .err ()
  | .adminRequest due => if s.admin = .up then .ok { s with adminReqs := s.adminReqs ++ [⟨due⟩] } else .err ()
  | .adminHard => if s.admin = .up || s.admin = .draining then .ok { s with hard := true } else .err ()
  | .adminSeeHard => if s.admin = .up && s.hard then .ok { s with admin := .draining } else .err ()
  | .adminDrained =>
    if s.admin = .draining && s.adminReqs.isEmpty then
      if s.sock then .ok { s with
        admin := .done
        sock := false } else .ok { s with admin := .dead }
    else .err ()
  | .sockRemoved => if s.sock then .ok { s with sock := false } else .err ()
  | .answer i =>
    match s.httpReqs[i]? with
    | some r => if answerable s r then .ok { s with httpReqs := s.httpReqs.eraseIdx i } else .err ()
    | none => .err ()
  | .adminAnswer i =>
    match s.adminReqs[i]? with
    | some r => if answerable s r then .ok { s with adminReqs := s.adminReqs.eraseIdx i } else .err ()
    | none => .err ()
  | .hangup i => if i < s.httpReqs.length then .ok { s with httpReqs := s.httpReqs.eraseIdx i } else .err ()
  | .adminHangup i => if i < s.adminReqs.length then .ok { s with adminReqs := s.adminReqs.eraseIdx i } else .err ()
  | .provSpawn ok =>
    if s.prov = .awaiting && s.addr then
      if ok then .ok { s with
        prov := .running
        proc := .alive } else .ok { s with
        prov := .done
        hard := true }
    else .err ()
  | .provNoAddr => if s.prov = .awaiting && s.http = .dead && !s.addr then .ok { s with prov := .dead } else .err ()
  | .procExit => if s.proc = .alive then .ok { s with proc := .ended } else .err ()
  | .provSeeExit => if s.prov = .running && s.proc = .ended then .ok { s with
      prov := .done
      hard := true } else .err ()
  | .provCancel exited =>
    if s.prov = .running && s.hard then .ok { s with
      prov := .done
      hard := true
      proc := if s.proc = .alive && !exited then .killed else .ended }
    else .err ()

end Verif.Lifecycle
