import Verif.Model.System
import Verif.Model.Remote

/-!
# Server and remote runners together

The server of `Verif.Model.System` and any number of remote runners of `Verif.Model.Remote`, and between them a network that
may lose or delay requests and answers but not duplicate them (execgraph-remote.rs sends each request once; retries inside
reqwest and hyper are not modelled). Every runner has its own clock.

Others who know the authorization token (the provisioner, execgraph.rs:325-383, and the background task of a runner that
sends pings, execgraph-remote.rs:254-290) are free to send what they are meant to: see `harmless`.
-/

namespace Verif.Cluster
open Verif

/-- What a runner is started with: `rem`: its limits; `rt`: `--runnertypeid` (execgraph-remote.rs:46-73); `job`: `SLURM_JOBID`
(37-42), which is text; `host`: `gethostname()`. -/
structure RCfg where
  rem : Remote.Cfg
  rt : Nat
  job : String
  host : String
deriving DecidableEq, Repr

/-- A remote runner; `waits`: the packet whose answer the main task awaits; `tasks` (ghost): the tasks received, each with the
number of the HTTP handler it came from and its transaction (src/bin/execgraph-remote.rs:88-198). -/
structure Runner where
  cfg : RCfg
  st : Remote.State
  waits : Option Nat
  tasks : List (Nat × Nat × Nat)

/-- A request on the network: who sent it, and the handler it got when it arrived (`none`: not arrived).
No counterpart in the code: the network. -/
structure Packet where
  sender : Nat
  req : Sys.Request
  handler : Option Nat

/-- The server, the runners, and all requests sent by them.
No counterpart in the code: server.rs and src/bin/execgraph-remote.rs together. -/
structure State where
  sys : Sys.State
  runners : List Runner
  packets : List Packet

/-- Actions. Server: see `Verif.Model.System`; runner: see `Verif.Model.Remote`; the network has no counterpart in the code. -/
inductive Act where
  /-- Anything but a request, on the server's side. -/
  | server (a : Sys.Act)
  /-- A request of somebody else. -/
  | other (r : Sys.Request)
  /-- A runner is started. -/
  | join (cfg : RCfg)
  /-- A step of a runner, but for getting an answer. -/
  | runner (i : Nat) (a : Remote.Act)
  /-- A request arrives. -/
  | arrive (k : Nat)
  /-- The answer to what the runner waits for arrives. -/
  | answer (i : Nat)
  /-- The runner gets no answer, but an error of the network. -/
  | fail (i : Nat)

/-- No runners yet (execgraph.rs:325-383: the provisioner starts them). -/
def init (c : Sys.Cfg) (lf : LogFile) (now : Int) : State := ⟨Sys.init c lf now, [], []⟩

/-- `StartResponse` for a task (server.rs:392-397). -/
def resp (g : DiGraph Cmd) (txn v : Nat) : Remote.StartResp :=
  ⟨txn, (Tracker.cmdOf g v).cmdline, (Tracker.cmdOf g v).fdInput.map (·.1)⟩

/-- The request that goes with what is seen of a runner (execgraph-remote.rs:123-150 headers, 222-226 /start, 351-357 and
407-412 /begun, 371-379, 449-456 and 480-496 /end). -/
def request (c : Sys.Cfg) (r : RCfg) : Remote.Obs → Option Sys.Request
  | .start => some ⟨some c.secret, some (some r.job), .start r.rt⟩
  | .begun txn pid => some ⟨some c.secret, some (some r.job), .begun txn r.host pid⟩
  | .finish txn status values next =>
    some ⟨some c.secret, some (some r.job), .finish txn status values (if next then some r.rt else none)⟩
  | _ => none

/-- Is the action an answer? (src/bin/execgraph-remote.rs:222-229, 351-360, 371-383, 407-414, 449-460, 480-500). -/
def isAnswer : Remote.Act → Bool
  | .startReply _ | .begunReply _ | .endReply _ | .gasped => true
  | _ => false

/-- What a runner makes of an answer (`none`: an error): its next action, and the task it got. `error_for_status`
(execgraph-remote.rs:229, 360, 383, 414, 500): anything but 200 is an error; the answer to the last request of a runner ended
by Slurm is not looked at (449-460). -/
def hears (g : DiGraph Cmd) (p : Remote.Phase) (x : Option Sys.Reply) : Option (Remote.Act × List (Nat × Nat)) :=
  match p with
  | .starting =>
    match x with
    | some (.task txn v) => some (.startReply (some (resp g txn v)), [(txn, v)])
    | _ => some (.startReply none, [])
  | .begun _ _ => some (.begunReply (x = some .ok), [])
  | .ending _ _ =>
    match x with
    | some (.task txn v) => some (.endReply (some (some (resp g txn v))), [(txn, v)])
    | some .ended => some (.endReply (some none), [])
    | _ => some (.endReply none, [])
  | .gasping _ => some (.gasped, [])
  | _ => none

/-- Runner `i` gets an answer, from handler `h` (src/bin/execgraph-remote.rs:222-229, 351-360, 371-383, 407-414, 449-460, 480-500). -/
def hear (c : Sys.Cfg) (s : State) (i : Nat) (r : Runner) (h : Nat) (x : Option Sys.Reply) : Res Unit State :=
  match hears c.tr.g r.st.phase x with
  | some (a, got) =>
    (Remote.step r.cfg.rem r.st a).bind (fun st =>
      .ok { s with runners := s.runners.set i { r with
        st := st
        waits := none
        tasks := r.tasks ++ got.map (fun y => (h, y)) } })
  | none => .err ()

/-- Requests others may send: without the token anything; with it pings (execgraph-remote.rs:262-265), cancellations of Slurm
jobs (by the provisioner), and what can not be decoded. -/
def harmless (c : Sys.Cfg) (r : Sys.Request) : Bool :=
  decide (r.auth ≠ some c.secret) || (match r.body with | .ping _ | .mark _ | .bad => true | _ => false)

/-- Is it a request? (server.rs:567-616). -/
def isRequest : Sys.Act → Bool
  | .request _ => true
  | _ => false

/-- One action. No counterpart in the code: interleaving of server, runners and network. -/
def step (c : Sys.Cfg) (s : State) : Act → Res Unit State
  | .server a => if isRequest a then .err () else (Sys.step c s.sys a).bind (fun t => .ok { s with sys := t })
  | .other r => if harmless c r then (Sys.step c s.sys (.request r)).bind (fun t => .ok { s with sys := t }) else .err ()
  | .join cfg => .ok { s with runners := s.runners ++ [⟨cfg, Remote.init cfg.rem, none, []⟩] }
  | .runner i a =>
    match s.runners[i]? with
    | some r =>
      if isAnswer a then .err ()
      else (Remote.step r.cfg.rem r.st a).bind (fun st =>
        let new := (st.trace.drop r.st.trace.length).filterMap (request c r.cfg)
        .ok { s with
          runners := s.runners.set i { r with
            st := st
            waits := if new = [] then r.waits else some s.packets.length }
          packets := s.packets ++ new.map (fun q => ⟨i, q, none⟩) })
    | none => .err ()
  | .arrive k =>
    match s.packets[k]? with
    | some ⟨i, q, none⟩ =>
      (Sys.step c s.sys (.request q)).bind (fun t =>
        .ok { s with
          sys := t
          packets := s.packets.set k ⟨i, q, some s.sys.handlers.length⟩ })
    | _ => .err ()
  | .answer i =>
    match s.runners[i]? with
    | some r =>
      match r.waits.bind (fun k => (s.packets[k]?).bind (·.handler)) with
      | some h =>
        match s.sys.handlers[h]? with
        | some (.done x) => hear c s i r h x
        | _ => .err ()
      | none => .err ()
    | none => .err ()
  | .fail i =>
    match s.runners[i]? with
    | some r => if r.waits.isSome then hear c s i r 0 none else .err ()
    | none => .err ()

end Verif.Cluster
