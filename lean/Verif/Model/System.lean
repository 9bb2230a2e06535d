import Verif.Model.Tracker
import Verif.Model.TimeWheel

/-!
# The runners: local loops (localrunner.rs), HTTP server and ping reaper (server.rs)

One transition system on top of the tracker (`Verif.Model.Tracker`): the runners are the clients of the tracker, and every
tracker action of a client is taken by one of them. As in the tracker one action is one atomic access to shared state;
handlers holding an entry of `connections` exclude all other accesses to that entry, so what they do under it is one action.
The receivers inside `recv` are anonymous in the tracker; an action of a client names the position of its receiver.

Left out: captured stdout and stderr, the disconnect error message (both are only printed), `/status` (in
`Verif.Model.Status`), the admin server but for its two shutdown requests (actions `trigger` and `cancel` of the tracker),
the provisioner process but for the hard cancellation when it exits (action `cancel`), pipes (see `loopSpawn`, `loopDie`).
-/

namespace Verif.Sys
open Verif Verif.Tracker

/-- Parameters of `execute` (execgraph.rs:242-250): the tracker's, `num_parallel`, whether there is a provisioner and hence
an HTTP server, and the authorization token made for it (execgraph.rs:325). -/
structure Cfg where
  tr : Tracker.Cfg
  numParallel : Nat
  remote : Bool
  secret : String

/-- Where a local loop is (localrunner.rs:46-159). -/
inductive Loop where
  /-- About to call `recv` (46). -/
  | top
  /-- In `recv` (46). -/
  | inRecv
  /-- Has obtained `v` (47). -/
  | got (v : Nat)
  /-- The child runs since `start` (96), `send_started` not yet called. -/
  | spawned (v : Nat) (start : Int)
  /-- At the `select!` (133). -/
  | running (v : Nat) (start : Int)
  /-- The child could not be started (99), `send_started` not yet called. -/
  | failing (v : Nat)
  /-- The same, after `send_started` (103). -/
  | failed (v : Nat)
  /-- Soft-cancelled (135), `send_finished` not yet called. -/
  | cancelled (v : Nat)
  /-- The child has ended (145), `send_finished` not yet called. -/
  | ended (v : Nat) (code : Int) (values : List (List (String × String)))
  /-- Returned. -/
  | exited
  /-- Returned because of a hard cancellation (142) while the child was running; nothing is reported. -/
  | killed (v : Nat)
  /-- Panicked while working on `v`; nothing is reported. -/
  | dead (v : Nat)
deriving DecidableEq, Repr

/-- `ConnectionState` (server.rs:48-55) without the command (it is that of `node`) and the message; `begun` (ghost): a
`/begun` was accepted. -/
structure Conn where
  node : Nat
  start : Int
  timer : TimeWheel.TimerID
  jobid : String
  begun : Bool
deriving DecidableEq, Repr

/-- Replies of the HTTP handlers (server.rs:163-186 and the handlers). -/
inductive Reply where
  | task (txn v : Nat)
  | ended
  | ok
  | marked (jobids : List String)
  | gone
  | notFound
  | tooMany
  | unauthorized
  | badRequest
deriving DecidableEq, Repr

/-- Where an HTTP handler is; handlers that finish at once are never seen but `done` (server.rs:240-508). -/
inductive Handler where
  /-- In `start_request_impl` before `recv`, or in it waiting for the rate limiter (server.rs:354, sync.rs:614). -/
  | toRecv (rt : Nat) (jobid : String)
  /-- In `recv` (server.rs:362). -/
  | inRecv (rt : Nat) (jobid : String)
  /-- `recv` has returned `v` (server.rs:371). -/
  | got (v : Nat) (jobid : String)
  /-- The timer is set (server.rs:378), the connection not yet inserted. -/
  | timed (v : Nat) (jobid : String) (txn : Nat) (timer : TimeWheel.TimerID)
  /-- `/end` has taken the connection out (server.rs:466). -/
  | ending (conn : Conn) (code : Int) (values : List (List (String × String))) (next : Option Nat)
  /-- The same, after the timer was cancelled (server.rs:474). -/
  | reporting (conn : Conn) (code : Int) (values : List (List (String × String))) (next : Option Nat)
  /-- `/end` with a further request for a task waits until the end is processed (server.rs:493-496). -/
  | waiting (flag rt : Nat) (jobid : String)
  /-- Answered; `none`: dropped because the client hung up. -/
  | done (reply : Option Reply)
  /-- Panicked with `v`. -/
  | dead (v : Nat)
deriving DecidableEq, Repr

/-- Where the reaper is (server.rs:111-159); `expired` are the tasks of the connections removed so far in this turn. -/
inductive Reaper where
  | idle
  /-- Timers fired, of these transactions (server.rs:124). -/
  | removing (txns expired : List Nat)
  /-- Soft cancellation seen, for these transactions (server.rs:138). -/
  | softRemoving (txns expired : List Nat)
  /-- Reporting (server.rs:143). -/
  | sending (expired : List Nat)
  | stopped
  | dead (expired : List Nat)
deriving DecidableEq, Repr

/-- Everything: the tracker, the local loops (the console loop last), the HTTP server's `State` (server.rs:57-89), its
handlers in the order of the requests, and the reaper. -/
structure State where
  tr : Tracker.State
  loops : List Loop
  conns : List (Nat × Conn)
  wheel : TimeWheel.Wheel Nat
  cancelledJobs : List String
  handlers : List Handler
  reaper : Reaper
  /-- Number of `AsyncFlag`s made by `/end` (server.rs:475). -/
  nextFlag : Nat
  /-- ghost: tasks of connections that were dropped without a report. -/
  forgotten : List Nat
  /-- ghost: tasks whose preamble was called by a runner itself (localrunner.rs:48, server.rs:372), whether or not it
  succeeded. -/
  preCalls : List Nat

/-- `PING_TIMEOUT_MSECS` (constants.rs) in nanoseconds. -/
def pingTimeout : Nat := 35000000000

/-- `TIMEWHEEL_DURATION_MSECS` (server.rs:36) in nanoseconds. -/
def wheelDuration : Nat := 35001000000

/-- The runners as `execute` starts them (execgraph.rs:291-383). -/
def init (c : Cfg) (lf : LogFile) (now : Int) : State where
  tr := Tracker.init c.tr lf now
  loops := if c.numParallel = 0 then [] else List.replicate (c.numParallel + 1) .top
  conns := []
  wheel := TimeWheel.new wheelDuration
  cancelledJobs := []
  handlers := []
  reaper := if c.remote then .idle else .stopped
  nextFlag := 0
  forgotten := []
  preCalls := []

/-- `runnertypeid` of a local loop (localrunner.rs:41-44, execgraph.rs:291-316). -/
def loopType (c : Cfg) (i : Nat) : Nat := if i < c.numParallel then 0 else 1

/-- What a request asks for (httpinterface.rs), in the handlers that take the token; `bad`: the body can not be decoded. -/
inductive Body where
  | start (rt : Nat)
  | begun (txn : Nat) (host : String) (pid : Nat)
  | finish (txn : Nat) (code : Int) (values : List (List (String × String))) (next : Option Nat)
  | ping (txn : Nat)
  | mark (jobids : List String)
  | bad
deriving DecidableEq, Repr

/-- A request: bearer token and `X-EXECGRAPH-SLURM-JOB-ID` header (`some none`: not text) (server.rs:240-508, 567-584). -/
structure Request where
  auth : Option String
  jobid : Option (Option String)
  body : Body
deriving DecidableEq, Repr

/-- Actions (localrunner.rs:34-153, server.rs:111-158, 240-508, execgraph.rs:386-397). -/
inductive Act where
  /-- The server task, the clock, steps inside `recv`, shutdown requests of admin server and provisioner. -/
  | server (a : Tracker.Act)
  | joinDone
  | loopRecv (i : Nat)
  | loopClosed (i k : Nat)
  | loopGot (i k : Nat)
  | loopSpawn (i : Nat) (ok : Bool)
  | loopDie (i : Nat)
  | loopStarted (i : Nat) (host : String) (pid : Nat)
  | loopSoft (i : Nat)
  | loopHard (i : Nat)
  | loopOutput (i : Nat) (code : Int) (values : List (List (String × String)))
  | loopReport (i : Nat)
  | request (r : Request)
  | hRecv (h : Nat)
  | hLeave (h k : Nat) (timeout : Bool)
  | hDrop (h k : Nat)
  | hGot (h k : Nat)
  | hTimer (h txn : Nat)
  | hDie (h : Nat)
  | hInsert (h : Nat)
  | hCancel (h : Nat)
  | hReport (h : Nat)
  | hFlag (h : Nat)
  | reapTick
  | reapRemove
  | reapCheck (order : List Nat)
  | reapSend
  | reapStop

/-- Actions of the tracker that are not taken by a particular runner (sync.rs:183-571, execgraph.rs:386-397). -/
def serverAct : Tracker.Act → Bool
  | .tick _ | .begin _ _ | .sendNext | .sendDone _ | .recvStarted _ | .recvFinished _ _ | .seeTrigger | .seeHard | .ctrlC
  | .drain _ _ | .pop _ _ | .claim _ | .trigger | .cancel .hard => true
  | _ => false

/-- A tracker action together with the change it makes to the runners. No counterpart in the code. -/
def trk (c : Cfg) (s : State) (a : Tracker.Act) (f : State → State) : Res Unit State :=
  (Tracker.step c.tr s.tr a).bind (fun t => .ok (f { s with tr := t }))

/-- A loop goes on to another place. No counterpart in the code. -/
def setLoop (i : Nat) (l : Loop) (s : State) : State := { s with loops := s.loops.set i l }

/-- A handler goes on to another place. No counterpart in the code. -/
def setH (h : Nat) (x : Handler) (s : State) : State := { s with handlers := s.handlers.set h x }

/-- A request is answered at once (server.rs:172-188, 240-508). -/
def reply (r : Reply) (s : State) : State := { s with handlers := s.handlers ++ [.done (some r)] }

/-- Transactions other than `txn`. `connections.remove` (server.rs:48-61). -/
def dropKey (txn : Nat) (l : List (Nat × Conn)) : List (Nat × Conn) := l.filter (fun x => x.1 != txn)

/-- `connections.get_mut(txn)` with a change of the entry (server.rs:48-61; crate dashmap). -/
def modifyKey (txn : Nat) (f : Conn → Conn) (l : List (Nat × Conn)) : List (Nat × Conn) :=
  l.map (fun x => if x.1 = txn then (x.1, f x.2) else x)

/-- Can the process be started at all? Otherwise `cmd.cmdline[0]` (localrunner.rs:71) or `fd_mappings(..).unwrap()` (88,
two mappings for fd 3) panics. -/
def spawnable (cmd : Cmd) : Bool := !cmd.cmdline.isEmpty && (cmd.fdInput.map (·.1) != some 3)

/-- Can the loop panic here? A preamble may fail (execgraph.rs:149; called at localrunner.rs:48 and in `send_started`); see
`spawnable`; the child may close its end of the pipe before everything is written to it (localrunner.rs:120). Other panics
(no pipe, `wait` fails) are not modelled. -/
def mayDie (g : DiGraph Cmd) : Loop → Option Nat
  | .got v => if (cmdOf g v).preamble.isSome || !spawnable (cmdOf g v) then some v else none
  | .spawned v _ => if (cmdOf g v).preamble.isSome || (cmdOf g v).fdInput.isSome then some v else none
  | .failing v => if (cmdOf g v).preamble.isSome then some v else none
  | _ => none

/-- The handler part of `/begun` (server.rs:411-437). The preamble is assumed to succeed (if it panics nothing is sent). -/
def begunH (c : Cfg) (s : State) (jobid : Option (Option String)) (txn : Nat) (host : String) (pid : Nat) : Res Unit State :=
  match s.conns.lookup txn with
  | none => .ok (reply .notFound s)
  | some conn =>
    match jobid with
    | some (some j) =>
      trk c s (.sendStarted conn.node host pid j) (fun s =>
        reply .ok { s with conns := modifyKey txn (fun x => { x with begun := true }) s.conns })
    | _ => .ok (reply .badRequest s)

/-- The handler part of `/end` (server.rs:451-472) until the timer is cancelled. -/
def endH (s : State) (jobid : Option (Option String)) (txn : Nat) (code : Int) (values : List (List (String × String)))
    (next : Option Nat) : State :=
  match jobid with
  | some (some j) =>
    match s.conns.lookup txn with
    | none => reply .notFound s
    | some conn =>
      if conn.jobid ≠ j then
        reply .notFound { s with
          conns := dropKey txn s.conns
          forgotten := s.forgotten ++ [conn.node] }
      else { s with
        conns := dropKey txn s.conns
        handlers := s.handlers ++ [.ending conn code values next] }
  | _ => reply .badRequest s

/-- The handler part of `/ping` (server.rs:251-264). -/
def pingH (s : State) (txn : Nat) : Res Unit State :=
  match s.conns.lookup txn with
  | none => .ok (reply .ok s)
  | some conn =>
    (TimeWheel.insert (TimeWheel.cancel s.wheel conn.timer) pingTimeout txn).bind (fun r =>
      .ok (reply .ok { s with
        wheel := r.1
        conns := modifyKey txn (fun x => { x with timer := r.2 }) s.conns }))

/-- The handler part of `/mark-slurm-job-cancelation` (server.rs:277-304). -/
def markH (s : State) (jobids : List String) : State :=
  let js := jobids.filter (fun j => !(s.conns.map (·.2.jobid)).contains j)
  reply (.marked js) { s with cancelledJobs := s.cancelledJobs ++ js }

/-- The handler part of `/start` (server.rs:317-338) until `start_request_impl`. -/
def startH (s : State) (jobid : Option (Option String)) (rt : Nat) : State :=
  match jobid with
  | some (some j) =>
    if s.cancelledJobs.contains j then reply .gone s else { s with handlers := s.handlers ++ [.toRecv rt j] }
  | _ => reply .badRequest s

/-- A request arrives. The extractors come first: without an authorization header, or with a body that can not be decoded, the
handler is not called (status 400 or similar); then the token is compared (server.rs:245, 274, 314, 408, 448). -/
def takeRequest (c : Cfg) (s : State) (r : Request) : Res Unit State :=
  match r.auth with
  | none => .ok (reply .badRequest s)
  | some t =>
    match r.body with
    | .bad => .ok (reply .badRequest s)
    | b =>
      if t ≠ c.secret then .ok (reply .unauthorized s)
      else
        match b with
        | .start rt => .ok (startH s r.jobid rt)
        | .begun txn host pid => begunH c s r.jobid txn host pid
        | .finish txn code values next => .ok (endH s r.jobid txn code values next)
        | .ping txn => pingH s txn
        | .mark jobids => .ok (markH s jobids)
        | .bad => .err ()

/-- Has every handler finished? (execgraph.rs:346-364, 395; crate hyper). -/
def allDone (hs : List Handler) : Bool := hs.all (fun h => match h with | .done _ => true | .dead _ => true | _ => false)

/-- Has every loop returned? (execgraph.rs:395). -/
def allExited (ls : List Loop) : Bool :=
  ls.all (fun l => match l with | .exited => true | .killed _ => true | .dead _ => true | _ => false)

/-- Has the reaper ended? (server.rs:111-158, execgraph.rs:348-363). -/
def reaperEnded : Reaper → Bool
  | .stopped => true
  | .dead _ => true
  | _ => false

/-- One action (localrunner.rs:34-153, server.rs:111-158, 240-508, sync.rs:183-714). -/
def step (c : Cfg) (s : State) : Act → Res Unit State
  | .server a => if serverAct a then trk c s a id else .err ()
  /- `join_all` (execgraph.rs:395). -/
  | .joinDone =>
    if allExited s.loops && allDone s.handlers &&
        reaperEnded s.reaper then trk c s .joinDone id
    else .err ()
  /- `recv` is called (localrunner.rs:46); if it fails at once the loop ends. -/
  | .loopRecv i =>
    match s.loops[i]? with
    | some .top =>
      match recvCheck s.tr (loopType c i) with
      | .ok _ => trk c s (.enter (loopType c i)) (setLoop i .inRecv)
      | .error _ => .ok (setLoop i .exited s)
    | _ => .err ()
  /- `recv` fails since the channel is closed. -/
  | .loopClosed i k =>
    match s.loops[i]? with
    | some .inRecv =>
      if s.tr.readyOpen = false ∧ s.tr.waiting[k]? = some (loopType c i) then trk c s (.leave k) (setLoop i .exited)
      else .err ()
    | _ => .err ()
  /- `recv` returns a task. -/
  | .loopGot i k =>
    match s.loops[i]?, s.tr.claimed[k]? with
    | some .inRecv, some (r, it) =>
      if r = loopType c i then trk c s (.account k) (setLoop i (.got it.id)) else .err ()
    | _, _ => .err ()
  /- Preamble and spawn (localrunner.rs:47-96). -/
  | .loopSpawn i ok =>
    match s.loops[i]? with
    | some (.got v) =>
      if spawnable (cmdOf c.tr.g v) then
        .ok (setLoop i (if ok then .spawned v s.tr.now else .failing v) { s with preCalls := s.preCalls ++ [v] })
      else .err ()
    | _ => .err ()
  /- Panics, see `mayDie`. -/
  | .loopDie i =>
    match (s.loops[i]?).bind (mayDie c.tr.g) with
    | some v => .ok (setLoop i (.dead v) (if s.loops[i]? = some (.got v) then { s with preCalls := s.preCalls ++ [v] } else s))
    | none => .err ()
  /- `send_started` (localrunner.rs:101-103, 129-131). -/
  | .loopStarted i host pid =>
    match s.loops[i]? with
    | some (.spawned v start) => trk c s (.sendStarted v host pid "") (setLoop i (.running v start))
    | some (.failing v) => trk c s (.sendStarted v host 0 "") (setLoop i (.failed v))
    | _ => .err ()
  /- `soft_cancelled` returns a soft cancellation (localrunner.rs:134-135). -/
  | .loopSoft i =>
    match s.loops[i]?, s.tr.token with
    | some (.running v start), some (.afterTime t) => if start > t then .ok (setLoop i (.cancelled v) s) else .err ()
    | _, _ => .err ()
  /- `soft_cancelled` returns a hard cancellation (localrunner.rs:134, 142). -/
  | .loopHard i =>
    match s.loops[i]?, s.tr.token with
    | some (.running v _), some .hard => .ok (setLoop i (.killed v) s)
    | _, _ => .err ()
  /- The child has ended (localrunner.rs:144). -/
  | .loopOutput i code values =>
    match s.loops[i]? with
    | some (.running v _) => .ok (setLoop i (.ended v code values) s)
    | _ => .err ()
  /- `send_finished` (localrunner.rs:104-112, 137-139, 150-152). -/
  | .loopReport i =>
    match s.loops[i]? with
    | some (.failed v) => trk c s (.sendFinished ⟨v, .code (-1), [], none⟩) (setLoop i .top)
    | some (.cancelled v) => trk c s (.sendFinished ⟨v, .cancelled, [], none⟩) (setLoop i .exited)
    | some (.ended v code values) => trk c s (.sendFinished ⟨v, .code code, values, none⟩) (setLoop i .top)
    | _ => .err ()
  /- Requests come in until the server has shut down. -/
  | .request r => if s.reaper = .stopped ∨ live s.tr = false then .err () else takeRequest c s r
  /- `recv` is called (server.rs:362); if it fails at once the request is answered (363-368). -/
  | .hRecv h =>
    match s.handlers[h]? with
    | some (.toRecv rt jobid) =>
      match recvCheck s.tr rt with
      | .ok _ => trk c s (.enter rt) (setH h (.inRecv rt jobid))
      | .error .noSuchRunnerType => .ok (setH h (.done (some .notFound)) s)
      | .error .softShutdown => .ok (setH h (.done (some .gone)) s)
    | _ => .err ()
  /- The `select!` ends otherwise (server.rs:356-361, 364): after 30 s, on a hard cancellation, or `recv` fails. In `toRecv` the request
  waits for the rate limiter (sync.rs:614). -/
  | .hLeave h k timeout =>
    match s.handlers[h]? with
    | some (.toRecv _ _) =>
      if timeout = true ∨ s.tr.token = some .hard then .ok (setH h (.done (some (if timeout then .tooMany else .gone))) s)
      else .err ()
    | some (.inRecv rt _) =>
      if s.tr.waiting[k]? = some rt ∧ (timeout = true ∨ s.tr.token = some .hard ∨ s.tr.readyOpen = false) then
        trk c s (.leave k) (setH h (.done (some (if timeout then .tooMany else .gone))))
      else .err ()
    | _ => .err ()
  /- The client hangs up and the handler is dropped where it waits (hyper). -/
  | .hDrop h k =>
    match s.handlers[h]? with
    | some (.toRecv _ _) => .ok (setH h (.done none) s)
    | some (.inRecv rt _) =>
      if s.tr.waiting[k]? = some rt then trk c s (.leave k) (setH h (.done none)) else .err ()
    | some (.waiting _ _ _) => .ok (setH h (.done none) s)
    | _ => .err ()
  /- `recv` returns a task. -/
  | .hGot h k =>
    match s.handlers[h]?, s.tr.claimed[k]? with
    | some (.inRecv rt jobid), some (r, it) =>
      if r = rt then trk c s (.account k) (setH h (.got it.id jobid)) else .err ()
    | _, _ => .err ()
  /- Preamble, random transaction id, timer (server.rs:371-378). -/
  | .hTimer h txn =>
    match s.handlers[h]? with
    | some (.got v jobid) =>
      (TimeWheel.insert s.wheel pingTimeout txn).bind (fun r =>
        .ok (setH h (.timed v jobid txn r.2) { s with
          wheel := r.1
          preCalls := s.preCalls ++ [v] }))
    | _ => .err ()
  /- The preamble fails (server.rs:372). -/
  | .hDie h =>
    match s.handlers[h]? with
    | some (.got v _) => if (cmdOf c.tr.g v).preamble.isSome then .ok (setH h (.dead v) { s with preCalls := s.preCalls ++ [v] }) else .err ()
    | _ => .err ()
  /- The connection is inserted, replacing one with the same id, and the request is answered (server.rs:380-397). -/
  | .hInsert h =>
    match s.handlers[h]? with
    | some (.timed v jobid txn timer) =>
      .ok (setH h (.done (some (.task txn v))) { s with
        conns := dropKey txn s.conns ++ [(txn, ⟨v, s.tr.now, timer, jobid, false⟩)]
        forgotten := s.forgotten ++ ((s.conns.lookup txn).map (·.node)).toList })
    | _ => .err ()
  /- `/end` cancels the timer (server.rs:474). -/
  | .hCancel h =>
    match s.handlers[h]? with
    | some (.ending conn code values next) =>
      .ok (setH h (.reporting conn code values next) { s with wheel := TimeWheel.cancel s.wheel conn.timer })
    | _ => .err ()
  /- `/end` reports (server.rs:475-489) and answers, or waits to get another task (491-506). -/
  | .hReport h =>
    match s.handlers[h]? with
    | some (.reporting conn code values next) =>
      trk c s (.sendFinished ⟨conn.node, .code code, values, some s.nextFlag⟩) (fun s' =>
        setH h (match next with
          | some rt => .waiting s.nextFlag rt conn.jobid
          | none => .done (some .ended)) { s' with nextFlag := s.nextFlag + 1 })
    | _ => .err ()
  /- The flag is set, or hard cancellation (server.rs:493-496). -/
  | .hFlag h =>
    match s.handlers[h]? with
    | some (.waiting flag rt jobid) =>
      if flag ∈ s.tr.flagsSet ∨ s.tr.token = some .hard then .ok (setH h (.toRecv rt jobid) s) else .err ()
    | _ => .err ()
  /- `tick` (server.rs:120). -/
  | .reapTick =>
    match s.reaper with
    | .idle =>
      let r := TimeWheel.tick s.wheel
      .ok { s with
        wheel := r.1
        reaper := .removing (r.2.map (·.2)) [] }
    | _ => .err ()
  /- One turn of the loops over fired timers (server.rs:123-127) and over soft-cancelled connections (138-140). -/
  | .reapRemove =>
    match s.reaper with
    | .removing (txn :: txns) expired =>
      .ok { s with
        conns := dropKey txn s.conns
        reaper := .removing txns (expired ++ ((s.conns.lookup txn).map (·.node)).toList) }
    | .softRemoving (txn :: txns) expired =>
      match s.conns.lookup txn with
      | some conn =>
        .ok { s with
          conns := dropKey txn s.conns
          reaper := .softRemoving txns (expired ++ [conn.node]) }
      | none => .ok { s with reaper := .dead expired }
    | .softRemoving [] expired => .ok { s with reaper := .sending expired }
    | _ => .err ()
  /- The token is looked at and the connections are listed, in hash order (server.rs:130-137); as one action. -/
  | .reapCheck order =>
    match s.reaper with
    | .removing [] expired =>
      match s.tr.token with
      | some (.afterTime t) =>
        if order.isPerm ((s.conns.filter (fun x => decide (x.2.start > t))).map (·.1)) then
          .ok { s with reaper := .softRemoving order expired }
        else .err ()
      | _ => .ok { s with reaper := .sending expired }
    | _ => .err ()
  /- `send_finished` (server.rs:143-151); then the `select!` (153). -/
  | .reapSend =>
    match s.reaper with
    | .sending (v :: vs) =>
      trk c s (.sendFinished ⟨v, .disconnected, [], none⟩) (fun s => { s with reaper := .sending vs })
    | .sending [] => .ok { s with reaper := .idle }
    | _ => .err ()
  /- The HTTP server has shut down gracefully, i.e. after a hard cancellation and when all requests are answered, and the
  reaper is stopped (execgraph.rs:343-360, server.rs:155). -/
  | .reapStop =>
    if s.reaper = .idle ∧ s.tr.token = some .hard ∧ allDone s.handlers then .ok { s with reaper := .stopped } else .err ()

end Verif.Sys
