import Verif.Model.Display

/-!
# sync.rs: the ready tracker

One labelled transition system for the server task (`background_serve`, then the tail of `execute`: hard cancel, join,
`drain`) and any number of clients (`ReadyTrackerClient` methods called by local loops and HTTP handlers). One action is
one atomic access to shared state. `step` is total; `.err ()` means "this action is not possible now", `.panic` is a Rust
panic. Choices made by hash iteration, heap ties and the scheduler are in the action.

The branch `event.is_err()` (sync.rs:288-291) is left out: it needs every client handle to be dropped, and `execute` holds
one. Overflow checks are off, as in a release build: the unchecked decrement of `num_ready` wraps.

Fields and actions marked *ghost* do not exist in the code and influence nothing else.
-/

namespace Verif.Tracker
open Verif

/-- `ExitStatus` (sync.rs:779-784). -/
inductive ExitStatus where
  | code (c : Int)
  | cancelled
  | disconnected
deriving DecidableEq, Repr, Inhabited

/-- `ExitStatus::as_i32` (sync.rs:787-793). -/
def ExitStatus.asI32 : ExitStatus → Int
  | .code c => c
  | .cancelled => -10
  | .disconnected => -1

/-- `ExitStatus::is_success` (sync.rs:794-796). -/
def ExitStatus.isSuccess : ExitStatus → Bool
  | .code c => c == 0
  | _ => false

/-- `FinishedEvent` (sync.rs:724-738) without the captured output; `flag` is the number of the `AsyncFlag`, if any. -/
structure Fin where
  id : Nat
  status : ExitStatus
  values : List (List (String × String)) := []
  flag : Option Nat := none
deriving DecidableEq, Repr, Inhabited

/-- `Event` (sync.rs:774-777) with `StartedEvent` (sync.rs:717-722). -/
inductive Event where
  | started (id : Nat) (host : String) (pid : Nat) (jobid : String)
  | finished (e : Fin)
deriving DecidableEq, Repr, Inhabited

/-- `CancellationState` (fancy_cancellation_token.rs:8-12). -/
inductive Cancel where
  | afterTime (t : Int)
  | hard
deriving DecidableEq, Repr, Inhabited

/-- `CancellationToken::cancel` (fancy_cancellation_token.rs:79-98) as one atomic step (the gap between check and store
is in `Verif.Model.Token`). -/
def tokenCancel (old : Option Cancel) (new : Cancel) : Option Cancel :=
  match new with
  | .hard => some .hard
  | .afterTime t =>
    match old with
    | some (.afterTime t0) => if t > t0 then old else some new
    | some .hard => old
    | none => some new

/-- `TaskItem` with its priority (sync.rs:50-55, 544-553). `flag` is the number of the shared claim flag `taken`; the
affinity is that of the command `id`. -/
structure Item where
  id : Nat
  prio : Nat
  flag : Nat
deriving DecidableEq, Repr, Inhabited

/-- A claim flag `Arc<AtomicBool>` (sync.rs:542); `owner` (ghost) is the task it was made for. -/
structure Flag where
  owner : Nat
  taken : Bool
deriving DecidableEq, Repr, Inhabited

/-- `Snapshot` (sync.rs:44-48). `numReady` is a wrapping u32; `numInflight` is bounded by the number of tasks. -/
structure Snap where
  numReady : Nat
  numInflight : Nat
deriving DecidableEq, Repr, Inhabited

/-- Where the server task is: before `background_serve`; at the `select!` (sync.rs:277-278); inside
`add_to_ready_queue` with the batches still to be sent (sync.rs:560-566), on behalf of the initial call (`none`) or of the
finish event being processed; after the loop, joining the runners (execgraph.rs:392-395); all runners joined; drained. -/
inductive Pc where
  | new
  | idle
  | sending (todo : List (Nat × List Item)) (fin : Option Fin)
  | joining
  | joined
  | done
deriving DecidableEq, Repr, Inhabited

/-- Parameters of `new_ready_tracker` (sync.rs:104-110): the selected graph and `fizzles_allowed`. The rate limiter is in
`Verif.Model.Gcra`; `count_offset` is only printed. -/
structure Cfg where
  g : DiGraph Cmd
  fizzlesAllowed : Nat

/-- `ReadyTrackerServer` and `ReadyTrackerClient` (sync.rs:57-96), the cancellation token, the clock, and the clients.
Not modelled: `count_offset`, rate counters, the ring buffer of run times (`Verif.Model.Ring`). -/
structure State where
  /-- `finished_order`; the status is ghost. -/
  processed : List (Nat × ExitStatus)
  nFailed : Nat
  nFizzled : Nat
  nSuccess : Nat
  /-- `n_ready_or_inflight`. -/
  nRoi : Nat
  /-- `ready.is_some()`. -/
  readyOpen : Bool
  inflight : List (Nat × Int)
  /-- `statuses[v].n_unmet_deps`. -/
  unmet : Nat → Nat
  /-- `statuses[v].poisoned`. -/
  poisoned : Nat → Bool
  /-- `shutdown_state == SoftShutdown`. -/
  soft : Bool
  /-- `n_unready_tasks_approximate_for_eta_purposes_only`. -/
  nUnready : Nat
  lf : LogFile
  /-- `queuestate`. -/
  qs : BitVec 64 → Option Snap
  /-- The 64 priority queues. -/
  queues : Nat → List Item
  flags : List Flag
  /-- The channel of events. -/
  chan : List Event
  /-- `soft_shutdown_trigger`. -/
  trigger : Bool
  token : Option Cancel
  /-- `ready_or_inflight_increased_event`. -/
  counter : Nat
  now : Int
  pc : Pc
  /-- `AsyncFlag`s of finish events that have been set. -/
  flagsSet : List Nat
  /-- Receivers inside the loop of `recv` (past the closed check), by runner type. -/
  waiting : List Nat
  /-- Receivers that popped an item and have not yet looked at its flag. -/
  popped : List (Nat × Item)
  /-- Receivers that won the flag and have not yet updated the counters. -/
  claimed : List (Nat × Item)
  /-- ghost: tasks returned by `recv`, for which no finish event was sent yet. -/
  held : List Nat
  /-- ghost: tasks returned by `recv` that the runner forgot. -/
  lost : List Nat
  /-- ghost: every (runner type, task) returned by `recv`, in order. -/
  obtained : List (Nat × Nat)
  /-- ghost: tasks for which `send_started` was called. -/
  startedSent : List Nat
  /-- ghost: finish events handled in `drain`, including the made-up ones. -/
  drained : List (Nat × ExitStatus)
  /-- ghost: tasks whose preamble was called by `send_started`, in order. -/
  preambles : List Nat
  /-- ghost: postamble calls. -/
  postambles : List (Nat × Bool)

/-- Outcome of an action. No counterpart in the code. -/
abbrev Out := Res Unit State

/-- The command of a task (indexing `self.g[id]`); the default is never used for ids of the graph (sync.rs:57-82). -/
def cmdOf (g : DiGraph Cmd) (v : Nat) : Cmd := (g.nodes[v]?).getD {}

/-- `new_ready_tracker` (sync.rs:104-179): state before `background_serve`. The conversion of the number of tasks to u32
(sync.rs:138) panics for 2^32 tasks or more: theorems assume fewer. -/
def init (c : Cfg) (lf : LogFile) (now : Int) : State where
  processed := []
  nFailed := 0
  nFizzled := 0
  nSuccess := 0
  nRoi := 0
  readyOpen := true
  inflight := []
  unmet v := (c.g.preds v).length
  poisoned _ := false
  soft := false
  nUnready := 0
  lf := lf
  qs _ := none
  queues _ := []
  flags := []
  chan := []
  trigger := false
  token := none
  counter := 0
  now := now
  pc := .new
  flagsSet := []
  waiting := []
  popped := []
  claimed := []
  held := []
  lost := []
  obtained := []
  startedSent := []
  drained := []
  preambles := []
  postambles := []

/-- `LogFile::write` from the server (sync.rs:190, 212, 219, 237, 295, 323, 326, 528): only the panics of the log protocol are modelled, not
io errors. -/
def writeLog (s : State) (e : LogEntry) : Out :=
  match s.lf.write e with
  | .ok lf => .ok { s with lf := lf }
  | .err _ => .panic "log"
  | .panic m => .panic m

/-- One turn of the first loop of `add_to_ready_queue` (sync.rs:525-542): Ready entry, queue counter, claim flag. -/
def readyOne (g : DiGraph Cmd) (t : SysTime) (s : State) (v : Nat) : Out :=
  match g.nodes[v]? with
  | none => .panic "index out of bounds"
  | some cmd =>
    match cmd.displayText with
    | none => .panic "cmdline must be utf-8"
    | some d =>
      (writeLog s (.ready ⟨t, cmd.key, cmd.runcount, d, cmd.storageRoot⟩)).bind (fun s =>
        let old := (s.qs cmd.affinity).getD ⟨0, 0⟩
        .ok { s with
          qs := fun a => if a = cmd.affinity then some { old with numReady := (old.numReady + 1) % 2 ^ 32 } else s.qs a
          flags := s.flags ++ [⟨v, false⟩] })

/-- The whole first loop (sync.rs:525-554). -/
def readyAll (g : DiGraph Cmd) (t : SysTime) : State → List Nat → Out
  | s, [] => .ok s
  | s, v :: vs => (readyOne g t s v).bind (fun s => readyAll g t s vs)

/-- The items made for the tasks `ready`, the first getting flag number `base` (sync.rs:542-553). -/
def itemsFor (g : DiGraph Cmd) : Nat → List Nat → List Item
  | _, [] => []
  | base, v :: vs => ⟨v, (cmdOf g v).priority, base⟩ :: itemsFor g (base + 1) vs

/-- The non-empty `inserts[i]` (sync.rs:523, 544-553, 560-561). -/
def batches (g : DiGraph Cmd) (items : List Item) : List (Nat × List Item) :=
  ((List.range 64).map (fun i => (i, items.filter (fun it => (cmdOf g it.id).affinity.getLsbD i)))).filter
    (fun b => !b.2.isEmpty)

/-- `add_to_ready_queue` (sync.rs:512-571) up to the first send; the batches are then sent by `sendNext`. The early
return for an empty list is at the callers. -/
def addReady (c : Cfg) (t : SysTime) (s : State) (ready : List Nat) (fin : Option Fin) : Out :=
  if s.nRoi + ready.length ≥ 2 ^ 32 then .panic "arithmetic overflow"
  else if s.nUnready < ready.length then .panic "arithmetic overflow"
  else
    let base := s.flags.length
    (readyAll c.g t { s with
      nRoi := s.nRoi + ready.length
      nUnready := s.nUnready - ready.length } ready).bind (fun s =>
      if s.readyOpen = false then .panic "send channel was already dropped?"
      else .ok { s with pc := .sending (batches c.g (itemsFor c.g base ready)) fin })

/-- All `num_ready` set to 0 (sync.rs:361-363, 383-385). One step here; the code does it key by key. -/
def zeroReady (s : State) : State :=
  { s with qs := fun a => (s.qs a).map (fun sn => { sn with numReady := 0 }) }

/-- Leaving the loop of `background_serve` with the senders dropped (sync.rs:347-350, 367-376, 380-387), then
`token.cancel(HardCancelled)` in `execute` (execgraph.rs:392). -/
def leaveLoop (s : State) : State :=
  zeroReady { s with
    readyOpen := false
    token := tokenCancel s.token .hard
    pc := .joining }

/-- `FIZZLED_TIME_CUTOFF` (constants.rs) in nanoseconds. -/
def fizzledCutoff : Int := 5000000000

/-- Has task `id` been inflight for less than the cutoff? (sync.rs:414-415, 443) -/
def fizzled (s : State) (id : Nat) : Bool :=
  match s.inflight.lookup id with
  | some st => decide (s.now - st < fizzledCutoff)
  | none => false

/-- `_finished_bookkeeping_1` (sync.rs:401-470) without printing. `Cmd::display` is called again here for printing; the
same call has already succeeded when the task was made ready. The postamble is assumed to return 0. -/
def book1 (g : DiGraph Cmd) (s : State) (e : Fin) : Out :=
  match g.nodes[e.id]? with
  | none => .panic "index out of bounds"
  | some cmd =>
    match s.qs cmd.affinity with
    | none => .panic "No such queue"
    | some sn =>
      if sn.numInflight = 0 then .panic "Underflow"
      else
        let ok := e.status.isSuccess
        .ok { s with
          postambles := s.postambles ++ [(e.id, ok)]
          nRoi := s.nRoi - 1
          qs := fun a => if a = cmd.affinity then some { sn with numInflight := sn.numInflight - 1 } else s.qs a
          nSuccess := if ok then s.nSuccess + 1 else s.nSuccess
          nFailed := if ok then s.nFailed else s.nFailed + 1
          nFizzled := if !ok && fizzled s e.id then s.nFizzled + 1 else s.nFizzled }

/-- The closure over the outgoing edges in `_finished_bookkeeping_2` (sync.rs:490-506) for one edge to `d`; third
component: tasks that became ready so far. The subtraction is on a usize. -/
def statusStep (ok : Bool) (acc : (Nat → Nat) × (Nat → Bool) × List Nat) (d : Nat) :
    Res Unit ((Nat → Nat) × (Nat → Bool) × List Nat) :=
  let (unmet, poisoned, ready) := acc
  if ok then
    if poisoned d = false then
      if unmet d = 0 then .panic "attempt to subtract with overflow"
      else
        let unmet' := fun v => if v = d then unmet d - 1 else unmet v
        .ok (unmet', poisoned, if unmet d - 1 = 0 then ready ++ [d] else ready)
    else .ok acc
  else .ok (unmet, fun v => if v = d then true else poisoned v, ready)

/-- `filter_map` over the outgoing edges (sync.rs:487-507). -/
def statusLoop (ok : Bool) : (Nat → Nat) × (Nat → Bool) × List Nat → List Nat →
    Res Unit ((Nat → Nat) × (Nat → Bool) × List Nat)
  | acc, [] => .ok acc
  | acc, d :: ds => (statusStep ok acc d).bind (fun acc => statusLoop ok acc ds)

/-- Second half of the Finished branch of `background_serve` (sync.rs:395-398 setting the flag, then 312-351): the entry
is logged (after a made-up Started entry if none was received), fizzle check, exit check. -/
def finishHalf (c : Cfg) (t : SysTime) (s : State) (e : Fin) : Out :=
  let key := (cmdOf c.g e.id).key
  let s := { s with flagsSet := s.flagsSet ++ e.flag.toList }
  let started := (s.inflight.lookup e.id).isSome
  (if started then .ok { s with inflight := s.inflight.filter (fun x => x.1 != e.id) }
    else writeLog s (.started ⟨t, key, "", 0, ""⟩)).bind (fun s =>
  (writeLog s (.finished ⟨t, key, e.status.asI32, e.values⟩)).bind (fun s =>
    let s := if s.nFizzled ≥ c.fizzlesAllowed then
        { s with
          token := tokenCancel s.token (.afterTime (s.now - fizzledCutoff))
          readyOpen := false
          soft := true }
      else s
    if s.nRoi = 0 ∨ (s.soft = true ∧ s.inflight = []) then .ok (leaveLoop s)
    else .ok { s with pc := .idle }))

/-- Finished branch of `background_serve` (sync.rs:303-352) up to the first send; `order` is the order in which petgraph
yields the outgoing edges. -/
def handleFinished (c : Cfg) (t : SysTime) (order : List Nat) (s : State) (e : Fin) : Out :=
  (book1 c.g { s with processed := s.processed ++ [(e.id, e.status)] } e).bind (fun s =>
    if s.soft then
      if s.readyOpen then .panic "assertion failed: self.ready.is_none()" else finishHalf c t s e
    else if order.isPerm (c.g.succs e.id) = false then .err ()
    else
      (statusLoop e.status.isSuccess (s.unmet, s.poisoned, []) order).bind (fun r =>
        let s := { s with
          unmet := r.1
          poisoned := r.2.1 }
        if r.2.2.isEmpty then finishHalf c t s e else addReady c t s r.2.2 (some e)))

/-- The channel loop of `drain` (sync.rs:186-229) on the events `es` in the channel; `infl` is the local copy of the
inflight map. -/
def drainLoop (c : Cfg) (t : SysTime) : List Event → List (Nat × Int) → State → Res Unit (State × List (Nat × Int))
  | [], infl, s => .ok ({ s with chan := [] }, infl)
  | .started id _ _ _ :: es, infl, s =>
    (writeLog { s with chan := es } (.started ⟨t, (cmdOf c.g id).key, "host", 0, ""⟩)).bind (fun s =>
      if (infl.lookup id).isSome then .panic "assertion failed: inflight.insert"
      else drainLoop c t es ((id, s.now) :: infl) s)
  | .finished e :: es, infl, s =>
    (book1 c.g { s with chan := es } e).bind (fun s =>
      let key := (cmdOf c.g e.id).key
      (if (infl.lookup e.id).isSome then .ok s else writeLog s (.started ⟨t, key, "", 0, ""⟩)).bind (fun s =>
        (writeLog s (.finished ⟨t, key, e.status.asI32, e.values⟩)).bind (fun s =>
          drainLoop c t es (infl.filter (fun x => x.1 != e.id))
            { s with drained := s.drained ++ [(e.id, e.status)] })))

/-- The last loop of `drain` (sync.rs:233-242): everything still inflight is reported as disconnected, in the iteration
order of the hash map. The ghost lists `held` and `lost` lose the task. -/
def drainRest (c : Cfg) (t : SysTime) : List Nat → State → Out
  | [], s => .ok s
  | v :: vs, s =>
    (book1 c.g s ⟨v, .disconnected, [], none⟩).bind (fun s =>
      (writeLog s (.finished ⟨t, (cmdOf c.g v).key, -1, []⟩)).bind (fun s =>
        drainRest c t vs { s with
          drained := s.drained ++ [(v, .disconnected)]
          held := s.held.erase v
          lost := if v ∈ s.held then s.lost else s.lost.erase v }))

/-- `drain` (sync.rs:183-252), without the signal to the process group. -/
def drain (c : Cfg) (t : SysTime) (order : List Nat) (s : State) : Out :=
  (drainLoop c t s.chan s.inflight s).bind (fun r =>
    if order.isPerm (r.2.map (·.1)) = false then .err ()
    else (drainRest c t order { r.1 with inflight := [] }).bind (fun s => .ok { s with pc := .done }))

/-- Errors of `recv` before it waits (sync.rs:616-624). -/
inductive RecvErr where
  | noSuchRunnerType
  | softShutdown
deriving DecidableEq, Repr

/-- The checks of `recv` (sync.rs:616-624). -/
def recvCheck (s : State) (runnertype : Nat) : Except RecvErr Unit :=
  if runnertype ≥ 64 then .error .noSuchRunnerType
  else if s.readyOpen = false then .error .softShutdown
  else .ok ()

/-- Actions (sync.rs:183-714, execgraph.rs:386-397). -/
inductive Act where
  /-- The clock advances. -/
  | tick (d : Nat)
  /-- `background_serve` starts (sync.rs:255-266); `order` is the hash iteration order of the tasks without
  dependencies. -/
  | begin (order : List Nat) (t : SysTime)
  /-- One `sendv` (sync.rs:560-566). -/
  | sendNext
  /-- After the last `sendv`: the event counter (sync.rs:568), then the rest of the Finished branch. -/
  | sendDone (t : SysTime)
  /-- The Started branch (sync.rs:293-302). -/
  | recvStarted (t : SysTime)
  /-- The Finished branch (sync.rs:303-352). -/
  | recvFinished (order : List Nat) (t : SysTime)
  /-- The soft shutdown branch (sync.rs:355-366). -/
  | seeTrigger
  /-- The hard cancellation branch (sync.rs:367-371). -/
  | seeHard
  /-- The ctrl-c branch (sync.rs:372-376). -/
  | ctrlC
  /-- `join_all` returns (execgraph.rs:395): no client is inside a call any more. -/
  | joinDone
  /-- `drain` (execgraph.rs:397). -/
  | drain (order : List Nat) (t : SysTime)
  /-- A client enters `recv` and passes its checks. -/
  | enter (runnertype : Nat)
  /-- A client waiting in `recv` is cancelled or gets "closed". -/
  | leave (i : Nat)
  /-- The `i`-th waiting receiver pops the `j`-th item of its queue. -/
  | pop (i j : Nat)
  /-- The `i`-th receiver with a popped item does `fetch_or` on the flag (sync.rs:633). -/
  | claim (i : Nat)
  /-- The `i`-th receiver that won updates the counters and returns (sync.rs:634-638). -/
  | account (i : Nat)
  /-- `send_started` (sync.rs:644-665). -/
  | sendStarted (id : Nat) (host : String) (pid : Nat) (jobid : String)
  /-- `send_finished` (sync.rs:668-673). -/
  | sendFinished (e : Fin)
  /-- ghost: the runner forgets the task. -/
  | lose (id : Nat)
  /-- `trigger_soft_shutdown` (sync.rs:608-610). -/
  | trigger
  /-- Some holder of the token cancels it (execgraph.rs:361, 380; admin_server.rs:57). -/
  | cancel (c : Cancel)

/-- Clients may still act (before `join_all` has returned) (execgraph.rs:395). -/
def live (s : State) : Bool := s.pc != .joined && s.pc != .done

/-- The transition function (sync.rs:183-714, execgraph.rs:386-397). -/
def step (c : Cfg) (s : State) : Act → Out
  | .tick d => .ok { s with now := s.now + d }
  | .begin order t =>
    if s.pc ≠ .new then .err ()
    else if order.isPerm ((List.range c.g.n).filter (fun v => s.unmet v == 0)) = false then .err ()
    else
      let s := { s with nUnready := c.g.n }
      if order.isEmpty then .ok { s with pc := .idle } else addReady c t s order none
  | .sendNext =>
    match s.pc with
    | .sending ((i, items) :: todo) fin =>
      .ok { s with
        queues := fun q => if q = i then s.queues q ++ items else s.queues q
        pc := .sending todo fin }
    | _ => .err ()
  | .sendDone t =>
    match s.pc with
    | .sending [] fin =>
      let s := { s with counter := s.counter + 1 }
      match fin with
      | none => .ok { s with pc := .idle }
      | some e => finishHalf c t s e
    | _ => .err ()
  | .recvStarted t =>
    if s.pc ≠ .idle then .err ()
    else match s.chan with
      | .started id host pid jobid :: rest =>
        (writeLog { s with chan := rest } (.started ⟨t, (cmdOf c.g id).key, host, pid, jobid⟩)).bind (fun s =>
          if (s.inflight.lookup id).isSome then .panic "assertion failed: inflight.insert"
          else .ok { s with inflight := (id, s.now) :: s.inflight })
      | _ => .err ()
  | .recvFinished order t =>
    if s.pc ≠ .idle then .err ()
    else match s.chan with
      | .finished e :: rest => handleFinished c t order { s with chan := rest } e
      | _ => .err ()
  | .seeTrigger =>
    if s.pc ≠ .idle then .err ()
    else if s.trigger = false then .err ()
    else .ok (zeroReady { s with
      readyOpen := false
      soft := true
      trigger := false })
  | .seeHard => if s.pc ≠ .idle then .err () else if s.token ≠ some .hard then .err () else .ok (leaveLoop s)
  | .ctrlC => if s.pc ≠ .idle then .err () else .ok (leaveLoop s)
  | .joinDone =>
    if s.pc ≠ .joining then .err ()
    else if s.waiting.isEmpty && s.popped.isEmpty && s.claimed.isEmpty then .ok { s with pc := .joined }
    else .err ()
  | .drain order t => if s.pc ≠ .joined then .err () else drain c t order s
  | .enter r =>
    if live s = false then .err ()
    else match recvCheck s r with
      | .ok _ => .ok { s with waiting := s.waiting ++ [r] }
      | .error _ => .err ()
  | .leave i => if i < s.waiting.length then .ok { s with waiting := s.waiting.eraseIdx i } else .err ()
  | .pop i j =>
    match s.waiting[i]? with
    | none => .err ()
    | some r =>
      match (s.queues r)[j]? with
      | none => .err ()
      | some it =>
        if (s.queues r).all (fun x => decide (x.prio ≤ it.prio)) then
          .ok { s with
            waiting := s.waiting.eraseIdx i
            queues := fun q => if q = r then (s.queues r).eraseIdx j else s.queues q
            popped := s.popped ++ [(r, it)] }
        else .err ()
  | .claim i =>
    match s.popped[i]? with
    | none => .err ()
    | some (r, it) =>
      match s.flags[it.flag]? with
      | none => .err ()
      | some f =>
        if f.taken then
          .ok { s with
            popped := s.popped.eraseIdx i
            waiting := s.waiting ++ [r] }
        else
          .ok { s with
            popped := s.popped.eraseIdx i
            flags := s.flags.set it.flag { f with taken := true }
            claimed := s.claimed ++ [(r, it)] }
  | .account i =>
    match s.claimed[i]? with
    | none => .err ()
    | some (r, it) =>
      let a := (cmdOf c.g it.id).affinity
      match s.qs a with
      | none => .panic "bar"
      | some sn =>
        .ok { s with
          claimed := s.claimed.eraseIdx i
          qs := fun x => if x = a then some ⟨(sn.numReady + (2 ^ 32 - 1)) % 2 ^ 32, sn.numInflight + 1⟩ else s.qs x
          held := s.held ++ [it.id]
          obtained := s.obtained ++ [(r, it.id)] }
  | .sendStarted id host pid jobid =>
    if live s = false then .err ()
    else .ok { s with
      chan := s.chan ++ [.started id host pid jobid]
      startedSent := s.startedSent ++ [id]
      preambles := s.preambles ++ [id] }
  | .sendFinished e =>
    if live s = false then .err ()
    else .ok { s with
      chan := s.chan ++ [.finished e]
      held := s.held.erase e.id }
  | .lose id =>
    if live s = false then .err ()
    else .ok { s with
      held := s.held.erase id
      lost := s.lost ++ [id] }
  | .trigger => .ok { s with trigger := true }
  | .cancel k => .ok { s with token := tokenCancel s.token k }

/-- What a well-behaved runner does: it reports only tasks it obtained, Started at most once and before Finished, Finished
at most once. (The local loop always does; the HTTP server does if `/begun` is not repeated.) (localrunner.rs:46-153, server.rs:402-508). -/
def disciplined (s : State) : Act → Bool
  | .sendStarted id _ _ _ => decide (id ∈ s.held) && decide (id ∉ s.startedSent)
  | .sendFinished e => decide (e.id ∈ s.held)
  | .lose id => decide (id ∈ s.held)
  | _ => true

end Verif.Tracker
