import Verif.Model.System
import Verif.Spec.Tracker

/-!
# Vocabulary for statements about the runners (specification side)
-/

namespace Verif.Sys
open Verif Verif.Tracker

/-- Task a local loop is responsible for. -/
def ownL : Loop → List Nat
  | .got v | .spawned v _ | .running v _ | .failing v | .failed v | .cancelled v | .ended v _ _ | .killed v | .dead v => [v]
  | .top | .inRecv | .exited => []

/-- Task an HTTP handler is responsible for. -/
def ownH : Handler → List Nat
  | .got v _ | .timed v _ _ _ | .dead v => [v]
  | .ending conn _ _ _ | .reporting conn _ _ _ => [conn.node]
  | .toRecv _ _ | .inRecv _ _ | .waiting _ _ _ | .done _ => []

/-- Tasks the reaper has to report. -/
def ownR : Reaper → List Nat
  | .removing _ expired | .softRemoving _ expired | .sending expired | .dead expired => expired
  | .idle | .stopped => []

/-- All tasks somebody is responsible for, including those whose connection was forgotten. -/
def owned (s : State) : List Nat :=
  s.loops.flatMap ownL ++ s.handlers.flatMap ownH ++ s.conns.map (·.2.node) ++ ownR s.reaper ++ s.forgotten

/-- The clients do not send `/begun` again for a transaction for which it was accepted. -/
def polite (c : Cfg) (s : State) : Act → Bool
  | .request r =>
    match r.auth, r.body with
    | some t, .begun txn _ _ =>
      t != c.secret || (match s.conns.lookup txn with | some conn => !conn.begun | none => true)
    | _, _ => true
  | _ => true

/-- A run: actions `as` lead from `s` to `s'`; `/begun` is not repeated. -/
inductive Runs (c : Cfg) : State → List Act → State → Prop
  | nil (s : State) : Runs c s [] s
  | cons {s s1 s' : State} {a : Act} {as : List Act} :
      polite c s a = true → step c s a = .ok s1 → Runs c s1 as s' → Runs c s (a :: as) s'

/-- States of an `execute` call that starts with log `lf` at time `now`. -/
def Reachable (c : Cfg) (lf : LogFile) (now : Int) (s : State) : Prop := ∃ as, Runs c (init c lf now) as s

/-- Replays actions, for concrete cases. -/
def replay (c : Cfg) : State → List Act → Res Unit State
  | s, [] => .ok s
  | s, a :: as => if polite c s a then (step c s a).bind (fun s1 => replay c s1 as) else .err ()

theorem runs_of_replay {c : Cfg} : ∀ {as : List Act} {s s' : State}, replay c s as = .ok s' → Runs c s as s' := by
  intro as
  induction as with
  | nil => intro s s' h; simp only [replay, Res.ok.injEq] at h; subst h; exact .nil _
  | cons a as ih =>
    intro s s' h
    simp only [replay] at h
    split at h
    · rename_i hd
      cases hs : step c s a with
      | ok s1 => rw [hs] at h; exact .cons hd hs (ih h)
      | err x => rw [hs] at h; simp [Res.bind] at h
      | panic x => rw [hs] at h; simp [Res.bind] at h
    · cases h

/-- What holds after replaying actions from the start; `false` if some action is not possible. -/
def after (c : Cfg) (as : List Act) (p : State → Bool) : Bool :=
  match replay c (init c emptyLog 0) as with | .ok s => p s | _ => false

theorem runs_of_after {c : Cfg} {as : List Act} {p : State → Bool} (h : after c as p = true) :
    ∃ s, Runs c (init c emptyLog 0) as s ∧ p s = true := by
  unfold after at h
  split at h
  · rename_i s hs; exact ⟨s, runs_of_replay hs, h⟩
  · cases h

/-! ### Observations -/

/-- What can be seen of a run, if an action in a state shows `f`. -/
def collect {β : Type} (f : State → Act → List β) (c : Cfg) : State → List Act → List β
  | _, [] => []
  | s, a :: as => f s a ++ (match step c s a with | .ok s1 => collect f c s1 as | _ => [])

/-- What a local loop does with tasks: obtains one, starts (or fails to start) its process, reports the start, reports the
end. -/
inductive LoopObs where
  | got (v : Nat)
  | spawn (v : Nat) (ok : Bool)
  | started (v : Nat)
  | finished (v : Nat) (st : ExitStatus)
deriving DecidableEq, Repr

/-- The number of the loop and what it does in an action. -/
def loopObs (s : State) : Act → List (Nat × LoopObs)
  | .loopGot i k => match s.tr.claimed[k]? with | some (_, it) => [(i, .got it.id)] | none => []
  | .loopSpawn i ok => match s.loops[i]? with | some (.got v) => [(i, .spawn v ok)] | _ => []
  | .loopStarted i _ _ =>
    match s.loops[i]? with
    | some (.spawned v _) => [(i, .started v)]
    | some (.failing v) => [(i, .started v)]
    | _ => []
  | .loopReport i =>
    match s.loops[i]? with
    | some (.failed v) => [(i, .finished v (.code (-1)))]
    | some (.cancelled v) => [(i, .finished v .cancelled)]
    | some (.ended v code _) => [(i, .finished v (.code code))]
    | _ => []
  | _ => []

/-- The trace of loop `i`. -/
def loopTrace (c : Cfg) (s : State) (as : List Act) (i : Nat) : List LoopObs :=
  ((collect loopObs c s as).filter (fun x => x.1 == i)).map (·.2)

/-- What a loop does with task `v`, if its process can be started and ends with `st`, or if it can not be started. -/
def round : Nat × Option ExitStatus → List LoopObs
  | (v, some st) => [.got v, .spawn v true, .started v, .finished v st]
  | (v, none) => [.got v, .spawn v false, .started v, .finished v (.code (-1))]

/-- Number of tasks obtained by the loops below `n`, and number of tasks they reported as finished. -/
def taken (n : Nat) (tr : List (Nat × LoopObs)) : Nat :=
  tr.countP (fun x => decide (x.1 < n) && (match x.2 with | .got _ => true | _ => false))

/-- See `taken`. -/
def givenBack (n : Nat) (tr : List (Nat × LoopObs)) : Nat :=
  tr.countP (fun x => decide (x.1 < n) && (match x.2 with | .finished _ _ => true | _ => false))

/-- All finish reports of a run (task and status), by local loops, `/end` and the reaper. -/
def reportObs (s : State) : Act → List (Nat × ExitStatus)
  | .loopReport i =>
    match s.loops[i]? with
    | some (.failed v) => [(v, .code (-1))]
    | some (.cancelled v) => [(v, .cancelled)]
    | some (.ended v code _) => [(v, .code code)]
    | _ => []
  | .hReport h => match s.handlers[h]? with | some (.reporting conn code _ _) => [(conn.node, .code code)] | _ => []
  | .reapSend => match s.reaper with | .sending (v :: _) => [(v, .disconnected)] | _ => []
  | _ => []

/-- Tasks nobody will report: their loop, handler or the reaper is gone, or their connection was forgotten. -/
def abandoned (s : State) : List Nat :=
  s.loops.flatMap (fun l => match l with | .dead v => [v] | .killed v => [v] | _ => []) ++
  s.handlers.flatMap (fun h => match h with | .dead v => [v] | _ => []) ++
  (match s.reaper with | .dead expired => expired | _ => []) ++ s.forgotten

/-- The tracker action an action takes, if any. -/
def trackerAct (c : Cfg) (s : State) : Act → List Tracker.Act
  | .server a => [a]
  | .joinDone => [.joinDone]
  | .loopRecv i => match recvCheck s.tr (loopType c i) with | .ok _ => [.enter (loopType c i)] | .error _ => []
  | .loopClosed _ k => [.leave k]
  | .loopGot _ k => [.account k]
  | .loopStarted i host pid =>
    match s.loops[i]? with
    | some (.spawned v _) => [.sendStarted v host pid ""]
    | some (.failing v) => [.sendStarted v host 0 ""]
    | _ => []
  | .loopReport i =>
    match s.loops[i]? with
    | some (.failed v) => [.sendFinished ⟨v, .code (-1), [], none⟩]
    | some (.cancelled v) => [.sendFinished ⟨v, .cancelled, [], none⟩]
    | some (.ended v code values) => [.sendFinished ⟨v, .code code, values, none⟩]
    | _ => []
  | .request r =>
    match r.auth, r.body, r.jobid with
    | some t, .begun txn host pid, some (some j) =>
      if t = c.secret then
        match s.conns.lookup txn with
        | some conn => [.sendStarted conn.node host pid j]
        | none => []
      else []
    | _, _, _ => []
  | .hRecv h =>
    match s.handlers[h]? with
    | some (.toRecv rt _) => match recvCheck s.tr rt with | .ok _ => [.enter rt] | .error _ => []
    | _ => []
  | .hLeave h k _ => match s.handlers[h]? with | some (.inRecv _ _) => [.leave k] | _ => []
  | .hDrop h k => match s.handlers[h]? with | some (.inRecv _ _) => [.leave k] | _ => []
  | .hGot _ k => [.account k]
  | .hReport h =>
    match s.handlers[h]? with
    | some (.reporting conn code values _) => [.sendFinished ⟨conn.node, .code code, values, some s.nextFlag⟩]
    | _ => []
  | .reapSend => match s.reaper with | .sending (v :: _) => [.sendFinished ⟨v, .disconnected, [], none⟩] | _ => []
  | _ => []

/-- The tracker actions of a run. -/
def toTracker (c : Cfg) (s : State) (as : List Act) : List Tracker.Act := collect (trackerAct c) c s as

/-- Starts of processes: loop, task, time. -/
def spawnTimes (s : State) : Act → List (Nat × Nat × Int)
  | .loopSpawn i true => match s.loops[i]? with | some (.got v) => [(i, v, s.tr.now)] | _ => []
  | _ => []

/-- Does this action complete the processing of a finish report? -/
def finishing (s : State) : Act → Bool
  | .server (.recvFinished _ _) => true
  | .server (.sendDone _) => match s.tr.pc with | .sending [] (some _) => true | _ => false
  | _ => false

/-- At time `T` of the run the server completed processing a finish report, at least `fizzlesAllowed` tasks having failed
within 5 s so far. -/
def TooManyFailuresAt (c : Cfg) (s0 : State) (as : List Act) (T : Int) : Prop :=
  ∃ as1 a as2 s1, as = as1 ++ a :: as2 ∧ Runs c s0 as1 s1 ∧ s1.tr.now = T ∧ finishing s1 a = true ∧
    c.tr.fizzlesAllowed ≤ quickFailures c.tr [] s0.tr (toTracker c s0 (as1 ++ [a]))

/-- All preamble calls so far: by the runners themselves and in `send_started`. -/
def preambleCalls (s : State) : List Nat := s.preCalls ++ s.tr.preambles

/-- Is a handler (that has not answered yet) working for Slurm job `j`? -/
def worksFor (j : String) : Handler → Bool
  | .toRecv _ j' | .inRecv _ j' | .got _ j' | .timed _ j' _ _ | .waiting _ _ j' => j' == j
  | .ending conn _ _ _ | .reporting conn _ _ _ => conn.jobid == j
  | .done _ | .dead _ => false

/-- Does the wheel turn? -/
def isReapTick : Act → Bool
  | .reapTick => true
  | _ => false

/-- Is the handler between touching the timer wheel and touching the connections (server.rs:375-380 and 452-474)? -/
def between : Handler → Bool
  | .timed _ _ _ _ | .ending _ _ _ _ => true
  | _ => false

/-- Ticks of the wheel while some handler is there. -/
def slowTick (s : State) : Act → List Unit
  | .reapTick => if s.handlers.any between then [()] else []
  | _ => []

/-- In the run `as` from `s` handlers are prompt: none takes so long between the timer wheel and the connections that the
wheel turns (every 137 ms) meanwhile. -/
def Prompt (c : Cfg) (s : State) (as : List Act) : Prop := collect slowTick c s as = []

/-- Signs of life for transaction `txn`: an authorized `/ping` for it, or the connection being made. -/
def aliveObs (c : Cfg) (txn : Nat) (s : State) : Act → List Unit
  | .request r => if r.auth = some c.secret ∧ r.body = .ping txn then [()] else []
  | .hInsert h => match s.handlers[h]? with
    | some (.timed _ _ t _) => if t = txn then [()] else []
    | _ => []
  | _ => []

/-- In the run `as` from `s` transaction `txn` gives no sign of life. -/
def Silent (c : Cfg) (s : State) (txn : Nat) (as : List Act) : Prop := collect (aliveObs c txn) c s as = []

/-- Connections made: transaction, task, time. -/
def handedOut (s : State) : Act → List (Nat × Nat × Int)
  | .hInsert h => match s.handlers[h]? with | some (.timed v _ txn _) => [(txn, v, s.tr.now)] | _ => []
  | _ => []

/-- Transaction ids drawn. -/
def drawn (s : State) : Act → List Nat
  | .hTimer h txn => match s.handlers[h]? with | some (.got _ _) => [txn] | _ => []
  | _ => []

/-- No transaction id is drawn twice in the run. -/
def FreshTxns (c : Cfg) (s : State) (as : List Act) : Prop := (collect drawn c s as).Nodup

/-- In the run `as` there was a stretch of at least `n` ticks during which transaction `txn`, open for task `v` at its
beginning, gave no sign of life. -/
def WasSilent (c : Cfg) (s0 : State) (as : List Act) (txn v n : Nat) : Prop :=
  ∃ as1 bs1 rest s1, as = as1 ++ bs1 ++ rest ∧ Runs c s0 as1 s1 ∧ (∃ x ∈ s1.conns, x.1 = txn ∧ x.2.node = v) ∧
    Silent c s1 txn bs1 ∧ n ≤ bs1.countP isReapTick

/-- Processes of local loops that ended: task, exit code, values written to descriptor 3. -/
def outputs (s : State) : Act → List (Nat × Int × List (List (String × String)))
  | .loopOutput i code values => match s.loops[i]? with | some (.running v _) => [(v, code, values)] | _ => []
  | _ => []

/-- Authorized `/end` requests for an open connection of the same Slurm job: transaction and task of the connection, code
and values sent. -/
def endRequests (c : Cfg) (s : State) : Act → List (Nat × Nat × Int × List (List (String × String)))
  | .request r =>
    match r.body with
    | .finish txn code values _ =>
      match s.conns.lookup txn with
      | some conn => if r.auth = some c.secret ∧ r.jobid = some (some conn.jobid) then [(txn, conn.node, code, values)] else []
      | none => []
    | _ => []
  | _ => []

/-- Authorized `/begun` requests for an open connection: transaction, task, host, process id, job. -/
def begunRequests (c : Cfg) (s : State) : Act → List (Nat × Nat × String × Nat × String)
  | .request r =>
    match r.auth, r.body, r.jobid with
    | some t, .begun txn host pid, some (some j) =>
      if t = c.secret then
        match s.conns.lookup txn with
        | some conn => [(txn, conn.node, host, pid, j)]
        | none => []
      else []
    | _, _, _ => []
  | _ => []

/-- Tasks whose process is started by a local loop. -/
def loopStarts (s : State) : Act → List Nat
  | .loopSpawn i true => match s.loops[i]? with | some (.got v) => [v] | _ => []
  | _ => []

/-- Processes that could not be started. -/
def failedSpawns (s : State) : Act → List Nat
  | .loopSpawn i false => match s.loops[i]? with | some (.got v) => [v] | _ => []
  | _ => []

/-- Local processes stopped because of a soft cancellation. -/
def softStops (s : State) : Act → List Nat
  | .loopSoft i => match s.loops[i]? with | some (.running v _) => [v] | _ => []
  | _ => []

/-- Finish reports sent by handlers of `/end`: number of the handler, task, flag. -/
def endReports (s : State) : Act → List (Nat × Nat × Nat)
  | .hReport h => match s.handlers[h]? with | some (.reporting conn _ _ _) => [(h, conn.node, s.nextFlag)] | _ => []
  | _ => []

/-- There was a hard cancellation before the end of the run. -/
def WasHard (c : Cfg) (s0 : State) (as : List Act) : Prop :=
  ∃ as1 as2 s1, as = as1 ++ as2 ∧ Runs c s0 as1 s1 ∧ s1.tr.token = some .hard

end Verif.Sys
