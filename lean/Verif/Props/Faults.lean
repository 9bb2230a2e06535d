import Verif.Proof.System6
import Verif.Props.System

/-!
# What can go wrong in the runners, and the timers of connections (C22, C59, C82-C86)
-/

namespace Verif.Props.System
open Verif Verif.Tracker Verif.Sys
open Verif.Props.Tracker (task t0)

variable {c : Sys.Cfg} {lf : LogFile} {now : Int} {s s' : Sys.State}

/-! ### C22: a repeated `/begun` -/

/-- **C22 (violated), in general.** In every reachable state in which the server waits for events: if `/begun` is sent for a
transaction whose start was reported before, it is accepted (200), and then `background_serve` panics. -/
theorem repeated_begun_panics_violated (hg : Good c.tr) (hr : Sys.Reachable c lf now s) (hpc : s.tr.pc = .idle) (hch : s.tr.chan = [])
    (hsrv : s.reaper ≠ .stopped) {txn : Nat} {conn : Conn} (hc : s.conns.lookup txn = some conn)
    (hst : conn.node ∈ s.tr.startedSent) (host : String) (pid : Nat) (j : String) (t : SysTime) :
    ∃ s1 m, Sys.step c s (.request ⟨some c.secret, some (some j), .begun txn host pid⟩) = .ok s1 ∧
      s1.handlers = s.handlers ++ [.done (some .ok)] ∧ Sys.step c s1 (.server (.recvStarted t)) = .panic m := by
  have hlive : live s.tr = true := by simp [live, hpc]
  obtain ⟨t1, m, h1, h2⟩ := Props.Tracker.second_start_report_panics hg (Reachable.inv hg hr).reach hpc hch hst host pid j t
  refine ⟨reply .ok { { s with tr := t1 } with conns := modifyKey txn (fun x => { x with begun := true }) s.conns }, m, ?_, rfl, ?_⟩
  · have : ∀ f, trk c s (.sendStarted conn.node host pid j) f = .ok (f { s with tr := t1 }) :=
      fun f => trk_ok.2 ⟨t1, h1, rfl⟩
    simp [Sys.step, hsrv, hlive, takeRequest, begunH, hc, this]
  · have : (reply .ok { { s with tr := t1 } with conns := modifyKey txn (fun x => { x with begun := true }) s.conns }).tr = t1 := rfl
    simp only [Sys.step, serverAct, if_true, trk, this, h2]
    rfl

/-- Non-trivial case: `/begun` was sent and processed once. -/
example : after remote2 (serve ++ handOut 0 0 5 "j" ++ [req "j" (.begun 5 "h" 1), .server (.recvStarted t0)]) (fun s =>
    s.tr.pc == .idle && s.tr.chan == [] && decide (s.reaper ≠ .stopped) &&
    (match s.conns.lookup 5 with | some conn => decide (conn.node ∈ s.tr.startedSent) | none => false)) = true := by decide +kernel

/-! ### C59: the reaper -/

/-- **C59 (consequence), in general.** When the reaper has died: as long as no `/end` is sent for an open connection, its
task is not reported, whatever else happens (the ping timeout does not work any more), and serving does not end without a
shutdown or too many quick failures. -/
theorem dead_reaper_never_reports (hg : Good c.tr) {as bs : List Sys.Act} (hr : Sys.Runs c (Sys.init c lf now) as s)
    (hp : s.tr.pc ≠ .done) {ex : List Nat} (hd : s.reaper = .dead ex) {x : Nat × Conn} (hx : x ∈ s.conns) (hb : Sys.Runs c s bs s')
    (hno : ∀ auth jid code values next, Sys.Act.request ⟨auth, jid, .finish x.1 code values next⟩ ∉ bs) :
    x.2.node ∉ (collect reportObs c (Sys.init c lf now) (as ++ bs)).map (·.1) ∧
    (NoShutdown (toTracker c (Sys.init c lf now) (as ++ bs)) →
      quickFailures c.tr [] (Tracker.init c.tr lf now) (toTracker c (Sys.init c lf now) (as ++ bs)) < c.tr.fizzlesAllowed →
      ¬ ServingOver s'.tr) := by
  have hkeep : ∀ bs1 bs2 s1, bs = bs1 ++ bs2 → Sys.Runs c s bs1 s1 → x.2.node ∈ owned s1 := by
    intro bs1 bs2 s1 e h1
    have := dead_reaper_keeps hg ⟨as, hr⟩ hd (txn := x.1) (v := x.2.node) (.inl ⟨x, hx, rfl, rfl⟩) h1 (by
      rintro ⟨auth, jid, body⟩ hm ⟨_, code, values, next, e2⟩
      simp only at e2
      subst e2
      exact hno auth jid code values next (by rw [e]; exact List.mem_append_left _ hm))
    unfold owned
    simp only [List.mem_append]
    rcases this with ⟨y, hy, _, e⟩ | h
    · exact .inl (.inl (.inr (List.mem_map.2 ⟨y, hy, e⟩)))
    · exact .inr h
  refine ⟨kept_never_reported hg hr hp hb hkeep, fun h1 h2 he => ?_⟩
  have := Props.Tracker.ended_of_over he
  rw [kept_hang hg hr hp hb hkeep h1 h2] at this
  cases this

/-- Four remote tasks; one quick failure is enough for a soft shutdown. -/
def remote4 : Sys.Cfg := { remote2 with tr := { g := ⟨[job "a", job "b", job "c", job "d"], []⟩, fizzlesAllowed := 1 } }

theorem remote4_good : Good remote4.tr := ⟨fun _ h => by simp [remote4] at h, by decide, by decide⟩

/-- Four runners get the tasks as transactions 5, 6, 7, 8; the first fails at once; the reaper notices the soft shutdown and
lists the others; it removes 6; 7 ends by itself; the reaper tries to remove 7. -/
def reaperRun : List Sys.Act := [.server (.begin [0, 1, 2, 3] t0), .server .sendNext, .server (.sendDone t0)] ++
  handOut 0 0 5 "j" ++ handOut 1 0 6 "j" ++ handOut 2 0 7 "j" ++ handOut 3 0 8 "j" ++
  [req "j" (.begun 5 "h" 1), req "j" (.begun 6 "h" 1), .server (.recvStarted t0), .server (.recvStarted t0),
   req "j" (.finish 5 1 [] none), .hCancel 6, .hReport 6, .server (.recvFinished [] t0),
   .reapTick, .reapCheck [6, 7, 8], .reapRemove, req "j" (.finish 7 0 [] none), .reapRemove]

/-- **C59 (violated).** There is a schedule, of valid requests only, in which the reaper dies; the task of transaction 6, which
it had removed, and the task of transaction 8, if its runner stays silent, are never reported; serving never ends without
hard cancellation. -/
theorem reaper_dies_violated : ∃ s, Sys.Runs remote4 (Sys.init remote4 emptyLog 0) reaperRun s ∧ s.reaper = .dead [1] ∧
    s.conns.map (fun x => (x.1, x.2.node)) = [(8, 3)] ∧
    ∀ bs s', Sys.Runs remote4 s bs s' →
      1 ∉ (collect reportObs remote4 (Sys.init remote4 emptyLog 0) (reaperRun ++ bs)).map (·.1) ∧
      ((∀ auth jid code values next, Sys.Act.request ⟨auth, jid, .finish 8 code values next⟩ ∉ bs) →
        3 ∉ (collect reportObs remote4 (Sys.init remote4 emptyLog 0) (reaperRun ++ bs)).map (·.1)) ∧
      ((∀ a ∈ toTracker remote4 (Sys.init remote4 emptyLog 0) (reaperRun ++ bs), a ≠ .seeHard ∧ a ≠ .ctrlC) →
        ¬ ServingOver s'.tr) := by
  obtain ⟨s, h1, h2⟩ := Sys.runs_of_after (c := remote4) (as := reaperRun) (p := fun s => s.tr.pc == .idle &&
    decide (s.reaper = .dead [1]) && decide (1 ∈ s.tr.inflight.map Prod.fst) &&
    s.conns.map (fun x => (x.1, x.2.node)) == [(8, 3)]) (by decide +kernel)
  simp only [Bool.and_eq_true, beq_iff_eq, decide_eq_true_eq] at h2
  obtain ⟨⟨⟨hpc, hre⟩, hin⟩, hco⟩ := h2
  have hab : 1 ∈ abandoned s := by simp [abandoned, hre]
  refine ⟨s, h1, hre, hco, fun bs s' hb => ⟨?_, ?_, ?_⟩⟩
  · exact abandoned_unreported remote4_good h1 (by rw [hpc]; simp) hab hb
  · intro hno
    have hx : (8, 3) ∈ s.conns.map (fun x => (x.1, x.2.node)) := by rw [hco]; simp
    obtain ⟨x, hx, e⟩ := List.mem_map.1 hx
    simp only [Prod.mk.injEq] at e
    rw [← e.2]
    exact (dead_reaper_never_reports remote4_good h1 (by rw [hpc]; simp) hre hx hb (by rw [e.1]; exact hno)).1
  · exact abandoned_started_hangs remote4_good h1 (by rw [hpc]; simp) hab hin hb

/-! ### C82: panicking local loops -/

/-- **C82 (violated), in general.** When a local loop panics, the task it holds is abandoned: by `abandoned_unreported` and
`abandoned_hangs` it is never reported and `execute` hangs. -/
theorem loop_panic_abandons_violated {i : Nat} (hs : Sys.step c s (.loopDie i) = .ok s') :
    ∃ v l, s.loops[i]? = some l ∧ ownL l = [v] ∧ v ∈ abandoned s' := by
  simp only [Sys.step] at hs
  split at hs
  · rename_i v hv
    cases hl : s.loops[i]? with
    | none => rw [hl] at hv; cases hv
    | some l =>
      rw [hl] at hv
      simp only [Option.bind_some] at hv
      simp only [Res.ok.injEq] at hs; subst hs
      refine ⟨v, l, rfl, ?_, ?_⟩
      · cases l <;> simp only [mayDie] at hv <;> first | (split at hv <;> simp_all [ownL]) | simp at hv
      · have hm : Loop.dead v ∈ (s.loops.set i (.dead v)) := List.mem_of_getElem? (List.getElem?_set_self (List.getElem?_eq_some_iff.1 hl).1)
        unfold abandoned
        simp only [List.mem_append, List.mem_flatMap]
        split <;> exact .inl (.inl (.inl ⟨_, hm, by simp⟩))
  · cases hs

/-- **C82.** A local loop can panic exactly at these places: with a task it has just obtained, if this has a preamble, an empty command or an input on descriptor 3; with a task whose process it has started, if this
has a preamble or an input; with a task whose process could not be started, if this has a preamble. -/
theorem loop_panics_iff {i : Nat} : (∃ s', Sys.step c s (.loopDie i) = .ok s') ↔ ∃ v,
    (s.loops[i]? = some (.got v) ∧ ((cmdOf c.tr.g v).preamble ≠ none ∨ (cmdOf c.tr.g v).cmdline = [] ∨ ∃ bytes, (cmdOf c.tr.g v).fdInput = some (3, bytes))) ∨
    (∃ start, s.loops[i]? = some (.spawned v start) ∧ ((cmdOf c.tr.g v).preamble ≠ none ∨ (cmdOf c.tr.g v).fdInput ≠ none)) ∨
    (s.loops[i]? = some (.failing v) ∧ (cmdOf c.tr.g v).preamble ≠ none) := by
  have hsp : ∀ cmd : Cmd, spawnable cmd = false ↔ cmd.cmdline = [] ∨ ∃ bytes, cmd.fdInput = some (3, bytes) := by
    intro cmd
    simp only [spawnable, Bool.and_eq_false_iff, Bool.not_eq_false', List.isEmpty_iff, bne_eq_false_iff_eq, Option.map_eq_some_iff]
    constructor
    · rintro (h | ⟨⟨a, b⟩, h1, h2⟩)
      · exact .inl h
      · exact .inr ⟨b, by rw [h1]; simp_all⟩
    · rintro (h | ⟨b, h⟩)
      · exact .inl h
      · exact .inr ⟨_, h, rfl⟩
  have hex : (∃ s', Sys.step c s (.loopDie i) = .ok s') ↔ ∃ v, (s.loops[i]?).bind (mayDie c.tr.g) = some v := by
    simp only [Sys.step]
    cases (s.loops[i]?).bind (mayDie c.tr.g) <;> simp
  rw [hex]
  cases hl : s.loops[i]? with
  | none => simp
  | some l =>
    simp only [Option.bind_some, Option.some.injEq]
    cases l <;> simp only [mayDie, reduceCtorEq, false_and, exists_false, or_false, false_or, Loop.got.injEq, Loop.spawned.injEq, Loop.failing.injEq]
    · rename_i v
      constructor
      · rintro ⟨w, h⟩
        split at h
        · rename_i hc
          exact ⟨v, rfl, by simpa [hsp, Option.isSome_iff_ne_none] using hc⟩
        · cases h
      · rintro ⟨w, rfl, h⟩
        exact ⟨v, by rw [if_pos]; simpa [hsp, Option.isSome_iff_ne_none] using h⟩
    · rename_i v start
      constructor
      · rintro ⟨w, h⟩
        split at h
        · rename_i hc
          exact ⟨v, start, ⟨rfl, rfl⟩, by simpa [Option.isSome_iff_ne_none] using hc⟩
        · cases h
      · rintro ⟨w, st, ⟨rfl, rfl⟩, h⟩
        exact ⟨v, by rw [if_pos]; simpa [Option.isSome_iff_ne_none] using h⟩
    · rename_i v
      constructor
      · rintro ⟨w, h⟩
        split at h
        · rename_i hc
          exact ⟨v, rfl, by simpa [Option.isSome_iff_ne_none] using hc⟩
        · cases h
      · rintro ⟨w, rfl, h⟩
        exact ⟨v, by rw [if_pos]; simpa [Option.isSome_iff_ne_none] using h⟩

/-- **C82 (violated), `fd_input` on descriptor 3.** `add_task` accepts such a task. Once a local loop has obtained it, it is not
reported in any continuation, and serving does not end in any continuation without a shutdown or too many quick failures of
other tasks. -/
theorem fd3_input_hangs_violated (hg : Good c.tr) {as bs : List Sys.Act} (hr : Sys.Runs c (Sys.init c lf now) as s)
    (hp : s.tr.pc ≠ .done) {i v : Nat} (hi : s.loops[i]? = some (.got v)) {bytes : List UInt8}
    (hfd : (cmdOf c.tr.g v).fdInput = some (3, bytes)) (hb : Sys.Runs c s bs s') :
    v ∉ (collect reportObs c (Sys.init c lf now) (as ++ bs)).map (·.1) ∧
    (NoShutdown (toTracker c (Sys.init c lf now) (as ++ bs)) →
      quickFailures c.tr [] (Tracker.init c.tr lf now) (toTracker c (Sys.init c lf now) (as ++ bs)) < c.tr.fizzlesAllowed →
      ¬ ServingOver s'.tr) := by
  have hn : spawnable (cmdOf c.tr.g v) = false := by simp [spawnable, hfd]
  have hkeep : ∀ bs1 bs2 s1, bs = bs1 ++ bs2 → Sys.Runs c s bs1 s1 → v ∈ owned s1 := fun _ _ _ _ h1 => unspawnable_owned hn hi h1
  refine ⟨kept_never_reported hg hr hp hb hkeep, fun h1 h2 he => ?_⟩
  have := Props.Tracker.ended_of_over he
  rw [kept_hang hg hr hp hb hkeep h1 h2] at this
  cases this

/-- A task `a` with a preamble and input on descriptor `fd`, and a second one; two local loops. -/
def localBad (fd : Option Int) (pre : Bool) : Sys.Cfg := { local2 with
  tr := { g := ⟨[{ job "a" with fdInput := fd.map (fun x => (x, [104])), preamble := if pre then some 0 else none }, job "b"], []⟩,
          fizzlesAllowed := 1 } }

/-- Concrete cases: the loop panics on descriptor 3; on a failing preamble; when the child closes its input early. Without
these it can not. -/
example : after (localBad (some 3) false) (serve ++ [.loopRecv 0, .server (.pop 0 0), .server (.claim 0), .loopGot 0 0])
      (fun s => s.loops[0]? == some (.got 0) && (cmdOf (localBad (some 3) false).tr.g 0).fdInput == some (3, [104])) = true ∧
    after (localBad (some 3) false) (serve ++ [.loopRecv 0, .server (.pop 0 0), .server (.claim 0), .loopGot 0 0, .loopDie 0])
      (fun s => abandoned s == [0]) = true ∧
    after (localBad none true) (serve ++ [.loopRecv 0, .server (.pop 0 0), .server (.claim 0), .loopGot 0 0, .loopDie 0])
      (fun s => abandoned s == [0]) = true ∧
    after (localBad (some 0) false) (serve ++ [.loopRecv 0, .server (.pop 0 0), .server (.claim 0), .loopGot 0 0, .loopSpawn 0 true,
        .loopDie 0]) (fun s => abandoned s == [0]) = true ∧
    after (localBad none false) (serve ++ [.loopRecv 0, .server (.pop 0 0), .server (.claim 0), .loopGot 0 0, .loopDie 0])
      (fun _ => true) = false := by decide +kernel

/-! ### C83: a failing preamble of a remote task -/

/-- **C83 (violated).** When the preamble of a task fails while it is being handed to a remote runner, the task is abandoned:
it is never reported and `execute` hangs (`abandoned_unreported`, `abandoned_hangs`). -/
theorem handler_panic_abandons_violated {h : Nat} (hs : Sys.step c s (.hDie h) = .ok s') :
    ∃ v j, s.handlers[h]? = some (.got v j) ∧ v ∈ abandoned s' := by
  simp only [Sys.step] at hs
  split at hs
  · rename_i v j hl
    split at hs
    · simp only [Res.ok.injEq] at hs; subst hs
      refine ⟨v, j, hl, ?_⟩
      have hm : Handler.dead v ∈ (s.handlers.set h (.dead v)) := List.mem_of_getElem? (List.getElem?_set_self (List.getElem?_eq_some_iff.1 hl).1)
      unfold abandoned
      simp only [List.mem_append, List.mem_flatMap]
      exact .inl (.inl (.inr ⟨_, hm, by simp⟩))
    · cases hs
  · cases hs

/-- Non-trivial case. -/
example : after { localBad none true with numParallel := 0, remote := true } (serve ++
    [req "j" (.start 0), .hRecv 0, .server (.pop 0 0), .server (.claim 0), .hGot 0 0, .hDie 0]) (fun s => abandoned s == [0]) = true := by
  decide +kernel

/-! ### C84: transaction ids -/

/-- **C84 (violated), in general.** Transaction ids are random 32-bit numbers and not checked: if a new one is in use, the
task of the older connection is abandoned. -/
theorem txn_collision_abandons_violated {h v txn : Nat} {j : String} {tm : TimeWheel.TimerID} {conn : Conn}
    (hh : s.handlers[h]? = some (.timed v j txn tm)) (hc : s.conns.lookup txn = some conn) :
    ∃ s1, Sys.step c s (.hInsert h) = .ok s1 ∧ conn.node ∈ abandoned s1 := by
  refine ⟨_, by simp only [Sys.step, hh]; rfl, ?_⟩
  simp [abandoned, setH, hc]

/-- Both tasks are handed to runners of job "j", as the same transaction 5; the first runner ends its task `a`, which
succeeded. -/
def collision : List Sys.Act := serve ++ handOut 0 0 5 "j" ++ handOut 1 0 5 "j" ++
  [req "j" (.begun 5 "h" 1), .server (.recvStarted t0), req "j" (.finish 5 0 [] none), .hCancel 3, .hReport 3,
   .server (.recvFinished [] t0)]

/-- **C84 (violated), a case.** The success of `a` is recorded for `b`, which still runs; `a` is never reported and
`execute` hangs. -/
theorem txn_collision_wrong_task_violated : ∃ s, Sys.Runs remote2 (Sys.init remote2 emptyLog 0) collision s ∧
    s.handlers.take 2 = [.done (some (.task 5 0)), .done (some (.task 5 1))] ∧ s.tr.processed = [(1, .code 0)] ∧
    ∀ bs s', Sys.Runs remote2 s bs s' →
      0 ∉ (collect reportObs remote2 (Sys.init remote2 emptyLog 0) (collision ++ bs)).map (·.1) := by
  obtain ⟨s, h1, h2⟩ := Sys.runs_of_after (c := remote2) (as := collision) (p := fun s => s.tr.pc == .idle &&
    decide (0 ∈ abandoned s) && s.handlers.take 2 == [.done (some (.task 5 0)), .done (some (.task 5 1))] &&
    s.tr.processed == [(1, .code 0)]) (by decide +kernel)
  simp only [Bool.and_eq_true, beq_iff_eq, decide_eq_true_eq] at h2
  exact ⟨s, h1, h2.1.2, h2.2, fun bs s' hb => abandoned_unreported remote2_good h1 (by rw [h2.1.1.1]; simp) h2.1.1.2 hb⟩

/-! ### C85: silent connections -/

/-- **C85 (what holds).** If handlers are prompt (no tick of the wheel between touching the wheel and touching the
connections), then: a connection that gives no sign of life during 255 ticks is gone (after the reaper has gone through
the timers fired last). -/
theorem silent_connection_reaped_partial (hg : Good c.tr) {as bs : List Sys.Act} (hr : Sys.Runs c (Sys.init c lf now) as s)
    (hpr : Prompt c (Sys.init c lf now) as) (hb : Sys.Runs c s bs s') (hpb : Prompt c s bs) {txn : Nat}
    (hsil : Silent c s txn bs) (hn : 255 ≤ bs.countP isReapTick) (hre : ∀ txns ex, s'.reaper ≠ .removing txns ex) :
    txn ∉ s'.conns.map (·.1) := by
  obtain ⟨p, b, h1, _⟩ := WatchS.runs hg ⟨[], .nil _⟩ WatchS.init hr hpr
  obtain ⟨p2, b2, h2, h3⟩ := h1.runs hg ⟨as, hr⟩ hb hpb
  intro hm
  obtain ⟨x, hx, rfl⟩ := List.mem_map.1 hm
  rcases h2.conn x hx with ⟨t, ht, _, _, e⟩ | ⟨_, e⟩
  · have := (h2.rel.left t ht).1
    rw [h3 _ hsil] at e
    omega
  · cases hr' : s'.reaper with
    | removing txns ex => exact hre _ _ hr'
    | _ => rw [hr'] at e; cases e

/-- `n` rounds of the reaper in which nothing is found. -/
def rounds (n : Nat) : List Sys.Act := (List.replicate n [Sys.Act.reapTick, .reapCheck [], .reapSend]).flatten

/-- Non-trivial case: after 254 rounds the silent connection is open, in the 255th it is removed and reported. -/
def silentRun : List Sys.Act := rounds 254 ++ [.reapTick, .reapRemove, .reapCheck [], .reapSend, .reapSend]

example : after remote2 (serve ++ handOut 0 0 5 "j" ++ rounds 254) (fun s => s.conns.map (·.1) == [5]) = true ∧
    after remote2 (serve ++ handOut 0 0 5 "j" ++ silentRun) (fun s => s.conns == [] && s.reaper == .idle) = true ∧
    collect slowTick remote2 (Sys.init remote2 emptyLog 0) (serve ++ handOut 0 0 5 "j" ++ silentRun) = [] ∧
    collect reportObs remote2 (Sys.init remote2 emptyLog 0) (serve ++ handOut 0 0 5 "j" ++ silentRun) = [(0, .disconnected)] := by
  decide +kernel

/-- Replays two runs, one after the other. -/
def twice (c : Sys.Cfg) (as bs : List Sys.Act) (q : Sys.State → Sys.State → Bool) : Bool :=
  match replay c (Sys.init c emptyLog 0) as with
  | .ok s => (match replay c s bs with | .ok s' => q s s' | _ => false)
  | _ => false

theorem twice_spec {as bs : List Sys.Act} {q : Sys.State → Sys.State → Bool} (h : twice c as bs q = true) :
    ∃ s s', Sys.Runs c (Sys.init c emptyLog 0) as s ∧ Sys.Runs c s bs s' ∧ q s s' = true := by
  unfold twice at h
  split at h
  · rename_i s h1
    split at h
    · rename_i s' h2
      exact ⟨s, s', runs_of_replay h1, runs_of_replay h2, h⟩
    · cases h
  · cases h

/-- A runner gets a task (transaction 5) and ends it, 254 ticks later; the handler takes the connection and is then delayed for two
ticks; another runner gets a task (transaction 6); the handler goes on and cancels the timer. -/
def stalled : List Sys.Act := serve ++ handOut 0 0 5 "j" ++ rounds 254 ++ [req "j" (.finish 5 0 [] none)] ++
  [.reapTick, .reapRemove, .reapCheck [], .reapSend] ++ rounds 1 ++ handOut 2 0 6 "j" ++ [.hCancel 1, .hReport 1]

/-- **C85 (violated).** Then the second runner falls silent, and its connection stays open: the timer that was cancelled
was its own. -/
theorem stalled_end_stops_watching_violated : ∃ s s', Sys.Runs remote2 (Sys.init remote2 emptyLog 0) stalled s ∧
    Sys.Runs remote2 s (rounds 300) s' ∧ Silent remote2 s 6 (rounds 300) ∧ 255 ≤ (rounds 300).countP isReapTick ∧
    s'.reaper = .idle ∧ s'.conns.map (·.1) = [6] := by
  obtain ⟨s, s', h1, h2, h3⟩ := twice_spec (c := remote2) (as := stalled) (bs := rounds 300) (q := fun s s' =>
    (collect (aliveObs remote2 6) remote2 s (rounds 300)).isEmpty && s'.reaper == .idle && s'.conns.map (·.1) == [6]) (by decide +kernel)
  simp only [Bool.and_eq_true, beq_iff_eq, List.isEmpty_iff] at h3
  exact ⟨s, s', h1, h2, h3.1.1, by decide +kernel, h3.1.2, h3.2⟩

end Verif.Props.System
