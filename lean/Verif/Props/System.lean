import Verif.Proof.System5
import Verif.Props.TrackerRuns

/-!
# Properties of the runners: local loops, HTTP handlers, reaper (C22, C47-C49, C52-C54, C58, C59, C82-C84)

`Runs c (init c lf now) as s`: some schedule `as` of an `execute` call leads to state `s`; clients may send any requests in any
order but do not repeat an accepted `/begun` (see C22 for what happens if they do).
-/

namespace Verif.Props.System
open Verif Verif.Tracker Verif.Sys
open Verif.Props.Tracker (task t0)

variable {c : Sys.Cfg} {lf : LogFile} {now : Int} {s s' : Sys.State}

/-! ### concrete cases -/

/-- A task with a command line. -/
def job (key : String) (affinity : BitVec 64 := 1) : Cmd := { task key affinity with cmdline := [.str "run"] }

/-- Two tasks `a`, `b` without dependencies, run remotely. -/
def remote2 : Sys.Cfg where
  tr := { g := ⟨[job "a", job "b"], []⟩, fizzlesAllowed := 1 }
  numParallel := 0
  remote := true
  secret := "k"

/-- The same with two local loops and the console loop; `b` may only run on the console. -/
def local2 : Sys.Cfg where
  tr := { g := ⟨[job "a", job "b" 2], []⟩, fizzlesAllowed := 1 }
  numParallel := 2
  remote := false
  secret := "k"

theorem remote2_good : Good remote2.tr := ⟨fun _ h => by simp [remote2] at h, by decide, by decide⟩
theorem local2_good : Good local2.tr := ⟨fun _ h => by simp [local2] at h, by decide, by decide⟩

/-- The server makes the two tasks ready. -/
def serve : List Sys.Act := [.server (.begin [0, 1] t0), .server .sendNext, .server (.sendDone t0)]

/-- The same for tasks of two runner types. -/
def serve2 : List Sys.Act := [.server (.begin [0, 1] t0), .server .sendNext, .server .sendNext, .server (.sendDone t0)]

/-- An authorized request of Slurm job `j`. -/
def req (j : String) (b : Body) : Sys.Act := .request ⟨some "k", some (some j), b⟩

/-- Handler number `h` is a `/start` of job `j` that gets the `i`-th task of the queue, as transaction `txn`. -/
def handOut (h i txn : Nat) (j : String) : List Sys.Act :=
  [req j (.start 0), .hRecv h, .server (.pop 0 i), .server (.claim 0), .hGot h 0, .hTimer h txn, .hInsert h]

/-- Loop `i` obtains and spawns the `k`-th task of its queue and reports the start. -/
def loopRun (i k : Nat) : List Sys.Act :=
  [.loopRecv i, .server (.pop 0 k), .server (.claim 0), .loopGot i 0, .loopSpawn i true, .loopStarted i "h" 7]

/-! ### C47: local loops -/

/-- **C47 (parallelism).** In every schedule, at every moment: the normal loops (numbers below `num_parallel`) have obtained at
most `num_parallel` tasks more than they have reported as finished, the console loop at most one. -/
theorem local_parallelism {as : List Sys.Act} (hr : Sys.Runs c (Sys.init c lf now) as s) :
    taken c.numParallel (collect loopObs c (Sys.init c lf now) as) ≤
      givenBack c.numParallel (collect loopObs c (Sys.init c lf now) as) + c.numParallel ∧
    taken (c.numParallel + 1) (collect loopObs c (Sys.init c lf now) as) ≤
      givenBack (c.numParallel + 1) (collect loopObs c (Sys.init c lf now) as) + (c.numParallel + 1) := by
  have h : ∀ n, taken n (collect loopObs c (Sys.init c lf now) as) ≤ givenBack n (collect loopObs c (Sys.init c lf now) as) + n := by
    intro n
    rw [balance hr n]
    have := flatMap_ownL_le (s.loops.take n)
    rw [List.length_take] at this
    omega
  exact ⟨h _, h _⟩

/-- **C47 (no local runners).** With `num_parallel` = 0 no task is ever run locally. -/
theorem no_local_without_parallel (h0 : c.numParallel = 0) {as : List Sys.Act} (hr : Sys.Runs c (Sys.init c lf now) as s) (i : Nat) :
    loopTrace c (Sys.init c lf now) as i = [] := by
  obtain ⟨h1, _, h3⟩ := trace_pend hr i
  apply h3
  rw [List.getElem?_eq_none]
  rw [h1]
  simp [Sys.init, h0]

/-- **C47 (no other loops).** There is one console loop: nothing is run by loops with greater numbers. -/
theorem no_more_loops {as : List Sys.Act} (hr : Sys.Runs c (Sys.init c lf now) as s) {i : Nat} (hi : c.numParallel < i) :
    loopTrace c (Sys.init c lf now) as i = [] := by
  obtain ⟨h1, _, h3⟩ := trace_pend hr i
  apply h3
  rw [List.getElem?_eq_none]
  rw [h1]
  unfold Sys.init
  split <;> simp <;> omega

/-- **C47 (protocol).** What a local loop does with tasks is a sequence of rounds — obtain a task, start its process, report
it as started, report it as finished, for the same task and each exactly once — followed by the beginning of a round. If the
loop returned by itself nothing is left out; the round is cut off for ever only if there is a hard cancellation (`killed`) or
the loop panicked (`dead`). -/
theorem loop_protocol {as : List Sys.Act} (hr : Sys.Runs c (Sys.init c lf now) as s) {i : Nat} {l : Loop}
    (hl : s.loops[i]? = some l) : ∃ (rounds : List (Nat × Option ExitStatus)) (rest : List LoopObs),
      loopTrace c (Sys.init c lf now) as i = rounds.flatMap round ++ rest ∧
      (rest = [] ∨ ∃ v ok, rest <+: [.got v, .spawn v ok, .started v]) ∧
      (l = .exited → rest = []) := by
  obtain ⟨rounds, rest, h1, h2⟩ := (trace_pend hr i).2.1 l hl
  refine ⟨rounds, rest, h1, ?_, ?_⟩
  · cases h2 with
    | top => exact .inl rfl
    | inRecv => exact .inl rfl
    | exited => exact .inl rfl
    | got v => exact .inr ⟨v, true, by simp⟩
    | spawned v st => exact .inr ⟨v, true, by simp⟩
    | failing v => exact .inr ⟨v, false, by simp⟩
    | running v st => exact .inr ⟨v, true, by simp⟩
    | failed v => exact .inr ⟨v, false, by simp⟩
    | cancelled v => exact .inr ⟨v, true, by simp⟩
    | ended v code values => exact .inr ⟨v, true, by simp⟩
    | killed v => exact .inr ⟨v, true, by simp⟩
    | deadGot v => exact .inr ⟨v, true, by simp⟩
    | deadSpawned v ok => exact .inr ⟨v, ok, by simp⟩
  · rintro rfl; cases h2; rfl

/-- **C47 (the right runner type).** The normal loops obtain tasks as runner type 0, the console loop as type 1; a task is
obtained only by a type its affinity admits (`Props.Tracker.affinity_respected`). -/
theorem loop_types {i k : Nat} (hs : Sys.step c s (.loopGot i k) = .ok s') :
    ∃ v, s.loops[i]? = some .inRecv ∧ s'.loops[i]? = some (.got v) ∧ ((if i < c.numParallel then 0 else 1), v) ∈ s'.tr.obtained := by
  simp only [Sys.step] at hs
  split at hs
  · rename_i r it hi hk
    split at hs
    · rename_i hrt
      obtain ⟨t, ht, rfl⟩ := trk_ok.1 hs
      refine ⟨it.id, hi, ?_, ?_⟩
      · simp only [setLoop]
        exact List.getElem?_set_self (List.getElem?_eq_some_iff.1 hi).1
      · have := account_obtained hk ht
        simp only [setLoop, this]
        rw [hrt]
        exact List.mem_append_right _ (by simp [loopType])
    · cases hs
  · cases hs

/-- Non-trivial case: loop 0 runs `a`, the console loop (number 2) runs `b`; `a` is finished, `b` runs. -/
def localRun : List Sys.Act := serve2 ++ loopRun 0 0 ++ loopRun 2 0 ++ [.loopOutput 0 0 [], .loopReport 0]

example : after local2 localRun (fun s => s.loops == [.top, .top, .running 1 0]) = true ∧
    loopTrace local2 (Sys.init local2 emptyLog 0) localRun 0 = round (0, some (.code 0)) ∧
    loopTrace local2 (Sys.init local2 emptyLog 0) localRun 2 = [.got 1, .spawn 1 true, .started 1] ∧
    taken 2 (collect loopObs local2 (Sys.init local2 emptyLog 0) localRun) = 1 ∧
    givenBack 2 (collect loopObs local2 (Sys.init local2 emptyLog 0) localRun) = 1 := by decide +kernel

/-! ### C48: soft cancellation -/

/-- **C48.** If a local loop reports a task as cancelled, the process was started after T - 5 s, where T is a moment before
at which the server had processed a finish and at least `fizzles_allowed` tasks had failed within 5 s. -/
theorem cancelled_recently_started (hg : Good c.tr) {as : List Sys.Act} (hr : Sys.Runs c (Sys.init c lf now) as s) {i v : Nat}
    (h : (i, LoopObs.finished v .cancelled) ∈ collect loopObs c (Sys.init c lf now) as) :
    ∃ st T, (i, v, st) ∈ collect spawnTimes c (Sys.init c lf now) as ∧
      TooManyFailuresAt c (Sys.init c lf now) as T ∧ st > T - 5000000000 :=
  (cancelled_at hg hr i v).2 h

/-- **C48 (other shutdowns).** As long as fewer than `fizzles_allowed` tasks have failed within 5 s no local task is
reported as cancelled, whatever shutdowns are requested. -/
theorem not_cancelled_without_failures (hg : Good c.tr) {as : List Sys.Act} (hr : Sys.Runs c (Sys.init c lf now) as s) {i v : Nat}
    (hq : quickFailures c.tr [] (Tracker.init c.tr lf now) (toTracker c (Sys.init c lf now) as) < c.tr.fizzlesAllowed) :
    (i, LoopObs.finished v .cancelled) ∉ collect loopObs c (Sys.init c lf now) as := by
  intro h
  obtain ⟨st, T, _, hT, _⟩ := cancelled_recently_started hg hr h
  have := hT.quick hr
  omega

/-- Two tasks and two loops. -/
def local2b : Sys.Cfg := { local2 with tr := { g := ⟨[job "a", job "b"], []⟩, fizzlesAllowed := 1 } }

/-- Non-trivial case: `a` fails at once; `b`, started at the same moment, is cancelled; the second part shows that it is
not cancelled if it had been started 6 s before. -/
def cancelRun (d : Nat) : List Sys.Act := serve ++ loopRun 1 1 ++ [.server (.tick d)] ++ loopRun 0 0 ++
  [.server (.recvStarted t0), .server (.recvStarted t0), .loopOutput 0 1 [], .loopReport 0, .server (.recvFinished [] t0)]

example : after local2b (cancelRun 0 ++ [.loopSoft 1, .loopReport 1]) (fun s => s.loops[1]? == some .exited) = true ∧
    (1, LoopObs.finished 1 .cancelled) ∈
      collect loopObs local2b (Sys.init local2b emptyLog 0) (cancelRun 0 ++ [.loopSoft 1, .loopReport 1]) ∧
    after local2b (cancelRun 6000000000) (fun s => s.loops[1]? == some (.running 1 0)) = true ∧
    after local2b (cancelRun 6000000000 ++ [.loopSoft 1]) (fun _ => true) = false := by decide +kernel

/-! ### C49: preambles and postambles -/

/-- **C49 (violated: once).** In every schedule, for every task whose start was reported the preamble was called exactly
twice; for every other task at most once. -/
theorem preamble_called_twice_violated (hg : Good c.tr) {as : List Sys.Act} (hr : Sys.Runs c (Sys.init c lf now) as s) (v : Nat) :
    (v ∈ s.tr.startedSent → (preambleCalls s).count v = 2) ∧ (v ∉ s.tr.startedSent → (preambleCalls s).count v ≤ 1) :=
  preamble_calls hg hr v

/-- **C49 (postamble).** In every schedule the postamble was called exactly once for each finish handled so far, in the same
order, and told success if and only if the exit status was code 0; no task is handled twice. -/
theorem postamble_once (hg : Good c.tr) {as : List Sys.Act} (hr : Sys.Runs c (Sys.init c lf now) as s) :
    s.tr.postambles = (closedTasks s.tr).map (fun x => (x.1, decide (x.2 = .code 0))) ∧
    (s.tr.postambles.map (·.1)).Nodup := by
  have h := postambles_eq (hr.toInit hg)
  have h2 := (Reachable.inv hg ⟨as, hr⟩).reach.closed_nodup hg
  have h3 : ∀ st : ExitStatus, st.isSuccess = decide (st = .code 0) := by
    intro st
    cases st <;> simp [ExitStatus.isSuccess, beq_eq_decide]
  refine ⟨?_, ?_⟩
  · rw [h]; simp [postOf, closedTasks, h3]
  · rw [h]
    have : (postOf (s.tr.processed ++ s.tr.drained)).map (·.1) = (closedTasks s.tr).map (·.1) := by
      simp [postOf, closedTasks, Function.comp_def]
    rw [this]; exact h2

/-- Non-trivial case: `a` has run, `b` runs; each preamble was called twice, the postamble of `a` once. -/
example : after local2 (localRun ++ [.server (.recvStarted t0), .server (.recvStarted t0), .server (.recvFinished [] t0)])
    (fun s => preambleCalls s == [0, 1, 0, 1] && s.tr.postambles == [(0, true)] && s.tr.startedSent == [0, 1]) = true := by
  decide +kernel

/-! ### C52: authorization -/

/-- **C52.** A request whose token is missing or wrong is answered with an error (401 if the token is wrong and the request
is otherwise well-formed) and changes nothing at all. -/
theorem unauthorized_changes_nothing {r : Request} (hr : r.auth ≠ some c.secret) (hs : Sys.step c s (.request r) = .ok s') :
    ∃ x : Reply, s' = { s with handlers := s.handlers ++ [.done (some x)] } ∧ (x = .unauthorized ∨ x = .badRequest) ∧
      (r.auth ≠ none → r.body ≠ .bad → x = .unauthorized) := by
  simp only [Sys.step] at hs
  split at hs
  · cases hs
  · unfold takeRequest at hs
    split at hs
    · rename_i h
      simp only [Res.ok.injEq] at hs; subst hs
      exact ⟨_, rfl, .inr rfl, fun h' => absurd h h'⟩
    · rename_i t ht
      split at hs
      · rename_i h
        simp only [Res.ok.injEq] at hs; subst hs
        exact ⟨_, rfl, .inr rfl, fun _ h' => absurd h h'⟩
      · split at hs
        · simp only [Res.ok.injEq] at hs; subst hs
          exact ⟨_, rfl, .inl rfl, fun _ _ => rfl⟩
        · rename_i h
          simp only [ne_eq, not_not] at h
          subst h
          exact absurd ht hr

/-- Non-trivial case: a task is handed out; `/end` with a wrong token is refused, with the right token it is accepted. -/
example : after remote2 (serve ++ handOut 0 0 5 "j" ++ [.request ⟨some "x", some (some "j"), .finish 5 0 [] none⟩])
      (fun s => s.handlers == [.done (some (.task 5 0)), .done (some .unauthorized)] && s.conns.map (·.1) == [5]) = true ∧
    after remote2 (serve ++ handOut 0 0 5 "j" ++ [req "j" (.finish 5 0 [] none)])
      (fun s => s.conns == [] && s.handlers.length == 2) = true := by decide +kernel

/-! ### C53: finish reports -/

/-- **C53 (at most once).** In every schedule no task is reported finished twice, whoever reports: local loop, `/end`,
the ping timeout. -/
theorem reported_at_most_once (hg : Good c.tr) {as : List Sys.Act} (hr : Sys.Runs c (Sys.init c lf now) as s) :
    ((collect reportObs c (Sys.init c lf now) as).map (·.1)).Nodup := reports_nodup hg hr

/-- **C53 (nothing gets lost or doubled on the way).** Until `execute` is done: every task obtained by any runner either was
reported exactly once and nobody is responsible for it any more, or was not reported and exactly one party is responsible for
it (a local loop, a handler, one open connection, or the reaper; or it is one of the `abandoned`, see C54, C59, C82-C84). -/
theorem responsible_or_reported (hg : Good c.tr) {as : List Sys.Act} (hr : Sys.Runs c (Sys.init c lf now) as s)
    (hp : s.tr.pc ≠ .done) {v : Nat} (hv : Obtained s.tr v) :
    (((collect reportObs c (Sys.init c lf now) as).map (·.1)).count v = 1 ∧ (owned s).count v = 0) ∨
    (((collect reportObs c (Sys.init c lf now) as).map (·.1)).count v = 0 ∧ (owned s).count v = 1) := by
  obtain ⟨r, ho⟩ := hv
  have hinv := Reachable.inv hg ⟨as, hr⟩
  have hle := List.nodup_iff_count.1 (reports_nodup hg hr) v
  have hlo := owned_count_le hg ⟨as, hr⟩ hp v
  by_cases hw : v ∈ owned s
  · have h1 := owned_not_reported hg hr hp hw
    have h2 := List.count_pos_iff.2 hw
    exact .inr ⟨List.count_eq_zero_of_not_mem h1, by omega⟩
  · left
    refine ⟨?_, List.count_eq_zero_of_not_mem hw⟩
    have h3 : v ∈ (collect reportObs c (Sys.init c lf now) as).map (·.1) := by
      rw [reports_eq hr]
      rcases obtained_split hg (hr.toInit hg) hp v (List.mem_map.2 ⟨_, ho, rfl⟩) with h | h | h
      · exact absurd ((owned_held hg ⟨as, hr⟩ hp).2 h) hw
      · rw [hinv.live.lost hp] at h; cases h
      · exact h
    have := List.count_pos_iff.2 h3
    omega

/-- **C53 (connections).** Open connections have different transactions and different tasks, none of them reported. -/
theorem connections_distinct (hg : Good c.tr) {as : List Sys.Act} (hr : Sys.Runs c (Sys.init c lf now) as s)
    (hp : s.tr.pc ≠ .done) :
    (s.conns.map (·.1)).Nodup ∧ (s.conns.map (·.2.node)).Nodup ∧
    ∀ x ∈ s.conns, x.2.node ∉ (collect reportObs c (Sys.init c lf now) as).map (·.1) := by
  have hinv := Reachable.inv hg ⟨as, hr⟩
  refine ⟨hinv.live.keys, ?_, ?_⟩
  · rw [List.nodup_iff_count]
    intro v
    have h1 := owned_count_le hg ⟨as, hr⟩ hp v
    rw [owned_count, ← map_node] at h1
    omega
  · intro x hx
    apply owned_not_reported hg hr hp
    unfold owned
    simp only [List.mem_append]
    exact .inl (.inl (.inr (List.mem_map.2 ⟨x, hx, rfl⟩)))

/-- **C53 (after `/end`).** Once `/end` was accepted, its handler alone is responsible for the task, and the transaction is
unknown: further requests for it are answered 404. -/
theorem end_takes_connection (hsrv : s.reaper ≠ .stopped) (hlive : live s.tr = true) {txn : Nat} {conn : Conn} (hc : s.conns.lookup txn = some conn)
    (code : Int) (values : List (List (String × String))) (next : Option Nat) :
    ∃ s1, Sys.step c s (.request ⟨some c.secret, some (some conn.jobid), .finish txn code values next⟩) = .ok s1 ∧
      s1.conns.lookup txn = none ∧ s1.handlers = s.handlers ++ [.ending conn code values next] ∧
      ∀ j code' values' next', ∃ s2, Sys.step c s1 (.request ⟨some c.secret, some (some j), .finish txn code' values' next'⟩) = .ok s2 ∧
        s2 = { s1 with handlers := s1.handlers ++ [.done (some .notFound)] } := by
  have hnone : (dropKey txn s.conns).lookup txn = none := by
    rw [List.lookup_eq_none_iff]
    intro x hx
    have := (List.mem_filter.1 hx).2
    simp only [bne_iff_ne, ne_eq] at this
    simpa using fun e => this e.symm
  refine ⟨{ s with
    conns := dropKey txn s.conns
    handlers := s.handlers ++ [.ending conn code values next] }, ?_, hnone, rfl, ?_⟩
  · simp [Sys.step, hsrv, hlive, takeRequest, endH, hc]
  · intro j code' values' next'
    refine ⟨_, ?_, rfl⟩
    simp [Sys.step, hsrv, hlive, takeRequest, endH, hnone, reply]

/-- Non-trivial case: `/end` and a second `/end`; the task is reported once. -/
def endTwice : List Sys.Act := serve ++ handOut 0 0 5 "j" ++
  [req "j" (.begun 5 "h" 1), req "j" (.finish 5 3 [] none), req "j" (.finish 5 0 [] none), .hCancel 2, .hReport 2]

example : after remote2 endTwice (fun s => s.handlers == [.done (some (.task 5 0)), .done (some .ok), .done (some .ended),
      .done (some .notFound)] && s.conns == []) = true ∧
    collect reportObs remote2 (Sys.init remote2 emptyLog 0) endTwice = [(0, .code 3)] := by decide +kernel

/-! ### abandoned tasks -/

/-- A task that is `abandoned` (its connection was forgotten, or its loop, its handler or the reaper is gone) was not and will
never be reported, in no continuation. -/
theorem abandoned_unreported (hg : Good c.tr) {as bs : List Sys.Act} (hr : Sys.Runs c (Sys.init c lf now) as s)
    (hp : s.tr.pc ≠ .done) {v : Nat} (hv : v ∈ abandoned s) (hb : Sys.Runs c s bs s') :
    v ∉ (collect reportObs c (Sys.init c lf now) (as ++ bs)).map (·.1) := abandoned_never_reported hg hr hp hv hb

/-- With an abandoned task `execute` hangs: in no continuation does serving end, unless there is a shutdown from outside or
too many tasks fail within 5 s. -/
theorem abandoned_hangs (hg : Good c.tr) {as bs : List Sys.Act} (hr : Sys.Runs c (Sys.init c lf now) as s)
    (hp : s.tr.pc ≠ .done) {v : Nat} (hv : v ∈ abandoned s) (hb : Sys.Runs c s bs s')
    (hno : NoShutdown (toTracker c (Sys.init c lf now) (as ++ bs)))
    (hq : quickFailures c.tr [] (Tracker.init c.tr lf now) (toTracker c (Sys.init c lf now) (as ++ bs)) < c.tr.fizzlesAllowed) :
    ¬ ServingOver s'.tr := by
  intro he
  have := Props.Tracker.ended_of_over he
  rw [abandoned_hang hg hr hp hv hb hno hq] at this
  cases this

/-- If moreover the server has processed the start of the task, not even a soft shutdown or failures end serving: only a
hard cancellation or ctrl-c does. -/
theorem abandoned_started_hangs (hg : Good c.tr) {as bs : List Sys.Act} (hr : Sys.Runs c (Sys.init c lf now) as s)
    (hp : s.tr.pc ≠ .done) {v : Nat} (hv : v ∈ abandoned s) (hi : v ∈ s.tr.inflight.map (·.1)) (hb : Sys.Runs c s bs s')
    (hno : ∀ a ∈ toTracker c (Sys.init c lf now) (as ++ bs), a ≠ .seeHard ∧ a ≠ .ctrlC) : ¬ ServingOver s'.tr := by
  intro he
  have := Props.Tracker.ended_of_over he
  rw [abandoned_started_hang hg hr hp hv hi hb hno] at this
  cases this

/-! ### C54: `/end` of another job -/

/-- **C54 (violated), in general.** In every state: `/end` with a Slurm job id other than the one recorded for the transaction
is answered 404, the connection is dropped and its task abandoned. -/
theorem foreign_end_abandons_violated (hsrv : s.reaper ≠ .stopped) (hlive : live s.tr = true) {txn : Nat} {conn : Conn}
    (hc : s.conns.lookup txn = some conn) {j : String} (hj : conn.jobid ≠ j) (code : Int)
    (values : List (List (String × String))) (next : Option Nat) :
    ∃ s1, Sys.step c s (.request ⟨some c.secret, some (some j), .finish txn code values next⟩) = .ok s1 ∧
      s1.handlers = s.handlers ++ [.done (some .notFound)] ∧ s1.conns.lookup txn = none ∧ conn.node ∈ abandoned s1 := by
  refine ⟨reply .notFound { s with
    conns := dropKey txn s.conns
    forgotten := s.forgotten ++ [conn.node] }, ?_, rfl, ?_, ?_⟩
  · simp [Sys.step, hsrv, hlive, takeRequest, endH, hc, hj]
  · show (dropKey txn s.conns).lookup txn = none
    rw [List.lookup_eq_none_iff]
    intro x hx
    have := (List.mem_filter.1 hx).2
    simp only [bne_iff_ne, ne_eq] at this
    simpa using fun e => this e.symm
  · simp [abandoned, reply]

/-- The task of transaction 5, handed to job "j", is ended by job "k"; then "j" ends it properly. -/
def foreignEnd : List Sys.Act := serve ++ handOut 0 0 5 "j" ++
  [req "j" (.begun 5 "h" 1), .server (.recvStarted t0), req "k" (.finish 5 0 [] none)]

/-- **C54 (violated), a case.** The second `/end`, from the right job, is refused as well; the task is not reported in any
continuation, and no continuation without hard cancellation ends serving. -/
theorem foreign_end_hangs_violated : ∃ s, Sys.Runs remote2 (Sys.init remote2 emptyLog 0) foreignEnd s ∧
    (∃ s1, Sys.step remote2 s (req "j" (.finish 5 0 [] none)) = .ok s1 ∧ s1.handlers.getLast? = some (.done (some .notFound))) ∧
    ∀ bs s', Sys.Runs remote2 s bs s' →
      0 ∉ (collect reportObs remote2 (Sys.init remote2 emptyLog 0) (foreignEnd ++ bs)).map (·.1) ∧
      ((∀ a ∈ toTracker remote2 (Sys.init remote2 emptyLog 0) (foreignEnd ++ bs), a ≠ .seeHard ∧ a ≠ .ctrlC) →
        ¬ ServingOver s'.tr) := by
  obtain ⟨s, h1, h2⟩ := Sys.runs_of_after (c := remote2) (as := foreignEnd) (p := fun s => s.tr.pc == .idle &&
    decide (0 ∈ abandoned s) && decide (0 ∈ s.tr.inflight.map Prod.fst) && decide (s.reaper = .idle) && s.conns == [])
    (by decide +kernel)
  simp only [Bool.and_eq_true, beq_iff_eq, decide_eq_true_eq] at h2
  obtain ⟨⟨⟨⟨hpc, hab⟩, hin⟩, hre⟩, hco⟩ := h2
  refine ⟨s, h1, ?_, fun bs s' hb => ⟨?_, ?_⟩⟩
  · have hsec : remote2.secret = "k" := rfl
    refine ⟨reply .notFound s, ?_, ?_⟩
    · simp [Sys.step, req, hre, live, hpc, takeRequest, endH, hsec, hco]
    · simp [reply]
  · exact abandoned_unreported remote2_good h1 (by rw [hpc]; simp) hab hb
  · exact abandoned_started_hangs remote2_good h1 (by rw [hpc]; simp) hab hin hb

/-! ### C58: jobs reported as safe to cancel -/

/-- **C58 (what holds).** If a job is among those reported as safe to cancel and no request of it is being handled at that
moment, then in every continuation no task is ever handed to it: no handler works for it and no connection belongs to it. -/
theorem marked_job_gets_no_task_partial {j : String} (hm : j ∈ s.cancelledJobs) (hc : ∀ x ∈ s.conns, x.2.jobid ≠ j)
    (hh : ∀ x ∈ s.handlers, worksFor j x = false) {as : List Sys.Act} (hr : Sys.Runs c s as s') :
    j ∈ s'.cancelledJobs ∧ (∀ x ∈ s'.conns, x.2.jobid ≠ j) ∧ ∀ x ∈ s'.handlers, worksFor j x = false := by
  have := JobOver.later ⟨hm, hc, hh⟩ hr
  exact ⟨this.marked, this.noConn, this.noHandler⟩

/-- **C58 (the reply).** The reply to `/mark-slurm-job-cancelation` names those of the jobs that have no open connection,
and all of them are remembered. -/
theorem mark_reply (hsrv : s.reaper ≠ .stopped) (hlive : live s.tr = true) (jid : Option (Option String)) (jobids : List String) :
    ∃ s1 js, Sys.step c s (.request ⟨some c.secret, jid, .mark jobids⟩) = .ok s1 ∧
      s1.handlers = s.handlers ++ [.done (some (.marked js))] ∧
      (∀ j, j ∈ js ↔ j ∈ jobids ∧ ∀ x ∈ s.conns, x.2.jobid ≠ j) ∧
      (∀ j ∈ js, j ∈ s1.cancelledJobs) ∧ s1.conns = s.conns := by
  refine ⟨markH s jobids, jobids.filter (fun j => !(s.conns.map (·.2.jobid)).contains j), ?_, rfl, ?_, ?_, rfl⟩
  · simp [Sys.step, hsrv, hlive, takeRequest]
  · intro j
    simp only [List.mem_filter, Bool.not_eq_true', and_congr_right_iff]
    intro _
    rw [← Bool.not_eq_true, List.contains_iff_mem, List.mem_map]
    simp only [not_exists, not_and, ne_eq]
  · intro j hj
    simp only [markH, reply]
    exact List.mem_append_right _ hj

/-- **C58 (later requests).** A `/start` of a remembered job is answered 410 and changes nothing, in every later state. -/
theorem marked_start_refused {as : List Sys.Act} {s1 : Sys.State} {j : String} (hm : j ∈ s.cancelledJobs)
    (hr : Sys.Runs c s as s1) {rt : Nat} (hs : Sys.step c s1 (.request ⟨some c.secret, some (some j), .start rt⟩) = .ok s') :
    s' = { s1 with handlers := s1.handlers ++ [.done (some .gone)] } := by
  have hm1 : j ∈ s1.cancelledJobs := by
    induction hr with
    | nil => exact hm
    | cons _ hs' _ ih =>
      obtain ⟨⟨l, e⟩, _⟩ := step_jobs hs'
      exact ih (by rw [e]; exact List.mem_append_left _ hm) hs
  simp only [Sys.step] at hs
  split at hs
  · cases hs
  · simp only [takeRequest, startH, ne_eq, not_true_eq_false, if_false, List.contains_iff_mem, hm1, if_true, Res.ok.injEq] at hs
    exact hs.symm

/-- **C58 (violated by a waiting `/start`).** A `/start` of job "j" waits for a task; "j" is reported as safe to cancel; then
the waiting request gets a task. -/
theorem marked_waiting_start_violated : ∃ s, Sys.Runs remote2 (Sys.init remote2 emptyLog 0)
      ([req "j" (.start 0), .hRecv 0, req "x" (.mark ["j"])] ++ serve ++
        [.server (.pop 0 0), .server (.claim 0), .hGot 0 0, .hTimer 0 5, .hInsert 0]) s ∧
    s.handlers = [.done (some (.task 5 0)), .done (some (.marked ["j"]))] ∧ s.conns.map (·.2.jobid) = ["j"] := by
  obtain ⟨s, h1, h2⟩ := Sys.runs_of_after (c := remote2) (as := _) (p := fun s =>
    s.handlers == [.done (some (.task 5 0)), .done (some (.marked ["j"]))] && s.conns.map (·.2.jobid) == ["j"])
    (show after remote2 ([req "j" (.start 0), .hRecv 0, req "x" (.mark ["j"])] ++ serve ++
        [.server (.pop 0 0), .server (.claim 0), .hGot 0 0, .hTimer 0 5, .hInsert 0]) _ = true by decide +kernel)
  simp only [Bool.and_eq_true, beq_iff_eq] at h2
  exact ⟨s, h1, h2.1, h2.2⟩

/-- **C58 (violated by `/end` with a request for the next task).** Job "j" ends its task and asks for another one; while this
request is being handled "j" is reported as safe to cancel; then it gets the next task. -/
theorem marked_next_task_violated : ∃ s, Sys.Runs remote2 (Sys.init remote2 emptyLog 0)
      (serve ++ handOut 0 0 5 "j" ++ [req "j" (.finish 5 0 [] (some 0)), req "x" (.mark ["j"]), .hCancel 1, .hReport 1,
        .server (.recvFinished [] t0), .hFlag 1, .hRecv 1, .server (.pop 0 0), .server (.claim 0), .hGot 1 0, .hTimer 1 6,
        .hInsert 1]) s ∧
    s.handlers = [.done (some (.task 5 0)), .done (some (.task 6 1)), .done (some (.marked ["j"]))] ∧
    s.conns.map (·.2.jobid) = ["j"] := by
  obtain ⟨s, h1, h2⟩ := Sys.runs_of_after (c := remote2) (as := _) (p := fun s =>
    s.handlers == [.done (some (.task 5 0)), .done (some (.task 6 1)), .done (some (.marked ["j"]))] &&
      s.conns.map (·.2.jobid) == ["j"])
    (show after remote2 (serve ++ handOut 0 0 5 "j" ++ [req "j" (.finish 5 0 [] (some 0)), req "x" (.mark ["j"]), .hCancel 1, .hReport 1,
        .server (.recvFinished [] t0), .hFlag 1, .hRecv 1, .server (.pop 0 0), .server (.claim 0), .hGot 1 0, .hTimer 1 6,
        .hInsert 1]) _ = true by decide +kernel)
  simp only [Bool.and_eq_true, beq_iff_eq] at h2
  exact ⟨s, h1, h2.1, h2.2⟩

/-- Non-trivial case of `marked_job_gets_no_task_partial` and `marked_start_refused`: "j" is marked while idle, then asks. -/
example : after remote2 (serve ++ [req "x" (.mark ["j"]), req "j" (.start 0), req "i" (.start 0)])
    (fun s => s.cancelledJobs == ["j"] && s.handlers == [.done (some (.marked ["j"])), .done (some .gone), .toRecv 0 "i"]) = true := by
  decide +kernel

end Verif.Props.System
