import Verif.Proof.System8
import Verif.Props.Faults

/-!
# Properties of reports: what is reported is what happened (C47, C86-C90)
-/

namespace Verif.Props.System
open Verif Verif.Tracker Verif.Sys
open Verif.Props.Tracker (task t0)

variable {c : Sys.Cfg} {lf : LogFile} {now : Int} {s s' : Sys.State}

/-! ### C86, C87: disconnections -/

/-- **C86, C87.** If transaction ids are distinct and handlers are prompt: a task is reported as disconnected only if its
runner had given no sign of life (authorized `/ping`) during 255 ticks of the wheel (C86), or the task was handed out after
T - 5 s, where T is a moment before at which the server had processed a finish and at least `fizzles_allowed` tasks had failed
within 5 s (C87). -/
theorem disconnected_only_if_partial (hg : Good c.tr) {as : List Sys.Act} (hr : Sys.Runs c (Sys.init c lf now) as s)
    (hf : FreshTxns c (Sys.init c lf now) as) (hp : Prompt c (Sys.init c lf now) as) {v : Nat}
    (hv : (v, .disconnected) ∈ collect reportObs c (Sys.init c lf now) as) :
    ∃ txn, WasSilent c (Sys.init c lf now) as txn v 255 ∨
      ∃ st T, (txn, v, st) ∈ collect handedOut c (Sys.init c lf now) as ∧
        TooManyFailuresAt c (Sys.init c lf now) as T ∧ st > T - 5000000000 := by
  obtain ⟨txn, h | ⟨st, h1, T, h2, h3⟩⟩ := disconnect_origin hg hr hf hp hv
  · exact ⟨txn, .inl h⟩
  · exact ⟨txn, .inr ⟨st, T, h1, h2, h3⟩⟩

/-- **C86 (pinging runners).** As long as fewer than `fizzles_allowed` tasks have failed within 5 s, a task whose runner was
never silent for 255 ticks is not reported as disconnected, whatever shutdowns are requested. -/
theorem pinging_not_disconnected_partial (hg : Good c.tr) {as : List Sys.Act} (hr : Sys.Runs c (Sys.init c lf now) as s)
    (hf : FreshTxns c (Sys.init c lf now) as) (hp : Prompt c (Sys.init c lf now) as)
    (hq : quickFailures c.tr [] (Tracker.init c.tr lf now) (toTracker c (Sys.init c lf now) as) < c.tr.fizzlesAllowed)
    {v : Nat} (hs : ∀ txn, ¬ WasSilent c (Sys.init c lf now) as txn v 255) :
    (v, .disconnected) ∉ collect reportObs c (Sys.init c lf now) as := by
  intro hv
  obtain ⟨txn, h | ⟨st, T, _, h2, _⟩⟩ := disconnected_only_if_partial hg hr hf hp hv
  · exact hs txn h
  · have := h2.quick hr
    omega

/-- Non-trivial case: of two runners one pings after 200 rounds; in the 255th round only the other one is reported. -/
def onePings : List Sys.Act := serve ++ handOut 0 0 5 "j" ++ handOut 1 0 6 "k" ++ rounds 200 ++ [req "k" (.ping 6)] ++
  rounds 54 ++ [.reapTick, .reapRemove, .reapCheck [], .reapSend, .reapSend]

example : after remote2 onePings (fun s => s.conns.map (·.1) == [6]) = true ∧
    collect drawn remote2 (Sys.init remote2 emptyLog 0) onePings = [5, 6] ∧
    collect slowTick remote2 (Sys.init remote2 emptyLog 0) onePings = [] ∧
    quickFailures remote2.tr [] (Tracker.init remote2.tr emptyLog 0) (toTracker remote2 (Sys.init remote2 emptyLog 0) onePings) = 0 ∧
    collect reportObs remote2 (Sys.init remote2 emptyLog 0) onePings = [(0, .disconnected)] := by decide +kernel

/-- Non-trivial case of C87: task `a` fails at once, `b` was handed out at the same moment: its connection is removed; not so
if it was handed out 6 s before. -/
def softReap (d : Nat) : List Sys.Act := serve ++ handOut 0 0 5 "j" ++ [.server (.tick d)] ++ handOut 1 0 6 "k" ++
  [req "j" (.begun 5 "h" 1), .server (.recvStarted t0), req "k" (.begun 6 "h" 1), .server (.recvStarted t0),
   req "k" (.finish 6 1 [] none), .hCancel 4, .hReport 4,
   .server (.recvFinished [] t0), .reapTick]

example : after remote2 (softReap 0 ++ [.reapCheck [5], .reapRemove, .reapRemove, .reapSend, .reapSend])
      (fun s => s.conns == []) = true ∧
    collect reportObs remote2 (Sys.init remote2 emptyLog 0)
      (softReap 0 ++ [.reapCheck [5], .reapRemove, .reapRemove, .reapSend, .reapSend]) = [(1, .code 1), (0, .disconnected)] ∧
    after remote2 (softReap 6000000000 ++ [.reapCheck [], .reapRemove, .reapSend]) (fun s => s.conns.map (·.1) == [5]) = true := by
  decide +kernel

/-- Both tasks get transaction 5; the second one 200 ticks after the first. -/
def staleTimer : List Sys.Act := serve ++ handOut 0 0 5 "j" ++ rounds 200 ++ handOut 1 0 5 "k" ++ rounds 54 ++
  [.reapTick, .reapRemove, .reapCheck [], .reapSend, .reapSend]

/-- **C86 (violated without distinct ids).** The timer of the first connection ends the second one after 55 ticks (7.5 s). -/
theorem stale_timer_disconnects_violated : ∃ s, Sys.Runs remote2 (Sys.init remote2 emptyLog 0) staleTimer s ∧
    Prompt remote2 (Sys.init remote2 emptyLog 0) staleTimer ∧
    (1, .disconnected) ∈ collect reportObs remote2 (Sys.init remote2 emptyLog 0) staleTimer ∧
    ∀ txn as1 bs1 rest s1, staleTimer = as1 ++ bs1 ++ rest → Sys.Runs remote2 (Sys.init remote2 emptyLog 0) as1 s1 →
      (∃ x ∈ s1.conns, x.1 = txn ∧ x.2.node = 1) → bs1.countP isReapTick ≤ 55 := by
  obtain ⟨s, h1, _⟩ := Sys.runs_of_after (c := remote2) (as := staleTimer) (p := fun _ => true) (by decide +kernel)
  refine ⟨s, h1, by unfold Prompt; decide +kernel, by decide +kernel, ?_⟩
  intro txn as1 bs1 rest s1 e hr1 ⟨x, hx, _, hn⟩
  have hh := conns_handed hr1 x hx
  rw [hn] at hh
  -- task 1 was handed out in `as1`, so at least 200 of the 255 ticks were before
  have hlen : 610 < as1.length := by
    by_contra hlt
    have e2 : as1 = (staleTimer.take 610).take as1.length := by
      rw [List.take_take, Nat.min_eq_left (by omega), e, List.append_assoc, List.take_left]
    have hpre : ∃ cs, staleTimer.take 610 = as1 ++ cs := ⟨(staleTimer.take 610).drop as1.length, by
      conv_rhs => rw [e2]
      rw [List.length_take, List.length_take]
      have hl : staleTimer.length = 784 := by decide +kernel
      rw [hl]
      rw [show min as1.length (min 610 784) = as1.length by omega]
      exact (List.take_append_drop _ _).symm⟩
    obtain ⟨cs, hcs⟩ := hpre
    have hm := mem_more hr1 hh cs
    rw [← hcs] at hm
    have : ∀ y ∈ collect handedOut remote2 (Sys.init remote2 emptyLog 0) (staleTimer.take 610), y.2.1 = 0 := by decide +kernel
    have := this _ hm
    cases this
  have hc : (staleTimer.drop 610).countP isReapTick = 55 := by decide +kernel
  have hsub : bs1.countP isReapTick ≤ (staleTimer.drop as1.length).countP isReapTick := by
    rw [e, List.append_assoc, List.drop_left, List.countP_append]
    omega
  have hsub2 : (staleTimer.drop as1.length).countP isReapTick ≤ (staleTimer.drop 610).countP isReapTick :=
    (List.drop_sublist_drop_left staleTimer (by omega)).countP_le
  omega

/-! ### C88: reports say what happened -/

/-- **C88 (finish).** In every schedule, every finish report the scheduler receives comes from one of these: a local process of this
task ended with this exit code, having written these values to descriptor 3; an authorized `/end` with this code and
these values for a transaction as which this task had been handed out; a local process of this task could not be started
(then code -1, no values); a local process of this task was stopped (cancelled, see C48); the reaper (disconnected, see
C86, C87). -/
theorem finish_reports_true {as : List Sys.Act} (hr : Sys.Runs c (Sys.init c lf now) as s) {e : Fin}
    (he : .sendFinished e ∈ toTracker c (Sys.init c lf now) as) :
    (∃ code, e.status = .code code ∧ (e.id, code, e.values) ∈ collect outputs c (Sys.init c lf now) as) ∨
    (∃ code txn st, e.status = .code code ∧ (txn, e.id, code, e.values) ∈ collect (endRequests c) c (Sys.init c lf now) as ∧
      (txn, e.id, st) ∈ collect handedOut c (Sys.init c lf now) as) ∨
    (e.status = .code (-1) ∧ e.values = [] ∧ e.id ∈ collect failedSpawns c (Sys.init c lf now) as) ∨
    (e.status = .cancelled ∧ e.values = [] ∧ e.id ∈ collect softStops c (Sys.init c lf now) as) ∨
    (e.status = .disconnected ∧ e.values = [] ∧ (e.id, .disconnected) ∈ collect reportObs c (Sys.init c lf now) as) := by
  rcases finish_true hr he with h | ⟨code, txn, h1, h2⟩ | h | h | h
  · exact .inl h
  · obtain ⟨st, h3⟩ := endRequests_handed hr h2
    exact .inr (.inl ⟨code, txn, st, h1, h2, h3⟩)
  · exact .inr (.inr (.inl h))
  · exact .inr (.inr (.inr (.inl h)))
  · exact .inr (.inr (.inr (.inr h)))

/-- The finish reports of a run of the scheduler. -/
def finishes (as : List Tracker.Act) : List Fin :=
  as.filterMap fun a => match a with | .sendFinished e => some e | _ => none

/-- Non-trivial case: a local task ends with code 3 and a value; a remote one with code 4 and a value. -/
example :
    finishes (toTracker local2 (Sys.init local2 emptyLog 0)
      (serve2 ++ loopRun 0 0 ++ [.loopOutput 0 3 [[("k", "v")]], .loopReport 0])) = [⟨0, .code 3, [[("k", "v")]], none⟩] ∧
    after local2 (serve2 ++ loopRun 0 0 ++ [.loopOutput 0 3 [[("k", "v")]], .loopReport 0]) (fun _ => true) = true ∧
    finishes (toTracker remote2 (Sys.init remote2 emptyLog 0)
      (serve ++ handOut 0 1 5 "j" ++ [req "j" (.begun 5 "h" 1), req "j" (.finish 5 4 [[("k", "v")]] none), .hCancel 2, .hReport 2])) =
      [⟨1, .code 4, [[("k", "v")]], some 0⟩] ∧
    after remote2 (serve ++ handOut 0 1 5 "j" ++ [req "j" (.begun 5 "h" 1), req "j" (.finish 5 4 [[("k", "v")]] none), .hCancel 2,
      .hReport 2]) (fun _ => true) = true := by decide +kernel

/-! ### C89: the next task of `/end` -/

/-- **C89.** In every schedule: if an `/end` for task `v` was answered with another task, then the scheduler had processed
the finish of `v` before, unless there was a hard cancellation. -/
theorem next_task_after_processing (hg : Good c.tr) {as : List Sys.Act} (hr : Sys.Runs c (Sys.init c lf now) as s) {h v f : Nat}
    (he : (h, v, f) ∈ collect endReports c (Sys.init c lf now) as) {txn w : Nat}
    (ha : s.handlers[h]? = some (.done (some (.task txn w)))) :
    v ∈ s.tr.processed.map (·.1) ∨ WasHard c (Sys.init c lf now) as := by
  obtain ⟨x, hx, hA⟩ := after_end hg hr h v f he
  rw [ha] at hx
  simp only [Option.some.injEq] at hx
  subst hx
  exact hA

/-- Two tasks, the second one depending on the first. -/
def remoteChain : Sys.Cfg := { remote2 with tr := { g := ⟨[job "a", job "b"], [(0, 1)]⟩, fizzlesAllowed := 1 } }

/-- Non-trivial case: the runner ends `a` and asks for more; it waits until the finish is processed, then gets `b`, which
depends on `a`. -/
def endAndNext : List Sys.Act := [.server (.begin [0] t0), .server .sendNext, .server (.sendDone t0)] ++ handOut 0 0 5 "j" ++
  [req "j" (.begun 5 "h" 1), .server (.recvStarted t0), req "j" (.finish 5 0 [] (some 0)), .hCancel 2, .hReport 2]

example : after remoteChain (endAndNext ++ [.hFlag 2]) (fun _ => true) = false ∧
    after remoteChain (endAndNext ++ [.server (.recvFinished [1] t0), .server .sendNext, .server (.sendDone t0), .hFlag 2, .hRecv 2,
      .server (.pop 0 0), .server (.claim 0), .hGot 2 0, .hTimer 2 6, .hInsert 2])
      (fun s => s.handlers[2]? == some (.done (some (.task 6 1))) && s.tr.processed == [(0, .code 0)]) = true ∧
    collect endReports remoteChain (Sys.init remoteChain emptyLog 0) endAndNext = [(2, 0, 0)] := by decide +kernel

/-! ### C90: the end of `execute` -/

/-- **C90.** In every schedule: once `execute` has got past waiting for the runners, every local loop has returned, was cut off by a
hard cancellation, or panicked; every request has been answered or dropped, or its handler has panicked; and the reaper has
stopped or panicked. -/
theorem runners_ended (hg : Good c.tr) {as : List Sys.Act} (hr : Sys.Runs c (Sys.init c lf now) as s)
    (hp : s.tr.pc = .joined ∨ s.tr.pc = .done) :
    (∀ l ∈ s.loops, l = .exited ∨ (∃ v, l = .killed v) ∨ ∃ v, l = .dead v) ∧
    (∀ x ∈ s.handlers, (∃ r, x = .done r) ∨ ∃ v, x = .dead v) ∧
    (s.reaper = .stopped ∨ ∃ ex, s.reaper = .dead ex) := by
  obtain ⟨h1, h2, h3⟩ := quit_when_joined hg hr hp
  refine ⟨?_, ?_, ?_⟩
  · intro l hl
    have := List.all_eq_true.1 h1 l hl
    cases l <;> simp_all
  · intro x hx
    have := List.all_eq_true.1 h2 x hx
    cases x <;> simp_all
  · cases hr' : s.reaper <;> simp_all [reaperEnded]

/-- **C47 (hard cancellation).** A local loop is cut off in the middle of a task only after a hard cancellation. -/
theorem killed_only_if_hard {as : List Sys.Act} (hr : Sys.Runs c (Sys.init c lf now) as s) {v : Nat}
    (hl : .killed v ∈ s.loops) : WasHard c (Sys.init c lf now) as := (all_say hr).1 _ hl

/-- **C90 (the server stays).** With remote runners, the HTTP server and the reaper stop only after a hard cancellation (which
`execute` itself makes when the scheduler has returned, execgraph.rs:392). -/
theorem server_stops_only_if_hard {as : List Sys.Act} (hr : Sys.Runs c (Sys.init c lf now) as s) (hrem : c.remote = true)
    (hs : s.reaper = .stopped) : WasHard c (Sys.init c lf now) as := by
  refine Runs.snocInd (P := fun as s => s.reaper = .stopped → WasHard c (Sys.init c lf now) as) ?_ ?_ hr hs
  · intro h
    simp [Sys.init, hrem] at h
  · intro as s a s' hr ih _ hs h
    cases hre : isReap a with
    | false =>
      rw [(View.step hre hs).2] at h
      exact (ih h).more _
    | true =>
      cases a with
      | reapStop =>
        simp only [Sys.step] at hs
        split at hs
        · rename_i hc
          exact ⟨as, [_], s, rfl, hr, hc.2.1⟩
        · cases hs
      | reapTick =>
        simp only [Sys.step] at hs
        repeat' split at hs
        all_goals (cases hs; try cases h)
      | reapRemove =>
        simp only [Sys.step] at hs
        repeat' split at hs
        all_goals (cases hs; try cases h)
      | reapCheck l =>
        simp only [Sys.step] at hs
        repeat' split at hs
        all_goals (cases hs; try cases h)
      | reapSend =>
        simp only [Sys.step] at hs
        split at hs
        · obtain ⟨t, _, rfl⟩ := trk_ok.1 hs
          cases h
        · simp only [Res.ok.injEq] at hs; subst hs; cases h
        · cases hs
      | _ => cases hre

/-- Non-trivial case: the reaper can not stop while the scheduler works; after ctrl-c it can. -/
example : after remote2 (serve ++ handOut 0 0 5 "j" ++ [.reapStop]) (fun _ => true) = false ∧
    after remote2 (serve ++ handOut 0 0 5 "j" ++ [.server .ctrlC, .reapStop]) (fun s => s.reaper == .stopped) = true := by
  decide +kernel

/-- Non-trivial case: both loops run a task; after ctrl-c both are cut off, the console loop leaves; then `execute` goes on. -/
example : after local2b (serve ++ loopRun 0 0 ++ loopRun 1 0 ++ [.loopRecv 2, .server .ctrlC, .loopHard 0, .loopHard 1, .loopClosed 2 0, .joinDone])
    (fun s => s.tr.pc == .joined && s.loops == [.killed 0, .killed 1, .exited]) = true := by decide +kernel

end Verif.Props.System
