import Verif.Proof.Churn
import Verif.Props.Terminate

/-!
# `execute` with remote runners: how much can happen, and what it waits for (C133, C134)

`Runs c (init c lf now) as s`: some schedule `as` of an `execute` call leads to state `s`; remote runners may send any requests,
except for repeated `/begun`.
-/

namespace Verif.Props.Progress
open Verif Verif.Tracker Verif.Sys
open Verif.Props.Tracker (task t0)
open Verif.Props.System (job loopRun handOut req)

variable {c : Sys.Cfg} {lf : LogFile} {now : Int} {s s' : Sys.State}

/-! ### concrete cases -/

/-- Two tasks, `b` depends on `a`; one local loop, the console loop and remote runners; `a` may only run on runners of type 5. -/
def mixed : Sys.Cfg where
  tr := { g := ⟨[job "a" 32, job "b"], [(0, 1)]⟩, fizzlesAllowed := 1 }
  numParallel := 1
  remote := true
  secret := "k"

theorem mixed_good : Good mixed.tr := ⟨fun e h => by revert e; decide, by decide, by decide⟩
theorem mixed_displayable : Displayable mixed.tr := by intro cmd h; revert cmd; decide
theorem mixed_startable : Startable mixed := by intro cmd h; revert cmd; decide
theorem mixed_ordered : Ordered mixed.tr := by
  intro u v h
  simp only [mixed, DiGraph.Dep, List.mem_cons, Prod.mk.injEq, List.not_mem_nil, or_false] at h
  omega

/-- `a` is made ready; the loops ask for work. -/
def offered : List Sys.Act := [.server (.begin [0] t0), .server .sendNext, .server (.sendDone t0), .loopRecv 0, .loopRecv 1]

/-- A runner of type 5 takes `a` as transaction 7 and reports the start. -/
def taken : List Sys.Act := [req "j" (.start 5), .hRecv 0, .server (.pop 2 0), .server (.claim 0), .hGot 0 0, .hTimer 0 7, .hInsert 0,
  req "j" (.begun 7 "h" 1), .server (.recvStarted t0)]

/-- It ends and asks for more; loop 0 runs `b`; everything returns. -/
def completed : List Sys.Act := [req "j" (.finish 7 0 [] (some 5)), .hCancel 2, .hReport 2, .server (.recvFinished [1] t0),
  .server .sendNext, .server (.sendDone t0), .hFlag 2, .hRecv 2, .server (.pop 0 0), .server (.claim 0), .loopGot 0 0, .loopSpawn 0 true,
  .loopStarted 0 "h" 7, .loopOutput 0 0 [], .loopReport 0, .server (.recvStarted t0), .server (.recvFinished [] t0), .loopRecv 0,
  .loopClosed 1 0, .hLeave 2 0 false, .reapStop, .joinDone, .server (.drain [] t0)]

/-- The whole run. -/
def mixedRun : List Sys.Act := offered ++ taken ++ completed

example : after mixed mixedRun (fun s => s.tr.pc == .done && s.tr.processed == [(0, .code 0), (1, .code 0)]) = true := by
  decide +kernel

/-! ### C133: how much can happen -/

/-- **C133.** Whatever remote runners send and however long they wait, ping or hang up: in every schedule the number of actions that
bring the tasks forward (`working`: handing out, starts, ends, reports, log entries, returns of loops) is at most
`201 n + 2 numParallel + 8`, plus one for every request for a soft shutdown; `n` is the number of selected tasks. -/
theorem work_bounded (hg : Good c.tr) {as : List Sys.Act} (hr : Sys.Runs c (Sys.init c lf now) as s) :
    (collect workObs c (Sys.init c lf now) as).length ≤ 201 * c.tr.g.n + 2 * c.numParallel + 8 + as.countP isTrigger := by
  have h1 := togo_runs hg hr (Sys.Inv.init c lf now)
  have h2 := togo_init c lf now
  omega

/-- **C133 (waiting).** HTTP handlers start and cease to wait at most three times for every request. So all that can go on for ever
is the clock, requests, the rounds of the reaper, and repeated cancellations. -/
theorem waits_bounded {as : List Sys.Act} (hr : Sys.Runs c (Sys.init c lf now) as s) : as.countP waitAct ≤ 3 * as.countP isRequest := by
  have h1 := churn_runs hr
  have h2 : churn (Sys.init c lf now) = 0 := rfl
  omega

/-- Non-trivial case: the whole run has 30 actions that bring the tasks forward, three requests and four waits of handlers. -/
example : after mixed mixedRun (fun _ => true) = true ∧
    (collect workObs mixed (Sys.init mixed emptyLog 0) mixedRun).length = 30 ∧
    mixedRun.countP waitAct = 4 ∧ mixedRun.countP isRequest = 3 := by decide +kernel

/-! ### C134: what `execute` waits for -/

/-- **C134.** In every schedule without requests for a soft shutdown and without panics of loops: if nothing has been lost
(`Intact`) and `execute` has not returned, then execgraph itself can do something (`selfAct`), or it is waiting for a process it
started, for a remote runner that has a task, or for somebody who takes a ready task that nobody who is waiting accepts. -/
theorem never_stuck (hg : Good c.tr) (hdisp : Displayable c.tr) (hst : Startable c) (hord : Ordered c.tr) (hne : c.tr.g.n ≠ 0)
    {as : List Sys.Act} (hr : Sys.Runs c (Sys.init c lf now) as s) (ha : ∀ a ∈ as, isTrigger a = false ∧ isDie a = false)
    (hin : Intact s) (hpc : s.tr.pc ≠ .done) :
    (∃ a s', selfAct a = true ∧ Sys.step c s a = .ok s') ∨ ProcessRunning s ∨ s.conns ≠ [] ∨ ∃ v, RunnerMissing c s v := by
  refine Classical.byContradiction fun hno => ?_
  rw [not_or] at hno
  exact hno.2 ((Served.of_runs hg hr ha).at_rest hg hdisp hst hord hne hin hpc hno.1).2.2.2.2

/-- **C134 (at rest).** If execgraph itself can do nothing there, the server has handled all reports and there was no hard
cancellation, every request has been answered or is waiting for a task, every local loop waits for a task, has a running process, or
has returned, and the reaper sleeps: no answer and no report is outstanding. -/
theorem at_rest (hg : Good c.tr) (hdisp : Displayable c.tr) (hst : Startable c) (hord : Ordered c.tr) (hne : c.tr.g.n ≠ 0)
    {as : List Sys.Act} (hr : Sys.Runs c (Sys.init c lf now) as s) (ha : ∀ a ∈ as, isTrigger a = false ∧ isDie a = false)
    (hin : Intact s) (hpc : s.tr.pc ≠ .done) (hno : ¬ ∃ a s', selfAct a = true ∧ Sys.step c s a = .ok s') :
    (s.tr.pc = .idle ∧ s.tr.chan = [] ∧ s.tr.token ≠ some .hard) ∧
    (∀ x ∈ s.handlers, (∃ r, x = .done r) ∨ ∃ rt j, x = .inRecv rt j) ∧
    (∀ l ∈ s.loops, l = .inRecv ∨ l = .exited ∨ ∃ v st, l = .running v st) ∧
    (s.reaper = .idle ∨ s.reaper = .stopped) :=
  let h := (Served.of_runs hg hr ha).at_rest hg hdisp hst hord hne hin hpc hno
  ⟨h.1, h.2.1, h.2.2.1, h.2.2.2.1⟩

/-- Non-trivial case: `a` is ready but both loops wait for tasks of other types; and: `a` is with a runner. Nothing has been
lost. -/
example : after mixed offered (fun s => s.loops == [.inRecv, .inRecv] && s.tr.pc == .idle && s.tr.chan.isEmpty && s.conns.isEmpty &&
      s.reaper == .idle && s.forgotten.isEmpty && (s.tr.queues 5).map (·.id) == [0]) = true ∧
    after mixed (offered ++ taken) (fun s => s.loops == [.inRecv, .inRecv] && s.tr.pc == .idle && s.tr.chan.isEmpty &&
      s.conns.map (fun x => (x.1, x.2.node)) == [(7, 0)] && s.reaper == .idle && s.forgotten.isEmpty) = true := by decide +kernel

end Verif.Props.Progress
