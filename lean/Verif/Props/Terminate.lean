import Verif.Proof.Terminate2
import Verif.Props.System

/-!
# `execute` with local loops comes to an end (C113-C116)

`Runs c (init c lf now) as s`: some schedule `as` of an `execute` call leads to state `s`. Here `c.remote = false`: the tasks run
in the local loops, there is no provisioner.
-/

namespace Verif.Props.Terminate
open Verif Verif.Tracker Verif.Sys
open Verif.Props.Tracker (task t0)
open Verif.Props.System (job loopRun)

variable {c : Sys.Cfg} {lf : LogFile} {now : Int} {s s' : Sys.State}

/-! ### concrete cases -/

/-- A diamond of tasks, one of which may only run on the console, with two local loops and the console loop. -/
def localDiamond : Sys.Cfg where
  tr := { g := ⟨[job "a", job "b", job "c" 2, job "d" 3], [(0, 1), (0, 2), (1, 3), (2, 3)]⟩, fizzlesAllowed := 1 }
  numParallel := 2
  remote := false
  secret := "k"

theorem localDiamond_good : Good localDiamond.tr := ⟨fun e h => by revert e; decide, by decide, by decide⟩
theorem localDiamond_displayable : Displayable localDiamond.tr := by
  intro cmd h; revert cmd; decide
theorem localDiamond_runnable : LocallyRunnable localDiamond := by
  intro cmd h; revert cmd; decide
theorem localDiamond_ordered : Ordered localDiamond.tr := by
  intro u v h
  simp only [localDiamond, DiGraph.Dep, List.mem_cons, Prod.mk.injEq, List.not_mem_nil, or_false] at h
  omega

/-- All of a run of the diamond: `a` in loop 0, then `b` in loop 0 and `c` on the console, then `d` in loop 1; the loops return. -/
def diamondRun : List Sys.Act :=
  [.server (.begin [0] t0), .server .sendNext, .server (.sendDone t0)] ++ loopRun 0 0 ++
  [.loopOutput 0 0 [], .loopReport 0, .server (.recvStarted t0), .server (.recvFinished [1, 2] t0), .server .sendNext,
    .server .sendNext, .server (.sendDone t0)] ++ loopRun 0 0 ++ loopRun 2 0 ++
  [.loopOutput 2 0 [], .loopOutput 0 0 [], .loopReport 0, .loopReport 2, .server (.recvStarted t0), .server (.recvStarted t0),
    .server (.recvFinished [3] t0), .server (.recvFinished [3] t0), .server .sendNext, .server .sendNext, .server (.sendDone t0)] ++
  loopRun 1 0 ++ [.loopOutput 1 0 [], .loopReport 1, .server (.recvStarted t0), .server (.recvFinished [] t0), .loopRecv 0,
    .loopRecv 1, .loopRecv 2, .joinDone, .server (.drain [] t0)]

example : after localDiamond diamondRun (fun s => s.tr.pc == .done && s.tr.processed == [(0, .code 0), (1, .code 0), (2, .code 0), (3, .code 0)]) = true := by
  decide +kernel

/-! ### C113: how much can happen -/

/-- **C113.** In every schedule the number of actions of execgraph and of the processes it started (reports, channel operations,
starts and ends of processes, entries of the log, returns of loops) is at most `201 n + 2 numParallel + 7`, plus one for every
request for a soft shutdown; `n` is the number of selected tasks. Only the clock and the outside can go on beyond that. -/
theorem work_bounded (hg : Good c.tr) (hl : c.remote = false) {as : List Sys.Act} (hr : Sys.Runs c (Sys.init c lf now) as s) :
    as.countP internal ≤ 201 * c.tr.g.n + 2 * c.numParallel + 7 + as.countP isTrigger := by
  have h1 := left_runs hg hr (Sys.Inv.init c lf now) (NoServer.init hl)
  have h2 := left_init c lf now
  omega

/-- Non-trivial case: the whole run of the diamond has 54 such actions. -/
example : after localDiamond diamondRun (fun _ => true) = true ∧ diamondRun.countP internal = 54 := by decide +kernel

/-! ### C114: never stuck -/

/-- **C114.** In every schedule without requests for a soft shutdown and without panics of loops: as long as `execute` has not
returned, execgraph itself can do something, or some process it started is running and has not been told to stop. -/
theorem never_stuck (hg : Good c.tr) (hdisp : Displayable c.tr) (hrun : LocallyRunnable c) (hord : Ordered c.tr)
    (hne : c.tr.g.n ≠ 0) (hpar : c.numParallel ≠ 0) (hl : c.remote = false) {as : List Sys.Act}
    (hr : Sys.Runs c (Sys.init c lf now) as s) (ha : ∀ a ∈ as, isTrigger a = false ∧ isDie a = false) (hpc : s.tr.pc ≠ .done) :
    (∃ a s', ownAct a = true ∧ Sys.step c s a = .ok s') ∨ (s.tr.token ≠ some .hard ∧ ProcessRunning s) :=
  Calmly.able hg hdisp hrun hord hne hpar ((Calmly.init hl).runs hg hr ha) hpc

/-- Non-trivial case: `b` and `c` are running and everything else is waiting for them: the server for reports, loop 1 for a
task. -/
example : after localDiamond (diamondRun.take 28 ++ [.server (.recvStarted t0), .server (.recvStarted t0), .loopRecv 1])
    (fun s => s.loops == [.running 1 0, .inRecv, .running 2 0] && s.tr.pc == .idle && s.tr.chan.isEmpty && s.tr.waiting == [0]) = true := by
  decide +kernel

/-- **C114 (end in sight).** From each of these states there is a schedule of at most `201 n + 2 numParallel + 7` actions of
execgraph and its processes after which `execute` has returned. -/
theorem can_always_finish (hg : Good c.tr) (hdisp : Displayable c.tr) (hrun : LocallyRunnable c) (hord : Ordered c.tr)
    (hne : c.tr.g.n ≠ 0) (hpar : c.numParallel ≠ 0) (hl : c.remote = false) {as : List Sys.Act}
    (hr : Sys.Runs c (Sys.init c lf now) as s) (ha : ∀ a ∈ as, isTrigger a = false ∧ isDie a = false) :
    ∃ bs s', Sys.Runs c s bs s' ∧ s'.tr.pc = .done ∧ (∀ a ∈ bs, internal a = true) ∧
      bs.length ≤ 201 * c.tr.g.n + 2 * c.numParallel + 7 := by
  obtain ⟨bs, s', h1, h2, h3, h4⟩ := can_finish hg hdisp hrun hord hne hpar _ ((Calmly.init (now := now) hl).runs hg hr ha) (Nat.le_refl _)
  refine ⟨bs, s', h1, h2, h3, ?_⟩
  have h5 := left_runs hg hr (Sys.Inv.init c lf now) (NoServer.init hl)
  have h6 := left_init c lf now
  have h7 : as.countP isTrigger = 0 := by
    rw [List.countP_eq_zero]
    intro a hm; rw [(ha a hm).1]; simp
  omega

/-- Non-trivial case: the diamond. -/
example : ∃ bs s', Sys.Runs localDiamond (Sys.init localDiamond emptyLog 0) bs s' ∧ s'.tr.pc = .done ∧
    (∀ a ∈ bs, internal a = true) ∧ bs.length ≤ 815 :=
  can_always_finish localDiamond_good localDiamond_displayable localDiamond_runnable localDiamond_ordered (by decide) (by decide) rfl
    (.nil _) (by simp)

/-! ### C115: the end -/

/-- **C115.** Let the processes end and nobody wait for ever in front of a possible action (`Fair`). Without requests for a soft
shutdown and panics of loops `execute` returns, whatever the exit codes and even if somebody cancels or presses Ctrl-C. -/
theorem execute_returns (hg : Good c.tr) (hdisp : Displayable c.tr) (hrun : LocallyRunnable c) (hord : Ordered c.tr)
    (hne : c.tr.g.n ≠ 0) (hpar : c.numParallel ≠ 0) (hl : c.remote = false) {σ : Nat → Sys.State} {α : Nat → Sys.Act}
    (h : InfRun c lf now σ α) (hf : Fair c σ α) (ha : ∀ k, isTrigger (α k) = false ∧ isDie (α k) = false) :
    ∃ k, (σ k).tr.pc = .done :=
  fair_ends hg hdisp hrun hord hne hpar hl h hf ha

/-- **C115 (bounded).** In a fair run the returning takes place before the `201 n + 2 numParallel + 8`-th action of execgraph and
its processes. -/
theorem execute_returns_in_time (hg : Good c.tr) (hdisp : Displayable c.tr) (hrun : LocallyRunnable c) (hord : Ordered c.tr)
    (hne : c.tr.g.n ≠ 0) (hpar : c.numParallel ≠ 0) (hl : c.remote = false) {σ : Nat → Sys.State} {α : Nat → Sys.Act}
    (h : InfRun c lf now σ α) (hf : Fair c σ α) (ha : ∀ k, isTrigger (α k) = false ∧ isDie (α k) = false) :
    ∃ k, (σ k).tr.pc = .done ∧ ((List.range k).map α).countP internal ≤ 201 * c.tr.g.n + 2 * c.numParallel + 7 := by
  obtain ⟨k, hk⟩ := fair_ends hg hdisp hrun hord hne hpar hl h hf ha
  refine ⟨k, hk, ?_⟩
  have h1 := work_bounded hg hl (h.prefix k)
  have h7 : ((List.range k).map α).countP isTrigger = 0 := by
    rw [List.countP_eq_zero]
    intro a hm
    obtain ⟨i, _, rfl⟩ := List.mem_map.1 hm
    rw [(ha i).1]; simp
  omega

/-- Fair runs exist, whatever the configuration (so the hypotheses of C115 and C116 can be met). -/
theorem fair_run_exists (c : Sys.Cfg) (lf : LogFile) (now : Int) :
    ∃ σ α, InfRun c lf now σ α ∧ Fair c σ α ∧ ∀ k, wrong (α k) = false := exists_fair c lf now

/-! ### C116: total correctness -/

/-- **C116.** If the processes end with exit code 0 and nobody waits for ever in front of a possible action, if no process fails to
start and no loop panics, and nobody asks for a shutdown: `execute` returns, and then every selected task has been reported
as successful exactly once, in an order in which dependencies come first. -/
theorem everything_done (hg : Good c.tr) (hdisp : Displayable c.tr) (hrun : LocallyRunnable c) (hord : Ordered c.tr)
    (hne : c.tr.g.n ≠ 0) (hpar : c.numParallel ≠ 0) (hl : c.remote = false) (hz : c.tr.fizzlesAllowed ≠ 0)
    {σ : Nat → Sys.State} {α : Nat → Sys.Act} (h : InfRun c lf now σ α) (hf : Fair c σ α) (ha : ∀ k, wrong (α k) = false) :
    ∃ k, (σ k).tr.pc = .done ∧ ((σ k).tr.processed.map (·.1)).Perm (List.range c.tr.g.n) ∧
      (∀ l x r, (σ k).tr.processed = l ++ x :: r → ∀ u, c.tr.g.Dep u x.1 → (u, ExitStatus.code 0) ∈ l) ∧
      ∀ v, v < c.tr.g.n → Succeeded (σ k).tr v := by
  obtain ⟨k, hk⟩ := fair_ends hg hdisp hrun hord hne hpar hl h hf (fun k => calm_of_right (ha k))
  refine ⟨k, hk, ?_⟩
  have hr := h.prefix k
  obtain ⟨hp, hok⟩ := fine_peace hg hl hz hr (by
    intro a hm
    obtain ⟨i, _, rfl⟩ := List.mem_map.1 hm
    exact ha i)
  have hall := Tracker.all_succeed hg hord (hr.toInit hg) hp.no ?_ (.inr (.inr hk)) hok
  · exact ⟨hall.1, (Tracker.order_topological hg ⟨_, hr.toInit hg⟩).2.2.2, hall.2⟩
  rw [hp.quick]; omega

/-- Non-trivial case: some fair run of the diamond, at the end of which all four tasks have succeeded. -/
example : ∃ σ α k, InfRun localDiamond emptyLog 0 σ α ∧ (σ k).tr.pc = .done ∧ ∀ v, v < 4 → Succeeded (σ k).tr v := by
  obtain ⟨σ, α, h1, h2, h3⟩ := fair_run_exists localDiamond emptyLog 0
  obtain ⟨k, h4, _, _, h6⟩ := everything_done localDiamond_good localDiamond_displayable localDiamond_runnable localDiamond_ordered
    (by decide) (by decide) rfl (by decide) h1 h2 h3
  exact ⟨σ, α, k, h1, h4, h6⟩

end Verif.Props.Terminate
