import Verif.Proof.Family5
import Verif.Props.Reports
import Verif.Props.Execute
import Verif.Props.Terminate

/-!
# Local tasks from the command to the log, and the end of `execute` when the programs end (C151-C153)

`Runs c (init c lf now) as s`: in an `execute` call the scheduler, the local loops, the pipes and the processes of the tasks (each
with its program `c.op v`) have done `as`. The runs of `Verif.Props.System` and `Verif.Props.ChildIo` are the two projections.
-/

namespace Verif.Props.Family
open Verif Verif.Family
open Verif.Tracker hiding Act Cfg State Runs init step replay after runs_of_replay runs_of_after
open Verif.Props.Tracker (t0)
open Verif.Props.System (job)
open Verif.Props.ChildIo (table)

variable {P : Type} {c : Cfg P} {lf : LogFile} {now : Int} {s s' : State P} {as : List Act}

/-! ### a concrete case -/

/-- Task `a` has an input of two bytes; task `b` needs `a` and may only run on the console. -/
def house : Cfg Nat where
  sys := {
    tr := { g := ⟨[{ job "a" with fdInput := some (5, [8, 9]) }, job "b" 2], [(0, 1)]⟩, fizzlesAllowed := 1 }
    numParallel := 1
    remote := false
    secret := "k" }
  op := fun v => match v with
    -- reads its input to the end, writes `k=v` to descriptor 3 and exits with 0
    | 0 => table [.get (fun b => if b.isSome then 0 else 1), .put .val 107 2, .put .val 61 3, .put .val 118 4]
    -- starts another process and exits with 0; that one writes `x=y` to descriptor 3
    | _ => table [.fork 1 2, .exit 0, .put .val 120 3, .put .val 61 4, .put .val 121 1]
  start := fun _ => 0
  cap := 2

/-- All of a run of `house`. -/
def houseRun : List Act :=
  [.sys (.server (.begin [0] t0)), .sys (.server .sendNext), .sys (.server (.sendDone t0)), .sys (.loopRecv 0), .sys (.server (.pop 0 0)),
    .sys (.server (.claim 0)), .sys (.loopGot 0 0), .sys (.loopSpawn 0 true),
    .kid 0 .feed, .kid 0 (.run 0), .kid 0 .feed, .kid 0 .fed, .sys (.loopStarted 0 "h" 7), .sys (.server (.recvStarted t0)),
    .kid 0 (.run 0), .kid 0 (.run 0), .kid 0 (.run 0), .kid 0 (.run 0), .kid 0 (.collect .val), .kid 0 (.run 0), .kid 0 (.run 0),
    .kid 0 (.eof .out), .kid 0 (.collect .val), .kid 0 .reap, .kid 0 (.collect .val), .kid 0 (.eof .val), .kid 0 (.eof .err),
    .sys (.loopOutput 0 0 [[("k", "v")]]), .sys (.loopReport 0), .sys (.server (.recvFinished [1] t0)),
    .sys (.server .sendNext), .sys (.server (.sendDone t0)), .sys (.loopRecv 1), .sys (.server (.pop 0 0)),
    .sys (.server (.claim 0)), .sys (.loopGot 1 0), .sys (.loopSpawn 1 true), .sys (.loopStarted 1 "h" 8), .sys (.server (.recvStarted t0)),
    .kid 1 (.run 0), .kid 1 (.run 0), .kid 1 .reap, .kid 1 (.run 0), .kid 1 (.collect .val), .kid 1 (.run 0), .kid 1 (.run 0),
    .kid 1 (.collect .val), .kid 1 (.collect .val), .kid 1 (.run 0), .kid 1 (.eof .val), .sys (.loopOutput 1 0 [[("x", "y")]]),
    .sys (.loopReport 1), .sys (.server (.recvFinished [] t0)), .sys (.loopRecv 0), .sys (.loopRecv 1), .sys .joinDone,
    .sys (.server (.drain [] t0))]

example : after house houseRun (fun s => s.sys.tr.pc == .done && s.sys.tr.processed == [(0, .code 0), (1, .code 0)]) = true := by
  decide +kernel

theorem house_good : Good house.sys.tr := ⟨fun e h => by revert e; decide, by decide, by decide⟩
theorem house_displayable : Displayable house.sys.tr := by intro cmd h; revert cmd; decide
theorem house_runnable : Sys.LocallyRunnable house.sys := by intro cmd h; revert cmd; decide
theorem house_ordered : Ordered house.sys.tr := by
  intro u v h
  simp only [house, DiGraph.Dep, List.mem_cons, Prod.mk.injEq, List.not_mem_nil, or_false] at h
  omega

/-- What the processes of `house` have to do. -/
def houseRank : Nat → Nat → Nat
  | 0, n => if n ≤ 4 then 6 - n else 1
  | _, n => if n = 0 then 6 else if n = 1 then 1 else if n ≤ 4 then 6 - n else 1

theorem house_ends (v : Nat) : Ends (house.op v) 0 (houseRank v) := by
  intro p
  cases v with
  | zero =>
    have h : p = 0 ∨ p = 1 ∨ p = 2 ∨ p = 3 ∨ 4 ≤ p := by omega
    rcases h with rfl | rfl | rfl | rfl | h
    · exact ⟨fun b => by simp [houseRank], by decide⟩
    · exact (by decide : houseRank 0 2 < houseRank 0 1)
    · exact (by decide : houseRank 0 3 < houseRank 0 2)
    · exact (by decide : houseRank 0 4 < houseRank 0 3)
    · have : house.op 0 p = .exit 0 := by
        obtain ⟨q, rfl⟩ := Nat.exists_eq_add_of_le h
        rw [Nat.add_comm]; rfl
      rw [this]
      show 0 < houseRank 0 p
      simp only [houseRank]; split <;> omega
  | succ v =>
    have h : p = 0 ∨ p = 1 ∨ p = 2 ∨ p = 3 ∨ p = 4 ∨ 5 ≤ p := by omega
    rcases h with rfl | rfl | rfl | rfl | rfl | h
    · exact (by decide : 1 + 4 < 6)
    · exact (by decide : 0 < 1)
    · exact (by decide : 3 < 4)
    · exact (by decide : 2 < 3)
    · exact (by decide : 1 < 2)
    · have : house.op (v + 1) p = .exit 0 := by
        obtain ⟨q, rfl⟩ := Nat.exists_eq_add_of_le h
        rw [Nat.add_comm 5]; rfl
      rw [this]
      show 0 < houseRank (v + 1) p
      simp only [houseRank]
      repeat' split
      all_goals omega

theorem house_zero (v p code : Nat) (_ : v < house.sys.tr.g.n) (h : house.op v p = .exit code) : code = 0 := by
  cases v with
  | zero =>
    have hp : p = 0 ∨ p = 1 ∨ p = 2 ∨ p = 3 ∨ 4 ≤ p := by omega
    rcases hp with rfl | rfl | rfl | rfl | hp
    · cases h
    · cases h
    · cases h
    · cases h
    · obtain ⟨q, rfl⟩ := Nat.exists_eq_add_of_le hp
      rw [Nat.add_comm _ q] at h
      cases h; rfl
  | succ v =>
    have hp : p = 0 ∨ p = 1 ∨ p = 2 ∨ p = 3 ∨ p = 4 ∨ 5 ≤ p := by omega
    rcases hp with rfl | rfl | rfl | rfl | rfl | hp
    · cases h
    · cases h; rfl
    · cases h
    · cases h
    · cases h
    · obtain ⟨q, rfl⟩ := Nat.exists_eq_add_of_le hp
      rw [Nat.add_comm _ q] at h
      cases h; rfl

theorem house_read : InputsRead house := by
  intro v d bytes hv hd
  have hv : v = 0 ∨ v = 1 := by
    have : v < 2 := hv
    omega
  rcases hv with rfl | rfl
  · have : some ((5 : Int), ([8, 9] : List UInt8)) = some (d, bytes) := hd
    cases this
    refine ⟨by decide, fun n => n = 0, ?_, rfl⟩
    intro p hp
    subst hp
    intro b
    rfl
  · cases hd

/-! ### C151: from the process to the log -/

/-- C151: whatever the processes do, scheduler and loops do what the other theorems say: the run without the pipes is a run of the
system. -/
theorem run_of_system (hr : Runs c (init c lf now) as s) : Sys.Runs c.sys (Sys.init c.sys lf now) (sysActs as) s.sys := Runs.sys hr

/-- C151: an end of a local process that is reported as exit code `code` with `values` was one: the child of this task ended this way in
this execute, `values` is made of exactly what it and its descendants wrote to descriptor 3 of this run of the task (and of no
other), and nobody can write more. -/
theorem report_is_of_process (hr : Runs c (init c lf now) as s) {v : Nat} {code : Int} {values : List (List (String × String))}
    (h : (v, code, values) ∈ Sys.collect Sys.outputs c.sys (Sys.init c.sys lf now) (sysActs as)) :
    ∃ st bytes, Ran c (init c lf now) as v st bytes ∧ Fd3.code st = .code code ∧ values = Fd3.fd3Values ⟨bytes.toArray⟩ :=
  output_ran hr h

/-- C151: every Finished entry this execute has appended to the log: a local process of the task with this key ended with this code
(negative: by this signal), and the values are what its processes wrote; or an authorized `/end` said so; or the code is -1 or
-10 (not started, lost, drained, cancelled) and there are no values. -/
theorem logged_end_true (hg : Good c.sys.tr) (hr : Runs c (init c lf now) as s) {f : FinishedEntry}
    (hf : LogEntry.finished f ∈ newEntries lf s.sys.tr) :
    (∃ v st bytes, keyOf c.sys.tr v = f.key ∧ Ran c (init c lf now) as v st bytes ∧ Fd3.code st = .code f.status ∧
      f.values = Fd3.fd3Values ⟨bytes.toArray⟩) ∨
    (∃ v txn, keyOf c.sys.tr v = f.key ∧
      (txn, v, f.status, f.values) ∈ Sys.collect (Sys.endRequests c.sys) c.sys (Sys.init c.sys lf now) (sysActs as)) ∨
    (f.status = -1 ∨ f.status = -10) ∧ f.values = [] := by
  have hrs := Runs.sys hr
  have hrun := hrs.toInit hg
  rcases Props.Tracker.entries_have_origin hrun _ hf with ⟨e, h1, h2, h3, h4⟩ | ⟨_, v, _, _, h3, h4⟩
  · rcases Props.System.finish_reports_true hrs h1 with ⟨code, h5, h6⟩ | ⟨code, txn, _, h5, h6, _⟩ | ⟨h5, h6, _⟩ | ⟨h5, h6, _⟩ | ⟨h5, h6, _⟩
    · rw [h5] at h3
      have h3 : f.status = code := h3
      obtain ⟨st, bytes, h7, h8, h9⟩ := output_ran hr h6
      exact .inl ⟨e.id, st, bytes, h2.symm, h7, by rw [h3]; exact h8, by rw [h4]; exact h9⟩
    · rw [h5] at h3
      have h3 : f.status = code := h3
      exact .inr (.inl ⟨e.id, txn, h2.symm, by rw [h3, h4]; exact h6⟩)
    · rw [h5] at h3; exact .inr (.inr ⟨.inl h3, by rw [h4, h6]⟩)
    · rw [h5] at h3; exact .inr (.inr ⟨.inr h3, by rw [h4, h6]⟩)
    · rw [h5] at h3; exact .inr (.inr ⟨.inl h3, by rw [h4, h6]⟩)
  · exact .inr (.inr ⟨.inl h3, h4⟩)

/-- Non-trivial case: the two Finished entries of `house` have the values `k=v` and `x=y`, the second written by a process
that outlived the child. -/
example : after house houseRun (fun s => (newEntries emptyLog s.sys.tr).filterMap (fun e => match e with
    | .finished f => some (f.key, f.status, f.values) | _ => none) == [("a", 0, [[("k", "v")]]), ("b", 0, [[("x", "y")]])]) = true := by
  decide +kernel

/-! ### C152: the end of `execute` follows from the end of the programs -/

/-- C152: if the programs end (`Ends`), then in every schedule the number of actions of execgraph, of its loops and of all processes
of all tasks is bounded, also with Ctrl-C, failures, panics and signals from outside; `b` is a bound on what one task has to do. -/
theorem work_bounded (hg : Good c.sys.tr) (hl : c.sys.remote = false) {k b : Nat} {rank : Nat → P → Nat}
    (he : ∀ v, v < c.sys.tr.g.n → Ends (c.op v) k (rank v))
    (hb : ∀ v, v < c.sys.tr.g.n →
      2 * rank v (c.start v) + (2 * k + 3) * (((cmdOf c.sys.tr.g v).fdInput.map (·.2)).getD []).length + 8 ≤ b)
    (hr : Runs c (init c lf now) as s) :
    as.countP internal ≤ (b + 1) * (201 * c.sys.tr.g.n + 2 * c.sys.numParallel + 7 + as.countP isTrigger) := by
  have := total_runs hg hl he hb hr
  omega

/-- Non-trivial case: the run of `house` has 57 such actions. -/
example : after house houseRun (fun _ => true) = true ∧ houseRun.countP internal = 57 ∧
    ∀ v, v < house.sys.tr.g.n → Ends (house.op v) 0 (houseRank v) := ⟨by decide +kernel, by decide +kernel, fun v _ => house_ends v⟩

/-- C152: without requests for a soft shutdown and without panics of loops: as long as `execute` has not returned, something can
happen (other than a panic) in execgraph or in one of the processes - unless a loop is `Jammed`: it cannot get rid of the input
of a task. -/
theorem stuck_only_by_input (hg : Good c.sys.tr) (hdisp : Displayable c.sys.tr) (hrun : Sys.LocallyRunnable c.sys)
    (hord : Ordered c.sys.tr) (hne : c.sys.tr.g.n ≠ 0) (hpar : c.sys.numParallel ≠ 0) (hl : c.sys.remote = false) (hcap : 1 ≤ c.cap)
    (hr : Runs c (init c lf now) as s) (ha : ∀ a ∈ as, isTrigger a = false ∧ isDie a = false) (hpc : s.sys.tr.pc ≠ .done) :
    (∃ a s', internal a = true ∧ isDie a = false ∧ step c s a = .ok s') ∨ ∃ i, Jammed c s i :=
  able_or_jammed hg hdisp hrun hord hne hpar hl hcap hr ha hpc

/-- Non-trivial case: task `a` of `house` is spawned and `execute` has not returned. -/
example : after house (houseRun.take 9) (fun s => s.sys.tr.pc != .done && s.sys.loops == [.spawned 0 0, .top]) = true ∧
    ∀ a ∈ houseRun.take 9, isTrigger a = false ∧ isDie a = false := by
  constructor
  · decide +kernel
  · decide +kernel

/-- C152: let the programs end, let the inputs fit into the pipe and be read (`InputsRead`), and let nobody wait for ever in front of a
possible action (`Fair`). Without requests for a soft shutdown, panics of loops and signals from outside `execute` returns,
whatever the exit codes and even if somebody cancels or presses Ctrl-C. That processes end is not assumed but proved. -/
theorem execute_returns (hg : Good c.sys.tr) (hdisp : Displayable c.sys.tr) (hrun : Sys.LocallyRunnable c.sys)
    (hord : Ordered c.sys.tr) (hne : c.sys.tr.g.n ≠ 0) (hpar : c.sys.numParallel ≠ 0) (hl : c.sys.remote = false) (hcap : 1 ≤ c.cap)
    (hin : InputsRead c) {k : Nat} {rank : Nat → P → Nat} (he : ∀ v, v < c.sys.tr.g.n → Ends (c.op v) k (rank v))
    {σ : Nat → State P} {α : Nat → Act} (h : InfRun c lf now σ α) (hf : Fair c σ α)
    (ha : ∀ k, isTrigger (α k) = false ∧ isDie (α k) = false ∧ isKill (α k) = false) : ∃ k, (σ k).sys.tr.pc = .done := by
  obtain ⟨b, hb⟩ := bound c.sys.tr.g.n (fun v =>
    2 * rank v (c.start v) + (2 * k + 3) * (((cmdOf c.sys.tr.g v).fdInput.map (·.2)).getD []).length + 8)
  exact fair_ends hg hdisp hrun hord hne hpar hl hcap hin he hb h hf ha

/-- Fair runs without trouble exist, whatever the configuration. -/
theorem fair_run_exists (c : Cfg P) (lf : LogFile) (now : Int) :
    ∃ σ α, InfRun c lf now σ α ∧ Fair c σ α ∧ ∀ k, trouble (α k) = false := exists_fair c lf now

/-- C152, total correctness down to the programs: if moreover the programs only exit with 0, every process can be started and nobody
asks for a shutdown, then `execute` returns, and every selected task has been reported as successful exactly once, dependencies
first. -/
theorem everything_done (hg : Good c.sys.tr) (hdisp : Displayable c.sys.tr) (hrun : Sys.LocallyRunnable c.sys)
    (hord : Ordered c.sys.tr) (hne : c.sys.tr.g.n ≠ 0) (hpar : c.sys.numParallel ≠ 0) (hl : c.sys.remote = false) (hcap : 1 ≤ c.cap)
    (hin : InputsRead c) {k : Nat} {rank : Nat → P → Nat} (he : ∀ v, v < c.sys.tr.g.n → Ends (c.op v) k (rank v))
    (hz : c.sys.tr.fizzlesAllowed ≠ 0) (h0 : ∀ v p code, v < c.sys.tr.g.n → c.op v p = .exit code → code = 0)
    {σ : Nat → State P} {α : Nat → Act} (h : InfRun c lf now σ α) (hf : Fair c σ α) (ha : ∀ k, trouble (α k) = false) :
    ∃ k, (σ k).sys.tr.pc = .done ∧ ((σ k).sys.tr.processed.map (·.1)).Perm (List.range c.sys.tr.g.n) ∧
      (∀ l x r, (σ k).sys.tr.processed = l ++ x :: r → ∀ u, c.sys.tr.g.Dep u x.1 → (u, ExitStatus.code 0) ∈ l) ∧
      (∀ v, v < c.sys.tr.g.n → Succeeded (σ k).sys.tr v) := by
  have quiet : ∀ a : Act, trouble a = false → isTrigger a = false ∧ isDie a = false ∧ isKill a = false := by
    intro a h
    cases a with
    | kid i b => cases b <;> first | exact ⟨rfl, rfl, rfl⟩ | cases h
    | sys b =>
      cases b with
      | server b => cases b <;> first | exact ⟨rfl, rfl, rfl⟩ | cases h
      | loopDie i => cases h
      | _ => exact ⟨rfl, rfl, rfl⟩
  obtain ⟨m, hm⟩ := execute_returns hg hdisp hrun hord hne hpar hl hcap hin he h hf (fun k => quiet _ (ha k))
  refine ⟨m, hm, ?_⟩
  have hr := h.prefix m
  have hrs := Runs.sys hr
  obtain ⟨hp, hok⟩ := Sys.fine_peace hg hl hz hrs (all_zero hg h0 hr (InfRun.acts (q := fun a => trouble a = false) ha m))
  have hall := Tracker.all_succeed hg hord (hrs.toInit hg) hp.no ?_ (.inr (.inr hm)) hok
  · exact ⟨hall.1, (Tracker.order_topological hg ⟨_, hrs.toInit hg⟩).2.2.2, hall.2⟩
  rw [hp.quick]; omega

/-- Non-trivial case: some fair run of `house`, at the end of which both tasks have succeeded. -/
example : ∃ σ α k, InfRun house emptyLog 0 σ α ∧ (σ k).sys.tr.pc = .done ∧ ∀ v, v < 2 → Succeeded (σ k).sys.tr v := by
  obtain ⟨σ, α, h1, h2, h3⟩ := fair_run_exists house emptyLog 0
  obtain ⟨k, h4, _, _, h6⟩ := everything_done house_good house_displayable house_runnable house_ordered (by decide) (by decide) rfl
    (by decide) house_read (fun v _ => house_ends v) (by decide) house_zero h1 h2 h3
  exact ⟨σ, α, k, h1, h4, h6⟩

/-! ### C153: one task can hold up everything -/

/-- One task: the program `filter` (C119), which writes `cap + 1` bytes to stdout before it reads its input of `cap + 1` bytes. -/
def jam (cap : Nat) : Cfg Nat where
  sys := {
    tr := { g := ⟨[{ job "a" with fdInput := some (5, List.replicate (cap + 1) 0) }], []⟩, fizzlesAllowed := 1 }
    numParallel := 1
    remote := false
    secret := "k" }
  op := fun _ => (ChildIo.filter cap).op
  start := fun _ => 0
  cap := cap

/-- The task is started. -/
def jamRun : List Act :=
  [.sys (.server (.begin [0] t0)), .sys (.server .sendNext), .sys (.server (.sendDone t0)), .sys (.loopRecv 0), .sys (.server (.pop 0 0)),
    .sys (.server (.claim 0)), .sys (.loopGot 0 0), .sys (.loopSpawn 0 true)]

theorem jam_good (cap : Nat) : Good (jam cap).sys.tr := ⟨fun _ h => by simp [jam] at h, (by decide : 1 < 4294967296), by simp [jam]⟩

theorem jam_child (cap : Nat) : childCfg (jam cap) 0 0 = ChildIo.filter cap := rfl

set_option maxRecDepth 20000 in
/-- C153, the violation: however much fits into a pipe, there is a task such that `execute` does not return once its process is
started, in no schedule in which nobody kills that process from outside - also not after Ctrl-C, a cancellation or a shutdown
request: the loop that writes its input does not look at the cancellation token. -/
theorem one_task_blocks_execute_violated (cap : Nat) :
    (∃ s, Runs (jam cap) (init (jam cap) emptyLog 0) jamRun s ∧ s.sys.loops[0]? = some (.spawned 0 0)) ∧
    ∀ lf now as s x bs s', Runs (jam cap) (init (jam cap) lf now) as s → s.sys.loops[0]? = some (.spawned 0 x) →
      Runs (jam cap) s bs s' → (∀ a ∈ as ++ bs, isKill a = false) → s'.sys.loops[0]? = some (.spawned 0 x) ∧ s'.sys.tr.pc ≠ .done := by
  constructor
  · obtain ⟨s, h1, h2⟩ := runs_of_after (c := jam cap) (as := jamRun) (p := fun s => s.sys.loops[0]? == some (.spawned 0 0)) (by with_unfolding_all rfl)
    exact ⟨s, h1, by simpa using h2⟩
  · intro lf now as s x bs s' hr hl hr' hk
    refine never_returns (jam_good cap) ?_ hr hl hr' hk
    intro hist st h1 h2
    exact (ChildIo.large_input_deadlock_violated cap).1 hist st h1 h2

end Verif.Props.Family
