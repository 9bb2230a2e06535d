import Verif.Proof.Cluster5
import Verif.Props.Reports

/-!
# Properties of the server and its remote runners together (C99-C104)

Assumption of most theorems: transaction ids drawn at random are distinct (`Fresh`).
-/

namespace Verif.Props.Cluster
open Verif Verif.Cluster
open Verif.Tracker (Good Displayable emptyLog ExitStatus Fin)
open Verif.Props.Tracker (t0)
open Verif.Props.System (remote2 remote2_good serve finishes)

variable {c : Sys.Cfg} {lf : LogFile} {now : Int} {s s' : State} {as : List Act}

/-! ### a demo -/

/-- Two runners. -/
def r0 : RCfg := ⟨⟨0, none, none⟩, 0, "j", "h"⟩
/-- See `r0`. -/
def r1 : RCfg := ⟨⟨0, none, none⟩, 0, "k", "g"⟩

/-- Runner `i` asks for a task (request number `k`); handler `h` gets the `q`-th task of the queue for it, as transaction
`txn`. -/
def hand (i k h q txn : Nat) : List Act :=
  [.runner i .sendStart, .arrive k, .server (.hRecv h), .server (.server (.pop 0 q)), .server (.server (.claim 0)), .server (.hGot h 0),
   .server (.hTimer h txn), .server (.hInsert h), .answer i]

/-- Runner `i` starts the process `pid` and announces it (request `k`). -/
def launch (i k pid : Nat) : List Act :=
  [.runner i (.spawn (some pid)), .runner i .sendBegun, .arrive k, .answer i, .server (.server (.recvStarted t0))]

/-- Runner `i`'s process `pid` ends and writes a value to descriptor 3; the runner reports it (request `k`, handler `k`). -/
def complete (i k pid : Nat) (code : Int) : List Act :=
  [.runner i (.childEnds pid), .runner i (.output ⟨code, [[("x", "y")]]⟩), .runner i .sendEnd, .arrive k, .server (.hCancel k),
   .server (.hReport k)]

/-- Both tasks are handed out and run. -/
def bothRun : List Act := serve.map .server ++ [.join r0, .join r1] ++ hand 0 0 0 0 5 ++ hand 1 1 1 0 6 ++ launch 0 2 7 ++ launch 1 3 8

/-- Then the second one ends. -/
def oneEnds : List Act := bothRun ++ complete 1 4 8 3

example : after remote2 oneEnds (fun s => s.sys.conns.map (·.1) == [5] && s.runners.map (·.tasks) == [[(0, 5, 0)], [(1, 6, 1)]]) = true ∧
    Sys.collect Sys.drawn remote2 (Sys.init remote2 emptyLog 0) (served remote2 emptyLog 0 oneEnds) = [5, 6] := by decide +kernel

/-! ### C99: `/begun` is not repeated -/

/-- **C99.** In every run of the server with any number of runners, however requests and answers are delayed or lost: no
runner sends `/begun` for a transaction for which it was accepted. So what the server sees is a run as in the properties of
the server alone. -/
theorem runners_polite (hr : Runs c (init c lf now) as s) (hf : Fresh c lf now as) :
    Sys.Runs c (Sys.init c lf now) (served c lf now as) s.sys := (hr.inv hf).run

theorem remote_no_panic (rc : Remote.Cfg) (st : Remote.State) (b : Remote.Act) (m : String) : Remote.step rc st b ≠ .panic m := by
  intro e
  cases b with
  | startReply r => cases r <;> simp only [Remote.step] at e <;> split at e <;> cases e
  | _ =>
    simp only [Remote.step] at e
    repeat' split at e
    all_goals cases e

/-- **C99 (no panic).** Hence the server does not panic, if commands can be displayed: neither while serving nor in `drain`. -/
theorem server_does_not_panic (hg : Good c.tr) (hd : Displayable c.tr) (hr : Runs c (init c lf now) as s) (hf : Fresh c lf now as)
    (a : Act) (m : String) : step c s a ≠ .panic m := by
  have hsys : ∀ b f, (Sys.step c s.sys b).bind f = .panic m → (∀ t, f t ≠ (.panic m : Res Unit State)) → False := by
    intro b f e hne
    cases h : Sys.step c s.sys b with
    | ok t => rw [h] at e; exact hne t e
    | err x => rw [h] at e; cases e
    | panic m' => exact Sys.no_panic hg hd (runners_polite hr hf) b m' h
  have hrem : ∀ rc st b (f : Remote.State → Res Unit State), (Remote.step rc st b).bind f = .panic m → (∀ t, f t ≠ (.panic m : Res Unit State)) → False := by
    intro rc st b f e hne
    cases h : Remote.step rc st b with
    | ok t => rw [h] at e; exact hne t e
    | err x => rw [h] at e; cases e
    | panic m' => exact remote_no_panic _ _ _ _ h
  have hhear : ∀ i r h x, hear c s i r h x ≠ .panic m := by
    intro i r h x e
    unfold hear at e
    split at e
    · exact hrem _ _ _ _ e (by simp)
    · cases e
  intro e
  cases a with
  | server b => simp only [step] at e; split at e <;> first | (cases e; done) | exact hsys _ _ e (by simp)
  | other r => simp only [step] at e; split at e <;> first | (cases e; done) | exact hsys _ _ e (by simp)
  | join cfg => simp [step] at e
  | runner i b =>
    simp only [step] at e
    repeat' split at e
    all_goals first | (cases e; done) | exact hrem _ _ _ _ e (by simp)
  | arrive k =>
    simp only [step] at e
    split at e
    · exact hsys _ _ e (by simp)
    · cases e
  | answer i =>
    simp only [step] at e
    repeat' split at e
    all_goals first | (cases e; done) | exact hhear _ _ _ _ e
  | fail i =>
    simp only [step] at e
    repeat' split at e
    all_goals first | (cases e; done) | exact hhear _ _ _ _ e

/-- Non-trivial case: hypotheses hold in the demo; `/begun` was accepted for both transactions. -/
example : Good remote2.tr ∧ Displayable remote2.tr ∧ Fresh remote2 emptyLog 0 oneEnds ∧
    after remote2 bothRun (fun s => s.sys.conns.map (fun x => (x.1, x.2.begun)) == [(5, true), (6, true)]) = true := by
  refine ⟨remote2_good, ?_, ?_, by decide +kernel⟩
  · intro cmd h; revert cmd; decide
  · unfold Fresh Sys.FreshTxns; decide +kernel

/-! ### C100: finish reports -/

/-- **C100.** In every run of the server with remote runners: if the scheduler receives that a task has ended with an exit code and
values, then a local process of the task ended so, or a local process of it could not be started (code -1), or there is a
remote runner that received this task's command line and descriptor, and in succession started it, announced it, saw it end
with this code and these values (or could not start it: code 13; or was told by Slurm to stop: code -15) and reported this. -/
theorem finish_reports_true (hr : Runs c (init c lf now) as s) (hf : Fresh c lf now as) {e : Fin} {code : Int}
    (he : .sendFinished e ∈ Sys.toTracker c (Sys.init c lf now) (served c lf now as)) (hc : e.status = .code code) :
    (e.id, code, e.values) ∈ Sys.collect Sys.outputs c (Sys.init c lf now) (served c lf now as) ∨
    (code = -1 ∧ e.values = [] ∧ e.id ∈ Sys.collect Sys.failedSpawns c (Sys.init c lf now) (served c lf now as)) ∨
    ∃ (i : Nat) (r : Runner) (T : Nat) (story : List Remote.Obs), s.runners[i]? = some r ∧
      Story (resp c.tr.g T e.id) code e.values story ∧ story <:+: r.st.trace := by
  rcases Props.System.finish_reports_true (runners_polite hr hf) he with ⟨x, h1, h2⟩ | ⟨x, T, st, h1, h2, h3⟩ | ⟨h1, h2, h3⟩ | ⟨h1, _⟩ | ⟨h1, _⟩
  · rw [h1] at hc; cases hc; exact .inl h2
  · rw [h1] at hc; cases hc
    obtain ⟨i, r, story, h4, h5, h6⟩ := end_true hr hf h2
    exact .inr (.inr ⟨i, r, T, story, h4, h5, h6⟩)
  · rw [h1] at hc; cases hc; exact .inr (.inl ⟨rfl, h2, h3⟩)
  · rw [h1] at hc; cases hc
  · rw [h1] at hc; cases hc

/-- Non-trivial case: in the demo the report says what runner 1 saw. -/
example : finishes (Sys.toTracker remote2 (Sys.init remote2 emptyLog 0) (served remote2 emptyLog 0 oneEnds)) =
      [⟨1, .code 3, [[("x", "y")]], some 0⟩] ∧
    after remote2 oneEnds (fun s => (s.runners[1]?.map (·.st.trace)) == some [.start, .received (resp remote2.tr.g 6 1), .spawn (some 8),
      .begun 6 8, .output 8 ⟨3, [[("x", "y")]]⟩, .finish 6 3 [[("x", "y")]] true]) = true := by decide +kernel

/-! ### C101: start reports -/

/-- **C101.** In every run of the server with remote runners: if the scheduler receives that a task was started on a host with a
process id and a Slurm job id, then a local loop started it, or could not (process id 0; in both cases no job id), or there is
a remote runner on this host, in this job, that received this task and in succession started a process with this id
(or could not, and the id is 0) and announced it. -/
theorem start_reports_true (hr : Runs c (init c lf now) as s) (hf : Fresh c lf now as) {v : Nat} {host : String} {pid : Nat} {job : String}
    (he : .sendStarted v host pid job ∈ Sys.toTracker c (Sys.init c lf now) (served c lf now as)) :
    (job = "" ∧ v ∈ Sys.collect Sys.loopStarts c (Sys.init c lf now) (served c lf now as)) ∨
    (job = "" ∧ pid = 0 ∧ v ∈ Sys.collect Sys.failedSpawns c (Sys.init c lf now) (served c lf now as)) ∨
    ∃ (i : Nat) (r : Runner) (T : Nat) (p : Option Nat), s.runners[i]? = some r ∧ r.cfg.host = host ∧ r.cfg.job = job ∧ pid = p.getD 0 ∧
      [.received (resp c.tr.g T v), .spawn p, .begun T pid] <:+: r.st.trace := by
  rcases Sys.start_true (runners_polite hr hf) he with h | h | ⟨T, h⟩
  · exact .inl h
  · exact .inr (.inl h)
  · obtain ⟨i, r, p, h1, h2, h3, h4, h5⟩ := begun_true hr hf h
    exact .inr (.inr ⟨i, r, T, p, h1, h2, h3, h4, h5⟩)

/-- The start reports of a run of the scheduler. -/
def starts (as : List Tracker.Act) : List (Nat × String × Nat × String) :=
  as.filterMap fun a => match a with | .sendStarted v h p j => some (v, h, p, j) | _ => none

/-- Non-trivial case. -/
example : starts (Sys.toTracker remote2 (Sys.init remote2 emptyLog 0) (served remote2 emptyLog 0 bothRun)) =
      [(0, "h", 7, "j"), (1, "g", 8, "k")] ∧
    after remote2 bothRun (fun s => s.runners.map (·.st.trace) == [[.start, .received (resp remote2.tr.g 5 0), .spawn (some 7), .begun 5 7],
      [.start, .received (resp remote2.tr.g 6 1), .spawn (some 8), .begun 6 8]]) = true := by decide +kernel

/-! ### C102: processes -/

/-- **C102.** In every run of the server with remote runners, however requests and answers are delayed or lost: at most one
process is started for each task, counting all local loops and all remote runners. -/
theorem at_most_one_process (hg : Good c.tr) (hr : Runs c (init c lf now) as s) (hf : Fresh c lf now as) :
    (collect processes c (init c lf now) as).Nodup :=
  List.nodup_iff_count.2 (processes_count hg hr hf)

/-- **C102 (the right command).** A remote runner that is about to start a process starts the command of the task it received last,
with its input. -/
theorem runs_what_it_received (hr : Runs c (init c lf now) as s) (hf : Fresh c lf now as) {i : Nat} {r : Runner} (hi : s.runners[i]? = some r)
    {q : Remote.StartResp} (hp : r.st.phase = .got q) : ∃ x T v, r.tasks.getLast? = some (x, T, v) ∧ q.txn = T ∧
      q.cmdline = (Tracker.cmdOf c.tr.g v).cmdline ∧ q.inputFd = (Tracker.cmdOf c.tr.g v).fdInput.map (·.1) := by
  obtain ⟨x, T, v, h1, rfl⟩ := (hr.inv hf).gotTask hi hp
  exact ⟨x, T, v, h1, rfl, rfl, rfl⟩

/-- Non-trivial case: two processes are started; had both been the same task there would be a repetition. -/
example : collect processes remote2 (init remote2 emptyLog 0) bothRun = [0, 1] ∧
    after remote2 (bothRun.take 14) (fun s => s.runners.map (·.st.phase) == [.got (resp remote2.tr.g 5 0), .top]) = true := by decide +kernel

/-! ### C103: processes that outlive `execute` -/

/-- Task `b` fails at once, a soft cancellation follows, and the connection of task `a` is removed though its runner pings;
then `execute` comes to its end. -/
def outlives : List Act := bothRun ++ complete 1 4 8 3 ++ [.server (.server (.recvFinished [] t0)),
  .other ⟨some "k", some (some "j"), .ping 5⟩, .server .reapTick, .server (.reapCheck [5]), .server .reapRemove, .server .reapRemove,
  .server .reapSend, .other ⟨some "k", some (some "j"), .ping 5⟩, .server (.server (.recvFinished [] t0)), .server .reapSend,
  .server (.hFlag 4), .server (.hRecv 4), .answer 1, .server (.server (.cancel .hard)), .server .reapStop, .server .joinDone,
  .server (.server (.drain [] t0))]

/-- **C103 (violated).** Task `a` is reported as disconnected, and `execute` returns, while the process of task `a` runs on;
its runner's pings, before and after, were all answered with 200. -/
theorem process_outlives_execute_violated : ∃ s r, Runs remote2 (init remote2 emptyLog 0) outlives s ∧ Fresh remote2 emptyLog 0 outlives ∧
    (0, .disconnected) ∈ Sys.collect Sys.reportObs remote2 (Sys.init remote2 emptyLog 0) (served remote2 emptyLog 0 outlives) ∧
    s.sys.tr.pc = .done ∧ s.runners[0]? = some r ∧ r.st.phase = .waiting (resp remote2.tr.g 5 0) 7 false ∧ 7 ∈ r.st.running ∧
    s.sys.handlers[5]? = some (.done (some .ok)) ∧ s.sys.handlers[6]? = some (.done (some .ok)) := by
  obtain ⟨s, h1, h2⟩ := runs_of_after (c := remote2) (as := outlives) (p := fun s => s.sys.tr.pc == .done &&
    ((s.runners[0]?).map (fun r => (r.st.phase, r.st.running)) == some (.waiting (resp remote2.tr.g 5 0) 7 false, [7])) &&
    s.sys.handlers[5]? == some (.done (some .ok)) && s.sys.handlers[6]? == some (.done (some .ok))) (by decide +kernel)
  simp only [Bool.and_eq_true, beq_iff_eq] at h2
  obtain ⟨⟨⟨hpc, hr⟩, h5⟩, h6⟩ := h2
  cases hr0 : s.runners[0]? with
  | none => rw [hr0] at hr; cases hr
  | some r =>
    rw [hr0] at hr
    simp only [Option.map_some, Option.some.injEq, Prod.mk.injEq] at hr
    exact ⟨s, r, h1, by unfold Fresh Sys.FreshTxns; decide +kernel, by decide +kernel, hpc, hr0, hr.1, by rw [hr.2]; simp, h5, h6⟩

/-- **C103 (what holds).** If the scheduler receives an exit code for a task (other than -15, which may come from a Slurm
job that is told to stop), then no process of it is left that was not waited for: a local process ended with it or could not be started; or
the remote runner's report came right after the output of its process had been collected, or after the process could not be started. -/
theorem reported_process_has_ended_partial (hr : Runs c (init c lf now) as s) (hf : Fresh c lf now as) {e : Fin} {code : Int}
    (he : .sendFinished e ∈ Sys.toTracker c (Sys.init c lf now) (served c lf now as)) (hc : e.status = .code code) (h15 : code ≠ -15) :
    (e.id, code, e.values) ∈ Sys.collect Sys.outputs c (Sys.init c lf now) (served c lf now as) ∨
    e.id ∈ Sys.collect Sys.failedSpawns c (Sys.init c lf now) (served c lf now as) ∨
    ∃ (i : Nat) (r : Runner) (T : Nat), s.runners[i]? = some r ∧
      ((∃ (pid k : Nat) (out : Remote.Output) (next : Bool), [.received (resp c.tr.g T e.id), .spawn (some pid), .begun T pid] ++
          List.replicate k (.sigterm pid) ++ [.output pid out, .finish T code e.values next] <:+: r.st.trace) ∨
       [.received (resp c.tr.g T e.id), .spawn none] <:+: r.st.trace) := by
  rcases finish_reports_true hr hf he hc with h | ⟨_, _, h⟩ | ⟨i, r, T, story, h1, h2, h3⟩
  · exact .inl h
  · exact .inr (.inl h)
  · refine .inr (.inr ⟨i, r, T, h1, ?_⟩)
    generalize hv : e.values = values at h2 ⊢
    generalize e.id = v at h2 ⊢
    cases h2 with
    | ran pid k out next => exact .inl ⟨pid, k, out, next, h3⟩
    | failed next => exact .inr (List.IsInfix.trans ⟨[], _, rfl⟩ h3)
    | slurm => exact absurd rfl h15

/-! ### C104: answers -/

/-- **C104.** In every run, in every state: a runner that waits for an answer waits for the answer to a request of its own; whatever the
server answers, the runner can proceed (in particular, `/end` without a request for another task is not answered with a
task); and it can proceed if the request or the answer is lost. -/
theorem answers_expected (hr : Runs c (init c lf now) as s) {i : Nat} {r : Runner} (hi : s.runners[i]? = some r)
    (hw : awaiting r.st.phase = true) :
    (∃ s', step c s (.fail i) = .ok s') ∧
    ∃ (k : Nat) (p : Packet), r.waits = some k ∧ s.packets[k]? = some p ∧ p.sender = i ∧
      ∀ h x, p.handler = some h → s.sys.handlers[h]? = some (.done x) → ∃ s', step c s (.answer i) = .ok s' := by
  obtain ⟨k, p, h1, h2, h3, h4⟩ := hr.asks.waits i r hi hw
  constructor
  · simp only [step, hi, h1, Option.isSome_some, if_true]
    exact hear_ok hw (by intro _ _ _ _ e; cases e)
  · refine ⟨k, p, h1, h2, h3, ?_⟩
    intro h x hh hx
    simp only [step, hi, h1, Option.bind_some, h2, hh, hx]
    refine hear_ok hw ?_
    intro q hq T v e
    obtain ⟨T', code, values, hb⟩ := h4 q hq
    obtain ⟨y, hy, hn⟩ := hr.asks.handlers k p h T' code values h2 hh hb
    rw [hx] at hy
    cases hy
    cases hn with
    | done _ hne => exact hne T v e

/-- Non-trivial case: runner 1 waits for the answer to `/end` and asks for another task; there is none, the server hangs on
until it is cancelled. -/
example : after remote2 oneEnds (fun s => s.runners.map (fun r => awaiting r.st.phase) == [false, true] &&
    s.runners.map (·.waits) == [none, some 4]) = true ∧
    after remote2 (oneEnds ++ [.fail 1]) (fun s => (s.runners[1]?.map (·.st.phase)) == some .cleaning) = true ∧
    after remote2 outlives (fun s => (s.runners[1]?.map (·.st.phase)) == some .cleaning) = true := by decide +kernel

end Verif.Props.Cluster
