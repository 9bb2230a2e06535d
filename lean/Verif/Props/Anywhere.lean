import Verif.Proof.Anywhere

/-!
# C159: the result of `execute` does not depend on where the tasks run
-/

namespace Verif.Props.Anywhere
open Verif Verif.Cluster
open Verif.Tracker hiding Act Cfg State Runs init step replay after runs_of_replay runs_of_after
open Verif.Props.Tracker (t0)
open Verif.Props.System (job remote2 remote2_good serve rounds loopRun)
open Verif.Props.Cluster (r0 r1 bothRun complete)
open scoped List

variable {c c' : Sys.Cfg} {lf lf' : LogFile} {now now' : Int} {s s' : State} {as as' : List Act} {b : Behaviour}

/-- **C159.** Processes that end as `b` says of their task, whoever runs them; fewer tasks fail than quick failures are allowed. After a
complete `execute` with any number of local loops and remote runners, any delays and losses on the network, in which the server heard
of every runner in time and nothing went wrong around the processes, the log has been given exactly these Finished entries: one for every task
all of whose dependencies succeed, with exit code and values of its process. -/
theorem log_determined_anywhere_partial (hg : Good c.tr) (hord : Ordered c.tr) (hr : Runs c (init c lf now) as s) (hf : Fresh c lf now as)
    (hh : Heard c lf now as) (hd : ∀ a ∈ as, disturbed a = false) (hb : EndsAs b c lf now as) (hfew : Family.FewFailures c.tr b)
    (he : ServingOver s.sys.tr) :
    (∀ o, o ∈ outcomes (newEntries lf s.sys.tr) ↔ ∃ v, Due c.tr b v ∧ o = (keyOf c.tr v, (b.status v).asI32, b.values v)) ∧
    (outcomes (newEntries lf s.sys.tr)).Nodup ∧
    (∀ v st, (v, st) ∈ s.sys.tr.processed ↔ Due c.tr b v ∧ st = b.status v) := by
  obtain ⟨h1, h2, h3⟩ := anywhere_peace hg hr hf hh hd hb hfew
  have ht := (Props.Cluster.runners_polite hr hf).toInit hg
  obtain ⟨_, l2, _, l4⟩ := Outcome.log_determined hg hord ht h1 h2 h3 he
  exact ⟨l2, l4, fun v st => Outcome.outcome_determined hg hord ht h1 h2 h3 he⟩

/-- **C159.** Two such executions of the same tasks with the same dependencies, the one here and the other there: what they add to the
log is the same up to order, and so are the numbers they return. -/
theorem placement_irrelevant_partial (hg : Good c.tr) (hord : Ordered c.tr) (hg' : Good c'.tr) (hsame : SameTasks c.tr c'.tr)
    (hr : Runs c (init c lf now) as s) (hf : Fresh c lf now as)
    (hh : Heard c lf now as) (hd : ∀ a ∈ as, disturbed a = false) (hb : EndsAs b c lf now as) (hfew : Family.FewFailures c.tr b)
    (he : ServingOver s.sys.tr)
    (hr' : Runs c' (init c' lf' now') as' s') (hf' : Fresh c' lf' now' as')
    (hh' : Heard c' lf' now' as') (hd' : ∀ a ∈ as', disturbed a = false) (hb' : EndsAs b c' lf' now' as')
    (hfew' : Family.FewFailures c'.tr b) (he' : ServingOver s'.sys.tr) :
    outcomes (newEntries lf s.sys.tr) ~ outcomes (newEntries lf' s'.sys.tr) ∧
    s.sys.tr.nFailed = s'.sys.tr.nFailed ∧ s.sys.tr.nSuccess = s'.sys.tr.nSuccess := by
  obtain ⟨h1, h2, h3⟩ := anywhere_peace hg hr hf hh hd hb hfew
  obtain ⟨h1', h2', h3'⟩ := anywhere_peace hg' hr' hf' hh' hd' hb' hfew'
  obtain ⟨_, e2, e3, _, e5⟩ := Outcome.schedule_irrelevant hg hord hg' hsame
    ((Props.Cluster.runners_polite hr hf).toInit hg) h1 h2 h3 he
    ((Props.Cluster.runners_polite hr' hf').toInit hg') h1' h2' h3' he'
  exact ⟨e5, e2, e3⟩

/-! ### Non-trivial case -/

/-- `b` needs `a`, `c` needs `b`; `b` may only run remotely. -/
def mixed : Sys.Cfg where
  tr := { g := ⟨[job "a", job "b" 4, job "c"], [(0, 1), (1, 2)]⟩, fizzlesAllowed := 2 }
  numParallel := 1
  remote := true
  secret := "k"

/-- All of it runs locally. -/
def here : Sys.Cfg where
  tr := { g := ⟨[job "a", job "b", job "c"], [(0, 1), (1, 2)]⟩, fizzlesAllowed := 2 }
  numParallel := 1
  remote := false
  secret := ""

/-- `a` succeeds with a value, `b` fails with 3. -/
def does : Behaviour where
  status := fun v => .code (if v = 1 then 3 else 0)
  values := fun v => if v = 0 then [[("x", "y")]] else []

/-- A local loop runs the task at the front of its queue. -/
def localTask (code : Int) (values : List (List (String × String))) : List Act :=
  (loopRun 0 0 ++ [Sys.Act.server (.recvStarted t0), .loopOutput 0 code values, .loopReport 0]).map .server

/-- `a` runs locally, `b` remotely. -/
def mixedRun : List Act :=
  [.server (.server (.begin [0] t0)), .server (.server .sendNext), .server (.server (.sendDone t0))] ++ localTask 0 [[("x", "y")]] ++
  [.server (.server (.recvFinished [1] t0)), .server (.server .sendNext), .server (.server (.sendDone t0)),
   .join { r0 with rt := 2 }, .runner 0 .sendStart, .arrive 0, .server (.hRecv 0), .server (.server (.pop 0 0)), .server (.server (.claim 0)),
   .server (.hGot 0 0), .server (.hTimer 0 5), .server (.hInsert 0), .answer 0,
   .runner 0 (.spawn (some 7)), .runner 0 .sendBegun, .arrive 1, .answer 0, .server (.server (.recvStarted t0)),
   .other ⟨some "k", some (some "j"), .ping 5⟩,
   .runner 0 (.childEnds 7), .runner 0 (.output ⟨3, []⟩), .runner 0 .sendEnd, .arrive 2, .server (.hCancel 3),
   .server (.hReport 3), .server (.server (.recvFinished [2] t0))]

/-- `a` and `b` run locally. -/
def hereRun : List Act :=
  [.server (.server (.begin [0] t0)), .server (.server .sendNext), .server (.server (.sendDone t0))] ++ localTask 0 [[("x", "y")]] ++
  [.server (.server (.recvFinished [1] t0)), .server (.server .sendNext), .server (.server (.sendDone t0))] ++ localTask 3 [] ++
  [.server (.server (.recvFinished [2] t0))]

/-- Fewer than 255 ticks in all, so nobody was silent for 255. -/
theorem heard_of_few (hp : Sys.Prompt c (Sys.init c lf now) (served c lf now as))
    (ht : (served c lf now as).countP Sys.isReapTick < 255) : Heard c lf now as := by
  refine ⟨hp, fun txn v ⟨as1, bs1, rest, s1, e, _, _, _, h⟩ => ?_⟩
  rw [e, List.countP_append, List.countP_append] at ht
  omega

theorem few_of_one {tr : Tracker.Cfg} (hb : ∀ v, v ≠ 1 → b.status v = .code 0) (h : 1 < tr.fizzlesAllowed) : Family.FewFailures tr b := by
  intro l hl hv
  have h1 : ∀ v ∈ l, v = 1 := fun v hm => Classical.byContradiction fun h => (hv v hm).2 (hb v h)
  have : l.length ≤ 1 := by
    match l, hl, h1 with
    | [], _, _ => simp
    | [_], _, _ => simp
    | x :: y :: l, hl, h1 =>
      have hx := h1 x (by simp)
      have hy := h1 y (by simp)
      simp [hx, hy] at hl
  omega

theorem does_few : Family.FewFailures mixed.tr does ∧ Family.FewFailures here.tr does :=
  ⟨few_of_one (by intro v h; simp [does, h]) (by decide), few_of_one (by intro v h; simp [does, h]) (by decide)⟩

theorem mixed_good : Good mixed.tr := ⟨by intro e he; revert e; decide, by decide, by decide⟩
theorem here_good : Good here.tr := ⟨by intro e he; revert e; decide, by decide, by decide⟩

theorem mixed_ordered : Ordered mixed.tr := by
  intro u v h
  have : u = 0 ∧ v = 1 ∨ u = 1 ∧ v = 2 := by simpa [mixed, DiGraph.Dep] using h
  omega

/-- The two runs meet all hypotheses: the same log, though task `b` ran remotely in the one and locally in the other. -/
example : ∃ s s', Runs mixed (init mixed emptyLog 0) mixedRun s ∧ Runs here (init here emptyLog 0) hereRun s' ∧
    ServingOver s.sys.tr ∧ ServingOver s'.sys.tr ∧
    outcomes (newEntries emptyLog s.sys.tr) = [("a", 0, [[("x", "y")]]), ("b", 3, [])] ∧
    outcomes (newEntries emptyLog s.sys.tr) ~ outcomes (newEntries emptyLog s'.sys.tr) ∧ s.sys.tr.nFailed = s'.sys.tr.nFailed := by
  obtain ⟨s, h1, h2⟩ := runs_of_after (c := mixed) (as := mixedRun) (p := fun s => s.sys.tr.pc == .joining &&
    outcomes (newEntries emptyLog s.sys.tr) == [("a", 0, [[("x", "y")]]), ("b", 3, [])]) (by decide +kernel)
  obtain ⟨s', h1', h2'⟩ := runs_of_after (c := here) (as := hereRun) (p := fun s => s.sys.tr.pc == .joining) (by decide +kernel)
  simp only [Bool.and_eq_true, beq_iff_eq] at h2 h2'
  have := placement_irrelevant_partial (b := does) mixed_good mixed_ordered here_good ⟨by decide, by decide⟩ h1
    (by unfold Fresh Sys.FreshTxns; decide +kernel)
    (heard_of_few (by unfold Sys.Prompt; decide +kernel) (by decide +kernel)) (by decide +kernel)
    (by unfold EndsAs; decide +kernel) does_few.1 (.inl h2.1)
    h1' (by unfold Fresh Sys.FreshTxns; decide +kernel)
    (heard_of_few (by unfold Sys.Prompt; decide +kernel) (by decide +kernel)) (by decide +kernel)
    (by unfold EndsAs; decide +kernel) does_few.2 (.inl h2')
  exact ⟨s, s', h1, h1', .inl h2.1, .inl h2', h2.2, this.1, this.2.1⟩

/-! ### Why the server has to hear of the runners -/

/-- All processes succeed, with the same value. -/
def fine : Behaviour := ⟨fun _ => .code 0, fun _ => [[("x", "y")]]⟩

/-- Both tasks of `remote2` run remotely; `b` is reported; nothing is heard of the first runner for 255 ticks (35 s); its process ends
well, later. -/
def cutOff : List Act :=
  bothRun ++ complete 1 4 8 0 ++ [.server (.server (.recvFinished [] t0)), .server (.server (.tick 35000000000))] ++
  (rounds 254 ++ [Sys.Act.reapTick, .reapRemove, .reapCheck [], .reapSend, .reapSend]).map .server ++
  [.server (.server (.recvFinished [] t0)), .runner 0 (.childEnds 7), .runner 0 (.output ⟨0, [[("x", "y")]]⟩)]

/-- **C159 (violated without it).** Every process of every task ends with 0, nothing else goes wrong, but a runner was cut off from the
server for 35 s: task `a` is logged with -1 instead of 0. -/
theorem cut_off_runner_violated : ∃ s, Runs remote2 (init remote2 emptyLog 0) cutOff s ∧ Fresh remote2 emptyLog 0 cutOff ∧
    Sys.Prompt remote2 (Sys.init remote2 emptyLog 0) (served remote2 emptyLog 0 cutOff) ∧ (∀ a ∈ cutOff, disturbed a = false) ∧
    EndsAs fine remote2 emptyLog 0 cutOff ∧ (collect exits remote2 (init remote2 emptyLog 0) cutOff).map (·.1) = [1, 0] ∧
    Family.FewFailures remote2.tr fine ∧ ServingOver s.sys.tr ∧
    ("a", -1, []) ∈ outcomes (newEntries emptyLog s.sys.tr) ∧ ("a", 0, [[("x", "y")]]) ∉ outcomes (newEntries emptyLog s.sys.tr) := by
  obtain ⟨s, h1, h2⟩ := runs_of_after (c := remote2) (as := cutOff) (p := fun s => s.sys.tr.pc == .joining &&
    outcomes (newEntries emptyLog s.sys.tr) == [("b", 0, [[("x", "y")]]), ("a", -1, [])]) (by decide +kernel)
  simp only [Bool.and_eq_true, beq_iff_eq] at h2
  refine ⟨s, h1, by unfold Fresh Sys.FreshTxns; decide +kernel, by unfold Sys.Prompt; decide +kernel, by decide +kernel,
    by unfold EndsAs; decide +kernel, by decide +kernel, ?_, .inl h2.1, by rw [h2.2]; decide, by rw [h2.2]; decide⟩
  intro l _ hv
  match l, hv with
  | [], _ => decide
  | x :: l, hv => exact absurd rfl (hv x (by simp)).2


end Verif.Props.Anywhere
