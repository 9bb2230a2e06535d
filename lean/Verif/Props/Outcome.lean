import Verif.Proof.Outcome

/-!
# C155: the outcome does not depend on the schedule
-/

namespace Verif.Props.Outcome
open Verif Verif.Tracker Verif.Props.Tracker Verif.Spec
open scoped List

variable {c c' : Cfg} {lf lf' : LogFile} {now now' : Int} {s s' : State} {as as' : List Act} {b : Behaviour}

/-- **C155.** After a complete run (serving over, no shutdown from outside, quick failures below the limit) the tasks
reported are exactly those the graph and the behaviour of the tasks say, each with its status: those all of whose
dependencies succeed. -/
theorem outcome_determined (hg : Good c) (hord : Ordered c) (hr : Runs c (init c lf now) as s) (hf : Faithful b as)
    (hno : NoShutdown as) (hq : quickFailures c [] (init c lf now) as < c.fizzlesAllowed) (he : ServingOver s) {v : Nat}
    {st : ExitStatus} : (v, st) ∈ s.processed ↔ Due c b v ∧ st = b.status v := by
  have hre : Reachable c lf now s := ⟨as, hr⟩
  have hst : ∀ x ∈ s.processed, x.2 = b.status x.1 := by
    intro x hx
    obtain ⟨e, h1, h2, h3⟩ := processed_from hr x hx
    rw [← h2, ← h3]
    exact (hf e h1).1
  constructor
  · intro hm
    have hv := (order_topological hg hre).2.2.1 _ hm
    refine ⟨⟨hv, fun u hu => ?_⟩, hst _ hm⟩
    have := hre.made_reach hg (hre.obtained_made hg (hre.closed_obtained hg (List.mem_append_left _ hm))) hu
    exact (hst _ this).symm
  · rintro ⟨⟨hv, hall⟩, rfl⟩
    rcases nothing_forgotten hg hord hr hno hq he hv with ⟨h, _⟩ | ⟨_, u, ⟨st, hu, hne⟩, hreach⟩
    · have hm : v ∈ s.processed.map (·.1) := List.count_pos_iff.1 (by omega)
      obtain ⟨⟨w, st⟩, hx, rfl⟩ := List.mem_map.1 hm
      have := hst _ hx
      simp only at this ⊢
      rw [← this]; exact hx
    · exact absurd ((hst _ hu).trans (hall u hreach)) hne

/-- **C155.** The same for what the execute has written to the log: the keys announced as ready, and the keys, exit codes
and values of the Finished entries. -/
theorem log_determined (hg : Good c) (hord : Ordered c) (hr : Runs c (init c lf now) as s) (hf : Faithful b as)
    (hno : NoShutdown as) (hq : quickFailures c [] (init c lf now) as < c.fizzlesAllowed) (he : ServingOver s) :
    (∀ k, k ∈ readyKeys (newEntries lf s) ↔ ∃ v, Due c b v ∧ keyOf c v = k) ∧
    (∀ o, o ∈ outcomes (newEntries lf s) ↔ ∃ v, Due c b v ∧ o = (keyOf c v, (b.status v).asI32, b.values v)) ∧
    (readyKeys (newEntries lf s)).Nodup ∧ (outcomes (newEntries lf s)).Nodup := by
  have hre : Reachable c lf now s := ⟨as, hr⟩
  obtain ⟨hi, hh⟩ := hre.inv hg
  obtain ⟨_, _, hnew⟩ := hh.log.new_eq
  obtain ⟨_, hown, hdr⟩ := all_reported hg hr hno hq he
  have hcur : curOf s.pc = none := by rcases he with h | h | h <;> rw [h] <;> rfl
  have hfin := finList_closed hg hre hcur
  rw [hdr, List.append_nil] at hfin
  have hdue : ∀ v, v ∈ owners s.flags ↔ Due c b v := by
    intro v
    rw [hown v]
    constructor
    · intro h
      obtain ⟨⟨w, st⟩, hx, rfl⟩ := List.mem_map.1 h
      exact ((outcome_determined hg hord hr hf hno hq he).1 hx).1
    · intro h
      exact List.mem_map.2 ⟨(v, b.status v), (outcome_determined hg hord hr hf hno hq he).2 ⟨h, rfl⟩, rfl⟩
  have hready : ∀ k, k ∈ readyKeys (newEntries lf s) ↔ ∃ v, Due c b v ∧ keyOf c v = k := by
    intro k
    rw [hnew.ready, List.mem_map]
    simp only [hdue]
    rfl
  have hout : ∀ o, o ∈ outcomes (newEntries lf s) → ∃ v, Due c b v ∧ o = (keyOf c v, (b.status v).asI32, b.values v) := by
    intro o ho
    obtain ⟨x, hx, hxo⟩ := List.mem_filterMap.1 ho
    cases x with
    | finished f =>
      simp only [outcome?, Option.some.injEq] at hxo
      subst hxo
      obtain ⟨e, h1, h2, h3, h4⟩ := told hg hr hdr hx
      have : (f.key, f.status) ∈ finList (newEntries lf s) := List.mem_filterMap.2 ⟨_, hx, rfl⟩
      rw [hfin] at this
      obtain ⟨⟨v, st⟩, hp, hk⟩ := List.mem_map.1 this
      simp only [Prod.mk.injEq] at hk
      obtain ⟨hd, rfl⟩ := (outcome_determined hg hord hr hf hno hq he).1 hp
      have hv : v = e.id := hg.keyInj hd.1 (sent_lt hg hr e h1) (hk.1.trans h2)
      refine ⟨v, hd, ?_⟩
      rw [← hk.1, ← hk.2, h4, (hf e h1).2, hv]
    | _ => simp [outcome?] at hxo
  have hfo : finList (newEntries lf s) = (outcomes (newEntries lf s)).map (fun o => (o.1, o.2.1)) := by
    unfold finList outcomes
    rw [List.map_filterMap]
    congr 1
    funext x
    cases x <;> rfl
  refine ⟨hready, fun o => ⟨hout o, ?_⟩, (unready_exact hg hre ?_).2, ?_⟩
  · rintro ⟨v, hd, rfl⟩
    have hp := (outcome_determined hg hord hr hf hno hq he).2 ⟨hd, rfl⟩
    have hm : (keyOf c v, (b.status v).asI32) ∈ finList (newEntries lf s) := by
      rw [hfin]; exact List.mem_map.2 ⟨_, hp, rfl⟩
    rw [hfo] at hm
    obtain ⟨o, ho, hk⟩ := List.mem_map.1 hm
    obtain ⟨w, hw, rfl⟩ := hout o ho
    simp only [Prod.mk.injEq] at hk
    have : w = v := hg.keyInj hw.1 hd.1 hk.1
    rw [← this]; exact ho
  · intro h; rcases he with e | e | e <;> rw [e] at h <;> cases h
  · apply List.Nodup.of_map (fun o => o.1)
    have h1 : (outcomes (newEntries lf s)).map (fun o => o.1) = s.processed.map (fun x => keyOf c x.1) := by
      have := congrArg (List.map Prod.fst) (hfo.symm.trans hfin)
      simpa [List.map_map, Function.comp_def] using this
    rw [h1]
    exact (order_topological hg hre).2.1

/-- **C155.** Two complete runs over the same tasks and dependencies, with tasks that behave the same: whatever the number
and types of runners, priorities, speed, order, logs and time, the same tasks are run with the same results; only the order
differs. -/
theorem schedule_irrelevant (hg : Good c) (hord : Ordered c) (hg' : Good c') (hsame : SameTasks c c')
    (hr : Runs c (init c lf now) as s) (hf : Faithful b as)
    (hno : NoShutdown as) (hq : quickFailures c [] (init c lf now) as < c.fizzlesAllowed) (he : ServingOver s)
    (hr' : Runs c' (init c' lf' now') as' s') (hf' : Faithful b as')
    (hno' : NoShutdown as') (hq' : quickFailures c' [] (init c' lf' now') as' < c'.fizzlesAllowed) (he' : ServingOver s') :
    s.processed ~ s'.processed ∧ s.nFailed = s'.nFailed ∧ s.nSuccess = s'.nSuccess ∧
    readyKeys (newEntries lf s) ~ readyKeys (newEntries lf' s') ∧
    outcomes (newEntries lf s) ~ outcomes (newEntries lf' s') := by
  have hsame' : SameTasks c' c := ⟨hsame.1.symm, hsame.2.symm⟩
  have hord' : Ordered c' := fun u v h => hord u v (by unfold DiGraph.Dep at h ⊢; rwa [hsame.2])
  have hre : Reachable c lf now s := ⟨as, hr⟩
  have hre' : Reachable c' lf' now' s' := ⟨as', hr'⟩
  have hiff : ∀ v, Due c b v ↔ Due c' b v := fun v => ⟨due_same hsame, due_same hsame'⟩
  have hp : s.processed ~ s'.processed := by
    rw [List.perm_ext_iff_of_nodup (List.Nodup.of_map _ (order_topological hg hre).1)
      (List.Nodup.of_map _ (order_topological hg' hre').1)]
    rintro ⟨v, st⟩
    rw [outcome_determined hg hord hr hf hno hq he, outcome_determined hg' hord' hr' hf' hno' hq' he', hiff]
  have hc : closedTasks s ~ closedTasks s' := by
    unfold closedTasks
    rw [(all_reported hg hr hno hq he).2.2, (all_reported hg' hr' hno' hq' he').2.2]
    simpa using hp
  obtain ⟨a1, a2, a3, a4⟩ := log_determined hg hord hr hf hno hq he
  obtain ⟨b1, b2, b3, b4⟩ := log_determined hg' hord' hr' hf' hno' hq' he'
  refine ⟨hp, ?_, ?_, ?_, ?_⟩
  · rw [(failure_count hg hre).1, (failure_count hg' hre').1]; exact hc.countP_eq _
  · rw [(failure_count hg hre).2.1, (failure_count hg' hre').2.1]; exact hc.countP_eq _
  · rw [List.perm_ext_iff_of_nodup a3 b3]
    intro k
    rw [a1, b1]
    simp only [hiff, key_same hsame]
  · rw [List.perm_ext_iff_of_nodup a4 b4]
    intro o
    rw [a2, b2]
    simp only [hiff, key_same hsame]

/-! ### Non-trivial case: the diamond in which `b` fails, in two schedules -/

/-- `b` fails with exit code 1; `c` reports values. -/
def badB : Behaviour := ⟨fun v => if v = 1 then .code 1 else .code 0, fun v => if v = 2 then [[("k", "v")]] else []⟩

/-- The diamond with room for failures; the other one gives `c` to any runner and more room. -/
def roomy : Cfg := { diamond with fizzlesAllowed := 2 }
def other : Cfg where
  g := ⟨[task "a", task "b", task "c", task "d"], [(0, 1), (0, 2), (1, 3), (2, 3)]⟩
  fizzlesAllowed := 7

def report (b : Behaviour) (v : Nat) : List Act := [.sendStarted v "h" 1 "", .sendFinished ⟨v, b.status v, b.values v, none⟩]

/-- Two runners; `b` ends before `c`. -/
def twoRunners : List Act := [.begin [0] t0, .sendNext, .sendDone t0] ++ take 0 0 ++ report badB 0 ++
  [.recvStarted t0, .recvFinished [1, 2] t0, .sendNext, .sendNext, .sendDone t0] ++ take 0 0 ++ take 1 0 ++ report badB 1 ++
  report badB 2 ++ [.recvStarted t0, .recvFinished [3] t0, .recvStarted t0, .recvFinished [3] t0]

/-- One runner; `c` first. -/
def oneRunner : List Act := [.begin [0] t0, .sendNext, .sendDone t0] ++ take 0 0 ++ report badB 0 ++
  [.recvStarted t0, .recvFinished [2, 1] t0, .sendNext, .sendDone t0] ++ take 0 0 ++ report badB 2 ++
  [.recvStarted t0, .recvFinished [3] t0] ++ take 0 0 ++ report badB 1 ++ [.recvStarted t0, .recvFinished [3] t0]

/-- The reports of a list of actions as a check. -/
def isFaithful (b : Behaviour) (as : List Act) : Bool :=
  as.all (fun a => match a with | .sendFinished e => e.status == b.status e.id && e.values == b.values e.id | _ => true)

theorem faithful_of (h : isFaithful b as = true) : Faithful b as := by
  intro e he
  have := List.all_eq_true.1 h _ he
  simpa using this

/-- All hypotheses of `schedule_irrelevant` hold for the two runs: `a`, `b` and `c` are run in both, `d` in none; the
order differs. -/
example : Good roomy ∧ Ordered roomy ∧ Good other ∧ SameTasks roomy other ∧
    Faithful badB twoRunners ∧ NoShutdown twoRunners ∧
    quickFailures roomy [] (init roomy emptyLog 0) twoRunners < roomy.fizzlesAllowed ∧
    after roomy twoRunners (fun s => s.pc == .joining && s.processed.map (·.1) == [0, 1, 2]) = true ∧
    Faithful badB oneRunner ∧ NoShutdown oneRunner ∧
    quickFailures other [] (init other emptyLog 0) oneRunner < other.fizzlesAllowed ∧
    after other oneRunner (fun s => s.pc == .joining && s.processed.map (·.1) == [0, 2, 1]) = true :=
  ⟨⟨by intro e he; revert e; decide, by decide, by decide⟩, diamond_ordered,
    ⟨by intro e he; revert e; decide, by decide, by decide⟩, ⟨by decide, by decide⟩,
    faithful_of (by decide), noShutdown_of_quiet (by decide), by decide, by decide,
    faithful_of (by decide), noShutdown_of_quiet (by decide), by decide, by decide⟩

/-! ### The limit of quick failures -/

/-- `x` fails, `y` does not. -/
def badX : Behaviour := ⟨fun v => if v = 0 then .code 1 else .code 0, fun _ => []⟩

/-- `x` is run first. -/
def xFirst : List Act := [.begin [0, 1] t0, .sendNext, .sendDone t0] ++ take 0 0 ++ report badX 0 ++
  [.recvStarted t0, .recvFinished [] t0]

/-- `y` is run first. -/
def yFirst : List Act := [.begin [1, 0] t0, .sendNext, .sendDone t0] ++ take 0 0 ++ report badX 1 ++
  [.recvStarted t0, .recvFinished [] t0] ++ take 0 0 ++ report badX 0 ++ [.recvStarted t0, .recvFinished [] t0]

/-- **C155 (violated when the limit of quick failures is reached).** The same two independent tasks, the same behaviour, no
shutdown from outside: whether `y` is run at all depends on the order. -/
theorem schedule_matters_violated : ∃ s s', Runs pair (init pair emptyLog 0) xFirst s ∧ Runs pair (init pair emptyLog 0) yFirst s' ∧
    Faithful badX xFirst ∧ Faithful badX yFirst ∧ NoShutdown xFirst ∧ NoShutdown yFirst ∧ ServingOver s ∧ ServingOver s' ∧
    Due pair badX 1 ∧ 1 ∉ s.processed.map (·.1) ∧ Succeeded s' 1 := by
  obtain ⟨s, h1, h2⟩ := runs_of_after (c := pair) (as := xFirst)
    (p := fun s => decide (s.pc = .joining ∧ 1 ∉ s.processed.map Prod.fst)) (by decide)
  obtain ⟨s', h3, h4⟩ := runs_of_after (c := pair) (as := yFirst)
    (p := fun s => decide (s.pc = .joining ∧ (1, ExitStatus.code 0) ∈ s.processed)) (by decide)
  simp only [decide_eq_true_eq] at h2 h4
  refine ⟨s, s', h1, h3, faithful_of (by decide), faithful_of (by decide), noShutdown_of_quiet (by decide),
    noShutdown_of_quiet (by decide), .inl h2.1, .inl h4.1, ⟨by decide, ?_⟩, h2.2, h4.2⟩
  rintro u ⟨k, hk⟩
  cases hk with
  | snoc _ h => simp [DiGraph.Dep, pair] at h

end Verif.Props.Outcome
