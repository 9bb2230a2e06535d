import Verif.Proof.TrackerFizzle
import Verif.Props.Tracker

/-!
# C13, C15, C19, C22-C24, C26-C29: what holds along the runs of an `execute` call
-/

namespace Verif.Props.Tracker
open Verif Verif.Tracker Verif.Spec
open scoped List

variable {c : Cfg} {lf : LogFile} {now : Int} {s : State}

theorem ended_of_over (h : ServingOver s) : ended s.pc = true := by
  rcases h with h | h | h <;> rw [h] <;> rfl

/-- **C13.** Whenever a task `v` was obtained by a runner of type `r`, there was a moment (just before the pop) at which
every item in queue `r` belonged to a task of at most the priority of `v`; and at that moment every unclaimed ready task
accepting runner type `r` was in queue `r`, or in the hand of another receiver of type `r`, or not yet sent to the
queue. -/
theorem highest_priority_first (hg : Good c) {as : List Act} (hr : Runs c (init c lf now) as s) {r v : Nat}
    (ho : (r, v) ∈ s.obtained) :
    ∃ as1 i j as2 s1, as = as1 ++ .pop i j :: as2 ∧ Runs c (init c lf now) as1 s1 ∧ s1.waiting[i]? = some r ∧
      (∃ it ∈ s1.queues r, it.id = v) ∧
      (∀ it ∈ s1.queues r, (cmdOf c.g it.id).priority ≤ (cmdOf c.g v).priority) ∧
      ∀ w, Unclaimed s1 w → (cmdOf c.g w).affinity.getLsbD r = true →
        (∃ it ∈ s1.queues r, it.id = w) ∨ (∃ p ∈ s1.popped, p.1 = r ∧ p.2.id = w) ∨
        ∃ todo fin, s1.pc = .sending todo fin ∧ ∃ b ∈ todo, b.1 = r ∧ ∃ it ∈ b.2, it.id = w := by
  obtain ⟨it, hid, as1, i, j, as2, s1, e, h1, h2, h3, h4⟩ := (popped_origin (by simp [init]) hr).2 _ ho
  simp only at hid h2 h3 h4
  obtain ⟨hi, _⟩ := Reachable.inv hg ⟨as1, h1⟩
  refine ⟨as1, i, j, as2, s1, e, h1, h2, ⟨it, h3, hid⟩, ?_, ?_⟩
  · intro x hx
    have := h4 x hx
    rw [(hi.core.items.queueOk r x hx).prio, (hi.core.items.queueOk r it h3).prio, hid] at this
    exact this
  · rintro w ⟨f, hf, hfo, hft⟩ hb
    obtain ⟨k, hk⟩ := List.getElem?_of_mem hf
    have hk' : s1.flags[k]? = some ⟨w, false⟩ := by rw [hk, ← hfo, ← hft]
    have own : ∀ {q : Nat} {x : Item}, ItemOk c.g s1.flags q x → x.flag = k → x.id = w := by
      intro q x hx hxk
      have := hx.flag
      rw [hxk, hk'] at this
      simpa using this.symm
    rcases hi.core.items.avail k w hk' r hb with ⟨x, hx, hxk⟩ | ⟨p, hp, hpr, hpk⟩ | ⟨b, hbm, hbr, x, hx, hxk⟩
    · exact .inl ⟨x, hx, own (hi.core.items.queueOk r x hx) hxk⟩
    · exact .inr (.inl ⟨p, hp, hpr, own (hi.core.items.poppedOk p hp) hpk⟩)
    · right; right
      cases hpc : s1.pc with
      | sending todo fin =>
        rw [hpc] at hbm
        exact ⟨todo, fin, rfl, b, hbm, hbr, x, hx, own (hi.core.items.todoOk b (by rw [hpc]; exact hbm) x hx) hxk⟩
      | _ => rw [hpc] at hbm; simp [todoOf] at hbm

/-- Two tasks of priority 1 and 5. -/
def twoPrios : Cfg where
  g := ⟨[task "low" 1 1, task "high" 1 5], []⟩
  fizzlesAllowed := 1

/-- Non-trivial case: two ready tasks of different priority; the one of priority 5 is obtained, the other cannot be
popped at that moment. -/
example : after twoPrios ([.begin [0, 1] t0, .sendNext, .sendDone t0] ++ take 0 1)
    (fun s => s.obtained == [(0, 1)]) = true ∧
    after twoPrios ([.begin [0, 1] t0, .sendNext, .sendDone t0] ++ take 0 0) (fun _ => true) = false := by decide

/-- **C15.** If serving has ended, no shutdown from outside was acted on and quick failures stayed below the limit, then
every selected task was reported finished exactly once, or transitively depends on a task that failed — not both. -/
theorem nothing_forgotten (hg : Good c) (hord : Ordered c) {as : List Act} (hr : Runs c (init c lf now) as s)
    (hno : NoShutdown as) (hq : quickFailures c [] (init c lf now) as < c.fizzlesAllowed) (he : ServingOver s) {v : Nat}
    (hv : v < c.g.n) :
    ((s.processed.map (·.1)).count v = 1 ∧ ¬ ∃ u, FailedIn s u ∧ c.g.Reach u v) ∨
    ((s.processed.map (·.1)).count v = 0 ∧ ∃ u, FailedIn s u ∧ c.g.Reach u v) := by
  have hre : Reachable c lf now s := ⟨as, hr⟩
  obtain ⟨hi, hh⟩ := hre.inv hg
  have hend := ended_of_over he
  have hsoft : s.soft = false := by
    by_contra h
    have h := ((soft_exact hg hr (fun h => (hno _ h).1 rfl)).1 (by simpa using h)).2
    omega
  obtain ⟨_, hall⟩ := ended_facts hg hr (fun a ha => (hno a ha).2) hend
  have hlen : s.flags.length = s.processed.length := by
    rcases hall with h | h
    · exact h
    · rw [hsoft] at h; cases h
  have hnd := (order_topological hg hre).1
  have hsub : ∀ w, w ∈ s.processed.map (·.1) → w ∈ owners s.flags := by
    intro w hw
    obtain ⟨x, hx, rfl⟩ := List.mem_map.1 hw
    exact hre.obtained_made hg (hre.closed_obtained hg (st := x.2) (List.mem_append_left _ hx))
  have hmade : ∀ w, w ∈ owners s.flags → w ∈ s.processed.map (·.1) := by
    have hp := (List.subperm_of_subset hnd hsub).perm_of_length_le (by simp [owners, hlen])
    exact fun w hw => hp.mem_iff.2 hw
  have hbeg : begunOf s.pc = true := by
    cases hp : s.pc with
    | new => rw [hp] at hend; simp [ended] at hend
    | _ => rfl
  have hone : ∀ w, w < c.g.n → w ∈ s.processed.map (·.1) ∨ ∃ u, FailedIn s u ∧ c.g.Reach u w := by
    intro w
    induction w using Nat.strongRecOn with
    | ind w ih =>
      intro hw
      by_cases hall : ∀ u, c.g.Dep u w → u ∈ okIds s.processed
      · exact .inl (hmade w (hi.core.deps.ready hsoft hbeg w hw hall))
      · right
        simp only [not_forall] at hall
        obtain ⟨u, hd, hnok⟩ := hall
        rcases ih u (hord u w hd) (hg.wf _ hd).1 with hu | ⟨x, hx, k, hk⟩
        · obtain ⟨y, hy, rfl⟩ := List.mem_map.1 hu
          refine ⟨y.1, ⟨y.2, hy, ?_⟩, 0, .snoc (.nil _) hd⟩
          intro e
          apply hnok
          rw [mem_okIds_iff, ← e]
          exact hy
        · exact ⟨x, hx, k + 1, .snoc hk hd⟩
  have hex : v ∈ s.processed.map (·.1) → ¬ ∃ u, FailedIn s u ∧ c.g.Reach u v := by
    rintro hm ⟨u, ⟨st, hst, hne⟩, hrch⟩
    exact (failure_stops_downstream hg hre (List.mem_append_left _ hst) hne hrch).1 ((hre.made_iff hg).2 (hsub v hm))
  by_cases hm : v ∈ s.processed.map (·.1)
  · have h1 := List.nodup_iff_count.1 hnd v
    have h2 := List.count_pos_iff.2 hm
    exact .inl ⟨by omega, hex hm⟩
  · exact .inr ⟨List.count_eq_zero_of_not_mem hm, (hone v hv).resolve_left hm⟩

/-- **C15**, with no failure: every selected task finished with exit code 0, `execute` reports 0 failures and its order
is a permutation of the selected tasks. -/
theorem all_succeed (hg : Good c) (hord : Ordered c) {as : List Act} (hr : Runs c (init c lf now) as s)
    (hno : NoShutdown as) (hq : quickFailures c [] (init c lf now) as < c.fizzlesAllowed) (he : ServingOver s)
    (hok : ∀ u, ¬ FailedIn s u) :
    s.processed.map (·.1) ~ List.range c.g.n ∧ ∀ v, v < c.g.n → Succeeded s v := by
  have hre : Reachable c lf now s := ⟨as, hr⟩
  have hall : ∀ v, v < c.g.n → v ∈ s.processed.map (·.1) := by
    intro v hv
    rcases nothing_forgotten hg hord hr hno hq he hv with ⟨h, _⟩ | ⟨_, u, hu, _⟩
    · exact List.count_pos_iff.1 (by omega)
    · exact absurd hu (hok u)
  obtain ⟨hnd, _, hlt, _⟩ := order_topological hg hre
  refine ⟨?_, ?_⟩
  · rw [List.perm_ext_iff_of_nodup hnd List.nodup_range]
    intro v
    rw [List.mem_range]
    refine ⟨fun h => ?_, hall v⟩
    obtain ⟨x, hx, rfl⟩ := List.mem_map.1 h
    exact hlt x hx
  · intro v hv
    obtain ⟨⟨w, st⟩, hx, e⟩ := List.mem_map.1 (hall v hv)
    simp only at e; subst e
    by_cases hst : st = .code 0
    · subst hst; exact hx
    · exact absurd ⟨st, hx, hst⟩ (hok w)

/-- The whole diamond is run without a failure. -/
def runAll : List Act := runB ++ [.sendFinished ⟨2, .code 0, [], none⟩, .recvStarted t0, .recvFinished [3] t0, .sendNext,
    .sendDone t0] ++ take 0 1 ++ reportOk 3 ++ [.recvStarted t0, .recvFinished [] t0]

/-- Is this action none of the three shutdowns? -/
def quiet : Act → Bool
  | .seeTrigger | .seeHard | .ctrlC => false
  | _ => true

theorem noShutdown_of_quiet {as : List Act} (h : as.all quiet = true) : NoShutdown as := by
  intro a ha
  have := List.all_eq_true.1 h a ha
  refine ⟨?_, ?_, ?_⟩ <;> rintro rfl <;> simp [quiet] at this

/-- Non-trivial case for C15: the hypotheses hold for the complete run of the diamond. -/
example : NoShutdown runAll ∧ quickFailures diamond [] (init diamond emptyLog 0) runAll < diamond.fizzlesAllowed ∧
    after diamond runAll (fun s => s.pc == .joining && s.nFailed == 0) = true :=
  ⟨noShutdown_of_quiet (by decide), by decide, by decide⟩

/-- Non-trivial case with a failure: `b` fails after 6 s, `c` succeeds, `d` is never run. -/
example : after diamond (runBC ++ [.sendStarted 1 "h" 1 "", .recvStarted t0, .tick 6000000000,
      .sendFinished ⟨1, .code 1, [], none⟩, .recvFinished [3] t0, .sendFinished ⟨2, .code 0, [], none⟩, .recvFinished [3] t0])
    (fun s => s.pc == .joining && s.processed == [(0, .code 0), (1, .code 1), (2, .code 0)]) = true := by decide

/-- **C19 (what holds).** If no receiver is inside `recv` when the soft shutdown is processed, `num_ready` of every queue
is 0 from then on. -/
theorem ready_zero_after_soft_shutdown_partial (hg : Good c) {s1 s2 : State} (hr : Reachable c lf now s1)
    (hs : step c s1 .seeTrigger = .ok s2) (hin : insideRecv s1 = 0) {as : List Act} (h : Runs c s2 as s) (a : BitVec 64)
    (sn : Snap) (hq : s.qs a = some sn) : sn.numReady = 0 := by
  have hr2 : Reachable c lf now s2 := hr.later (.cons rfl hs (.nil _))
  simp only [step] at hs
  split at hs
  · cases hs
  · split at hs
    · cases hs
    · simp only [Res.ok.injEq] at hs
      have ho : s2.readyOpen = false := by rw [← hs]; rfl
      have hi2 : insideRecv s2 = 0 := by rw [← hs]; exact hin
      obtain ⟨_, _, _, _, h5⟩ := h.closed hg hr2 ho
      refine (h5 hi2 ?_).2 a sn hq
      intro b sn hb
      rw [← hs] at hb
      simp only [zeroReady, Option.map_eq_some_iff] at hb
      obtain ⟨x, _, rfl⟩ := hb
      rfl

/-- A receiver has won a task and not yet updated the counter when the soft shutdown is processed. -/
def wrapRun : List Act :=
  [.begin [0] t0, .sendNext, .sendDone t0, .enter 0, .pop 0 0, .claim 0, .trigger, .seeTrigger, .account 0]

/-- **C19 (violated).** After a soft shutdown `num_ready` can be 2^32 - 1. -/
theorem ready_after_soft_shutdown_violated : ∃ s, Reachable diamond emptyLog 0 s ∧ s.soft = true ∧
    (s.qs 1).map (·.numReady) = some (2 ^ 32 - 1) := by
  obtain ⟨s, h1, h2⟩ := runs_of_after (c := diamond) (as := wrapRun)
    (p := fun s => s.soft && (s.qs 1).map (fun x => x.numReady) == some (2 ^ 32 - 1)) (by decide)
  simp only [Bool.and_eq_true, beq_iff_eq] at h2
  exact ⟨s, ⟨_, h1⟩, h2.1, h2.2⟩

/-- Non-trivial case for the positive part. -/
example : after diamond [.begin [0] t0, .sendNext, .sendDone t0, .trigger] (fun s =>
    (step diamond s .seeTrigger).isOk && insideRecv s == 0 && (s.qs 1).map (fun x => x.numReady) == some 1) = true := by decide

/-- **C22 (violated), tracker side.** In every state in which the channel is empty and the server waits for events: if a
runner reports a second start of any task, the server panics on processing it. -/
theorem second_start_report_panics (hg : Good c) (hr : Reachable c lf now s) (hpc : s.pc = .idle) (hch : s.chan = [])
    {v : Nat} (hv : v ∈ s.startedSent) (host : String) (pid : Nat) (jobid : String) (t : SysTime) :
    ∃ s1 m, step c s (.sendStarted v host pid jobid) = .ok s1 ∧ step c s1 (.recvStarted t) = .panic m := by
  obtain ⟨hi, hh⟩ := hr.inv hg
  have htr := hi.tr
  rw [hpc] at htr
  have hlive : live s = true := by simp [live, hpc]
  have hst : ∃ a b, s.lf.mem.runcounts (cmdOf c.g v).key = some (.started a b) ∨
      ∃ ok, s.lf.mem.runcounts (cmdOf c.g v).key = some (.finished a b ok) := by
    have hin := htr.sentIn v hv
    rw [hch] at hin
    simp only [finIds_nil, List.append_nil] at hin
    rcases List.mem_append.1 hin with h | h
    · have := htr.conv v hv (.inl (by rw [hch]; simpa using h))
      rw [hch] at this
      simp only [startIds_nil, List.nil_append] at this
      exact ⟨_, _, .inl (htr.logInfl v this)⟩
    · obtain ⟨x, hx, rfl⟩ := List.mem_map.1 h
      exact ⟨_, _, .inr ⟨_, htr.logFin x hx (by simp [curOf])⟩⟩
  refine ⟨_, "Malformed?", by simp only [step, hlive]; rfl, ?_⟩
  obtain ⟨a, b, h | ⟨ok, h⟩⟩ := hst <;>
    simp [step, hpc, hch, writeLog, LogFile.write, LogMem.write, h, Res.bind]

/-- Non-trivial case: the start report of `a` was processed, `a` is running. -/
example : after diamond ([.begin [0] t0, .sendNext, .sendDone t0] ++ take 0 0 ++ [.sendStarted 0 "h" 1 "", .recvStarted t0])
    (fun s => s.pc == .idle && s.chan == [] && s.startedSent == [0]) = true := by decide

/-- A waiting receiver of type `r` can pop as long as queue `r` is not empty. -/
theorem pop_possible {i r : Nat} (hw : s.waiting[i]? = some r) (hq : s.queues r ≠ []) : ∃ j s', step c s (.pop i j) = .ok s' := by
  have hmax : ∀ l : List Item, l ≠ [] → ∃ (j : Nat) (it : Item), l[j]? = some it ∧ ∀ x ∈ l, x.prio ≤ it.prio := by
    intro l
    induction l with
    | nil => intro h; exact absurd rfl h
    | cons y ys ih =>
      intro _
      by_cases hys : ys = []
      · subst hys; exact ⟨0, y, rfl, by simp⟩
      · obtain ⟨j, it, h1, h2⟩ := ih hys
        by_cases hle : y.prio ≤ it.prio
        · exact ⟨j + 1, it, by simpa using h1, by simpa using ⟨hle, h2⟩⟩
        · refine ⟨0, y, rfl, ?_⟩
          intro x hx
          rcases List.mem_cons.1 hx with rfl | hx
          · exact Nat.le_refl _
          · exact Nat.le_trans (h2 x hx) (by omega)
  obtain ⟨j, it, h1, h2⟩ := hmax _ hq
  simp only [step]
  refine ⟨j, ?_⟩
  rw [hw]
  simp only [h1]
  rw [if_pos (by simpa using h2)]
  exact ⟨_, rfl⟩

/-- Actions of the server task that need nobody else. -/
def ServerAct : Act → Prop
  | .begin _ _ | .sendNext | .sendDone _ | .recvStarted _ | .recvFinished _ _ => True
  | _ => False

/-- **C23.** Progress. While serving, if no shutdown was acted on, no task was forgotten by its runner, and every task
accepts some runner type: the server task can take a step by itself, or a receiver inside `recv` can, or some runner is
working on a task, or there is a runner type `r` below 64 whose queue holds an unclaimed ready task, and then any
receiver of type `r` waiting in `recv` can take a step. -/
theorem progress (hg : Good c) (hdisp : Displayable c) (hord : Ordered c) (hne : c.g.n ≠ 0)
    (haff : ∀ cmd ∈ c.g.nodes, cmd.affinity ≠ 0) (hr : Reachable c lf now s) (hover : ¬ ServingOver s)
    (hlost : s.lost = []) :
    (∃ a s', ServerAct a ∧ step c s a = .ok s') ∨
    (∃ i s', step c s (.claim i) = .ok s' ∨ step c s (.account i) = .ok s') ∨
    s.held ≠ [] ∨
    ∃ r, r < 64 ∧ (∃ it ∈ s.queues r, Unclaimed s it.id) ∧
      ∀ i, s.waiting[i]? = some r → ∃ j s', step c s (.pop i j) = .ok s' := by
  obtain ⟨hi, hh⟩ := hr.inv hg
  have can : ∀ a, step c s a ≠ .err () → ∃ s', step c s a = .ok s' := by
    intro a h
    cases hs : step c s a with
    | ok s' => exact ⟨s', rfl⟩
    | err e => exact absurd hs h
    | panic m => exact absurd hs (no_panic hg hdisp hr a m)
  have bind_ne : ∀ {α : Type} {r : Res Unit α} {f : α → Out}, (∀ e, r ≠ .err e) → (∀ x, f x ≠ .err ()) → r.bind f ≠ .err () := by
    intro α r f h1 h2
    cases r with
    | ok x => exact h2 x
    | err e => exact absurd rfl (h1 e)
    | panic m => simp [Res.bind]
  have wl : ∀ s e x, writeLog s e ≠ .err x := by
    intro s e x; unfold writeLog; split <;> simp
  have ra : ∀ t vs s x, readyAll c.g t s vs ≠ .err x := by
    intro t vs
    induction vs with
    | nil => intro s x; simp [readyAll]
    | cons v vs ih =>
      intro s x
      refine bind_ne ?_ (fun y => ih y ())
      intro e
      unfold readyOne
      split
      · simp
      · split
        · simp
        · exact bind_ne (wl _ _) (fun _ => by simp)
  have ar : ∀ t s vs fin, addReady c t s vs fin ≠ .err () := by
    intro t s vs fin
    unfold addReady
    split
    · simp
    · split
      · simp
      · refine bind_ne (ra _ _ _) (fun y => ?_)
        split <;> simp
  have fh : ∀ t s e, finishHalf c t s e ≠ .err () := by
    intro t s e
    unfold finishHalf
    refine bind_ne ?_ (fun y => bind_ne (wl _ _) (fun z => ?_))
    · intro x
      split
      · simp
      · exact wl _ _ _
    · simp only; split <;> split <;> simp
  have sl : ∀ ok ds acc x, statusLoop ok acc ds ≠ .err x := by
    intro ok ds
    induction ds with
    | nil => intro acc x; simp [statusLoop]
    | cons d ds ih =>
      intro acc x
      obtain ⟨um, po, rd⟩ := acc
      simp only [statusLoop]
      cases hst : statusStep ok (um, po, rd) d with
      | ok y => exact ih y x
      | panic m => simp [Res.bind]
      | err e =>
        exfalso
        simp only [statusStep] at hst
        repeat' split at hst
        all_goals cases hst
  have b1 : ∀ s e x, book1 c.g s e ≠ .err x := by
    intro s e x; unfold book1
    repeat' split
    all_goals simp
  cases hpc : s.pc with
  | new =>
    left
    obtain ⟨s', hs⟩ := can (.begin ((List.range c.g.n).filter (fun v => s.unmet v == 0)) ⟨0, 0⟩) (by
      simp only [step, hpc]
      rw [if_neg (by simp), if_neg (by simp [List.isPerm_iff])]
      split
      · simp
      · exact ar _ _ _ _)
    exact ⟨_, s', by trivial, hs⟩
  | sending todo fin =>
    left
    cases todo with
    | nil =>
      obtain ⟨s', hs⟩ := can (.sendDone ⟨0, 0⟩) (by
        simp only [step, hpc]
        split
        · simp
        · exact fh _ _ _)
      exact ⟨_, s', by trivial, hs⟩
    | cons b todo =>
      obtain ⟨s', hs⟩ := can .sendNext (by simp [step, hpc])
      exact ⟨_, s', by trivial, hs⟩
  | joining => exact absurd (.inl hpc) hover
  | joined => exact absurd (.inr (.inl hpc)) hover
  | done => exact absurd (.inr (.inr hpc)) hover
  | idle =>
    cases hch : s.chan with
    | cons ev rest =>
      left
      cases ev with
      | started v h p j =>
        obtain ⟨s', hs⟩ := can (.recvStarted ⟨0, 0⟩) (by
          simp only [step, hpc, hch]
          rw [if_neg (by simp)]
          refine bind_ne (wl _ _) (fun y => ?_)
          split <;> simp)
        exact ⟨_, s', by trivial, hs⟩
      | finished e =>
        obtain ⟨s', hs⟩ := can (.recvFinished (c.g.succs e.id) ⟨0, 0⟩) (by
          simp only [step, hpc, hch]
          rw [if_neg (by simp)]
          unfold handleFinished
          refine bind_ne (b1 _ _) (fun y => ?_)
          split
          · split
            · simp
            · exact fh _ _ _
          · rw [if_neg (by simp [List.isPerm_iff])]
            refine bind_ne (sl _ _ _) (fun z => ?_)
            simp only
            split
            · exact fh _ _ _
            · exact ar _ _ _ _)
        exact ⟨_, s', by trivial, hs⟩
    | nil =>
      right
      have hroot : ∃ v, v < c.g.n ∧ c.g.preds v = [] := by
        refine ⟨0, by omega, ?_⟩
        by_contra hp
        obtain ⟨u, hu⟩ := List.exists_mem_of_ne_nil _ hp
        have := hord u 0 (DiGraph.mem_preds.1 hu)
        omega
      obtain ⟨as, has⟩ := hr
      have hr : Reachable c lf now s := ⟨as, has⟩
      have hroi := alive hroot has (by simp [hpc]) (by rw [hpc]; rfl)
      have hcnt := hi.core.cnt.roi
      rw [hh.undrained (by simp [hpc])] at hcnt
      simp only [List.length_nil, Nat.add_zero] at hcnt
      have hex : ∃ v ∈ owners s.flags, v ∉ s.processed.map (·.1) := by
        by_contra hall
        have hsub : ∀ v ∈ owners s.flags, v ∈ s.processed.map (·.1) := by
          intro v hv; by_contra h; exact hall ⟨v, hv, h⟩
        have := hi.core.deps.nodup.length_le_of_subset hsub
        simp only [owners, List.length_map] at this
        omega
      obtain ⟨v, hv, hnp⟩ := hex
      have hvn := hi.core.deps.lt v hv
      rcases List.mem_append.1 ((owners_perm s.flags).mem_iff.1 hv) with ht | hu
      · have h1 := (hi.core.acct.perm.mem_iff).1 ht
        rw [hlost, hch, hh.undrained (by simp [hpc])] at h1
        simp only [finIds_nil, List.append_nil, List.map_nil, List.mem_append] at h1
        rcases h1 with (h1 | h1) | h1
        · left
          obtain ⟨p, hp, _⟩ := List.mem_map.1 h1
          obtain ⟨i, hpi⟩ := List.getElem?_of_mem hp
          obtain ⟨s', hs⟩ := can (.account i) (by
            simp only [step, hpi]
            split <;> simp)
          exact ⟨i, s', .inr hs⟩
        · right; left
          exact List.ne_nil_of_mem h1
        · exact absurd h1 hnp
      · obtain ⟨f, hf, hfv⟩ := List.mem_map.1 hu
        obtain ⟨hf, hft⟩ := List.mem_filter.1 hf
        simp only [Bool.not_eq_true'] at hft
        obtain ⟨k, hk⟩ := List.getElem?_of_mem hf
        have hk' : s.flags[k]? = some ⟨v, false⟩ := by rw [hk, ← hfv, ← hft]
        have hbit : ∃ r, r < 64 ∧ (cmdOf c.g v).affinity.getLsbD r = true := by
          by_contra hno
          apply haff _ (List.mem_of_getElem? (node_of_lt hvn))
          apply BitVec.eq_of_getLsbD_eq
          intro i hi64
          have : ¬ (cmdOf c.g v).affinity.getLsbD i = true := fun h => hno ⟨i, hi64, h⟩
          simpa using this
        obtain ⟨r, hr64, hb⟩ := hbit
        rcases hi.core.items.avail k v hk' r hb with ⟨x, hx, hxk⟩ | ⟨p, hp, _, hpk⟩ | ⟨b, hbm, _⟩
        · right; right
          have hid : x.id = v := by
            have := (hi.core.items.queueOk r x hx).flag
            rw [hxk, hk'] at this
            simpa using this.symm
          exact ⟨r, hr64, ⟨x, hx, f, hf, hfv.trans hid.symm, hft⟩, fun i hw => pop_possible hw (List.ne_nil_of_mem hx)⟩
        · left
          obtain ⟨i, hpi⟩ := List.getElem?_of_mem hp
          obtain ⟨s', hs⟩ := can (.claim i) (by
            obtain ⟨q, it⟩ := p
            simp only at hpk
            simp only [step, hpi, hpk, hk']
            simp)
          exact ⟨i, s', .inl hs⟩
        · rw [hpc] at hbm; simp [todoOf] at hbm

theorem diamond_ordered : Ordered diamond := by
  intro u v h
  have : ∀ e ∈ diamond.g.edges, e.1 < e.2 := by decide
  exact this (u, v) h

/-- The hypotheses of `progress` hold for the diamond in the middle of a run. -/
example : diamond.g.n ≠ 0 ∧ (∀ cmd ∈ diamond.g.nodes, cmd.affinity ≠ 0) ∧
    after diamond runBC (fun s => s.pc == .idle && s.lost == [] && s.held == [1, 2]) = true := by
  refine ⟨by decide, ?_, by decide⟩
  intro cmd h; revert cmd; decide

/-- **C24 (violated: `execute` does not always return once nothing can run).** A task with affinity 0 whose dependencies
have all succeeded is never obtained, and serving never ends by itself: in no run, of any length, without a shutdown from
outside and with few enough quick failures. -/
theorem empty_affinity_hangs (hg : Good c) {as : List Act} (hr : Runs c (init c lf now) as s)
    (hno : NoShutdown as) (hq : quickFailures c [] (init c lf now) as < c.fizzlesAllowed) {v : Nat} (hv : v < c.g.n)
    (haff : (cmdOf c.g v).affinity = 0) (hd : ∀ u, c.g.Dep u v → Succeeded s u) : ¬ Obtained s v ∧ ¬ ServingOver s := by
  have hre : Reachable c lf now s := ⟨as, hr⟩
  have hnob : ¬ Obtained s v := by
    rintro ⟨r, ho⟩
    obtain ⟨cmd, h1, h2, _⟩ := affinity_respected hg hre ho
    rw [cmdOf_eq h1] at haff
    rw [haff] at h2
    simp at h2
  refine ⟨hnob, fun he => ?_⟩
  obtain ⟨hi, _⟩ := hre.inv hg
  have hend := ended_of_over he
  have hsoft : s.soft = false := by
    by_contra h
    have h := ((soft_exact hg hr (fun h => (hno _ h).1 rfl)).1 (by simpa using h)).2
    omega
  obtain ⟨_, hall⟩ := ended_facts hg hr (fun a ha => (hno a ha).2) hend
  have hlen : s.flags.length = s.processed.length := by
    rcases hall with h | h
    · exact h
    · rw [hsoft] at h; cases h
  have hsub : ∀ w, w ∈ s.processed.map (·.1) → w ∈ owners s.flags := by
    intro w hw
    obtain ⟨x, hx, rfl⟩ := List.mem_map.1 hw
    exact hre.obtained_made hg (hre.closed_obtained hg (st := x.2) (List.mem_append_left _ hx))
  have hp := (List.subperm_of_subset (order_topological hg hre).1 hsub).perm_of_length_le (by simp [owners, hlen])
  have hbeg : begunOf s.pc = true := by
    cases hp : s.pc with
    | new => rw [hp] at hend; simp [ended] at hend
    | _ => rfl
  have hm := hp.mem_iff.2 (hi.core.deps.ready hsoft hbeg v hv (fun u hu => mem_okIds_iff.2 (hd u hu)))
  obtain ⟨x, hx, rfl⟩ := List.mem_map.1 hm
  exact hnob (hre.closed_obtained hg (st := x.2) (List.mem_append_left _ hx))

/-- One task with affinity 0. -/
def orphan : Cfg where
  g := ⟨[task "o" 0], []⟩
  fizzlesAllowed := 1

/-- Non-trivial case: the graph with one task of affinity 0 is good, and its run gets as far as waiting forever: nothing
is in any queue, and the task counts as ready. -/
example : Good orphan ∧ after orphan [.begin [0] t0, .sendDone t0]
    (fun s => s.pc == .idle && s.nRoi == 1 && (List.range 64).all (fun r => (s.queues r).isEmpty)) = true :=
  ⟨⟨(by intro e he; cases he), by decide, by decide⟩, by decide⟩

/-- **C26.** After a soft shutdown has been processed (by `seeTrigger`, or because of failures): no further task is made
ready, no call of `recv` is admitted, and the number of tasks obtained from then on is at most the number of receivers
that were inside `recv` at that moment. -/
theorem soft_shutdown_dispatches_nothing (hg : Good c) {s0 : State} (hr : Reachable c lf now s0) (hsoft : s0.soft = true)
    {as : List Act} (h : Runs c s0 as s) :
    s.soft = true ∧ (∀ v, MadeReady c lf s v ↔ MadeReady c lf s0 v) ∧
    (∀ r, r < 64 → recvCheck s r = .error .softShutdown ∧ step c s (.enter r) = .err ()) ∧
    s.obtained.length ≤ s0.obtained.length + insideRecv s0 := by
  have ho := (hr.inv hg).1.shape.softClosed hsoft
  obtain ⟨h1, h2, h3, h4, _⟩ := h.closed hg hr ho
  refine ⟨h3 hsoft, fun v => ?_, fun r hr64 => ?_, by omega⟩
  · rw [(hr.later h).made_iff hg, hr.made_iff hg, h2]
  · have : recvCheck s r = .error .softShutdown := by
      rw [recvCheck, if_neg (by omega), if_pos h1]
    refine ⟨this, ?_⟩
    simp only [step, this]
    split <;> rfl

/-- Processing the trigger is a soft shutdown. -/
theorem trigger_is_soft {s s' : State} (h : step c s .seeTrigger = .ok s') : s'.soft = true := by
  simp only [step] at h
  repeat' split at h
  all_goals first | cases h; done | (simp only [Res.ok.injEq] at h; subst h; rfl)

/-- Non-trivial case: a receiver inside `recv` obtains `a` after the soft shutdown; the bound is met exactly. -/
example : after diamond [.begin [0] t0, .sendNext, .sendDone t0, .enter 0, .trigger, .seeTrigger]
    (fun s => s.soft && insideRecv s == 1 && s.obtained == []) = true ∧
    after diamond [.begin [0] t0, .sendNext, .sendDone t0, .enter 0, .trigger, .seeTrigger, .pop 0 0, .claim 0, .account 0]
    (fun s => s.obtained == [(0, 0)]) = true := by decide

/-- **C27 (what holds).** If serving ended without hard cancellation and ctrl-c, through a soft shutdown or not, the log
says of no task of this execute "started": every processed start report is followed by a processed finish report. -/
theorem serving_waits_for_started_partial (hg : Good c) (hl : Consistent lf) {as : List Act}
    (hr : Runs c (init c lf now) as s) (hno : ∀ a ∈ as, a ≠ .seeHard ∧ a ≠ .ctrlC) (he : ServingOver s) {v : Nat}
    (hm : MadeReady c lf s v) (rc root : Nat) : statusOf (keyOf c v) s.lf.entries ≠ some (.started rc root) := by
  have hre : Reachable c lf now s := ⟨as, hr⟩
  obtain ⟨hi, hh⟩ := hre.inv hg
  obtain ⟨hw, _, _⟩ := hh.log.new_eq
  rw [← (hl.writeAll hw).status]
  have htr := hi.tr
  have hend := ended_of_over he
  rw [(ended_facts hg hr hno hend).1] at htr
  have hcur : curOf s.pc = none := by
    rcases he with h | h | h <;> rw [h] <;> rfl
  rw [hcur] at htr
  have hmade := (hre.made_iff hg).1 hm
  by_cases hc : v ∈ (s.processed ++ s.drained).map (·.1)
  · obtain ⟨x, hx, rfl⟩ := List.mem_map.1 hc
    have := htr.logFin x hx (by simp)
    unfold keyOf
    rw [this]; simp
  · have := htr.logReady v hmade (by simp) (.inl hc)
    unfold keyOf
    rw [this]; simp

/-- `b` and `c` are running, the start report of `c` is not yet sent; soft shutdown; `b` finishes. -/
def softEarly : List Act := runBC ++ [.sendStarted 1 "h" 1 "", .recvStarted t0, .trigger, .seeTrigger,
  .sendFinished ⟨1, .code 0, [], none⟩, .recvFinished [3] t0]

/-- **C27 (violated in the strong form).** After a soft shutdown serving can end although a runner is working on a task
it obtained (it only has not reported the start yet): the task is not waited for, the runner gets a hard cancellation. -/
theorem soft_shutdown_waits_violated : ∃ s, Runs diamond (init diamond emptyLog 0) softEarly s ∧
    (∀ a ∈ softEarly, a ≠ .seeHard ∧ a ≠ .ctrlC) ∧ ServingOver s ∧ s.held = [2] ∧ Obtained s 2 ∧ s.token = some .hard := by
  obtain ⟨s, h1, h2⟩ := runs_of_after (c := diamond) (as := softEarly) (p := fun s => decide (s.pc = .joining ∧ s.held = [2] ∧
    (1, 2) ∈ s.obtained ∧ s.token = some .hard)) (by decide)
  simp only [decide_eq_true_eq] at h2
  refine ⟨s, h1, ?_, .inl h2.1, h2.2.1, ⟨1, h2.2.2.1⟩, h2.2.2.2⟩
  have : softEarly.all (fun a => match a with | .seeHard | .ctrlC => false | _ => true) = true := by decide
  intro a ha
  have := List.all_eq_true.1 this a ha
  constructor <;> rintro rfl <;> simp at this

/-- Nothing is running, no report is queued, nobody is inside `recv`, and a soft shutdown was processed. -/
structure IdleSoft (s : State) : Prop where
  idle : s.pc = .idle
  soft : s.soft = true
  chan : s.chan = []
  held : s.held = []
  nobody : insideRecv s = 0

/-- **C28 (violated: `execute` does not return after a soft shutdown if nothing runs at that moment).** From such a state
serving goes on forever, in every continuation without hard cancellation and ctrl-c. -/
theorem idle_soft_shutdown_hangs (hg : Good c) {s0 : State} (hr : Reachable c lf now s0) (h0 : IdleSoft s0) {as : List Act}
    (h : Runs c s0 as s) (hno : ∀ a ∈ as, a ≠ .seeHard ∧ a ≠ .ctrlC) : s.pc = .idle ∧ s.obtained = s0.obtained := by
  suffices IdleSoft s ∧ s.obtained = s0.obtained from ⟨this.1.idle, this.2⟩
  induction h with
  | nil => exact ⟨h0, rfl⟩
  | @cons s0 s1 s2 a as hd hs hrest ih =>
    have ho := (hr.inv hg).1.shape.softClosed h0.soft
    suffices IdleSoft s1 ∧ s1.obtained = s0.obtained by
      have h2 := ih (hr.later (.cons hd hs (.nil _))) this.1 (fun a ha => hno a (List.mem_cons_of_mem _ ha))
      exact ⟨h2.1, h2.2.trans this.2⟩
    have hn := hno a (by simp)
    have hnb := h0.nobody
    simp only [insideRecv] at hnb
    have hw : s0.waiting = [] := List.eq_nil_of_length_eq_zero (by omega)
    have hpp : s0.popped = [] := List.eq_nil_of_length_eq_zero (by omega)
    have hcl : s0.claimed = [] := List.eq_nil_of_length_eq_zero (by omega)
    cases a with
    | tick d =>
      simp only [step, Res.ok.injEq] at hs; subst hs
      exact ⟨⟨h0.idle, h0.soft, h0.chan, h0.held, h0.nobody⟩, rfl⟩
    | trigger =>
      simp only [step, Res.ok.injEq] at hs; subst hs
      exact ⟨⟨h0.idle, h0.soft, h0.chan, h0.held, h0.nobody⟩, rfl⟩
    | cancel k =>
      simp only [step, Res.ok.injEq] at hs; subst hs
      exact ⟨⟨h0.idle, h0.soft, h0.chan, h0.held, h0.nobody⟩, rfl⟩
    | seeTrigger =>
      simp only [step] at hs
      repeat' split at hs
      all_goals first
        | cases hs; done
        | (simp only [Res.ok.injEq] at hs; subst hs
           exact ⟨⟨h0.idle, rfl, h0.chan, h0.held, h0.nobody⟩, rfl⟩)
    | seeHard => exact absurd rfl hn.1
    | ctrlC => exact absurd rfl hn.2
    | begin o t => simp [step, h0.idle] at hs
    | sendNext => simp [step, h0.idle] at hs
    | sendDone t => simp [step, h0.idle] at hs
    | recvStarted t => simp [step, h0.chan, h0.idle] at hs
    | recvFinished o t => simp [step, h0.chan, h0.idle] at hs
    | joinDone => simp [step, h0.idle] at hs
    | drain o t => simp [step, h0.idle] at hs
    | enter r =>
      have : ∀ x, recvCheck s0 r ≠ .ok x := by
        intro x; unfold recvCheck
        simp only [ho, if_true]
        split <;> simp
      simp only [step] at hs
      split at hs
      · cases hs
      · split at hs
        · rename_i x hx; exact absurd hx (this x)
        · cases hs
    | leave i => simp [step, hw] at hs
    | pop i j => simp [step, hw] at hs
    | claim i => simp [step, hpp] at hs
    | account i => simp [step, hcl] at hs
    | sendStarted v ho p j => simp [disciplined, h0.held] at hd
    | sendFinished e => simp [disciplined, h0.held] at hd
    | lose v => simp [disciplined, h0.held] at hd

/-- Such a state is reachable: a soft shutdown before any runner came, all four tasks of the diamond still to do. -/
theorem idle_soft_reachable : ∃ s, Reachable diamond emptyLog 0 s ∧ IdleSoft s ∧ s.nRoi = 1 := by
  obtain ⟨s, h1, h2⟩ := runs_of_after (c := diamond) (as := [.begin [0] t0, .sendNext, .sendDone t0, .trigger, .seeTrigger])
    (p := fun s => decide (s.pc = .idle ∧ s.soft = true ∧ s.chan = [] ∧ s.held = [] ∧ insideRecv s = 0 ∧ s.nRoi = 1)) (by decide)
  simp only [decide_eq_true_eq] at h2
  obtain ⟨a, b, d, e, f, g⟩ := h2
  exact ⟨s, ⟨_, h1⟩, ⟨a, b, d, e, f⟩, g⟩

/-- **C29.** Without a soft shutdown from outside, and whenever no finish report is half processed: a soft shutdown has
happened iff some finish report was processed and the number of failures that came within 5 s of the processing of their
start report has reached `failures_allowed`. -/
theorem soft_shutdown_iff_quick_failures (hg : Good c) {as : List Act} (hr : Runs c (init c lf now) as s)
    (hno : Act.seeTrigger ∉ as) (hpc : ∀ todo fin, s.pc ≠ .sending todo fin) :
    s.soft = true ↔ s.processed ≠ [] ∧ quickFailures c [] (init c lf now) as ≥ c.fizzlesAllowed :=
  ⟨(soft_exact hg hr hno).1, fun h => (soft_exact hg hr hno).2 hpc h.1 h.2⟩

theorem quick_le_processed {as : List Act} (hr : Runs c (init c lf now) as s) :
    quickFailures c [] (init c lf now) as ≤ s.processed.length := by
  have key : ∀ (as : List Act) (s0 s : State) (times : List (Nat × Int)), Runs c s0 as s →
      quickFailures c times s0 as + s0.processed.length ≤ s.processed.length := by
    intro as s0 s times hr
    induction hr generalizing times with
    | nil => simp [quickFailures]
    | @cons s0 s1 s2 a as _ hs _ ih =>
      have h1 := ih (timesAfter times s0 a)
      have h2 := (step_ghosts hs).2
      simp only [quickFailures, hs]
      have h3 : (quickAt times s0 a).toNat ≤ ((obsOf s0 a).filterMap Obs.report?).length := by
        cases a with
        | recvFinished o t =>
          simp only [quickAt, obsOf]
          cases hch : s0.chan with
          | nil => simp
          | cons ev rest =>
            cases ev with
            | started v h p j => simp
            | finished e =>
              simp only [Obs.report?, List.filterMap_cons, List.filterMap_nil, List.length_singleton]
              cases List.lookup e.id times
              · simp
              · exact Bool.toNat_le _
        | _ => simp [quickAt]
      have h4 : s1.processed.length = s0.processed.length + ((obsOf s0 a).filterMap Obs.report?).length := by
        rw [h2]; simp
      omega
  have h1 := key as _ _ [] hr
  omega

/-- Quick failures are failures of this execute. -/
theorem quick_failures_le (hg : Good c) {as : List Act} (hr : Runs c (init c lf now) as s) :
    quickFailures c [] (init c lf now) as ≤ c.g.n := by
  have h1 := quick_le_processed hr
  have h2 := (work_bounded hg ⟨as, hr⟩).2.2.1
  simp only [closedTasks, List.length_append] at h2
  omega

/-- **C29.** With `failures_allowed=0` given to the Python constructor failures never cause a soft shutdown, for graphs of fewer than
2^32 - 1 tasks. -/
theorem unlimited_failures (hg : Good c) {as : List Act} (hr : Runs c (init c lf now) as s)
    (hno : Act.seeTrigger ∉ as) (hf : c.fizzlesAllowed = failuresAllowed 0) (hn : c.g.n < 2 ^ 32 - 1) :
    s.soft = false := by
  by_contra h
  have h := ((soft_exact hg hr hno).1 (by simpa using h)).2
  have := quick_failures_le hg hr
  have : failuresAllowed 0 = 2 ^ 32 - 1 := rfl
  omega

/-- **C29.** With any other `failures_allowed`, that many quick failures cause it, and fewer do not. -/
theorem limit_as_given (hg : Good c) {as : List Act} (hr : Runs c (init c lf now) as s) (hno : Act.seeTrigger ∉ as)
    (hpc : ∀ todo fin, s.pc ≠ .sending todo fin) {n : Nat} (hn : n ≠ 0) (hf : c.fizzlesAllowed = failuresAllowed n) :
    s.soft = true ↔ n ≤ quickFailures c [] (init c lf now) as := by
  have e : failuresAllowed n = n := by simp [failuresAllowed, hn]
  rw [soft_shutdown_iff_quick_failures hg hr hno hpc, hf, e]
  refine ⟨fun h => h.2, fun h => ⟨fun hp => ?_, h⟩⟩
  have := quick_le_processed hr
  rw [hp] at this
  simp only [List.length_nil] at this
  omega

/-- **C29.** The number fits the 32 bits it is kept in. -/
theorem limit_fits {n : Nat} (hn : n < 2 ^ 32) : failuresAllowed n < 2 ^ 32 := by
  unfold failuresAllowed; split <;> omega

/-- Two independent tasks; one failure allowed. -/
def pair : Cfg where
  g := ⟨[task "x", task "y"], []⟩
  fizzlesAllowed := 1

/-- `x` runs 6 s and fails. -/
def slowFailure : List Act := [.begin [0, 1] t0, .sendNext, .sendDone t0] ++ take 0 0 ++
  [.sendStarted 0 "h" 1 "", .recvStarted t0, .tick 6000000000, .sendFinished ⟨0, .code 1, [], none⟩, .recvFinished [] t0]

/-- **C29 (the documented form is violated).** One failure is allowed and one task has failed, slowly; no soft shutdown:
the second task is obtained. -/
theorem stop_after_failures_violated : ∃ s, Reachable pair emptyLog 0 s ∧ pair.fizzlesAllowed = 1 ∧ s.nFailed = 1 ∧
    s.soft = false ∧ Obtained s 1 := by
  obtain ⟨s, h1, h2⟩ := runs_of_after (c := pair) (as := slowFailure ++ take 0 0)
    (p := fun s => decide (s.nFailed = 1 ∧ s.soft = false ∧ (0, 1) ∈ s.obtained)) (by decide)
  simp only [decide_eq_true_eq] at h2
  exact ⟨s, ⟨_, h1⟩, rfl, h2.1, h2.2.1, 0, h2.2.2⟩

/-- Non-trivial case of C29: the same failure after 4 s causes the soft shutdown; one quick failure in this run. -/
example : after pair ([.begin [0, 1] t0, .sendNext, .sendDone t0] ++ take 0 0 ++
    [.sendStarted 0 "h" 1 "", .recvStarted t0, .tick 4000000000, .sendFinished ⟨0, .code 1, [], none⟩, .recvFinished [] t0])
    (fun s => s.soft) = true ∧
    quickFailures pair [] (init pair emptyLog 0) ([.begin [0, 1] t0, .sendNext, .sendDone t0] ++ take 0 0 ++
    [.sendStarted 0 "h" 1 "", .recvStarted t0, .tick 4000000000, .sendFinished ⟨0, .code 1, [], none⟩, .recvFinished [] t0]) = 1 ∧
    pair.fizzlesAllowed = failuresAllowed 1 := by
  decide

end Verif.Props.Tracker
