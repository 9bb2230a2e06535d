import Verif.Proof.Complete
import Verif.Props.World
import Verif.Props.TrackerRuns

/-!
# C156: zero failures; C157: results in the log
-/

namespace Verif.Props.Complete
open Verif Verif.World Verif.Props Verif.Props.World

variable {w w' : World} {target : Option Nat} {rerun : Bool} {fizzles : Nat} {tas : List Tracker.Act}

/-- **C156 (what holds).** In the first `execute` of a session, with failures to be rerun and no shutdown from outside: if it
reports zero failures, every task it was to look at (all tasks, or the target and what it depends on) has a success in the
log. (`failures_allowed` is never stored as 0.) -/
theorem zero_failures_partial (h : Reachable w) (hfirst : w.executes = 0) (hx : Executed w target true fizzles tas w')
    (hfz : fizzles ≠ 0) (hno : Tracker.NoShutdown tas) {keys : List String} (hres : w'.result = some (0, keys)) :
    AllDone w target w' := by
  obtain ⟨s, sub, ids, lf', ch, e1, e2, hsub, hids, hent, hcase⟩ := executed_cases h.inv hx
  have hI := h.inv.sess s e1
  have hfirst' : s.g.completed = [] := hI.first (by simpa [World.executes, e1] using hfirst)
  intro i c hi hc
  simp only [World.tasks, e1] at hi hc
  have hold : SuccessLogged w.log c.key → SuccessLogged w'.log c.key := by
    intro hs
    refine hs.mono (fun e he => ?_)
    have he' : e ∈ lf'.entries := by rw [hent]; exact List.mem_append_left _ he
    rcases hcase with ⟨_, hl, _⟩ | ⟨now, st, ks, hg, ho, hr, hpc, hl, _⟩
    · rw [hl]; exact he'
    · rw [hl, (appended hg ⟨_, hr⟩).2.1]; exact List.mem_append_left _ he'
  by_cases hs : s.g.logfile.mem.hasSuccess c.key = true
  · apply hold
    rw [e2]
    exact (hasSuccess_iff hI.cons hI.log.norerun _).1 hs
  obtain ⟨y, hy, hyk⟩ := prio_node (ch := ch) hi
  have hsel : i ∈ ids := by
    rw [hids]
    refine ⟨⟨considered_prio.2 hc, ?_, ?_⟩, by simp⟩
    · rintro ⟨x, _, hx⟩; rw [hfirst'] at hx; cases hx
    · rintro ⟨x, hx1, hx2⟩
      rw [hy] at hx1
      cases hx1
      rw [hyk] at hx2
      exact hs hx2
  obtain ⟨a, ha, hai⟩ := List.getElem_of_mem hsel
  have hai' : ids[a]? = some i := by rw [List.getElem?_eq_getElem ha, hai]
  have hnode := (hsub.node a i hai').2
  rw [hy] at hnode
  rcases hcase with ⟨hemp, _⟩ | ⟨now, st, ks, hg, ho, hr, hpc, hl, hr0⟩
  · rw [hemp] at hnode; simp at hnode
  have hre : Tracker.Reachable _ lf' now st := ⟨_, hr⟩
  have hz : st.nFailed = 0 := by
    rw [hres] at hr0
    simp only [Option.some.injEq, Prod.mk.injEq] at hr0
    exact hr0.1.symm
  have hcnt := (Tracker.failure_count hg hre).1
  rw [hz] at hcnt
  have hnofail : ∀ x ∈ Tracker.closedTasks st, x.2 = .code 0 := by
    intro x hx
    have := (List.countP_eq_zero.1 hcnt.symm) x hx
    simpa using this
  have hov : Tracker.ServingOver st := .inr (.inr hpc)
  have hq : Tracker.quickFailures ⟨sub, fizzles⟩ [] (Tracker.init ⟨sub, fizzles⟩ lf' now) tas < fizzles := by
    have := Tracker.quick_le_failures hr
    have h0 : Tracker.failures st.processed = 0 := by
      apply List.countP_eq_zero.2
      intro x hx
      simp [hnofail x (List.mem_append_left _ hx)]
    omega
  have hall := (Tracker.all_succeed hg ho hr hno hq hov (by
    rintro u ⟨st', hu, hne⟩
    exact hne (hnofail _ (List.mem_append_left _ hu)))).2
  have han : a < sub.n := by
    rcases Nat.lt_or_ge a sub.nodes.length with hlt | hge
    · exact hlt
    · rw [List.getElem?_eq_none hge] at hnode; cases hnode
  have hsucc : (a, Tracker.ExitStatus.code 0) ∈ st.processed := hall a han
  have hfin := Tracker.finList_closed hg hre (by rw [hpc]; rfl)
  have hm : (c.key, (0 : Int)) ∈ Tracker.finList (Tracker.newEntries lf' st) := by
    rw [hfin]
    refine List.mem_map.2 ⟨_, List.mem_append_left _ hsucc, ?_⟩
    simp only [Tracker.keyOf, Tracker.cmdOf, hnode, Option.getD_some, hyk, Tracker.ExitStatus.asI32]
  obtain ⟨e, he, hk⟩ := List.mem_filterMap.1 hm
  cases e with
  | finished f =>
    simp only [Tracker.finOf?, Option.some.injEq, Prod.mk.injEq] at hk
    refine ⟨f, ?_, hk.1, hk.2⟩
    rw [hl, (appended hg ⟨_, hr⟩).2.1]
    exact List.mem_append_right _ he
  | _ => simp [Tracker.finOf?] at hk

/-- **C156, the converse.** In any `execute`, with whatever shutdowns: if afterwards every task it was to look at has a
success in the log, it has reported zero failures. -/
theorem all_done_means_zero (h : Reachable w) (hx : Executed w target rerun fizzles tas w') (hd : AllDone w target w')
    {n : Nat} {keys : List String} (hres : w'.result = some (n, keys)) : n = 0 := by
  obtain ⟨s, sub, ids, lf', ch, e1, e2, hsub, hids, hent, hcase⟩ := executed_cases h.inv hx
  have hI := h.inv.sess s e1
  rcases hcase with ⟨_, _, hr0⟩ | ⟨now, st, ks, hg, ho, hr, hpc, hl, hr0⟩
  · rw [hres] at hr0
    simp only [Option.some.injEq, Prod.mk.injEq] at hr0
    exact hr0.1
  have hre : Tracker.Reachable _ lf' now st := ⟨_, hr⟩
  rw [hres] at hr0
  simp only [Option.some.injEq, Prod.mk.injEq] at hr0
  rw [hr0.1, (Tracker.failure_count hg hre).1]
  apply List.countP_eq_zero.2
  rintro ⟨v, st1⟩ hv
  simp only [decide_eq_true_eq, Classical.not_not]
  have hvn : v < sub.n := ((hre.inv hg).1).core.deps.lt v (hre.obtained_made hg (hre.closed_obtained hg hv))
  have hvl : v < ids.length := by rw [← hsub.size]; exact hvn
  have hvi : ids[v]? = some ids[v] := List.getElem?_eq_getElem hvl
  obtain ⟨hin, hnode⟩ := hsub.node v _ hvi
  have hsel := (hids _).1 (List.getElem_mem hvl)
  obtain ⟨x, hx⟩ : ∃ x, s.g.deps.nodes[ids[v]]? = some x := by
    rw [Selection.prioritised_n] at hin
    exact ⟨_, List.getElem?_eq_getElem hin⟩
  obtain ⟨y, hy, hyk⟩ := prio_node (ch := ch) hx
  rw [hy] at hnode
  have hkey : Tracker.keyOf ⟨sub, fizzles⟩ v = x.key := by
    simp only [Tracker.keyOf, Tracker.cmdOf, hnode, Option.getD_some, hyk]
  obtain ⟨f, f1, f2, f3⟩ := hd ids[v] x (by simpa [World.tasks, e1] using hx)
    (by simpa [World.tasks, e1] using considered_prio.1 hsel.1.1)
  rw [hl, (appended hg hre).2.1, hent, List.append_assoc] at f1
  rcases List.mem_append.1 f1 with f1 | f1
  · exfalso
    apply hsel.1.2.2
    refine ⟨y, hy, ?_⟩
    rw [hyk, hasSuccess_iff hI.cons hI.log.norerun, ← e2]
    exact ⟨f, f1, f2, f3⟩
  rcases List.mem_append.1 f1 with f1 | f1
  · obtain ⟨_, _, hx⟩ := List.mem_map.1 f1; cases hx
  have hm : (f.key, f.status) ∈ Tracker.finList (Tracker.newEntries lf' st) := List.mem_filterMap.2 ⟨_, f1, rfl⟩
  rw [Tracker.finList_closed hg hre (by rw [hpc]; rfl)] at hm
  obtain ⟨⟨v', st2⟩, hv', hk⟩ := List.mem_map.1 hm
  simp only [Prod.mk.injEq] at hk
  have hv'n : v' < sub.n := ((hre.inv hg).1).core.deps.lt v' (hre.obtained_made hg (hre.closed_obtained hg hv'))
  have hvv : v' = v := hg.keyInj hv'n hvn (hk.1.trans (f2.trans hkey.symm))
  have hz : st2 = .code 0 := Tracker.asI32_ne_zero.1 (by rw [hk.2, f3])
  subst hvv
  have hnd := hre.closed_nodup hg
  have := List.inj_on_of_nodup_map hnd hv hv' rfl
  simp only [Prod.mk.injEq, true_and] at this
  rw [this, hz]

/-! ### Non-trivial case, and the four ways in which zero failures does not mean done -/

/-- `a` and then `b` are run, both succeed. -/
def bothSucceed : List Tracker.Act := [.begin [0] t0, .sendNext, .sendDone t0] ++ take 0 ++ [.sendFinished ⟨0, .code 0, [[("x", "1")]], none⟩,
    .recvStarted t0, .recvFinished [1] t0, .sendNext, .sendDone t0] ++ take 1 ++ [.sendFinished ⟨1, .code 0, [], none⟩, .recvStarted t0,
    .recvFinished [] t0, .joinDone, .drain [] t0]
where
  t0 : SysTime := ⟨0, 0⟩
  take (v : Nat) : List Tracker.Act := [.enter 0, .pop 0 0, .claim 0, .account 0, .sendStarted v "h" 1 ""]

/-- The choices of an `execute` of both tasks. -/
def ch2 : Choices := ⟨[0, 1], [1, 0], [0, 1], []⟩

/-- The demos: a history, then an `execute`; a check on the world before and the one after. -/
def demo (as : List Act) (target : Option Nat) (rerun : Bool) (fizzles : Nat) (ch : Choices) (tas : List Tracker.Act)
    (p : World → World → Bool) : Bool :=
  after as (fun w => match tryExec w target rerun fizzles ch 0 tas with | .ok w' => p w w' | _ => false)

theorem of_demo {as : List Act} {ch : Choices} {p : World → World → Bool} (h : demo as target rerun fizzles ch tas p = true) :
    ∃ w w', Reachable w ∧ Executed w target rerun fizzles tas w' ∧ p w w' = true := by
  obtain ⟨w, h1, h2⟩ := runs_of_after h
  split at h2
  · rename_i w' hw'
    exact ⟨w, w', ⟨_, h1⟩, executed_of_try hw', h2⟩
  · cases h2

/-- No success of `k` in the log, as a check. -/
def noSuccess (k : String) (es : List LogEntry) : Bool :=
  es.all (fun e => match e with | .finished f => !(f.key == k && f.status == 0) | _ => true)

theorem not_allDone {k : String} {i : Nat} (hk : w.tasks.nodes[i]?.map (·.key) = some k) (h : noSuccess k w'.log = true) :
    ¬ AllDone w none w' := by
  intro hd
  cases hn : w.tasks.nodes[i]? with
  | none => simp [hn] at hk
  | some c =>
    simp only [hn, Option.map_some, Option.some.injEq] at hk
    have hlt : i < w.tasks.n := (List.getElem?_eq_some_iff.1 hn).1
    obtain ⟨f, f1, f2, f3⟩ := hd i c hn ⟨hlt, by simp⟩
    have := List.all_eq_true.1 h _ f1
    simp [f2, f3, hk] at this

/-- Non-trivial case of `zero_failures_partial`: first execute, both tasks done, zero failures. -/
example : demo open2 none true 1 ch2 bothSucceed (fun w w' => w.executes == 0 && w'.result == some (0, ["a", "b"]) &&
    !noSuccess "b" w'.log) = true ∧ (1 : Nat) ≠ 0 ∧ Tracker.NoShutdown bothSucceed :=
  ⟨by decide +kernel, by decide, Tracker.noShutdown_of_quiet (by decide)⟩

/-- ctrl-c while `a` is waiting to be run. -/
def interrupted : List Tracker.Act := [.begin [0] ⟨0, 0⟩, .sendNext, .sendDone ⟨0, 0⟩, .ctrlC, .joinDone, .drain [] ⟨0, 0⟩]

/-- **C156 (violated after ctrl-c).** Zero failures, nothing was run. -/
theorem interrupted_violated : ∃ w w', Reachable w ∧ w.executes = 0 ∧ Executed w none true 1 interrupted w' ∧
    w'.result = some (0, []) ∧ ¬ AllDone w none w' := by
  obtain ⟨w, w', h1, h2, h3⟩ := of_demo (as := open2) (target := none) (rerun := true) (fizzles := 1) (ch := ch2) (tas := interrupted)
    (p := fun w w' => decide (w.executes = 0) && decide (w'.result = some (0, [])) &&
      decide (w.tasks.nodes[0]?.map (·.key) = some "a") && noSuccess "a" w'.log) (by decide +kernel)
  simp only [Bool.and_eq_true, decide_eq_true_eq] at h3
  obtain ⟨⟨⟨a1, a2⟩, a3⟩, a4⟩ := h3
  exact ⟨w, w', h1, a1, h2, a2, not_allDone a3 a4⟩

/-- A soft shutdown while `a` runs. -/
def shutDown : List Tracker.Act := [.begin [0] ⟨0, 0⟩, .sendNext, .sendDone ⟨0, 0⟩] ++ bothSucceed.take 0 ++
  [.sendFinished ⟨0, .code 0, [], none⟩, .recvStarted ⟨0, 0⟩, .trigger, .seeTrigger, .recvFinished [] ⟨0, 0⟩, .joinDone, .drain [] ⟨0, 0⟩]

/-- **C156 (violated after a soft shutdown).** Zero failures, `b` was not run. -/
theorem shut_down_violated : ∃ w w', Reachable w ∧ w.executes = 0 ∧ Executed w none true 1 shutDown w' ∧
    w'.result = some (0, ["a"]) ∧ ¬ AllDone w none w' := by
  obtain ⟨w, w', h1, h2, h3⟩ := of_demo (as := open2) (target := none) (rerun := true) (fizzles := 1) (ch := ch2) (tas := shutDown)
    (p := fun w w' => decide (w.executes = 0) && decide (w'.result = some (0, ["a"])) &&
      decide (w.tasks.nodes[1]?.map (·.key) = some "b") && noSuccess "b" w'.log) (by decide +kernel)
  simp only [Bool.and_eq_true, decide_eq_true_eq] at h3
  obtain ⟨⟨⟨a1, a2⟩, a3⟩, a4⟩ := h3
  exact ⟨w, w', h1, a1, h2, a2, not_allDone a3 a4⟩

/-- Session 1: `a` fails. Session 2 is opened. -/
def afterFailure : List Act :=
  open2 ++ [exec2] ++ begun ++ started 0 ++ exits 0 1 [1] ++ returns ++ [.stop 4] ++ open2

/-- **C156 (violated if failures are not rerun).** Zero failures in the first `execute` of the session, though the log has
only a failure of `a`. -/
theorem not_rerun_violated : ∃ w w', Reachable w ∧ w.executes = 0 ∧ Executed w none false 1 [] w' ∧
    w'.result = some (0, []) ∧ ¬ AllDone w none w' := by
  obtain ⟨w, h1, h2⟩ := runs_of_after (as := afterFailure) (p := fun w =>
    match step w (.exec none false 1 ⟨[0, 1], [1, 0], [0, 1], ["a"]⟩ 0) with
    | .ok w' => decide (w.executes = 0) && decide (w'.running.isNone) && decide (w'.result = some (0, [])) &&
      decide (w.tasks.nodes[0]?.map (·.key) = some "a") && noSuccess "a" w'.log
    | _ => false) (by decide +kernel)
  split at h2
  · rename_i w' hw'
    simp only [Bool.and_eq_true, decide_eq_true_eq, Option.isNone_iff_eq_none] at h2
    obtain ⟨⟨⟨⟨a1, a0⟩, a2⟩, a3⟩, a4⟩ := h2
    exact ⟨w, w', ⟨_, h1⟩, a1, ⟨_, _, _, hw', .inl ⟨rfl, a0, rfl⟩⟩, a2, not_allDone a3 a4⟩
  · cases h2

/-- One session: the first `execute` has returned, `a` failed. -/
def failedOnce : List Act := open2 ++ [exec2] ++ begun ++ started 0 ++ exits 0 1 [1] ++ returns

/-- `b` alone is run and succeeds. -/
def bAlone : List Tracker.Act := [.begin [0] ⟨0, 0⟩, .sendNext, .sendDone ⟨0, 0⟩, .enter 0, .pop 0 0, .claim 0, .account 0,
  .sendStarted 0 "h" 1 "", .sendFinished ⟨0, .code 0, [], none⟩, .recvStarted ⟨0, 0⟩, .recvFinished [] ⟨0, 0⟩, .joinDone, .drain [] ⟨0, 0⟩]

/-- **C156 (violated in a second `execute`).** Failures are to be rerun, there is no shutdown, zero failures; but `a` never
succeeded. -/
theorem second_execute_violated : ∃ w w', Reachable w ∧ Executed w none true 1 bAlone w' ∧ Tracker.NoShutdown bAlone ∧
    w'.result = some (0, ["b"]) ∧ ¬ AllDone w none w' := by
  obtain ⟨w, w', h1, h2, h3⟩ := of_demo (as := failedOnce) (target := none) (rerun := true) (fizzles := 1)
    (ch := ⟨[0, 1], [1, 0], [0], []⟩) (tas := bAlone)
    (p := fun w w' => decide (w'.result = some (0, ["b"])) &&
      decide (w.tasks.nodes[0]?.map (·.key) = some "a") && noSuccess "a" w'.log) (by decide +kernel)
  simp only [Bool.and_eq_true, decide_eq_true_eq] at h3
  obtain ⟨⟨a2, a3⟩, a4⟩ := h3
  exact ⟨w, w', h1, h2, Tracker.noShutdown_of_quiet (by decide), a2, not_allDone a3 a4⟩

/-! ### C157 -/

/-- **C157.** In every history, every entry "Finished" of the log shows key, exit code and values of a report sent by a
runner some time in the history, or is one made up by `drain`: exit code -1, no values. -/
theorem entries_reported {as : List Act} (hr : Runs init as w) {f : FinishedEntry} (hf : LogEntry.finished f ∈ w.log) :
    (∃ st, (f.key, st, f.values) ∈ reports init as ∧ f.status = st.asI32) ∨ f.status = -1 ∧ f.values = [] := by
  have := (repInv_init.runs winv_init hr).log f hf
  rwa [List.nil_append] at this

/-- **C157.** If the tasks report the same values whenever they succeed, the log has at most one result for each key, and it
is this one; exactly one if it has a success. -/
theorem result_unique {as : List Act} (hr : Runs init as w) {W : String → List (List (String × String))} (ht : Told W as)
    (k : String) : (results k w.log = [] ∨ results k w.log = [W k]) ∧ (SuccessLogged w.log k ↔ results k w.log = [W k]) := by
  have hn : NoRerun w.log := success_never_rerun ⟨_, hr⟩
  have hval : ∀ v ∈ results k w.log, v = W k := by
    intro v hv
    obtain ⟨e, he, hk⟩ := List.mem_filterMap.1 hv
    cases e with
    | finished f =>
      simp only [Option.ite_none_right_eq_some, Option.some.injEq] at hk
      obtain ⟨⟨h1, h2⟩, rfl⟩ := hk
      rcases entries_reported hr he with ⟨st, g1, g2⟩ | ⟨g, _⟩
      · have : st = .code 0 := Tracker.asI32_ne_zero.1 (by rw [← g2, h2])
        subst this
        rw [← h1]
        exact ht _ _ g1
      · rw [h2] at g; cases g
    | _ => simp at hk
  exact results_unique hn hval

/-- **C157.** Two histories, of any number of sessions, `execute` calls, failures, kills and restarts, over tasks with the
same keys, each ending with an undisturbed first `execute` of a session that reports zero failures: for every task both logs
have exactly one result, and it is the same. -/
theorem history_irrelevant {as as' : List Act} {v v' : World} {tas' : List Tracker.Act} {fizzles' : Nat}
    {W : String → List (List (String × String))} (ht : Told W as) (ht' : Told W as')
    (hr : Runs init as w') (hr' : Runs init as' v') (h : Reachable w) (h' : Reachable v)
    (hkeys : w.tasks.nodes.map (·.key) = v.tasks.nodes.map (·.key))
    (hfirst : w.executes = 0) (hx : Executed w none true fizzles tas w') (hfz : fizzles ≠ 0) (hno : Tracker.NoShutdown tas)
    (hfirst' : v.executes = 0) (hx' : Executed v none true fizzles' tas' v') (hfz' : fizzles' ≠ 0)
    (hno' : Tracker.NoShutdown tas') {keys keys' : List String} (hres : w'.result = some (0, keys))
    (hres' : v'.result = some (0, keys')) {k : String} (hk : k ∈ w.tasks.nodes.map (·.key)) :
    results k w'.log = [W k] ∧ results k v'.log = [W k] := by
  have key : ∀ {w w' : World} {as : List Act} {tas : List Tracker.Act} {fizzles : Nat} {keys : List String}, Told W as →
      Runs init as w' → Reachable w → w.executes = 0 → Executed w none true fizzles tas w' → fizzles ≠ 0 → Tracker.NoShutdown tas →
      w'.result = some (0, keys) → k ∈ w.tasks.nodes.map (·.key) → results k w'.log = [W k] := by
    intro w w' as tas fizzles keys ht hr h hfirst hx hfz hno hres hk
    obtain ⟨c, hc, rfl⟩ := List.mem_map.1 hk
    obtain ⟨i, hi, hic⟩ := List.getElem_of_mem hc
    have hd := zero_failures_partial h hfirst hx hfz hno hres i c (by rw [List.getElem?_eq_getElem hi, hic]) ⟨hi, by simp⟩
    exact (result_unique hr ht c.key).2.1 hd
  exact ⟨key ht hr h hfirst hx hfz hno hres hk, key ht' hr' h' hfirst' hx' hfz' hno' hres' (hkeys ▸ hk)⟩

/-- What the two tasks report when they succeed. -/
def values2 (k : String) : List (List (String × String)) := if k = "a" then [[("x", "1")]] else []

/-- Everything in one go. -/
def oneGo : List Act := open2 ++ [exec2] ++ bothSucceed.map .trk ++ [.finish]

/-- Session 1: `a` succeeds, `b` fails; session 2: `b` is started, then the process is killed and the end of the log lost;
session 3. -/
def threeSessions : List Act :=
  open2 ++ [exec2] ++ (bothSucceed.map .trk).take 18 ++ [.trk (.sendFinished ⟨1, .code 7, [[("x", "9")]], none⟩), .trk (.recvStarted ⟨0, 0⟩),
    .trk (.recvFinished [] ⟨0, 0⟩)] ++ returns ++ [.stop 7] ++
  open2 ++ [again] ++ (bAlone.map .trk).take 8 ++ [.stop 8] ++
  open2
where again : Act := .exec none true 1 ⟨[0, 1], [1, 0], [0], ["a"]⟩ 0

theorem told_of {as : List Act} {W : String → List (List (String × String))}
    (h : (reports init as).all (fun x => decide (x.2.1 = .code 0 → x.2.2 = W x.1)) = true) : Told W as := by
  intro k v hm
  have := List.all_eq_true.1 h _ hm
  simpa using this

/-- Non-trivial case of `history_irrelevant`: both histories end with zero failures; their logs show the same results. -/
example : Told values2 oneGo ∧ Told values2 (threeSessions ++ [threeSessions.again] ++ bAlone.map .trk ++ [.finish]) ∧
    after threeSessions (fun w => w.executes == 0 && decide (w.tasks.nodes.map (·.key) = ["a", "b"])) = true ∧
    after (threeSessions ++ [threeSessions.again] ++ bAlone.map .trk ++ [.finish]) (fun w => w.result == some (0, ["b"]) &&
      results "a" w.log == [values2 "a"] && results "b" w.log == [values2 "b"] &&
      decide (Tracker.finList w.log = [("a", 0), ("b", 7), ("b", 0)])) = true ∧
    after oneGo (fun w => w.result == some (0, ["a", "b"]) && results "a" w.log == [values2 "a"] &&
      results "b" w.log == [values2 "b"]) = true :=
  ⟨told_of (by decide +kernel), told_of (by decide +kernel), by decide +kernel, by decide +kernel, by decide +kernel⟩

end Verif.Props.Complete
