import Verif.Proof.Selection
import Verif.Props.TaskGraph
import Verif.Spec.Snapshot

/-!
# C07, C08, C09, C72: which tasks an `execute` call runs, which recorded results it reuses
-/

namespace Verif.Props.Selection
open Verif ExecGraph DiGraph Spec Verif.Props.TaskGraph

/-- The task graph after the priorities have been written into it. -/
abbrev prioritised (g : ExecGraph) (ch : Choices) : DiGraph Cmd := withPriorities g.deps ch.ordPrio

/-- Legal choices for an `execute` call on `g`. -/
abbrev Legal (g : ExecGraph) (target : Option Nat) (rerun : Bool) (ch : Choices) : Prop :=
  ValidChoices (prioritised g ch) g.completed g.logfile.mem target rerun ch

theorem prioritised_n (g : ExecGraph) (ch : Choices) : (prioritised g ch).n = g.deps.n := by
  simp [withPriorities, n]

theorem prioritised_wf {g : ExecGraph} (hr : Reachable g) (ch : Choices) : (prioritised g ch).WF := by
  have hg := good_of_reachable hr
  intro e he
  have := hg.wf e he
  rw [prioritised_n]; exact this

theorem prioritised_keys (g : ExecGraph) (ch : Choices) :
    (prioritised g ch).nodes.map (·.key) = g.taskKeys := by
  simp only [taskKeys, withPriorities]
  apply List.ext_getElem?
  intro i
  simp only [List.getElem?_map, List.getElem?_mapIdx, Option.map_map]
  cases g.deps.nodes[i]? <;> rfl

theorem getSubgraph_ok (g : ExecGraph) (target : Option Nat) (rerun : Bool) (ch : Choices) :
    ∃ lf' completed', getSubgraph g target rerun ch =
        .ok ((select (prioritised g ch) g.completed g.logfile.mem target rerun ch).1,
          { g with deps := prioritised g ch, logfile := lf', completed := completed' }) ∧
      lf'.mem = g.logfile.mem ∧ lf'.dir = g.logfile.dir ∧
      lf'.entries = g.logfile.entries ++ ch.reuseOrder.map (fun k => LogEntry.backref ⟨k⟩) ∧
      (∀ k, k ∈ completed' ↔ k ∈ g.completed ∨ k ∈ ch.reuseOrder) := by
  obtain ⟨lf', c', h1, h2, h3, h4, h5⟩ := writeBackrefs_spec ch.reuseOrder g.logfile g.completed
  refine ⟨lf', c', ?_, h2, h3, h4, h5⟩
  unfold getSubgraph
  simp only [h1, Res.bind]

/-- **C08.** The graph given to the scheduler is the induced subgraph on exactly the selected tasks: the same
commands, and exactly the dependencies of the task graph between selected tasks, with multiplicity. -/
theorem selection_exact {g : ExecGraph} (hr : Reachable g) (target : Option Nat) (rerun : Bool) (ch : Choices)
    (hc : Legal g target rerun ch) :
    ∃ sub g', getSubgraph g target rerun ch = .ok (sub, g') ∧ ∃ ids : List Nat, SubOf sub g'.deps ids ∧
      (∀ i, i ∈ ids ↔ Selected g'.deps g.completed g.logfile.mem target rerun i) ∧
      g'.deps.edges = g.deps.edges ∧
      ∀ i : Nat, g'.deps.nodes[i]? = (g.deps.nodes[i]?).map (fun c => { c with priority := g.deps.tlevel ch.ordPrio i }) := by
  obtain ⟨lf', c', h1, _⟩ := getSubgraph_ok g target rerun ch
  obtain ⟨ids, hs, hm⟩ := selection_spec (prioritised g ch) g.completed g.logfile.mem target rerun ch
    (prioritised_wf hr ch) hc.rev hc.filt
  refine ⟨_, _, h1, ids, hs, hm, rfl, ?_⟩
  intro i
  simp [withPriorities, List.getElem?_mapIdx]

/-- `execute` never fails for want of legal choices: the task graph is acyclic. -/
theorem legal_choices_exist {g : ExecGraph} (hr : Reachable g) (target : Option Nat) (rerun : Bool) :
    ∃ ch, Legal g target rerun ch := by
  have hg := good_of_reachable hr
  -- the priorities do not matter for any choice: use the order 0,1,2,.. for them
  have hw : ∀ ord, (withPriorities g.deps ord).WF := by
    intro ord e he
    have := hg.wf e he
    simpa [withPriorities, n] using this
  have hlt : ∀ ord u v, (withPriorities g.deps ord).Dep u v → u < v := fun ord u v h => (hg.lt (u, v) h).1
  obtain ⟨ch, h⟩ := choices_exist (withPriorities g.deps (List.range g.deps.n)) g.completed g.logfile.mem target
    rerun (hw _) (hlt _)
  refine ⟨{ ch with ordPrio := List.range g.deps.n }, ?_, h.rev, h.filt, h.reuse⟩
  have := topo_range (hw (List.range g.deps.n)) (hlt _)
  simpa [withPriorities, n] using this

/-- **C07.** With a target, everything selected is the target itself or something it transitively depends on. -/
theorem target_only {g : ExecGraph} (hr : Reachable g) (t : Nat) (rerun : Bool) (ch : Choices)
    (hc : Legal g (some t) rerun ch) :
    ∃ sub g', getSubgraph g (some t) rerun ch = .ok (sub, g') ∧ ∃ ids : List Nat, SubOf sub g'.deps ids ∧
      ∀ i ∈ ids, i = t ∨ g.deps.Reach i t := by
  obtain ⟨sub, g', h1, ids, h2, h3, h4, _⟩ := selection_exact hr (some t) rerun ch hc
  refine ⟨sub, g', h1, ids, h2, fun i hi => ?_⟩
  rcases ((h3 i).1 hi).1.1.2 t rfl with h | ⟨k, h⟩
  · exact .inl h
  · right
    refine ⟨k, ?_⟩
    clear hc h1 h2 h3
    have walk : ∀ k i j, g'.deps.Walk k i j → g.deps.Walk k i j := by
      intro k i j hw
      induction hw with
      | nil => exact .nil _
      | snoc _ hd ih => exact .snoc ih (by unfold Dep at *; rw [← h4]; exact hd)
    exact walk _ _ _ h

/-- **C07 (unknown target).** A target id that does not exist selects nothing and reuses nothing. -/
theorem unknown_target {g : ExecGraph} (hr : Reachable g) (t : Nat) (ht : g.ntasks ≤ t) (rerun : Bool)
    (ch : Choices) (hc : Legal g (some t) rerun ch) :
    ∃ sub g', getSubgraph g (some t) rerun ch = .ok (sub, g') ∧ sub.nodes = [] ∧
      g'.logfile.entries = g.logfile.entries ∧ ∀ k, k ∈ g'.completed ↔ k ∈ g.completed := by
  have hg := good_of_reachable hr
  have hno : ∀ i, ¬ Considered (prioritised g ch) (some t) i := by
    rintro i ⟨hi, h⟩
    rw [prioritised_n] at hi
    rcases h t rfl with rfl | ⟨k, hk⟩
    · simp only [ntasks] at ht; omega
    · cases hk with
      | snoc _ hd =>
        have := (prioritised_wf hr ch _ hd).2
        rw [prioritised_n] at this
        simp only [ntasks] at ht
        simp only at this
        omega
  obtain ⟨lf', c', h1, _, _, h4, h5⟩ := getSubgraph_ok g (some t) rerun ch
  obtain ⟨ids, hs, hm⟩ := selection_spec (prioritised g ch) g.completed g.logfile.mem (some t) rerun ch
    (prioritised_wf hr ch) hc.rev hc.filt
  have hre : ch.reuseOrder = [] := by
    apply List.eq_nil_iff_forall_not_mem.2
    intro k hk
    have := hc.reuse.mem_iff.1 hk
    rw [mem_reused _ _ _ _ _ _ (prioritised_wf hr ch) hc.rev] at this
    obtain ⟨i, _, _, _, hcon, _⟩ := this
    exact hno i hcon
  refine ⟨_, _, h1, ?_, by rw [h4, hre]; simp, fun k => by rw [h5, hre]; simp⟩
  have hids : ids = [] := by
    apply List.eq_nil_iff_forall_not_mem.2
    intro i hi
    exact hno i ((hm i).1 hi).1.1
  have := hs.size
  rw [hids] at this
  exact List.length_eq_zero_iff.1 this

/-- **C09.** What one `execute` call appends to the log before scheduling: one Backref for each considered task not
yet done in this session whose recorded success - or, when failures are not rerun, recorded failure - is reused; each
once, nothing else; and exactly these keys become "done in this session". -/
theorem backrefs_exact {g : ExecGraph} (hr : Reachable g) (target : Option Nat) (rerun : Bool) (ch : Choices)
    (hc : Legal g target rerun ch) :
    ∃ sub g', ∃ ks : List String, getSubgraph g target rerun ch = .ok (sub, g') ∧
      g'.logfile.entries = g.logfile.entries ++ ks.map (fun k => LogEntry.backref ⟨k⟩) ∧ ks.Nodup ∧
      (∀ k, k ∈ ks ↔ ∃ i c, g'.deps.nodes[i]? = some c ∧ c.key = k ∧ Considered g'.deps target i ∧
        k ∉ g.completed ∧ (g.logfile.mem.hasSuccess k = true ∨
          (rerun = false ∧ g.logfile.mem.hasFailure k = true))) ∧
      (∀ k, k ∈ g'.completed ↔ k ∈ g.completed ∨ k ∈ ks) := by
  obtain ⟨lf', c', h1, _, _, h4, h5⟩ := getSubgraph_ok g target rerun ch
  have hw := prioritised_wf hr ch
  refine ⟨_, _, ch.reuseOrder, h1, h4, ?_, ?_, h5⟩
  · have hn := reused_nodup (prioritised g ch) g.completed g.logfile.mem target rerun ch hw hc.rev
      (by rw [prioritised_keys]; exact (good_of_reachable hr).nodup)
    exact hc.reuse.nodup_iff.2 hn
  · intro k
    rw [hc.reuse.mem_iff]
    exact mem_reused _ _ _ _ _ _ hw hc.rev k

/-- One session from the log `lf` on: `add_task` calls and `execute` calls; an `execute` call writes what
`get_subgraph` writes and then any entries that are not headers or Backrefs, and only adds to the completed keys. -/
inductive Session (lf : LogFile) : ExecGraph → Prop
  | start : Session lf (ExecGraph.new lf)
  | add {g : ExecGraph} (cmd : Cmd) (deps : List Nat) : Session lf g → Session lf (g.addTask cmd deps).2
  | exec {g g' : ExecGraph} {sub : DiGraph Cmd} (target : Option Nat) (rerun : Bool) (ch : Choices)
      (mem : LogMem) (new : List LogEntry) (completed : List String) :
      Session lf g → Legal g target rerun ch → getSubgraph g target rerun ch = .ok (sub, g') →
      (∀ e ∈ new, isBackref e = false ∧ isHeader e = false) → (∀ k ∈ g'.completed, k ∈ completed) →
      Session lf { g' with
        logfile := { g'.logfile with mem := mem, entries := g'.logfile.entries ++ new }
        completed := completed }

theorem session_reachable {lf : LogFile} {g : ExecGraph} (h : Session lf g) : Reachable g := by
  refine ⟨lf, ?_⟩
  induction h with
  | start => exact .refl _
  | add cmd deps _ ih => exact .add cmd deps ih
  | @exec g g' sub target rerun ch mem new completed _ _ hok _ _ ih =>
    obtain ⟨lf', c', h1, _⟩ := getSubgraph_ok g target rerun ch
    rw [hok] at h1
    simp only [Res.ok.injEq, Prod.mk.injEq] at h1
    obtain ⟨_, rfl⟩ := h1
    exact .exec ch.ordPrio _ _ ih

/-- **C09 (once per session).** Whatever a session does, it never writes a Backref for the same key twice, and every
key it wrote a Backref for counts as done in this session. -/
theorem backrefs_once_per_session {lf : LogFile} {g : ExecGraph} (h : Session lf g) :
    ∃ mine, g.logfile.entries = lf.entries ++ mine ∧ (backrefKeys mine).Nodup ∧
      (∀ k ∈ backrefKeys mine, k ∈ g.completed) ∧ ∀ e ∈ mine, isHeader e = false := by
  induction h with
  | start => exact ⟨[], by simp [ExecGraph.new], by simp [backrefKeys], by simp [backrefKeys], by simp⟩
  | @add g cmd deps _ ih =>
    obtain ⟨mine, h1, h2, h3, h6⟩ := ih
    have e : ∀ g : ExecGraph, ((g.addTask cmd deps).2.logfile = g.logfile) ∧
        (g.addTask cmd deps).2.completed = g.completed := by
      intro g
      unfold addTask
      split
      · exact ⟨rfl, rfl⟩
      · split
        · exact ⟨rfl, rfl⟩
        · simp only
          split <;> exact ⟨rfl, rfl⟩
    exact ⟨mine, by rw [(e g).1]; exact h1, h2, by rw [(e g).2]; exact h3, h6⟩
  | @exec g g' sub target rerun ch mem new completed hs hlegal hok hnew hcomp ih =>
    obtain ⟨mine, h1, h2, h3, h6⟩ := ih
    obtain ⟨sub2, g2, ks, e1, e2, e3, e4, e5⟩ := backrefs_exact (session_reachable hs) target rerun ch hlegal
    rw [hok] at e1
    simp only [Res.ok.injEq, Prod.mk.injEq] at e1
    obtain ⟨rfl, rfl⟩ := e1
    have hb : ∀ l : List String, backrefKeys (l.map (fun k => LogEntry.backref ⟨k⟩)) = l := by
      intro l
      induction l with
      | nil => rfl
      | cons x l ih => simp only [backrefKeys, List.map_cons, List.filterMap_cons] at *; rw [ih]
    have hnb : backrefKeys new = [] := by
      unfold backrefKeys
      rw [List.filterMap_eq_nil_iff]
      intro e he
      cases e with
      | backref b => exact absurd (hnew _ he).1 (by simp [isBackref])
      | _ => rfl
    have happ : ∀ a b, backrefKeys (a ++ b) = backrefKeys a ++ backrefKeys b := by
      intro a b; simp [backrefKeys]
    refine ⟨mine ++ ks.map (fun k => LogEntry.backref ⟨k⟩) ++ new, ?_, ?_, ?_, ?_⟩
    · simp only [e2, h1, List.append_assoc]
    · rw [happ, happ, hb, hnb, List.append_nil, List.nodup_append]
      refine ⟨h2, e3, ?_⟩
      intro a ha b hb' hab
      subst hab
      obtain ⟨_, _, _, _, _, hnc, _⟩ := (e4 a).1 hb'
      exact hnc (h3 a ha)
    · intro k hk
      rw [happ, happ, hb, hnb, List.append_nil, List.mem_append] at hk
      apply hcomp
      rw [e5]
      rcases hk with hk | hk
      · exact .inl (h3 k hk)
      · exact .inr hk
    · intro e he
      simp only [List.mem_append, List.mem_map] at he
      rcases he with (he | ⟨k, _, rfl⟩) | he
      · exact h6 e he
      · rfl
      · exact (hnew e he).2

/-- A concrete session used below: tasks a -> b -> c and d; the log records a success of `a` and a failure of `b`. -/
def demoLog : LogFile :=
  ⟨⟨none, fun k => if k = "a" then some (.finished 0 0 true) else if k = "b" then some (.finished 0 0 false) else none⟩,
    [], "/d"⟩

/-- The graph of the concrete session. -/
def demo : ExecGraph :=
  let c (k : String) : Cmd := { cmdline := [.str "true"], key := k }
  ((((ExecGraph.new demoLog).addTask (c "a") []).2.addTask (c "b") [0]).2.addTask (c "c") [1, 1]).2.addTask
    (c "d") [] |>.2

/-- Choices for the concrete session. -/
def demoChoices (reuse : List String) : Choices := ⟨[0, 1, 2, 3], [3, 2, 1, 0], [0, 1, 2], reuse⟩

/-- Non-trivial case of C07-C09: with failures rerun, `b`, `c`, `d` are selected with the double edge b => c; without,
only `d`, and `b` is reused too. The hypotheses hold. -/
example :
    Reachable demo ∧ Legal demo none true (demoChoices ["a"]) ∧ Legal demo none false (demoChoices ["b", "a"]) ∧
    (select demo.deps [] demoLog.mem none true (demoChoices ["a"])).1.nodes.map (·.key) = ["b", "c", "d"] ∧
    (select demo.deps [] demoLog.mem none true (demoChoices ["a"])).1.edges = [(0, 1), (0, 1)] ∧
    (select demo.deps [] demoLog.mem none false (demoChoices ["b", "a"])).1.nodes.map (·.key) = ["d"] ∧
    (select demo.deps [] demoLog.mem none false (demoChoices ["b", "a"])).2 = ["a", "b"] ∧
    (select demo.deps [] demoLog.mem (some 1) true (demoChoices ["a"])).1.nodes.map (·.key) = ["b"] := by
  refine ⟨⟨demoLog, .add _ _ (.add _ _ (.add _ _ (.add _ _ (.refl _))))⟩, ?_, ?_, by decide, by decide, by decide,
    by decide, by decide⟩
  · exact ⟨topo_of_isTopo (by decide), topo_of_isTopo (by decide), topo_of_isTopo (by decide), by decide⟩
  · exact ⟨topo_of_isTopo (by decide), topo_of_isTopo (by decide), topo_of_isTopo (by decide), by decide⟩

/-- **C72 (documented claim violated).** "If key == "" the task will never be skipped": in every reachable graph, if a
success of the empty key is recorded, the task with the empty key is not selected, like any other. -/
theorem empty_key_skipped_violated {g : ExecGraph} (hr : Reachable g) (hs : g.logfile.mem.hasSuccess "" = true)
    (target : Option Nat) (rerun : Bool) (ch : Choices) (hc : Legal g target rerun ch) :
    ∃ sub g', getSubgraph g target rerun ch = .ok (sub, g') ∧ ∀ c' ∈ sub.nodes, c'.key ≠ "" := by
  obtain ⟨sub, g', h1, ids, h2, h3, _, h5⟩ := selection_exact hr target rerun ch hc
  refine ⟨sub, g', h1, ?_⟩
  intro c' hc' hk'
  obtain ⟨a, ha⟩ := List.getElem?_of_mem hc'
  obtain ⟨j, hj⟩ := h2.lt (getElem?_lt ha)
  have hn := (h2.node a j hj).2
  rw [ha] at hn
  have hsel := (h3 j).1 (List.mem_of_getElem? hj)
  exact hsel.1.2.2 ⟨c', hn.symm, by rw [hk']; exact hs⟩

/-- **C72.** And a second task with the empty key is not added at all. -/
theorem empty_key_deduplicated_violated {g : ExecGraph} (hr : Reachable g) (i : Nat) (c : Cmd)
    (hi : g.getTask i = some c) (hk : c.key = "") (cmd : Cmd) (hk' : cmd.key = "") (deps : List Nat) :
    g.addTask cmd deps = (.ok i, g) := by
  have hg := good_of_reachable hr
  apply addTask_existing
  rw [hk']
  exact ((keys_identify_tasks hr).2.1 "" i).2 ⟨c, hi, hk⟩

/-- Non-trivial case of C72. -/
example :
    let lf : LogFile := ⟨⟨none, fun k => if k = "" then some (.finished 0 0 true) else none⟩, [], "/d"⟩
    let g := ((ExecGraph.new lf).addTask { cmdline := [.str "true"], key := "" } []).2
    Reachable g ∧ Legal g none true ⟨[0], [0], [], [""]⟩ ∧ (g.getTask 0).map (·.key) = some "" ∧
    lf.mem.hasSuccess "" = true := by
  refine ⟨⟨_, .add _ _ (.refl _)⟩, ?_, by decide, by decide⟩
  exact ⟨topo_of_isTopo (by decide), topo_of_isTopo (by decide), topo_of_isTopo (by decide), by decide⟩

end Verif.Props.Selection
