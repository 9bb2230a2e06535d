import Verif.Proof.AddTask

/-!
# C01-C04: building the task graph
-/

namespace Verif.Props.TaskGraph
open Verif ExecGraph

/-- What a session may do to the task graph after `g`: `add_task` calls with any arguments (accepted or not), and
`execute` calls, which rewrite the priorities, the log and the set of completed keys in any way. -/
inductive Later : ExecGraph → ExecGraph → Prop
  | refl (g : ExecGraph) : Later g g
  | add {g g' : ExecGraph} (cmd : Cmd) (deps : List Nat) : Later g g' → Later g (g'.addTask cmd deps).2
  | exec {g g' : ExecGraph} (ord : List Nat) (lf : LogFile) (completed : List String) : Later g g' →
      Later g { g' with deps := withPriorities g'.deps ord, logfile := lf, completed := completed }

/-- A task graph some session can have. -/
def Reachable (g : ExecGraph) : Prop := ∃ lf, Later (ExecGraph.new lf) g

theorem good_exec {g : ExecGraph} (h : g.Good) (ord : List Nat) (lf : LogFile) (completed : List String) :
    ({ g with deps := withPriorities g.deps ord, logfile := lf, completed := completed } : ExecGraph).Good := by
  have hk : ({ g with deps := withPriorities g.deps ord, logfile := lf, completed := completed }
      : ExecGraph).taskKeys = g.taskKeys := by
    simp only [taskKeys, withPriorities]
    apply List.ext_getElem?
    intro i
    simp only [List.getElem?_map, List.getElem?_mapIdx, Option.map_map]
    cases g.deps.nodes[i]? <;> rfl
  refine ⟨?_, ?_, ?_, ?_⟩
  · intro e he
    have := h.lt e he
    simpa [withPriorities, DiGraph.n] using this
  · rw [hk]; exact h.nodup
  · intro k i; rw [hk]; exact h.index k i
  · intro c hc
    simp only [withPriorities, List.mem_mapIdx] at hc
    obtain ⟨i, hi, rfl⟩ := hc
    exact h.nonempty (g.deps.nodes[i]) (List.getElem_mem hi)

theorem good_later {g g' : ExecGraph} (hg : g.Good) (h : Later g g') : g'.Good := by
  induction h with
  | refl => exact hg
  | add cmd deps _ ih => exact good_addTask _ ih cmd deps
  | exec ord lf c _ ih => exact good_exec ih ord lf c

theorem good_of_reachable {g : ExecGraph} (h : Reachable g) : g.Good := by
  obtain ⟨lf, hl⟩ := h
  exact good_later (good_new lf) hl

/-- The command apart from its priority (which `execute` rewrites). -/
def sameCmd (a b : Cmd) : Prop := { a with priority := 0 } = { b with priority := 0 }

theorem later_keyToId {g g' : ExecGraph} (hg : g.Good) (h : Later g g') (k : String) (i : Nat)
    (hk : g.keyToId k = some i) : g'.keyToId k = some i := by
  induction h with
  | refl => exact hk
  | @add g' cmd deps hl ih =>
    have hgood := good_later hg hl
    cases hc : g'.keyToId cmd.key with
    | some j => rw [addTask_existing _ cmd deps j hc]; exact ih
    | none =>
      rw [addTask_new _ hgood cmd deps hc]
      split
      · exact ih
      · split
        · simp only [StrMap.set]
          by_cases hkk : k = cmd.key
          · rw [hkk] at ih; rw [ih] at hc; cases hc
          · rw [if_neg hkk]; exact ih
        · exact ih
  | exec ord lf c _ ih => exact ih

theorem later_getTask {g g' : ExecGraph} (hg : g.Good) (h : Later g g') (i : Nat) (c : Cmd)
    (hk : g.getTask i = some c) : ∃ c', g'.getTask i = some c' ∧ sameCmd c' c := by
  induction h with
  | refl => exact ⟨c, hk, rfl⟩
  | @add g' cmd deps hl ih =>
    obtain ⟨c', h1, h2⟩ := ih
    have hgood := good_later hg hl
    refine ⟨c', ?_, h2⟩
    cases hc : g'.keyToId cmd.key with
    | some j => rw [addTask_existing _ cmd deps j hc]; exact h1
    | none =>
      rw [addTask_new _ hgood cmd deps hc]
      split
      · exact h1
      · split
        · simp only [getTask] at h1 ⊢
          have : i < g'.deps.nodes.length := by
            rcases Nat.lt_or_ge i g'.deps.nodes.length with h | h
            · exact h
            · rw [List.getElem?_eq_none h] at h1; cases h1
          rw [List.getElem?_append_left this]; exact h1
        · exact h1
  | @exec g' ord lf comp _ ih =>
    obtain ⟨c', h1, h2⟩ := ih
    refine ⟨{ c' with priority := g'.deps.tlevel ord i }, ?_, h2⟩
    simp only [getTask, withPriorities, List.getElem?_mapIdx] at h1 ⊢
    rw [h1]; rfl

theorem accepted_index {g : ExecGraph} (hg : g.Good) {cmd : Cmd} {deps : List Nat} {i : Nat}
    (h : (g.addTask cmd deps).1 = .ok i) : (g.addTask cmd deps).2.keyToId cmd.key = some i := by
  cases hc : g.keyToId cmd.key with
  | some j =>
    rw [addTask_existing _ cmd deps j hc] at h ⊢
    simp only [Except.ok.injEq] at h
    subst h; exact hc
  | none =>
    rw [addTask_new _ hg cmd deps hc] at h ⊢
    split at h
    · cases h
    · split at h
      · rename_i h1 h2
        simp only [Except.ok.injEq] at h
        subst h
        rw [if_neg h1, if_pos h2]
        simp [StrMap.set]
      · cases h

/-- **C01 (idempotent).** Once a task has been accepted with id `i`, every later `add_task` with the same key returns
`i` and changes nothing at all, whatever its other arguments. -/
theorem add_task_idempotent {g g' : ExecGraph} (hr : Reachable g) {cmd : Cmd} {deps : List Nat} {i : Nat}
    (h : (g.addTask cmd deps).1 = .ok i) (hl : Later (g.addTask cmd deps).2 g')
    (cmd' : Cmd) (deps' : List Nat) (hk : cmd'.key = cmd.key) :
    g'.addTask cmd' deps' = (.ok i, g') := by
  have hg := good_of_reachable hr
  apply addTask_existing
  rw [hk]
  exact later_keyToId (good_addTask g hg cmd deps) hl _ _ (accepted_index hg h)

/-- **C01 (dense ids, command kept).** A task with a fresh key is accepted under the id `ntasks`, which grows by one;
`get_task` returns that command (its priority aside) for ever after. -/
theorem add_task_fresh {g g' : ExecGraph} (hr : Reachable g) {cmd : Cmd} {deps : List Nat} {i : Nat}
    (hfresh : cmd.key ∉ g.taskKeys) (h : (g.addTask cmd deps).1 = .ok i)
    (hl : Later (g.addTask cmd deps).2 g') :
    i = g.ntasks ∧ (g.addTask cmd deps).2.ntasks = g.ntasks + 1 ∧
    ∃ c, g'.getTask i = some c ∧ sameCmd c cmd := by
  have hg := good_of_reachable hr
  have hc : g.keyToId cmd.key = none := by
    cases hc : g.keyToId cmd.key with
    | none => rfl
    | some j => exact absurd (List.mem_of_getElem? ((hg.index _ _).1 hc)) hfresh
  have hgood := good_addTask g hg cmd deps
  have hget := later_getTask hgood hl i cmd
  rw [addTask_new _ hg cmd deps hc] at h hget ⊢
  split at h
  · cases h
  · split at h
    · rename_i h1 h2
      simp only [Except.ok.injEq] at h
      subst h
      rw [if_neg h1, if_pos h2] at hget ⊢
      refine ⟨rfl, by simp [ntasks, DiGraph.n], hget ?_⟩
      simp [getTask, DiGraph.n]
    · cases h

/-- Non-trivial case of C01/C03: three tasks with a duplicate dependency, then a repeated key. -/
example :
    let c (k : String) : Cmd := { cmdline := [.str "true"], key := k }
    let g0 := ExecGraph.new ⟨.empty, [], "/d"⟩
    let g1 := (g0.addTask (c "a") []).2
    let g2 := (g1.addTask (c "b") [0, 0]).2
    let g3 := (g2.addTask (c "x") [1, 0]).2
    (g3.addTask (c "b") []).1.toOption = some 1 ∧ g3.ntasks = 3 ∧ g3.deps.edges = [(0, 1), (0, 1), (1, 2), (0, 2)] := by
  decide

/-- **C02.** A rejected `add_task` leaves the whole object as it was. -/
theorem rejected_leaves_no_trace {g : ExecGraph} (hr : Reachable g) {cmd : Cmd} {deps : List Nat} {e : AddErr}
    (h : (g.addTask cmd deps).1 = .error e) : (g.addTask cmd deps).2 = g := by
  have hg := good_of_reachable hr
  cases hc : g.keyToId cmd.key with
  | some j => rw [addTask_existing _ cmd deps j hc]
  | none =>
    rw [addTask_new _ hg cmd deps hc] at h ⊢
    split at h
    · rename_i h1; rw [if_pos h1]
    · split at h
      · cases h
      · rename_i h1 h2; rw [if_neg h1, if_neg h2]

/-- **C02 (when).** A task with a fresh key is rejected exactly if its command line is empty or one of its
dependencies is not an existing task. -/
theorem rejected_iff {g : ExecGraph} (hr : Reachable g) (cmd : Cmd) (deps : List Nat)
    (hfresh : cmd.key ∉ g.taskKeys) :
    (∃ e, (g.addTask cmd deps).1 = .error e) ↔ cmd.cmdline = [] ∨ ∃ d ∈ deps, g.ntasks ≤ d := by
  have hg := good_of_reachable hr
  have hc : g.keyToId cmd.key = none := by
    cases hc : g.keyToId cmd.key with
    | none => rfl
    | some j => exact absurd (List.mem_of_getElem? ((hg.index _ _).1 hc)) hfresh
  rw [addTask_new _ hg cmd deps hc]
  by_cases h1 : cmd.cmdline = []
  · simp [h1]
  · rw [if_neg h1]
    by_cases h2 : ∀ d ∈ deps, d < g.deps.n
    · rw [if_pos h2]
      constructor
      · rintro ⟨e, he⟩; cases he
      · rintro (h | ⟨d, hd, hle⟩)
        · exact absurd h h1
        · have := h2 d hd
          simp only [ntasks] at hle; omega
    · rw [if_neg h2]
      refine ⟨fun _ => .inr ?_, fun _ => ⟨_, rfl⟩⟩
      apply Classical.byContradiction
      intro hno
      apply h2
      intro d hd
      apply Nat.lt_of_not_le
      intro hle
      exact hno ⟨d, hd, hle⟩

/-- The dependencies an accepted task gets are the ones asked for, in order, and no other edge changes. -/
theorem accepted_edges {g : ExecGraph} (hr : Reachable g) {cmd : Cmd} {deps : List Nat} {i : Nat}
    (hfresh : cmd.key ∉ g.taskKeys) (h : (g.addTask cmd deps).1 = .ok i) :
    (g.addTask cmd deps).2.deps.edges = g.deps.edges ++ deps.map (fun d => (d, i)) := by
  have hg := good_of_reachable hr
  have hc : g.keyToId cmd.key = none := by
    cases hc : g.keyToId cmd.key with
    | none => rfl
    | some j => exact absurd (List.mem_of_getElem? ((hg.index _ _).1 hc)) hfresh
  rw [addTask_new _ hg cmd deps hc] at h ⊢
  split at h
  · cases h
  · split at h
    · rename_i h1 h2
      simp only [Except.ok.injEq] at h
      subst h
      rw [if_neg h1, if_pos h2]
    · cases h

/-- Non-trivial case of C02: the bad dependency comes after two good ones. -/
example :
    let c (k : String) : Cmd := { cmdline := [.str "true"], key := k }
    let g0 := ExecGraph.new ⟨.empty, [], "/d"⟩
    let g2 := ((g0.addTask (c "a") []).2.addTask (c "b") [0]).2
    (g2.addTask (c "x") [1, 0, 2]).1.toOption = none ∧ (g2.addTask (c "x") [1, 0, 2]).2.deps = g2.deps := by
  decide

/-- **C03.** Every dependency has a smaller id than the task depending on it; so there is no cycle, and the order
0,1,2,... is a topological one (`toposort` cannot fail). -/
theorem graph_acyclic {g : ExecGraph} (hr : Reachable g) :
    (∀ u v, g.deps.Dep u v → u < v ∧ v < g.ntasks) ∧ g.deps.Acyclic ∧
    g.deps.Topo (List.range g.ntasks) := by
  have hg := good_of_reachable hr
  have hlt : ∀ u v, g.deps.Dep u v → u < v ∧ v < g.ntasks := fun u v h => hg.lt (u, v) h
  have htopo : g.deps.Topo (List.range g.ntasks) := by
    refine ⟨List.nodup_range, fun v => by simp [ntasks], ?_⟩
    intro a v b he u hd
    have huv := (hlt u v hd).1
    have hlen : a.length < g.ntasks := by
      have : (List.range g.ntasks).length = (a ++ v :: b).length := by rw [he]
      simp at this; omega
    have hv : v = a.length := by
      have h1 : (List.range g.ntasks)[a.length]? = some v := by rw [he]; simp
      rw [List.getElem?_range hlen] at h1
      exact (Option.some.inj h1).symm
    have hu : (List.range g.ntasks)[u]? = some u := List.getElem?_range (by omega)
    rw [he, List.getElem?_append_left (by omega)] at hu
    exact List.mem_of_getElem? hu
  exact ⟨hlt, htopo.acyclic hg.wf, htopo⟩

/-- **C04.** Distinct ids have distinct keys; the key index is exact: looking up a key gives `i` iff task `i` has that
key; hence `ntasks` is the number of distinct keys. -/
theorem keys_identify_tasks {g : ExecGraph} (hr : Reachable g) :
    (∀ i j c c', g.getTask i = some c → g.getTask j = some c' → c.key = c'.key → i = j) ∧
    (∀ k i, g.keyToId k = some i ↔ ∃ c, g.getTask i = some c ∧ c.key = k) ∧
    g.taskKeys.Nodup ∧ g.taskKeys.length = g.ntasks := by
  have hg := good_of_reachable hr
  refine ⟨?_, ?_, hg.nodup, by simp [taskKeys, ntasks, DiGraph.n]⟩
  · intro i j c c' hi hj hk
    have h1 : g.taskKeys[i]? = some c.key := by simp [taskKeys, getTask] at *; simp [hi]
    have h2 : g.taskKeys[j]? = some c.key := by simp [taskKeys, getTask] at *; simp [hj, hk]
    have e1 := (hg.index _ _).2 h1
    have e2 := (hg.index _ _).2 h2
    rw [e1] at e2
    exact Option.some.inj e2
  · intro k i
    rw [hg.index k i]
    simp only [taskKeys, List.getElem?_map, getTask, Option.map_eq_some_iff]

/-- Non-trivial case of C04. -/
example :
    let c (k : String) : Cmd := { cmdline := [.str "true"], key := k }
    let g0 := ExecGraph.new ⟨.empty, [], "/d"⟩
    let g := ((g0.addTask (c "a") []).2.addTask (c "b") [0]).2
    g.taskKeys = ["a", "b"] ∧ g.keyToId "b" = some 1 ∧ g.keyToId "z" = none := by
  decide

end Verif.Props.TaskGraph
