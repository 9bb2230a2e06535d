import Verif.Model.ExecGraph
import Verif.Proof.GraphTheory

namespace Verif
namespace DiGraph
variable {α : Type}

theorem swapRemove_last (l : List α) (x : α) : swapRemove (l ++ [x]) l.length = l := by
  unfold swapRemove
  simp

theorem lastEdge?_none {g : DiGraph α} {p : Nat × Nat → Bool} (h : ∀ e ∈ g.edges, p e = false) :
    g.lastEdge? p = none := by
  unfold lastEdge?
  rw [List.find?_eq_none]
  intro i _
  cases hi : g.edges[i]? with
  | none => simp
  | some e => simp [h e (List.mem_of_getElem? hi)]

theorem lastEdge?_append (ns : List α) (es : List (Nat × Nat)) (e : Nat × Nat) (p : Nat × Nat → Bool)
    (h : p e = true) : (⟨ns, es ++ [e]⟩ : DiGraph α).lastEdge? p = some es.length := by
  unfold lastEdge?
  simp only [List.length_append, List.length_singleton, List.range_succ, List.reverse_append,
    List.reverse_singleton, List.singleton_append]
  rw [List.find?_cons_of_pos]
  simp [h]

theorem removeEdges_none {g : DiGraph α} {p : Nat × Nat → Bool} (h : ∀ e ∈ g.edges, p e = false)
    (fuel : Nat) : removeEdges p fuel g = g := by
  cases fuel with
  | zero => rfl
  | succ f => unfold removeEdges; rw [lastEdge?_none h]

theorem removeEdges_suffix (ns : List α) (p : Nat × Nat → Bool) (es : List (Nat × Nat))
    (h : ∀ e ∈ es, p e = false) :
    ∀ (fuel : Nat) (suf : List (Nat × Nat)), (∀ e ∈ suf, p e = true) → suf.length ≤ fuel →
      removeEdges p fuel ⟨ns, es ++ suf⟩ = ⟨ns, es⟩ := by
  intro fuel
  induction fuel with
  | zero =>
    intro suf _ hl
    have : suf = [] := List.length_eq_zero_iff.1 (by omega)
    subst this; simp [removeEdges]
  | succ f ih =>
    intro suf hs hl
    rcases List.eq_nil_or_concat suf with rfl | ⟨suf', e, rfl⟩
    · rw [List.append_nil]; exact removeEdges_none (g := ⟨ns, es⟩) h _
    · unfold removeEdges
      have hp : p e = true := hs e (by simp)
      have e1 : es ++ suf'.concat e = (es ++ suf') ++ [e] := by simp
      rw [e1, lastEdge?_append ns (es ++ suf') e p hp]
      simp only
      rw [swapRemove_last]
      apply ih
      · intro x hx; exact hs x (by simp [hx])
      · simp at hl; omega

/-- Removing the node just added, with edges into it just added, gives the old graph back. -/
theorem removeNode_new (g : DiGraph α) (c : α) (ds : List Nat)
    (hg : ∀ e ∈ g.edges, e.1 < g.n ∧ e.2 < g.n) (hd : ∀ d ∈ ds, d < g.n) :
    removeNode ⟨g.nodes ++ [c], g.edges ++ ds.map (fun d => (d, g.n))⟩ g.n = g := by
  unfold removeNode
  have hn : g.n < n (⟨g.nodes ++ [c], g.edges ++ ds.map (fun d => (d, g.n))⟩ : DiGraph α) := by
    simp [n]
  rw [if_pos hn]
  have h1 : ∀ fuel, removeEdges (fun e => e.1 == g.n) fuel
      (⟨g.nodes ++ [c], g.edges ++ ds.map (fun d => (d, g.n))⟩ : DiGraph α)
      = ⟨g.nodes ++ [c], g.edges ++ ds.map (fun d => (d, g.n))⟩ := by
    intro fuel
    apply removeEdges_none
    intro e he
    simp only [List.mem_append, List.mem_map] at he
    rcases he with he | ⟨d, hdd, rfl⟩
    · have := (hg e he).1
      simp; omega
    · have := hd d hdd
      simp; omega
  simp only [h1]
  rw [removeEdges_suffix]
  · simp only
    have hl : n (⟨g.nodes ++ [c], g.edges⟩ : DiGraph α) - 1 = g.n := by simp [n]
    rw [hl]
    have : g.n = g.nodes.length := rfl
    rw [this, swapRemove_last]
    cases g with
    | mk nodes edges =>
      simp only [mk.injEq, true_and]
      have : (fun e : Nat × Nat => ((if e.1 == nodes.length then nodes.length else e.1),
          (if e.2 == nodes.length then nodes.length else e.2))) = id := by
        funext e
        rcases e with ⟨a, b⟩
        simp only [beq_iff_eq, id_eq, Prod.mk.injEq]
        constructor
        · split <;> simp_all
        · split <;> simp_all
      rw [this, List.map_id]
  · intro e he
    have := (hg e he).2
    simp; omega
  · intro e he
    simp only [List.mem_map] at he
    obtain ⟨d, _, rfl⟩ := he
    simp
  · simp

end DiGraph

namespace ExecGraph
open DiGraph

/-- The invariant of the task graph. -/
structure Good (g : ExecGraph) : Prop where
  lt : ∀ e ∈ g.deps.edges, e.1 < e.2 ∧ e.2 < g.deps.n
  nodup : g.taskKeys.Nodup
  index : ∀ k i, g.keyToId k = some i ↔ g.taskKeys[i]? = some k
  nonempty : ∀ c ∈ g.deps.nodes, c.cmdline ≠ []

theorem Good.wf {g : ExecGraph} (h : g.Good) : g.deps.WF := fun e he => by
  have := h.lt e he; omega

theorem good_new (lf : LogFile) : (ExecGraph.new lf).Good := by
  refine ⟨?_, ?_, ?_, ?_⟩ <;> simp [ExecGraph.new, DiGraph.empty, taskKeys]

/-- `addDeps` from the graph with the new node and edges into it for the accepted dependencies so far. -/
theorem addDeps_spec (g : DiGraph Cmd) (c : Cmd) (hg : ∀ e ∈ g.edges, e.1 < g.n ∧ e.2 < g.n)
    (ds : List Nat) : ∀ (acc : List Nat), (∀ d ∈ acc, d < g.n) →
    addDeps g.n ⟨g.nodes ++ [c], g.edges ++ acc.map (fun d => (d, g.n))⟩ ds =
      if ∀ d ∈ ds, d < g.n then
        (⟨g.nodes ++ [c], g.edges ++ (acc ++ ds).map (fun d => (d, g.n))⟩, true)
      else (g, false) := by
  induction ds with
  | nil => intro acc _; simp [addDeps]
  | cons d ds ih =>
    intro acc hacc
    unfold addDeps
    by_cases hd : d < g.n
    · have hnn : ¬ (d = g.n ∨ ((g.nodes ++ [c])[d]?).isNone = true) := by
        rintro (h | h)
        · omega
        · rw [List.getElem?_append_left hd, List.getElem?_eq_getElem hd] at h
          simp at h
      rw [if_neg hnn]
      have e : (⟨g.nodes ++ [c], g.edges ++ acc.map (fun d => (d, g.n))⟩ : DiGraph Cmd).addEdge d g.n
          = ⟨g.nodes ++ [c], g.edges ++ (acc ++ [d]).map (fun d => (d, g.n))⟩ := by
        simp [addEdge]
      rw [e, ih (acc ++ [d])]
      · have : (∀ x ∈ d :: ds, x < g.n) ↔ (∀ x ∈ ds, x < g.n) := by simp [hd]
        simp only [this, List.append_assoc, List.singleton_append]
      · intro x hx
        simp only [List.mem_append, List.mem_singleton] at hx
        rcases hx with hx | rfl
        · exact hacc x hx
        · exact hd
    · have hnn : d = g.n ∨ ((g.nodes ++ [c])[d]?).isNone = true := by
        by_cases h : d = g.n
        · exact .inl h
        · right
          have : (g.nodes ++ [c]).length ≤ d := by
            have : g.n = g.nodes.length := rfl
            simp; omega
          rw [List.getElem?_eq_none this]; rfl
      rw [if_pos hnn, removeNode_new g c acc hg hacc]
      have : ¬ ∀ x ∈ d :: ds, x < g.n := fun h => hd (h d (by simp))
      rw [if_neg this]

theorem addTask_existing (g : ExecGraph) (cmd : Cmd) (ds : List Nat) (i : Nat)
    (h : g.keyToId cmd.key = some i) : g.addTask cmd ds = (.ok i, g) := by
  unfold addTask; rw [h]

theorem addTask_new (g : ExecGraph) (hg : g.Good) (cmd : Cmd) (ds : List Nat)
    (h : g.keyToId cmd.key = none) :
    g.addTask cmd ds =
      if cmd.cmdline = [] then (.error .emptyCmdline, g)
      else if ∀ d ∈ ds, d < g.deps.n then
        (.ok g.deps.n, { g with
          deps := ⟨g.deps.nodes ++ [cmd], g.deps.edges ++ ds.map (fun d => (d, g.deps.n))⟩
          keyToId := g.keyToId.set cmd.key g.deps.n })
      else (.error .invalidDependency, g) := by
  unfold addTask
  rw [h]
  simp only [List.isEmpty_iff]
  split
  · rfl
  · have e : (g.deps.addNode cmd) = ⟨g.deps.nodes ++ [cmd], g.deps.edges ++ ([] : List Nat).map (fun d => (d, g.deps.n))⟩ := by
      simp [addNode]
    rw [e, addDeps_spec g.deps cmd hg.wf ds [] (by simp)]
    by_cases hd : ∀ d ∈ ds, d < g.deps.n
    · simp [if_pos hd]
    · simp [if_neg hd]

theorem good_addTask (g : ExecGraph) (hg : g.Good) (cmd : Cmd) (ds : List Nat) :
    (g.addTask cmd ds).2.Good := by
  cases h : g.keyToId cmd.key with
  | some i => rw [addTask_existing g cmd ds i h]; exact hg
  | none =>
    rw [addTask_new g hg cmd ds h]
    split
    · exact hg
    · rename_i hne
      split
      · rename_i hd
        have hnk : cmd.key ∉ g.taskKeys := by
          intro hm
          obtain ⟨i, hi⟩ := List.getElem?_of_mem hm
          have := (hg.index cmd.key i).2 hi
          rw [h] at this; cases this
        have hlen : g.taskKeys.length = g.deps.n := by simp [taskKeys, n]
        refine ⟨?_, ?_, ?_, ?_⟩
        · intro e he
          simp only [List.mem_append, List.mem_map] at he
          simp only [n, List.length_append, List.length_singleton]
          rcases he with he | ⟨d, hdd, rfl⟩
          · have := hg.lt e he
            simp only [n] at this; omega
          · have := hd d hdd
            simp only [n] at this ⊢; omega
        · simp only [taskKeys, List.map_append, List.map_cons, List.map_nil]
          rw [List.nodup_append]
          refine ⟨hg.nodup, by simp, ?_⟩
          intro a ha b hb
          simp only [List.mem_singleton] at hb
          subst hb
          intro e; subst e; exact hnk ha
        · intro k i
          simp only [StrMap.set, taskKeys, List.map_append, List.map_cons, List.map_nil]
          have hk : g.deps.nodes.map (·.key) = g.taskKeys := rfl
          rw [hk]
          by_cases hkk : k = cmd.key
          · subst hkk
            simp only [if_true, Option.some.injEq]
            constructor
            · rintro rfl
              rw [List.getElem?_append_right (by omega), hlen]; simp
            · intro hi
              by_cases hlt : i < g.deps.n
              · rw [List.getElem?_append_left (by omega)] at hi
                exact absurd (List.mem_of_getElem? hi) hnk
              · by_cases heq : i = g.deps.n
                · exact heq.symm
                · rw [List.getElem?_append_right (by omega)] at hi
                  have : 1 ≤ i - g.taskKeys.length := by omega
                  rw [List.getElem?_eq_none (by simpa using this)] at hi
                  cases hi
          · simp only [hkk, if_false]
            rw [hg.index k i]
            by_cases hlt : i < g.deps.n
            · rw [List.getElem?_append_left (by omega)]
            · rw [List.getElem?_append_right (by omega), List.getElem?_eq_none (by omega)]
              constructor
              · intro hx; cases hx
              · intro hx
                have := List.mem_of_getElem? hx
                simp only [List.mem_singleton] at this
                exact absurd this hkk
        · intro c hc
          simp only [List.mem_append, List.mem_singleton] at hc
          rcases hc with hc | rfl
          · exact hg.nonempty c hc
          · exact hne
      · exact hg

end ExecGraph
end Verif
