import Verif.Proof.GraphTheory

/-!
# C05, C06: transitive closure and levels, for every topological order `toposort` may return
-/

namespace Verif.Props.GraphTheory
open Verif DiGraph
variable {α : Type}

/-- **C05.** The computed closure has the same nodes and has an edge from `u` to `v` iff there is a non-empty path. -/
theorem closure_is_reachability (g : DiGraph α) (order : List Nat) (hw : g.WF) (ht : g.Topo order) :
    (g.transitiveClosure order).nodes = g.nodes ∧
    ∀ u v, (g.transitiveClosure order).Dep u v ↔ g.Reach u v := by
  have h := tcInv ht hw
  refine ⟨h.nodes, fun u v => ⟨h.sound u v, fun hr => h.done u ?_ v hr⟩⟩
  obtain ⟨k, hk⟩ := hr
  obtain ⟨x, hx, _⟩ := hk.head
  exact (ht.mem u).2 (hw _ hx).1

/-- **C05 (multiplicity).** Direct dependencies keep their multiplicity; a purely indirect one gets a single edge. -/
theorem closure_multiplicity (g : DiGraph α) (order : List Nat) (hw : g.WF) (ht : g.Topo order) (u v : Nat) :
    (g.transitiveClosure order).edges.count (u, v) =
      if g.Dep u v then g.edges.count (u, v)
      else if (g.transitiveClosure order).Dep u v then 1 else 0 := by
  have h := tcInv ht hw
  split
  · rename_i hd; exact h.cntDep u v hd
  · rename_i hd
    split
    · rename_i hr
      have h1 := h.cntNew u v hd
      have h2 : 0 < (g.transitiveClosure order).edges.count (u, v) := List.count_pos_iff.2 hr
      omega
    · rename_i hr; exact List.count_eq_zero_of_not_mem hr

/-- The helper of the closure is right for every distance: it returns exactly the nodes whose shortest path from the
source has that length, each once. -/
theorem descendants_at_distance_correct (g : DiGraph α) (s d : Nat) :
    (∀ x, x ∈ g.descendantsAt s d ↔ g.Walk d s x ∧ ∀ j < d, ¬ g.Walk j s x) ∧
    (g.descendantsAt s d).Nodup := g.descendantsAt_spec s d

/-- Non-trivial case of C05: a diamond with a double edge, closed along a topological order. -/
example :
    let g : DiGraph String := ⟨["a", "b", "c", "d"], [(0, 1), (0, 1), (0, 2), (1, 3), (2, 3)]⟩
    g.WF ∧ g.Topo [0, 2, 1, 3] ∧ g.transitiveClosure [0, 2, 1, 3] = ⟨["a", "b", "c", "d"], [(0, 1), (0, 1), (0, 2), (1, 3), (2, 3), (0, 3)]⟩ :=
  ⟨wf_of_isWF (by decide), topo_of_isTopo (by decide), by decide⟩

/-- **C06.** The priority of a task is the length of the longest dependency chain ending in it: a chain of this
length exists, and there is no longer one. -/
theorem priority_is_longest_chain (g : DiGraph α) (order : List Nat) (ht : g.Topo order) (v : Nat)
    (hv : v < g.n) :
    (∃ u, g.Walk (g.tlevel order v) u v) ∧ ∀ u k, g.Walk k u v → k ≤ g.tlevel order v :=
  tlevel_spec ht hv

/-- **C06 (monotone).** Priority strictly increases along dependencies. -/
theorem priority_increases (g : DiGraph α) (order : List Nat) (hw : g.WF) (ht : g.Topo order) (u v : Nat)
    (h : g.Reach u v) : g.tlevel order u < g.tlevel order v := by
  obtain ⟨k, hk⟩ := h
  have hv : v < g.n := by cases hk with | snoc _ hd => exact (hw _ hd).2
  have hu : u < g.n := by obtain ⟨x, hx, _⟩ := hk.head; exact (hw _ hx).1
  obtain ⟨s, hs⟩ := (tlevel_spec ht hu).1
  have := (tlevel_spec ht hv).2 s _ (hs.trans hk)
  omega

/-- **C06 (independence).** The priority does not depend on which topological order was used. -/
theorem priority_order_independent (g : DiGraph α) (o1 o2 : List Nat) (h1 : g.Topo o1) (h2 : g.Topo o2)
    (v : Nat) (hv : v < g.n) : g.tlevel o1 v = g.tlevel o2 v := by
  obtain ⟨⟨s, hs⟩, hm⟩ := tlevel_spec h1 hv
  obtain ⟨⟨s', hs'⟩, hm'⟩ := tlevel_spec h2 hv
  have := hm _ _ hs'
  have := hm' _ _ hs
  omega

/-- **C06 (blevel).** The bottom level is the length of the longest chain starting in the task. -/
theorem blevel_is_longest_chain (g : DiGraph α) (order : List Nat) (hw : g.WF) (ht : g.Topo order) (v : Nat)
    (hv : v < g.n) :
    (∃ u, g.Walk (g.blevel order v) v u) ∧ ∀ u k, g.Walk k v u → k ≤ g.blevel order v :=
  blevel_spec ht hw hv

/-- Non-trivial case of C06: levels of the diamond with a tail. -/
example :
    let g : DiGraph String := ⟨["a", "b", "c", "d", "e"], [(0, 1), (0, 2), (1, 3), (2, 3), (0, 3)]⟩
    g.WF ∧ g.Topo [4, 0, 2, 1, 3] ∧ (List.range 5).map (g.tlevel [4, 0, 2, 1, 3]) = [0, 1, 1, 2, 0] ∧
    (List.range 5).map (g.blevel [4, 0, 2, 1, 3]) = [2, 1, 1, 0, 0] :=
  ⟨wf_of_isWF (by decide), topo_of_isTopo (by decide), by decide, by decide⟩

end Verif.Props.GraphTheory
