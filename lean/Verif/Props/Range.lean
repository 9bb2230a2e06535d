import Verif.Proof.Range
import Verif.Props.GraphTheory
import Verif.Props.Selection

/-!
# The numbers stay in range (C176)

The code counts in 32 bits, and a release build wraps around silently. A graph has at most 2^32 - 1 tasks (petgraph); what is counted
stays below the number of tasks, except `num_ready` after a soft shutdown (C19). Run counts are in `Props.Rerun`.
-/

namespace Verif.Props.Tracker
open Verif Verif.Tracker

variable {c : Cfg} {lf : LogFile} {now : Int} {s : State}

/-- **C176 (counters).** During an execute the tasks are divided into those counted as successes, failures, ready or running, and
unready: so none of these counters exceeds the number of tasks. Quick failures are among the failures. -/
theorem counters_divide (hg : Good c) (hr : Reachable c lf now s) :
    s.nSuccess + s.nFailed + s.nRoi ≤ c.g.n ∧ (s.pc ≠ .new → s.nSuccess + s.nFailed + s.nRoi + s.nUnready = c.g.n) ∧
    s.nFizzled ≤ s.nFailed := by
  obtain ⟨hi, hh⟩ := hr.inv hg
  have hc := hi.core.cnt
  have h1 := (failure_count hg hr).2.2.1
  have h2 : (closedTasks s).length = s.processed.length + s.drained.length := by simp [closedTasks]
  have h3 := hc.roi
  have h4 : s.flags.length ≤ c.g.n := by
    have hs : (owners s.flags).Subperm (List.range c.g.n) :=
      List.subperm_of_subset hi.core.deps.nodup (fun v hv => List.mem_range.2 (hi.core.deps.lt v hv))
    have := hs.length_le
    simpa [owners] using this
  refine ⟨by omega, fun hp => ?_, hr.quick⟩
  have hb : begunOf s.pc = true := by cases hp' : s.pc <;> simp_all [begunOf]
  have := hc.unready hb
  omega

/-- **C176 (queues).** Until a shutdown begins, the numbers of ready and running tasks of a queue together are at most the number of
tasks; the number of running tasks is so always. -/
theorem queue_counters_fit (hg : Good c) (hr : Reachable c lf now s) {a : BitVec 64} {sn : Snap} (hq : s.qs a = some sn) :
    (s.readyOpen = true → sn.numReady + sn.numInflight ≤ c.g.n) ∧ sn.numInflight ≤ c.g.n := by
  obtain ⟨h1, h2⟩ := queue_counters hg hr hq
  have hl : ∀ p : Nat → Bool, (List.range c.g.n).countP p ≤ c.g.n := fun p => by
    have := List.countP_le_length (p := p) (l := List.range c.g.n)
    simpa using this
  refine ⟨fun ho => ?_, by rw [h2]; exact hl _⟩
  rw [h1 ho, h2]
  have := countP_disjoint (l := List.range c.g.n)
    (p := fun v => decide ((cmdOf c.g v).affinity = a ∧ MadeReady c lf s v ∧ v ∉ s.obtained.map (·.2)))
    (q := fun v => decide ((cmdOf c.g v).affinity = a ∧ v ∈ s.obtained.map (·.2) ∧ v ∉ (closedTasks s).map (·.1)))
    (fun v h1 h2 => by
      simp only [decide_eq_true_eq] at h1 h2
      exact h1.2.2 h2.2.1)
  simpa using this

/-- Non-trivial case of both: a success, a task that is running and one that is ready; the last is unready. -/
example : after diamond (runA ++ [.recvFinished [1, 2] t0, .sendNext, .sendNext, .sendDone t0] ++ take 1 0)
    (fun s => s.nSuccess == 1 && s.nFailed == 0 && s.nRoi == 2 && s.nUnready == 1 && s.readyOpen) = true := by
  decide +kernel

end Verif.Props.Tracker

namespace Verif.Props.GraphTheory
open Verif Verif.DiGraph

/-- **C176 (priorities).** A chain of dependencies visits no task twice, so priorities are smaller than the number of tasks. -/
theorem priority_fits {α : Type} (g : DiGraph α) (order : List Nat) (ht : g.Topo order) (v : Nat) (hv : v < g.n) :
    g.tlevel order v < g.n := by
  obtain ⟨⟨u, hw⟩, _⟩ := priority_is_longest_chain g order ht v hv
  have hlen : order.length ≤ g.n := by
    have := (List.subperm_of_subset ht.nodup (l₂ := List.range g.n) (fun v hv => List.mem_range.2 ((ht.mem v).1 hv))).length_le
    simpa using this
  obtain ⟨a, b, he⟩ := List.append_of_mem ((ht.mem v).2 hv)
  have := walk_le_position ht hw a b he
  have h2 : order.length = a.length + (b.length + 1) := by rw [he]; simp
  omega

/-- Non-trivial case, and the bound is sharp: a chain of four tasks. -/
example :
    let g : DiGraph String := ⟨["a", "b", "c", "d"], [(0, 1), (1, 2), (2, 3)]⟩
    g.Topo [0, 1, 2, 3] ∧ g.tlevel [0, 1, 2, 3] 3 = 3 :=
  ⟨topo_of_isTopo (by decide), by decide⟩

end Verif.Props.GraphTheory

namespace Verif.Props.Selection
open Verif Verif.DiGraph

/-- **C176 (priorities in the graph).** The priorities that `execute` writes into the graph are smaller than the number of tasks. -/
theorem priorities_fit (g : ExecGraph) (ch : Choices) (ht : g.deps.Topo ch.ordPrio) {v : Nat} {cmd : Cmd}
    (hv : (prioritised g ch).nodes[v]? = some cmd) : cmd.priority < g.deps.n := by
  simp only [withPriorities, List.getElem?_mapIdx, Option.map_eq_some_iff] at hv
  obtain ⟨x, hx, rfl⟩ := hv
  exact GraphTheory.priority_fits g.deps ch.ordPrio ht v (List.getElem?_eq_some_iff.1 hx).1

end Verif.Props.Selection
