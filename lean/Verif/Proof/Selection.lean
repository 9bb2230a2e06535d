import Verif.Proof.Subgraph
import Verif.Spec.Selection

namespace Verif
open DiGraph Spec

theorem getElem?_lt {α : Type} {l : List α} {i : Nat} {x : α} (h : l[i]? = some x) : i < l.length := by
  rcases Nat.lt_or_ge i l.length with h' | h'
  · exact h'
  · rw [List.getElem?_eq_none h'] at h; cases h

theorem subOf_target (deps : DiGraph Cmd) (target : Option Nat) (ordRev : List Nat) (hw : deps.WF)
    (ht : deps.reverse.Topo ordRev) :
    ∃ ids, SubOf (targetGraph deps target ordRev) deps ids ∧
      ∀ i, i ∈ ids ↔ Considered deps target i := by
  refine ⟨_, subOf_filterMap deps _ ?_, ?_⟩
  · intro i w w' h
    split at h
    · exact (Option.some.inj h).symm
    · cases h
  · intro i
    rw [mem_keptList, Considered, ← relevant_iff hw ht]
    unfold kept
    constructor
    · intro h
      cases hn : deps.nodes[i]? with
      | none => rw [hn] at h; cases h
      | some w =>
        rw [hn] at h
        refine ⟨getElem?_lt hn, ?_⟩
        by_cases hr : relevant deps target ordRev i = true
        · exact hr
        · simp [hr] at h
    · rintro ⟨h1, h2⟩
      rw [List.getElem?_eq_getElem h1]
      simp [h2]

theorem subOf_pending (deps : DiGraph Cmd) (completed : List String) (log : LogMem) (target : Option Nat)
    (ordRev : List Nat) (hw : deps.WF) (ht : deps.reverse.Topo ordRev) :
    ∃ ids, SubOf (pendingGraph (targetGraph deps target ordRev) completed log) deps ids ∧
      ∀ i, i ∈ ids ↔ Pending deps completed log target i := by
  obtain ⟨ids1, h1, m1⟩ := subOf_target deps target ordRev hw ht
  have h2 := subOf_filterMap (targetGraph deps target ordRev)
    (fun _ w => if completed.contains w.key then none else if log.hasSuccess w.key then none else some w)
    (by
      intro i w w' h
      split at h
      · cases h
      · split at h
        · cases h
        · exact (Option.some.inj h).symm)
  refine ⟨_, h2.trans h1, ?_⟩
  intro i
  rw [mem_compIds, Pending, ← m1]
  constructor
  · rintro ⟨a, ha, hi⟩
    refine ⟨List.mem_of_getElem? hi, ?_⟩
    rw [mem_keptList] at ha
    unfold kept at ha
    rw [(h1.node a i hi).2] at ha
    cases hn : deps.nodes[i]? with
    | none => rw [hn] at ha; cases ha
    | some w =>
      rw [hn] at ha
      simp only [List.contains_eq_mem, decide_eq_true_eq] at ha
      by_cases hc : w.key ∈ completed
      · simp [hc] at ha
      · by_cases hs : log.hasSuccess w.key = true
        · simp [hc, hs] at ha
        · constructor
          · rintro ⟨c, h', h''⟩
            rw [hn] at h'; cases h'; exact hc h''
          · rintro ⟨c, h', h''⟩
            rw [hn] at h'; cases h'; exact hs h''
  · rintro ⟨hi, hd, hs⟩
    obtain ⟨a, ha⟩ := List.getElem?_of_mem hi
    refine ⟨a, ?_, ha⟩
    rw [mem_keptList]
    unfold kept
    obtain ⟨hlt, hnode⟩ := h1.node a i ha
    rw [hnode, List.getElem?_eq_getElem hlt]
    have hc : (deps.nodes[i]'hlt).key ∉ completed := fun h => hd ⟨_, List.getElem?_eq_getElem hlt, h⟩
    have hs' : ¬ log.hasSuccess (deps.nodes[i]'hlt).key = true := fun h => hs ⟨_, List.getElem?_eq_getElem hlt, h⟩
    simp only [Bool.not_eq_true] at hs'
    simp [hc, hs']

theorem isFailure_iff {f deps : DiGraph Cmd} {ids : List Nat} (h : SubOf f deps ids) (log : LogMem)
    {a i : Nat} (ha : ids[a]? = some i) : isFailure f log a = true ↔ Failed deps log i := by
  obtain ⟨hlt, hnode⟩ := h.node a i ha
  unfold isFailure Failed
  rw [hnode]
  cases hn : deps.nodes[i]? with
  | none => simp
  | some w => simp

/-- The selected graph is the induced subgraph on the selected tasks. -/
theorem selection_spec (deps : DiGraph Cmd) (completed : List String) (log : LogMem) (target : Option Nat)
    (rerun : Bool) (ch : Choices) (hw : deps.WF) (hrev : deps.reverse.Topo ch.ordRev)
    (hfilt : (pendingGraph (targetGraph deps target ch.ordRev) completed log).Topo ch.ordFilt) :
    ∃ ids, SubOf (select deps completed log target rerun ch).1 deps ids ∧
      ∀ i, i ∈ ids ↔ Selected deps completed log target rerun i := by
  obtain ⟨ids1, h1, m1⟩ := subOf_pending deps completed log target ch.ordRev hw hrev
  unfold select
  simp only
  cases rerun with
  | true =>
    refine ⟨ids1, h1, fun i => ?_⟩
    rw [m1, Selected]
    simp
  | false =>
    simp only [Bool.false_eq_true, if_false]
    generalize hF : pendingGraph (targetGraph deps target ch.ordRev) completed log = f at *
    have h2 : SubOf (noFailGraph f ch.ordFilt log) f _ := subOf_filterMap f _ (by
      intro i w w' h
      split at h
      · cases h
      · split at h
        · cases h
        · exact (Option.some.inj h).symm)
    refine ⟨_, h2.trans h1, fun i => ?_⟩
    have htc := tcInv hfilt h1.wf
    have hvia : deps.ReachVia (fun x => x ∈ ids1) = deps.ReachVia (Pending deps completed log target) := by
      congr 1; funext x; exact propext (m1 x)
    -- downstream of a failure, seen from `f`
    have hdown : ∀ a i, ids1[a]? = some i →
        (((f.transitiveClosure ch.ordFilt).preds a).any (isFailure f log) = true ↔
          ∃ j, Failed deps log j ∧ deps.ReachVia (Pending deps completed log target) j i) := by
      intro a i ha
      rw [List.any_eq_true]
      constructor
      · rintro ⟨x, hx, hfx⟩
        have hr := htc.sound x a (mem_preds.1 hx)
        have hxn : x < f.n := by
          obtain ⟨k, hk⟩ := hr
          obtain ⟨y, hy, _⟩ := hk.head
          exact (h1.wf _ hy).1
        obtain ⟨j, hj⟩ := h1.lt hxn
        refine ⟨j, (isFailure_iff h1 log hj).1 hfx, ?_⟩
        rw [← hvia]
        exact (h1.reach_iff hj ha).1 hr
      · rintro ⟨j, hfj, hr⟩
        have hjm : j ∈ ids1 := (m1 j).2 hr.left
        obtain ⟨x, hx⟩ := List.getElem?_of_mem hjm
        rw [← hvia] at hr
        have hreach := (h1.reach_iff hx ha).2 hr
        refine ⟨x, mem_preds.2 (htc.done x ?_ a hreach), (isFailure_iff h1 log hx).2 hfj⟩
        rw [hfilt.mem, h1.size]
        exact getElem?_lt hx
    rw [mem_compIds, Selected, ← m1]
    constructor
    · rintro ⟨a, ha, hi⟩
      rw [mem_keptList] at ha
      unfold kept at ha
      have hfa := isFailure_iff h1 log hi
      have hda := hdown a i hi
      refine ⟨List.mem_of_getElem? hi, fun _ => ?_⟩
      cases hn : f.nodes[a]? with
      | none => rw [hn] at ha; cases ha
      | some w =>
        rw [hn] at ha
        by_cases hc : isFailure f log a = true
        · simp [hc] at ha
        · by_cases hd : ((f.transitiveClosure ch.ordFilt).preds a).any (isFailure f log) = true
          · simp only [hc, hd, if_true] at ha; cases ha
          · refine ⟨fun h => hc (hfa.2 h), fun j hj hr => hd (hda.2 ⟨j, hj, hr⟩)⟩
    · rintro ⟨hi, hsel⟩
      obtain ⟨hnf, hnd⟩ := hsel rfl
      obtain ⟨a, ha⟩ := List.getElem?_of_mem hi
      refine ⟨a, ?_, ha⟩
      rw [mem_keptList]
      unfold kept
      have hlt : a < f.n := by rw [h1.size]; exact getElem?_lt ha
      rw [List.getElem?_eq_getElem hlt]
      have hc : ¬ isFailure f log a = true := fun h => hnf ((isFailure_iff h1 log ha).1 h)
      have hd : ¬ ((f.transitiveClosure ch.ordFilt).preds a).any (isFailure f log) = true := fun h => by
        obtain ⟨j, hj, hr⟩ := (hdown a i ha).1 h
        exact hnd j hj hr
      simp only [hc, hd]
      rfl

/-- Membership of reused keys. -/
theorem mem_reused (deps : DiGraph Cmd) (completed : List String) (log : LogMem) (target : Option Nat)
    (rerun : Bool) (ch : Choices) (hw : deps.WF) (hrev : deps.reverse.Topo ch.ordRev) (k : String) :
    k ∈ (select deps completed log target rerun ch).2 ↔
      ∃ i c, deps.nodes[i]? = some c ∧ c.key = k ∧ Considered deps target i ∧ k ∉ completed ∧
        (log.hasSuccess k = true ∨ (rerun = false ∧ log.hasFailure k = true)) := by
  obtain ⟨ids0, h0, m0⟩ := subOf_target deps target ch.ordRev hw hrev
  obtain ⟨ids1, h1, m1⟩ := subOf_pending deps completed log target ch.ordRev hw hrev
  have hS : k ∈ reusedSuccess (targetGraph deps target ch.ordRev) completed log ↔
      ∃ i c, deps.nodes[i]? = some c ∧ c.key = k ∧ Considered deps target i ∧ k ∉ completed ∧
        log.hasSuccess k = true := by
    unfold reusedSuccess
    simp only [List.mem_map, List.mem_filter, List.contains_eq_mem, Bool.and_eq_true,
      Bool.not_eq_true', decide_eq_false_iff_not]
    constructor
    · rintro ⟨c, ⟨hc, hnc, hs⟩, rfl⟩
      obtain ⟨a, ha⟩ := List.getElem?_of_mem hc
      obtain ⟨i, hi⟩ := h0.lt (getElem?_lt ha)
      rw [(h0.node a i hi).2] at ha
      exact ⟨i, c, ha, rfl, (m0 i).1 (List.mem_of_getElem? hi), hnc, hs⟩
    · rintro ⟨i, c, hc, rfl, hcons, hnc, hs⟩
      obtain ⟨a, ha⟩ := List.getElem?_of_mem ((m0 i).2 hcons)
      refine ⟨c, ⟨?_, hnc, hs⟩, rfl⟩
      have := (h0.node a i ha).2
      rw [hc] at this
      exact List.mem_of_getElem? this
  have hns : ∀ k, log.hasFailure k = true → ¬ log.hasSuccess k = true := by
    intro k h h'
    unfold LogMem.hasFailure at h
    unfold LogMem.hasSuccess at h'
    cases hr : log.runcounts k with
    | none => rw [hr] at h; simp at h
    | some st => cases st <;> simp_all
  have hF : k ∈ reusedFailure (pendingGraph (targetGraph deps target ch.ordRev) completed log) log ↔
      ∃ i c, deps.nodes[i]? = some c ∧ c.key = k ∧ Considered deps target i ∧ k ∉ completed ∧
        log.hasFailure k = true := by
    unfold reusedFailure
    simp only [List.mem_map, List.mem_filter]
    constructor
    · rintro ⟨c, ⟨hc, hf⟩, rfl⟩
      obtain ⟨a, ha⟩ := List.getElem?_of_mem hc
      obtain ⟨i, hi⟩ := h1.lt (getElem?_lt ha)
      rw [(h1.node a i hi).2] at ha
      obtain ⟨hp1, hp2, _⟩ := (m1 i).1 (List.mem_of_getElem? hi)
      exact ⟨i, c, ha, rfl, hp1, fun h => hp2 ⟨c, ha, h⟩, hf⟩
    · rintro ⟨i, c, hc, rfl, hcons, hnc, hf⟩
      have hp : Pending deps completed log target i := by
        refine ⟨hcons, ?_, ?_⟩
        · rintro ⟨c', h', h''⟩; rw [hc] at h'; cases h'; exact hnc h''
        · rintro ⟨c', h', h''⟩; rw [hc] at h'; cases h'; exact hns _ hf h''
      obtain ⟨a, ha⟩ := List.getElem?_of_mem ((m1 i).2 hp)
      refine ⟨c, ⟨?_, hf⟩, rfl⟩
      have := (h1.node a i ha).2
      rw [hc] at this
      exact List.mem_of_getElem? this
  unfold select
  simp only
  cases rerun with
  | true =>
    simp only [if_true]
    rw [hS]; simp
  | false =>
    simp only [Bool.false_eq_true, if_false, List.mem_append]
    rw [hS, hF]
    constructor
    · rintro (⟨i, c, a1, a2, a3, a4, a5⟩ | ⟨i, c, a1, a2, a3, a4, a5⟩)
      · exact ⟨i, c, a1, a2, a3, a4, .inl a5⟩
      · exact ⟨i, c, a1, a2, a3, a4, .inr ⟨by trivial, a5⟩⟩
    · rintro ⟨i, c, a1, a2, a3, a4, a5 | ⟨_, a5⟩⟩
      · exact .inl ⟨i, c, a1, a2, a3, a4, a5⟩
      · exact .inr ⟨i, c, a1, a2, a3, a4, a5⟩

/-- Keys of an induced subgraph of a graph with distinct keys are distinct. -/
theorem SubOf.keys_nodup {s g : DiGraph Cmd} {ids : List Nat} (h : SubOf s g ids)
    (hg : (g.nodes.map (·.key)).Nodup) : (s.nodes.map (·.key)).Nodup := by
  unfold List.Nodup at *
  rw [List.pairwise_iff_getElem] at *
  intro a b ha hb hab
  rw [List.length_map] at ha hb
  obtain ⟨i, hi⟩ := h.lt (a := a) ha
  obtain ⟨j, hj⟩ := h.lt (a := b) hb
  have h1 := h.node a i hi
  have h2 := h.node b j hj
  have hij : i < j := by
    obtain ⟨q1, rfl⟩ := List.getElem?_eq_some_iff.1 hi
    obtain ⟨q2, rfl⟩ := List.getElem?_eq_some_iff.1 hj
    exact List.pairwise_iff_getElem.1 h.increasing a b q1 q2 hab
  have key := hg i j (by rw [List.length_map]; exact h1.1) (by rw [List.length_map]; exact h2.1) hij
  simp only [List.getElem_map] at key ⊢
  have e1 := h1.2
  have e2 := h2.2
  rw [List.getElem?_eq_getElem ha, List.getElem?_eq_getElem h1.1, Option.some.injEq] at e1
  rw [List.getElem?_eq_getElem hb, List.getElem?_eq_getElem h2.1, Option.some.injEq] at e2
  rw [e1, e2]
  exact key

theorem reused_nodup (deps : DiGraph Cmd) (completed : List String) (log : LogMem) (target : Option Nat)
    (rerun : Bool) (ch : Choices) (hw : deps.WF) (hrev : deps.reverse.Topo ch.ordRev)
    (hk : (deps.nodes.map (·.key)).Nodup) :
    (select deps completed log target rerun ch).2.Nodup := by
  obtain ⟨ids0, h0, m0⟩ := subOf_target deps target ch.ordRev hw hrev
  obtain ⟨ids1, h1, m1⟩ := subOf_pending deps completed log target ch.ordRev hw hrev
  have n0 := SubOf.keys_nodup h0 hk
  have n1 := SubOf.keys_nodup h1 hk
  have f0 : (reusedSuccess (targetGraph deps target ch.ordRev) completed log).Nodup :=
    n0.sublist (List.Sublist.map _ List.filter_sublist)
  unfold select
  simp only
  cases rerun with
  | true => exact f0
  | false =>
    simp only [Bool.false_eq_true, if_false]
    rw [List.nodup_append]
    refine ⟨f0, n1.sublist (List.Sublist.map _ List.filter_sublist), ?_⟩
    intro a ha b hb e
    subst e
    simp only [reusedSuccess, reusedFailure, List.mem_map, List.mem_filter, Bool.and_eq_true] at ha hb
    obtain ⟨c, ⟨_, _, hs⟩, rfl⟩ := ha
    obtain ⟨c', ⟨_, hf⟩, he⟩ := hb
    rw [he] at hf
    unfold LogMem.hasFailure at hf
    unfold LogMem.hasSuccess at hs
    cases hr : log.runcounts c.key with
    | none => rw [hr] at hf; simp at hf
    | some st => cases st <;> simp_all

theorem writeBackrefs_spec (ks : List String) : ∀ (lf : LogFile) (completed : List String),
    ∃ lf' completed', writeBackrefs lf completed ks = .ok (lf', completed') ∧
      lf'.mem = lf.mem ∧ lf'.dir = lf.dir ∧
      lf'.entries = lf.entries ++ ks.map (fun k => LogEntry.backref ⟨k⟩) ∧
      (∀ k, k ∈ completed' ↔ k ∈ completed ∨ k ∈ ks) := by
  induction ks with
  | nil => intro lf c; exact ⟨lf, c, rfl, rfl, rfl, by simp, by simp⟩
  | cons k ks ih =>
    intro lf c
    obtain ⟨lf', c', h1, h2, h3, h4, h5⟩ := ih { lf with mem := lf.mem, entries := lf.entries ++ [.backref ⟨k⟩] }
      (if k ∈ c then c else c ++ [k])
    refine ⟨lf', c', ?_, h2, h3, ?_, ?_⟩
    · simp only [writeBackrefs, LogFile.write, LogMem.write, Res.bind]
      exact h1
    · rw [h4]; simp
    · intro x
      rw [h5]
      split
      · rename_i hk
        constructor
        · rintro (h | h)
          · exact .inl h
          · exact .inr (by simp [h])
        · rintro (h | h)
          · exact .inl h
          · simp only [List.mem_cons] at h
            rcases h with rfl | h
            · exact .inl hk
            · exact .inr h
      · simp [or_assoc]

/-- Valid choices exist for graphs made by `add_task`. -/
theorem choices_exist (deps : DiGraph Cmd) (completed : List String) (log : LogMem) (target : Option Nat)
    (rerun : Bool) (hw : deps.WF) (hlt : ∀ u v, deps.Dep u v → u < v) :
    ∃ ch, ValidChoices deps completed log target rerun ch := by
  have hrev := topo_reverse_range hlt hw
  obtain ⟨ids, h1, _⟩ := subOf_pending deps completed log target (List.range deps.n).reverse hw hrev
  exact ⟨⟨List.range deps.n, (List.range deps.n).reverse, List.range _,
    (select deps completed log target rerun ⟨List.range deps.n, (List.range deps.n).reverse, List.range _, []⟩).2⟩,
    topo_range hw hlt, hrev, topo_range h1.wf (h1.edges_lt hlt), List.Perm.refl _⟩

end Verif
