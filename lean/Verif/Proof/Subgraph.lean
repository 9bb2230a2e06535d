import Verif.Proof.AddTask

namespace Verif
namespace DiGraph
variable {α β : Type}

theorem filterMap_getElem? {γ δ : Type} (h : γ → Option δ) (l : List γ) :
    ∀ a : Nat, (l.filterMap h)[a]? = ((l.filter (fun x => (h x).isSome))[a]?).bind h := by
  induction l with
  | nil => intro a; simp
  | cons x l ih =>
    intro a
    cases hx : h x with
    | none => simp [hx, ih]
    | some y =>
      cases a with
      | zero => simp [hx]
      | succ a => simp [hx, ih]

theorem kept_lt {g : DiGraph α} {f : Nat → α → Option β} {i : Nat} (h : g.kept f i = true) : i < g.n := by
  unfold kept at h
  rcases Nat.lt_or_ge i g.nodes.length with hl | hl
  · exact hl
  · rw [List.getElem?_eq_none hl] at h; cases h

theorem keptList_getElem {g : DiGraph α} {f : Nat → α → Option β} {i : Nat} (h : g.kept f i = true) :
    (g.keptList f)[g.newIndex f i]? = some i := by
  unfold keptList newIndex
  have hl := kept_lt h
  have e : List.range g.n = List.range i ++ (List.range (g.n - i)).map (i + ·) := by
    rw [← List.range_add]; congr 1; omega
  rw [e, List.filter_append, List.getElem?_append_right (Nat.le_refl _), Nat.sub_self]
  have e2 : g.n - i = (g.n - i - 1) + 1 := by omega
  rw [e2, List.range_succ_eq_map]
  simp [h]

theorem mem_keptList {g : DiGraph α} {f : Nat → α → Option β} {i : Nat} :
    i ∈ g.keptList f ↔ g.kept f i = true := by
  unfold keptList
  rw [List.mem_filter, List.mem_range]
  exact ⟨fun h => h.2, fun h => ⟨kept_lt h, h⟩⟩

theorem keptList_sorted (g : DiGraph α) (f : Nat → α → Option β) : (g.keptList f).Pairwise (· < ·) :=
  List.Pairwise.filter _ List.pairwise_lt_range

theorem increasing_nodup {l : List Nat} (h : l.Pairwise (· < ·)) : l.Nodup :=
  h.imp (fun h => by omega)

theorem getElem?_inj_of_nodup {l : List Nat} (h : l.Nodup) {a b i : Nat} (ha : l[a]? = some i)
    (hb : l[b]? = some i) : a = b := by
  have hal : a < l.length := by
    rcases Nat.lt_or_ge a l.length with h | h
    · exact h
    · rw [List.getElem?_eq_none h] at ha; cases ha
  exact (List.getElem?_inj hal h).1 (by rw [ha, hb])

theorem newIndex_of_getElem {g : DiGraph α} {f : Nat → α → Option β} {a i : Nat}
    (h : (g.keptList f)[a]? = some i) : g.newIndex f i = a := by
  have hk := mem_keptList.1 (List.mem_of_getElem? h)
  exact getElem?_inj_of_nodup (increasing_nodup (g.keptList_sorted f)) (keptList_getElem hk) h

theorem filterMap_n (g : DiGraph α) (f : Nat → α → Option β) : (g.filterMap f).n = (g.keptList f).length := by
  unfold n filterMap keptList
  simp only
  have : ∀ l : List Nat, (l.filterMap (fun i => (g.nodes[i]?).bind (f i))).length
      = (l.filter (g.kept f)).length := by
    intro l
    induction l with
    | nil => rfl
    | cons x l ih =>
      have hk : g.kept f x = ((g.nodes[x]?).bind (f x)).isSome := by
        unfold kept
        cases g.nodes[x]? <;> rfl
      cases hx : (g.nodes[x]?).bind (f x) with
      | none => rw [hx] at hk; simp at hk; simp [hx, hk, ih]
      | some y => rw [hx] at hk; simp at hk; simp [hx, hk, ih]
  exact this _

theorem filterMap_node {g : DiGraph α} {f : Nat → α → Option β} {a i : Nat}
    (h : (g.keptList f)[a]? = some i) :
    (g.filterMap f).nodes[a]? = (g.nodes[i]?).bind (f i) := by
  unfold filterMap
  simp only
  rw [filterMap_getElem?]
  have : (List.range g.n).filter (fun i => ((g.nodes[i]?).bind (f i)).isSome) = g.keptList f := by
    unfold keptList
    congr 1
    funext x
    unfold kept
    cases g.nodes[x]? <;> rfl
  rw [this, h]; rfl

theorem filterMap_edge {g : DiGraph α} {f : Nat → α → Option β} {a b i j : Nat}
    (ha : (g.keptList f)[a]? = some i) (hb : (g.keptList f)[b]? = some j) :
    (g.filterMap f).edges.count (a, b) = g.edges.count (i, j) := by
  unfold filterMap
  simp only
  rw [List.count, List.countP_map, List.countP_filter, List.count]
  apply List.countP_congr
  rintro ⟨x, y⟩ _
  simp only [Function.comp, Bool.and_eq_true, beq_iff_eq, Prod.mk.injEq]
  constructor
  · rintro ⟨⟨h1, h2⟩, h3, h4⟩
    have e1 := keptList_getElem h3
    have e2 := keptList_getElem h4
    rw [h1, ha] at e1
    rw [h2, hb] at e2
    exact ⟨(Option.some.inj e1).symm, (Option.some.inj e2).symm⟩
  · rintro ⟨rfl, rfl⟩
    exact ⟨⟨newIndex_of_getElem ha, newIndex_of_getElem hb⟩, mem_keptList.1 (List.mem_of_getElem? ha),
      mem_keptList.1 (List.mem_of_getElem? hb)⟩

theorem filterMap_wf (g : DiGraph α) (f : Nat → α → Option β) : (g.filterMap f).WF := by
  intro e he
  rw [filterMap_n]
  simp only [filterMap, List.mem_map, List.mem_filter, Bool.and_eq_true] at he
  obtain ⟨⟨x, y⟩, ⟨_, hx, hy⟩, rfl⟩ := he
  have h1 := keptList_getElem hx
  have h2 := keptList_getElem hy
  constructor
  · rcases Nat.lt_or_ge (g.newIndex f x) (g.keptList f).length with h | h
    · exact h
    · rw [List.getElem?_eq_none h] at h1; cases h1
  · rcases Nat.lt_or_ge (g.newIndex f y) (g.keptList f).length with h | h
    · exact h
    · rw [List.getElem?_eq_none h] at h2; cases h2

/-- `filter_map` that keeps weights gives an induced subgraph. -/
theorem subOf_filterMap (g : DiGraph α) (f : Nat → α → Option α)
    (hf : ∀ i w w', f i w = some w' → w' = w) : SubOf (g.filterMap f) g (g.keptList f) where
  increasing := g.keptList_sorted f
  size := filterMap_n g f
  node := by
    intro a i h
    have hk := mem_keptList.1 (List.mem_of_getElem? h)
    refine ⟨kept_lt hk, ?_⟩
    rw [filterMap_node h]
    unfold kept at hk
    cases hn : g.nodes[i]? with
    | none => rfl
    | some w =>
      rw [hn] at hk
      simp only at hk
      obtain ⟨w', hw'⟩ := Option.isSome_iff_exists.1 hk
      simp only [Option.bind_some]
      rw [hw', hf i w w' hw']
  edge := fun _ _ _ _ ha hb => filterMap_edge ha hb
  wf := filterMap_wf g f

theorem SubOf.lt {s g : DiGraph α} {ids : List Nat} (h : SubOf s g ids) {a : Nat} (ha : a < s.n) :
    ∃ i, ids[a]? = some i := by
  rw [h.size] at ha
  exact ⟨ids[a], List.getElem?_eq_getElem ha⟩

theorem SubOf.dep_iff {s g : DiGraph α} {ids : List Nat} (h : SubOf s g ids) {a b i j : Nat}
    (ha : ids[a]? = some i) (hb : ids[b]? = some j) : s.Dep a b ↔ g.Dep i j := by
  unfold Dep
  rw [← List.count_pos_iff, ← List.count_pos_iff, h.edge a b i j ha hb]

/-- Index lists compose. -/
def compIds (ids2 ids1 : List Nat) : List Nat := ids2.filterMap (fun a => ids1[a]?)

theorem mem_compIds {ids2 ids1 : List Nat} {i : Nat} :
    i ∈ compIds ids2 ids1 ↔ ∃ a ∈ ids2, ids1[a]? = some i := by
  simp [compIds, List.mem_filterMap]

theorem compIds_getElem? {ids2 ids1 : List Nat} (hb : ∀ a ∈ ids2, a < ids1.length) (c : Nat) :
    (compIds ids2 ids1)[c]? = (ids2[c]?).bind (fun a => ids1[a]?) := by
  unfold compIds
  rw [filterMap_getElem?]
  congr 2
  rw [List.filter_eq_self]
  intro a ha
  rw [List.getElem?_eq_getElem (hb a ha)]; rfl

theorem SubOf.trans {s2 s1 g : DiGraph α} {ids2 ids1 : List Nat} (h2 : SubOf s2 s1 ids2)
    (h1 : SubOf s1 g ids1) : SubOf s2 g (compIds ids2 ids1) := by
  have hb : ∀ a ∈ ids2, a < ids1.length := by
    intro a ha
    obtain ⟨c, hc⟩ := List.getElem?_of_mem ha
    have := (h2.node c a hc).1
    rwa [h1.size] at this
  have hget := compIds_getElem? hb
  have hsplit : ∀ c i : Nat, (compIds ids2 ids1)[c]? = some i → ∃ a : Nat, ids2[c]? = some a ∧ ids1[a]? = some i := by
    intro c i h
    rw [hget c] at h
    exact Option.bind_eq_some_iff.1 h
  refine ⟨?_, ?_, ?_, ?_, h2.wf⟩
  · -- increasing
    unfold compIds
    rw [List.pairwise_filterMap]
    refine h2.increasing.imp ?_
    intro a b hab x hx y hy
    obtain ⟨ha, rfl⟩ := List.getElem?_eq_some_iff.1 hx
    obtain ⟨hb', rfl⟩ := List.getElem?_eq_some_iff.1 hy
    exact List.pairwise_iff_getElem.1 h1.increasing a b ha hb' hab
  · rw [h2.size]
    unfold compIds
    clear hget hsplit
    induction ids2 with
    | nil => rfl
    | cons x l ih =>
      have hx := hb x (by simp)
      simp only [List.length_cons]
      rw [List.filterMap_cons_some (List.getElem?_eq_getElem hx)]
      simp only [List.length_cons]
      have : l.length = (l.filterMap (fun a => ids1[a]?)).length := by
        have hb' : ∀ a ∈ l, a < ids1.length := fun a ha => hb a (by simp [ha])
        clear ih hb h2
        induction l with
        | nil => rfl
        | cons y l ih2 =>
          rw [List.filterMap_cons_some (List.getElem?_eq_getElem (hb' y (by simp)))]
          simp only [List.length_cons]
          rw [ih2 (fun a ha => hb' a (by simp [ha]))]
      exact congrArg Nat.succ this
  · intro c i h
    obtain ⟨a, ha, hi⟩ := hsplit c i h
    refine ⟨(h1.node a i hi).1, ?_⟩
    rw [(h2.node c a ha).2, (h1.node a i hi).2]
  · intro c d i j hc hd
    obtain ⟨a, ha, hi⟩ := hsplit c i hc
    obtain ⟨b, hb', hj⟩ := hsplit d j hd
    rw [h2.edge c d a b ha hb', h1.edge a b i j hi hj]

/-- Paths inside an induced subgraph are paths of the graph through its nodes. -/
theorem SubOf.reach_iff {s g : DiGraph α} {ids : List Nat} (h : SubOf s g ids) {a b i j : Nat}
    (ha : ids[a]? = some i) (hb : ids[b]? = some j) :
    s.Reach a b ↔ g.ReachVia (· ∈ ids) i j := by
  constructor
  · rintro ⟨k, hk⟩
    induction k generalizing b j with
    | zero =>
      cases hk with
      | snoc h0 hd =>
        cases h0
        exact .single (List.mem_of_getElem? ha) (List.mem_of_getElem? hb) ((h.dep_iff ha hb).1 hd)
    | succ k ih =>
      cases hk with
      | @snoc _ _ x _ h0 hd =>
        obtain ⟨y, hy⟩ := h.lt (h.wf _ hd).1
        exact .snoc (ih hy h0) (List.mem_of_getElem? hb) ((h.dep_iff hy hb).1 hd)
  · intro hr
    induction hr generalizing b with
    | single _ _ hd => exact .of_dep ((h.dep_iff ha hb).2 hd)
    | @snoc x w hvia hw hd ih =>
      have hx : x ∈ ids := by cases hvia <;> assumption
      obtain ⟨y, hy⟩ := List.getElem?_of_mem hx
      exact (ih hy).trans (.of_dep ((h.dep_iff hy hb).2 hd))

theorem ReachVia.mono {g : DiGraph α} {P Q : Nat → Prop} (h : ∀ x, P x → Q x) {u v : Nat}
    (hr : g.ReachVia P u v) : g.ReachVia Q u v := by
  induction hr with
  | single a b c => exact .single (h _ a) (h _ b) c
  | snoc _ b c ih => exact .snoc ih (h _ b) c

theorem ReachVia.left {g : DiGraph α} {P : Nat → Prop} {u v : Nat} (hr : g.ReachVia P u v) : P u := by
  induction hr with
  | single a _ _ => exact a
  | snoc _ _ _ ih => exact ih

/-- Increasing edges survive in induced subgraphs, so `0,1,2,..` is a topological order of them. -/
theorem SubOf.edges_lt {s g : DiGraph α} {ids : List Nat} (h : SubOf s g ids)
    (hlt : ∀ u v, g.Dep u v → u < v) : ∀ a b, s.Dep a b → a < b := by
  intro a b hd
  obtain ⟨i, hi⟩ := h.lt (h.wf _ hd).1
  obtain ⟨j, hj⟩ := h.lt (h.wf _ hd).2
  simp only at hi hj
  have hij := hlt i j ((h.dep_iff hi hj).1 hd)
  apply Nat.lt_of_not_le
  intro hba
  rcases Nat.lt_or_eq_of_le hba with hlt' | heq
  · obtain ⟨h1, rfl⟩ := List.getElem?_eq_some_iff.1 hi
    obtain ⟨h2, rfl⟩ := List.getElem?_eq_some_iff.1 hj
    have := List.pairwise_iff_getElem.1 h.increasing b a h2 h1 hlt'
    omega
  · subst heq
    rw [hi] at hj
    have := Option.some.inj hj
    omega

theorem topo_range {g : DiGraph α} (hw : g.WF) (hlt : ∀ u v, g.Dep u v → u < v) :
    g.Topo (List.range g.n) := by
  refine ⟨List.nodup_range, fun v => by simp, ?_⟩
  intro a v b he u hd
  have huv := hlt u v hd
  have hvn := (hw _ hd).2
  simp only at hvn
  have hlen : a.length < g.n := by
    have : (List.range g.n).length = (a ++ v :: b).length := by rw [he]
    simp at this; omega
  have hv : v = a.length := by
    have h1 : (List.range g.n)[a.length]? = some v := by rw [he]; simp
    rw [List.getElem?_range hlen] at h1
    exact (Option.some.inj h1).symm
  have hu : (List.range g.n)[u]? = some u := List.getElem?_range (by omega)
  rw [he, List.getElem?_append_left (by omega)] at hu
  exact List.mem_of_getElem? hu

/-! ## reversal -/

theorem dep_reverse {g : DiGraph α} {u v : Nat} : g.reverse.Dep u v ↔ g.Dep v u := by
  unfold Dep reverse
  simp only [List.mem_map, Prod.mk.injEq]
  constructor
  · rintro ⟨⟨a, b⟩, h, rfl, rfl⟩; exact h
  · intro h; exact ⟨(v, u), h, rfl, rfl⟩

theorem walk_reverse {g : DiGraph α} {k u v : Nat} : g.reverse.Walk k u v ↔ g.Walk k v u := by
  constructor
  · intro h
    induction h with
    | nil => exact .nil _
    | snoc _ hd ih => exact .cons (dep_reverse.1 hd) ih
  · intro h
    induction h with
    | nil => exact .nil _
    | snoc _ hd ih => exact .cons (dep_reverse.2 hd) ih

theorem reach_reverse {g : DiGraph α} {u v : Nat} : g.reverse.Reach u v ↔ g.Reach v u :=
  ⟨fun ⟨k, h⟩ => ⟨k, walk_reverse.1 h⟩, fun ⟨k, h⟩ => ⟨k, walk_reverse.2 h⟩⟩

theorem wf_reverse {g : DiGraph α} (h : g.WF) : g.reverse.WF := by
  intro e he
  simp only [reverse, List.mem_map] at he
  obtain ⟨⟨a, b⟩, hm, rfl⟩ := he
  have := h _ hm
  exact ⟨this.2, this.1⟩

theorem topo_reverse_range {g : DiGraph α} (hlt : ∀ u v, g.Dep u v → u < v) (hw : g.WF) :
    g.reverse.Topo (List.range g.n).reverse := by
  refine ⟨List.pairwise_reverse.2 (List.nodup_range.imp (fun h => h.symm)), fun v => by simp [n, reverse], ?_⟩
  intro a v b he u hd
  have hd' := dep_reverse.1 hd
  have he' : List.range g.n = b.reverse ++ v :: a.reverse := by
    have := congrArg List.reverse he
    simpa using this
  have := (topo_range hw hlt).after hw he' hd'
  simpa using this

end DiGraph

open DiGraph

/-! ## get_subgraph -/

/-- What a task graph offers to one `execute` call. -/
structure SelHyp (deps : DiGraph Cmd) : Prop where
  wf : deps.WF
  lt : ∀ u v, deps.Dep u v → u < v

theorem relevant_iff {deps : DiGraph Cmd} (hw : deps.WF) {ordRev : List Nat}
    (ht : deps.reverse.Topo ordRev) (target : Option Nat) (i : Nat) :
    relevant deps target ordRev i = true ↔ ∀ t, target = some t → i = t ∨ deps.Reach i t := by
  cases target with
  | none => simp [relevant]
  | some t =>
    simp only [relevant, Bool.or_eq_true, beq_iff_eq, List.contains_eq_mem, decide_eq_true_eq,
      Option.some.injEq, forall_eq']
    have htc : (deps.reverse.transitiveClosure ordRev).Dep t i ↔ deps.Reach i t := by
      have h := tcInv ht (wf_reverse hw)
      rw [← reach_reverse]
      refine ⟨h.sound t i, fun hr => h.done t ?_ i hr⟩
      obtain ⟨k, hk⟩ := hr
      obtain ⟨x, hx, _⟩ := hk.head
      exact (ht.mem t).2 (wf_reverse hw _ hx).1
    rw [mem_succs, htc]

end Verif
