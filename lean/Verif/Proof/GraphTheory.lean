import Verif.Model.GraphTheory
import Verif.Spec.Graph
import Mathlib.Data.List.Perm.Subperm

namespace Verif
namespace DiGraph
variable {α : Type}

theorem mem_succs {g : DiGraph α} {u v : Nat} : v ∈ g.succs u ↔ g.Dep u v := by
  simp only [succs, Dep, List.mem_reverse, List.mem_map, List.mem_filter, beq_iff_eq]
  constructor
  · rintro ⟨⟨a, b⟩, ⟨h, rfl⟩, rfl⟩; exact h
  · intro h; exact ⟨(u, v), ⟨h, rfl⟩, rfl⟩

theorem mem_preds {g : DiGraph α} {u v : Nat} : u ∈ g.preds v ↔ g.Dep u v := by
  simp only [preds, Dep, List.mem_reverse, List.mem_map, List.mem_filter, beq_iff_eq]
  constructor
  · rintro ⟨⟨a, b⟩, ⟨h, rfl⟩, rfl⟩; exact h
  · intro h; exact ⟨(u, v), ⟨h, rfl⟩, rfl⟩

theorem Walk.trans {g : DiGraph α} {j k u v w : Nat} (h : g.Walk j u v) (h' : g.Walk k v w) :
    g.Walk (j + k) u w := by
  induction h' with
  | nil => exact h
  | snoc _ hd ih => exact .snoc (ih h) hd

theorem Walk.single {g : DiGraph α} {u v : Nat} (h : g.Dep u v) : g.Walk 1 u v := .snoc (.nil u) h

/-- First edge of a non-empty path. -/
theorem Walk.head {g : DiGraph α} {k u w : Nat} (h : g.Walk (k + 1) u w) :
    ∃ v, g.Dep u v ∧ g.Walk k v w := by
  induction k generalizing w with
  | zero =>
    cases h with
    | snoc h1 hd => cases h1; exact ⟨_, hd, .nil _⟩
  | succ k ih =>
    cases h with
    | snoc h1 hd =>
      obtain ⟨v, hv, hw⟩ := ih h1
      exact ⟨v, hv, .snoc hw hd⟩

theorem Walk.cons {g : DiGraph α} {k u v w : Nat} (hd : g.Dep u v) (h : g.Walk k v w) :
    g.Walk (k + 1) u w := by
  have := (Walk.single hd).trans h
  rwa [Nat.add_comm] at this

theorem Reach.of_dep {g : DiGraph α} {u v : Nat} (h : g.Dep u v) : g.Reach u v := ⟨0, .single h⟩

theorem Reach.trans {g : DiGraph α} {u v w : Nat} (h : g.Reach u v) (h' : g.Reach v w) :
    g.Reach u w := by
  obtain ⟨j, hj⟩ := h
  obtain ⟨k, hk⟩ := h'
  exact ⟨j + 1 + k, hj.trans hk⟩

/-- A path splits at every intermediate length. -/
theorem Walk.prefix {g : DiGraph α} {k u w : Nat} (h : g.Walk k u w) (j : Nat) (hj : j ≤ k) :
    ∃ v, g.Walk j u v ∧ g.Walk (k - j) v w := by
  induction h with
  | nil => have : j = 0 := by omega
           subst this; exact ⟨_, .nil _, .nil _⟩
  | @snoc k u v w h hd ih =>
    by_cases e : j = k + 1
    · subst e; exact ⟨w, .snoc h hd, by rw [Nat.sub_self]; exact .nil _⟩
    · obtain ⟨x, h1, h2⟩ := ih (by omega)
      refine ⟨x, h1, ?_⟩
      have : k + 1 - j = k - j + 1 := by omega
      rw [this]; exact .snoc h2 hd

/-! ## descendants at a distance -/

/-- `x` is at distance exactly `k` from `s`. -/
def DistIs (g : DiGraph α) (s x k : Nat) : Prop := g.Walk k s x ∧ ∀ j < k, ¬ g.Walk j s x

theorem expand_inner (cs : List Nat) (acc : List Nat × List Nat) :
    let r := cs.foldl (fun acc c => if c ∈ acc.2 then acc else (acc.1 ++ [c], acc.2 ++ [c])) acc
    (∀ x, x ∈ r.1 ↔ x ∈ acc.1 ∨ (x ∉ acc.2 ∧ x ∈ cs)) ∧
    (∀ x, x ∈ r.2 ↔ x ∈ acc.2 ∨ x ∈ cs) ∧
    (acc.1.Nodup → (∀ x ∈ acc.1, x ∈ acc.2) → r.1.Nodup ∧ ∀ x ∈ r.1, x ∈ r.2) := by
  induction cs generalizing acc with
  | nil => simp only [List.foldl_nil]; refine ⟨by simp, by simp, fun h h' => ⟨h, h'⟩⟩
  | cons c cs ih =>
    simp only [List.foldl_cons]
    by_cases hc : c ∈ acc.2
    · simp only [hc, if_true]
      obtain ⟨h1, h2, h3⟩ := ih acc
      refine ⟨fun x => ?_, fun x => ?_, h3⟩
      · rw [h1 x]
        by_cases hx : x = c
        · subst hx; simp [hc]
        · simp [hx]
      · rw [h2 x]
        by_cases hx : x = c
        · subst hx; simp [hc]
        · simp [hx]
    · simp only [hc, if_false]
      obtain ⟨h1, h2, h3⟩ := ih (acc.1 ++ [c], acc.2 ++ [c])
      refine ⟨fun x => ?_, fun x => ?_, ?_⟩
      · rw [h1 x]
        by_cases hx : x = c
        · subst hx; simp [hc]
        · simp [hx]
      · rw [h2 x]
        by_cases hx : x = c
        · subst hx; simp
        · simp [hx]
      · intro hn hs
        apply h3
        · simp only
          rw [List.nodup_append]
          refine ⟨hn, by simp, ?_⟩
          intro a ha b hb
          simp at hb; subst hb
          intro e; subst e; exact hc (hs _ ha)
        · intro x hx
          simp only [List.mem_append, List.mem_singleton] at hx ⊢
          rcases hx with hx | hx
          · exact .inl (hs x hx)
          · exact .inr hx

theorem expand_spec (g : DiGraph α) (q : List Nat) (acc : List Nat × List Nat) :
    let r := g.expand q acc
    (∀ x, x ∈ r.1 ↔ x ∈ acc.1 ∨ (x ∉ acc.2 ∧ ∃ v ∈ q, g.Dep v x)) ∧
    (∀ x, x ∈ r.2 ↔ x ∈ acc.2 ∨ ∃ v ∈ q, g.Dep v x) ∧
    (acc.1.Nodup → (∀ x ∈ acc.1, x ∈ acc.2) → r.1.Nodup ∧ ∀ x ∈ r.1, x ∈ r.2) := by
  induction q generalizing acc with
  | nil => simp only [expand]; refine ⟨by simp, by simp, fun h h' => ⟨h, h'⟩⟩
  | cons v vs ih =>
    simp only [expand]
    obtain ⟨i1, i2, i3⟩ := expand_inner (g.succs v) acc
    generalize (g.succs v).foldl _ acc = acc' at i1 i2 i3
    obtain ⟨h1, h2, h3⟩ := ih acc'
    refine ⟨fun x => ?_, fun x => ?_, fun a b => ?_⟩
    · rw [h1 x, i1 x, i2 x]
      simp only [mem_succs, List.mem_cons, or_and_right, exists_or]
      by_cases hA : x ∈ acc.2 <;> by_cases hB : g.Dep v x <;> simp [hA, hB]
    · rw [h2 x, i2 x]
      simp only [mem_succs, List.mem_cons, exists_eq_or_imp]
      rw [or_assoc]
    · exact h3 (i3 a b).1 (i3 a b).2

theorem descLoop_spec (g : DiGraph α) (s : Nat) (d k : Nat) (q vis : List Nat)
    (hq : ∀ x, x ∈ q ↔ g.DistIs s x k) (hv : ∀ x, x ∈ vis ↔ ∃ j ≤ k, g.Walk j s x) (hn : q.Nodup) :
    (∀ x, x ∈ g.descLoop d q vis ↔ g.DistIs s x (k + d)) ∧ (g.descLoop d q vis).Nodup := by
  induction d generalizing k q vis with
  | zero => exact ⟨hq, hn⟩
  | succ d ih =>
    unfold descLoop
    by_cases h0 : q = []
    · rw [if_pos h0]
      refine ⟨fun x => ⟨fun h => by simp at h, fun hx => ?_⟩, by simp⟩
      exfalso
      obtain ⟨v, h1, h2⟩ := hx.1.prefix k (by omega)
      have : v ∈ q := by
        rw [hq]
        refine ⟨h1, fun j hj hw => ?_⟩
        have := hw.trans h2
        exact hx.2 _ (by omega) this
      rw [h0] at this; simp at this
    · rw [if_neg h0]
      obtain ⟨e1, e2, e3⟩ := expand_spec g q ([], vis)
      simp only
      generalize g.expand q ([], vis) = r at *
      have hk : k + (d + 1) = (k + 1) + d := by omega
      rw [hk]
      apply ih
      · intro x
        rw [e1 x]
        simp only [List.not_mem_nil, false_or, hv, hq]
        constructor
        · rintro ⟨hnv, v, hv1, hd⟩
          refine ⟨.snoc hv1.1 hd, fun j hj hw => hnv ⟨j, by omega, hw⟩⟩
        · rintro ⟨hw, hmin⟩
          refine ⟨fun ⟨j, hj, hw'⟩ => hmin j (by omega) hw', ?_⟩
          cases hw with
          | @snoc _ _ v _ h1 hd =>
            exact ⟨v, ⟨h1, fun j hj hw' => hmin (j + 1) (by omega) (.snoc hw' hd)⟩, hd⟩
      · intro x
        rw [e2 x]
        simp only [hv, hq]
        constructor
        · rintro (⟨j, hj, hw⟩ | ⟨v, hv1, hd⟩)
          · exact ⟨j, by omega, hw⟩
          · exact ⟨k + 1, by omega, .snoc hv1.1 hd⟩
        · rintro ⟨j, hj, hw⟩
          by_cases hex : ∃ j ≤ k, g.Walk j s x
          · exact .inl hex
          · right
            have : j = k + 1 := by
              apply Nat.le_antisymm hj
              apply Nat.lt_of_not_le
              intro hjk; exact hex ⟨j, by omega, hw⟩
            subst this
            cases hw with
            | @snoc _ _ v _ h1 hd =>
              refine ⟨v, ⟨h1, fun i hi hw' => hex ⟨i + 1, by omega, .snoc hw' hd⟩⟩, hd⟩
      · exact (e3 (by simp) (by simp)).1

theorem descendantsAt_spec (g : DiGraph α) (s d : Nat) :
    (∀ x, x ∈ g.descendantsAt s d ↔ g.DistIs s x d) ∧ (g.descendantsAt s d).Nodup := by
  have := g.descLoop_spec s d 0 [s] [s]
    (by
      intro x
      simp only [List.mem_singleton, DistIs]
      constructor
      · rintro rfl; exact ⟨.nil _, fun j hj => by omega⟩
      · rintro ⟨h, _⟩; cases h; rfl)
    (by
      intro x
      simp only [List.mem_singleton]
      constructor
      · rintro rfl; exact ⟨0, by omega, .nil _⟩
      · rintro ⟨j, hj, h⟩
        have : j = 0 := by omega
        subst this; cases h; rfl)
    (by simp)
  rw [Nat.zero_add] at this
  exact this

/-! ## topological orders -/

theorem Topo.after {g : DiGraph α} {order : List Nat} (ht : g.Topo order) (hw : g.WF) {a b : List Nat}
    {v w : Nat} (he : order = a ++ v :: b) (hd : g.Dep v w) : w ∈ b := by
  have hwm : w ∈ order := (ht.mem w).2 (hw _ hd).2
  have hnd := ht.nodup
  rw [he] at hwm
  simp only [List.mem_append, List.mem_cons] at hwm
  rcases hwm with hwa | rfl | hwb
  · obtain ⟨a1, a2, rfl⟩ := List.append_of_mem hwa
    have := ht.before a1 w (a2 ++ v :: b) (by rw [he]; simp) v hd
    rw [he] at hnd
    simp only [List.append_assoc, List.cons_append] at hnd
    rw [List.nodup_append] at hnd
    exact absurd rfl (hnd.2.2 v this v (by simp))
  · have := ht.before a w b he w hd
    rw [he, List.nodup_append] at hnd
    exact absurd rfl (hnd.2.2 w this w (by simp))
  · exact hwb

theorem wf_of_isWF {g : DiGraph α} (h : g.isWF = true) : g.WF := by
  intro e he
  simp only [isWF, List.all_eq_true, Bool.and_eq_true, decide_eq_true_eq] at h
  exact h e he

theorem topo_of_isTopo {g : DiGraph α} {order : List Nat} (h : g.isTopo order = true) : g.Topo order := by
  simp only [isTopo, List.all_eq_true, Bool.and_eq_true, decide_eq_true_eq] at h
  obtain ⟨⟨⟨hn, hl⟩, hlt⟩, hb⟩ := h
  refine ⟨hn, fun v => ⟨hlt v, fun hv => ?_⟩, ?_⟩
  · have hsub : order.Subperm (List.range g.n) :=
      List.subperm_of_subset hn (fun x hx => List.mem_range.2 (hlt x hx))
    have := hsub.perm_of_length_le (by simp [hl])
    exact this.mem_iff.2 (List.mem_range.2 hv)
  · intro a v b he u hd
    have := hb (u, v) hd
    simp only at this
    have hv : order.idxOf v = a.length := by
      rw [he] at hn ⊢
      rw [List.nodup_append] at hn
      rw [List.idxOf_append, if_neg (fun hm => hn.2.2 v hm v (by simp) rfl)]
      simp
    rw [hv] at this
    have hu : order[order.idxOf u]? = some u := by
      have hlt' : order.idxOf u < order.length := by rw [he]; simp; rw [← he]; omega
      rw [List.getElem?_eq_getElem hlt', List.getElem_idxOf]
    rw [he, List.getElem?_append_left (by rw [← he]; exact this)] at hu
    exact List.mem_of_getElem? hu

theorem Topo.acyclic {g : DiGraph α} {order : List Nat} (ht : g.Topo order) (hw : g.WF) : g.Acyclic := by
  -- nodes reachable from v lie strictly after v
  have key : ∀ k v w, g.Walk (k + 1) v w → ∀ a b, order = a ++ v :: b → w ∈ b := by
    intro k
    induction k with
    | zero =>
      intro v w h a b he
      cases h with
      | snoc h1 hd => cases h1; exact ht.after hw he hd
    | succ k ih =>
      intro v w h a b he
      cases h with
      | @snoc _ _ x _ h1 hd =>
        have hx := ih v x h1 a b he
        obtain ⟨b1, b2, rfl⟩ := List.append_of_mem hx
        have := ht.after hw (a := a ++ v :: b1) (b := b2) (v := x) (by rw [he]; simp) hd
        simp [this]
  intro v ⟨k, h⟩
  have hv : v ∈ order := by
    cases h with
    | snoc _ hd => exact (ht.mem v).2 (hw _ hd).2
  obtain ⟨a, b, he⟩ := List.append_of_mem hv
  have := key k v v h a b he
  have hnd := ht.nodup
  rw [he, List.nodup_append] at hnd
  simp only [List.nodup_cons] at hnd
  exact hnd.2.1.1 this

/-! ## transitive closure -/

theorem foldl_addEdge_edges (tc : DiGraph α) (u : Nat) (l : List Nat) :
    (l.foldl (fun t v => t.addEdge u v) tc).edges = tc.edges ++ l.map (fun v => (u, v)) ∧
    (l.foldl (fun t v => t.addEdge u v) tc).nodes = tc.nodes := by
  induction l generalizing tc with
  | nil => simp
  | cons v l ih =>
    simp only [List.foldl_cons]
    obtain ⟨h1, h2⟩ := ih (tc.addEdge u v)
    rw [h1, h2]
    simp [addEdge]

structure TcInv (g tc : DiGraph α) (P : List Nat) : Prop where
  nodes : tc.nodes = g.nodes
  sound : ∀ u w, tc.Dep u w → g.Reach u w
  keep : ∀ u w, g.Dep u w → tc.Dep u w
  done : ∀ u ∈ P, ∀ w, g.Reach u w → tc.Dep u w
  cntDep : ∀ u w, g.Dep u w → tc.edges.count (u, w) = g.edges.count (u, w)
  cntNew : ∀ u w, ¬ g.Dep u w → tc.edges.count (u, w) ≤ 1

theorem tcStep_edges (tc : DiGraph α) (u : Nat) :
    (tc.tcStep u).edges = tc.edges ++ (tc.descendantsAt u 2).map (fun v => (u, v)) :=
  (foldl_addEdge_edges tc u _).1

theorem tcInv_step {g tc : DiGraph α} {P : List Nat} (hac : g.Acyclic) (h : TcInv g tc P) (u : Nat)
    (hsucc : ∀ v, g.Dep u v → v ∈ P) : TcInv g (tc.tcStep u) (u :: P) := by
  obtain ⟨hD, hnd⟩ := tc.descendantsAt_spec u 2
  have hE := tcStep_edges tc u
  have hnotdep : ∀ w, w ∈ tc.descendantsAt u 2 → ¬ tc.Dep u w := by
    intro w hw hd
    exact ((hD w).1 hw).2 1 (by omega) (.single hd)
  have hdep : ∀ a b, (tc.tcStep u).Dep a b ↔ tc.Dep a b ∨ (a = u ∧ b ∈ tc.descendantsAt u 2) := by
    intro a b
    unfold Dep
    rw [hE]
    simp only [List.mem_append, List.mem_map, Prod.mk.injEq]
    constructor
    · rintro (h | ⟨v, hv, rfl, rfl⟩)
      · exact .inl h
      · exact .inr ⟨rfl, hv⟩
    · rintro (h | ⟨rfl, hv⟩)
      · exact .inl h
      · exact .inr ⟨b, hv, rfl, rfl⟩
  have hcount : ∀ a b, (tc.tcStep u).edges.count (a, b)
      = tc.edges.count (a, b) + (if a = u ∧ b ∈ tc.descendantsAt u 2 then 1 else 0) := by
    intro a b
    rw [hE, List.count_append]
    congr 1
    by_cases hau : a = u
    · subst hau
      have hndm : ((tc.descendantsAt a 2).map (fun v => (a, v))).Nodup := by
        unfold List.Nodup
        rw [List.pairwise_map]
        exact hnd.imp (fun hne he => hne (by simpa using he))
      simp only [true_and]
      split
      · rename_i hm; rw [List.Nodup.count hndm, if_pos (List.mem_map.2 ⟨b, hm, rfl⟩)]
      · rename_i hm
        apply List.count_eq_zero_of_not_mem
        intro hm'
        simp only [List.mem_map, Prod.mk.injEq, true_and] at hm'
        obtain ⟨x, hx, rfl⟩ := hm'
        exact hm hx
    · have : (a, b) ∉ (tc.descendantsAt u 2).map (fun v => (u, v)) := by
        simp only [List.mem_map, Prod.mk.injEq, not_exists]
        rintro x ⟨_, h1, _⟩; exact hau h1.symm
      rw [List.count_eq_zero_of_not_mem this]
      simp [hau]
  have hsound : ∀ a b, (tc.tcStep u).Dep a b → g.Reach a b := by
    intro a b hab
    rcases (hdep a b).1 hab with h1 | ⟨rfl, h2⟩
    · exact h.sound a b h1
    · have := ((hD b).1 h2).1
      cases this with
      | snoc h1 hd2 =>
        cases h1 with
        | snoc h0 hd1 => cases h0; exact (h.sound _ _ hd1).trans (h.sound _ _ hd2)
  refine ⟨?_, hsound, ?_, ?_, ?_, ?_⟩
  · rw [← h.nodes]; exact (foldl_addEdge_edges tc u _).2
  · intro a b hab; exact (hdep a b).2 (.inl (h.keep a b hab))
  · intro a ha w hr
    simp only [List.mem_cons] at ha
    rcases ha with rfl | ha
    · rw [hdep]
      by_cases hd : tc.Dep a w
      · exact .inl hd
      · right
        refine ⟨rfl, (hD w).2 ⟨?_, ?_⟩⟩
        · obtain ⟨k, hk⟩ := hr
          obtain ⟨v, hv, hw⟩ := hk.head
          cases k with
          | zero => cases hw; exact absurd (h.keep _ _ hv) hd
          | succ k =>
            exact .snoc (.single (h.keep _ _ hv)) (h.done v (hsucc v hv) w ⟨k, hw⟩)
        · intro j hj hw
          match j, hj, hw with
          | 0, _, hw => cases hw; exact hac _ hr
          | 1, _, hw =>
            cases hw with
            | snoc h0 hd' => cases h0; exact hd hd'
    · exact (hdep a w).2 (.inl (h.done a ha w hr))
  · intro a b hab
    rw [hcount, h.cntDep a b hab]
    have : ¬ (a = u ∧ b ∈ tc.descendantsAt u 2) := by
      rintro ⟨rfl, hb⟩; exact hnotdep b hb (h.keep _ _ hab)
    simp [this]
  · intro a b hab
    rw [hcount]
    split
    · rename_i hc
      obtain ⟨rfl, hb⟩ := hc
      have : tc.edges.count (a, b) = 0 := List.count_eq_zero_of_not_mem (hnotdep b hb)
      omega
    · have := h.cntNew a b hab; omega

theorem tcInv_fold {g : DiGraph α} {order : List Nat} (ht : g.Topo order) (hw : g.WF) (b a : List Nat)
    (he : order = a ++ b) :
    TcInv g (b.reverse.foldl tcStep g) b := by
  induction b generalizing a with
  | nil =>
    exact ⟨rfl, fun u w h => .of_dep h, fun _ _ h => h, by simp, fun _ _ _ => rfl,
      fun u w h => by
        have : (g.edges.count (u, w)) = 0 := List.count_eq_zero_of_not_mem h
        simp [this]⟩
  | cons v b ih =>
    have ihb := ih (a ++ [v]) (by rw [he]; simp)
    rw [List.reverse_cons, List.foldl_append, List.foldl_cons, List.foldl_nil]
    exact tcInv_step (ht.acyclic hw) ihb v (fun w hd => ht.after hw he hd)

theorem tcInv {g : DiGraph α} {order : List Nat} (ht : g.Topo order) (hw : g.WF) :
    TcInv g (g.transitiveClosure order) order :=
  tcInv_fold ht hw order [] (by simp)

/-! ## levels -/

theorem maxLevel_ge {lev : Nat → Nat} {ns : List Nat} {x : Nat} (hx : x ∈ ns) :
    1 + lev x ≤ maxLevel lev ns := by
  have gen : ∀ (l : List Nat) (m : Nat), m ≤ l.foldl (fun m x => max m (1 + lev x)) m ∧
      ∀ x ∈ l, 1 + lev x ≤ l.foldl (fun m x => max m (1 + lev x)) m := by
    intro l
    induction l with
    | nil => intro m; simp
    | cons y l ih =>
      intro m
      simp only [List.foldl_cons]
      obtain ⟨h1, h2⟩ := ih (max m (1 + lev y))
      refine ⟨Nat.le_trans (Nat.le_max_left _ _) h1, ?_⟩
      intro x hx
      simp only [List.mem_cons] at hx
      rcases hx with rfl | hx
      · exact Nat.le_trans (Nat.le_max_right _ _) h1
      · exact h2 x hx
  exact (gen ns 0).2 x hx

theorem maxLevel_attained {lev : Nat → Nat} {ns : List Nat} :
    (ns = [] ∧ maxLevel lev ns = 0) ∨ ∃ x ∈ ns, maxLevel lev ns = 1 + lev x := by
  have gen : ∀ (l : List Nat) (m : Nat), l.foldl (fun m x => max m (1 + lev x)) m = m ∨
      ∃ x ∈ l, l.foldl (fun m x => max m (1 + lev x)) m = 1 + lev x := by
    intro l
    induction l with
    | nil => intro m; simp
    | cons y l ih =>
      intro m
      simp only [List.foldl_cons]
      rcases ih (max m (1 + lev y)) with h | ⟨x, hx, h⟩
      · rcases Nat.le_total m (1 + lev y) with hm | hm
        · rw [Nat.max_eq_right hm] at h
          rw [Nat.max_eq_right hm]
          exact .inr ⟨y, by simp, h⟩
        · rw [Nat.max_eq_left hm] at h
          rw [Nat.max_eq_left hm]
          exact .inl h
      · exact .inr ⟨x, by simp [hx], h⟩
  cases ns with
  | nil => left; exact ⟨rfl, rfl⟩
  | cons y l =>
    right
    rcases gen (y :: l) 0 with h | h
    · have := maxLevel_ge (lev := lev) (ns := y :: l) (x := y) (by simp)
      unfold maxLevel at this
      omega
    · exact h

/-- `k` is the length of a longest path ending in `v`. -/
def LongestTo (g : DiGraph α) (v k : Nat) : Prop :=
  (∃ u, g.Walk k u v) ∧ ∀ u j, g.Walk j u v → j ≤ k

theorem longestTo_step {g : DiGraph α} {lev : Nat → Nat} {v : Nat}
    (h : ∀ u, g.Dep u v → g.LongestTo u (lev u)) : g.LongestTo v (maxLevel lev (g.preds v)) := by
  constructor
  · rcases maxLevel_attained (lev := lev) (ns := g.preds v) with ⟨_, h0⟩ | ⟨x, hx, h1⟩
    · rw [h0]; exact ⟨v, .nil v⟩
    · rw [h1]
      have hd := mem_preds.1 hx
      obtain ⟨u, hu⟩ := (h x hd).1
      rw [Nat.add_comm]
      exact ⟨u, .snoc hu hd⟩
  · intro u j hw
    cases hw with
    | nil => omega
    | @snoc k _ x _ h1 hd =>
      have := (h x hd).2 u k h1
      have := maxLevel_ge (lev := lev) (mem_preds.2 hd)
      omega

theorem tlevel_fold {g : DiGraph α} {order : List Nat} (ht : g.Topo order) (b : List Nat) :
    ∀ (a : List Nat) (lev : Nat → Nat), order = a ++ b → (∀ v ∈ a, g.LongestTo v (lev v)) →
    ∀ v ∈ order, g.LongestTo v
      ((b.foldl (fun lev v => setLevel lev v (maxLevel lev (g.preds v))) lev) v) := by
  induction b with
  | nil => intro a lev he ha v hv; rw [he] at hv; simp at hv; exact ha v hv
  | cons x b ih =>
    intro a lev he ha
    simp only [List.foldl_cons]
    apply ih (a ++ [x])
    · rw [he]; simp
    · intro v hv
      have hpre := ht.before a x b he
      by_cases hvx : v = x
      · subst hvx
        simp only [setLevel, if_true]
        exact longestTo_step (fun u hd => ha u (hpre u hd))
      · simp only [List.mem_append, List.mem_singleton, hvx, or_false] at hv
        simp only [setLevel, hvx, if_false]
        exact ha v hv

theorem tlevel_spec {g : DiGraph α} {order : List Nat} (ht : g.Topo order) {v : Nat} (hv : v < g.n) :
    g.LongestTo v (g.tlevel order v) :=
  tlevel_fold ht order [] _ (by simp) (by simp) v ((ht.mem v).2 hv)

/-- `k` is the length of a longest path starting in `v`. -/
def LongestFrom (g : DiGraph α) (v k : Nat) : Prop :=
  (∃ u, g.Walk k v u) ∧ ∀ u j, g.Walk j v u → j ≤ k

theorem longestFrom_step {g : DiGraph α} {lev : Nat → Nat} {v : Nat}
    (h : ∀ u, g.Dep v u → g.LongestFrom u (lev u)) : g.LongestFrom v (maxLevel lev (g.succs v)) := by
  constructor
  · rcases maxLevel_attained (lev := lev) (ns := g.succs v) with ⟨_, h0⟩ | ⟨x, hx, h1⟩
    · rw [h0]; exact ⟨v, .nil v⟩
    · rw [h1]
      have hd := mem_succs.1 hx
      obtain ⟨u, hu⟩ := (h x hd).1
      rw [Nat.add_comm]
      exact ⟨u, .cons hd hu⟩
  · intro u j hw
    cases j with
    | zero => omega
    | succ j =>
      obtain ⟨x, hd, h1⟩ := hw.head
      have := (h x hd).2 u j h1
      have := maxLevel_ge (lev := lev) (mem_succs.2 hd)
      omega

theorem blevel_fold {g : DiGraph α} {order : List Nat} (ht : g.Topo order) (hw : g.WF) (b : List Nat) :
    ∀ (a : List Nat), order = a ++ b →
    ∀ v ∈ b, g.LongestFrom v
      ((b.reverse.foldl (fun lev v => setLevel lev v (maxLevel lev (g.succs v))) (fun _ => 0)) v) := by
  induction b with
  | nil => simp
  | cons x b ih =>
    intro a he v hv
    have ihb := ih (a ++ [x]) (by rw [he]; simp)
    rw [List.reverse_cons, List.foldl_append, List.foldl_cons, List.foldl_nil]
    generalize b.reverse.foldl _ _ = lev at ihb ⊢
    by_cases hvx : v = x
    · subst hvx
      simp only [setLevel, if_true]
      exact longestFrom_step (fun u hd => ihb u (ht.after hw he hd))
    · simp only [List.mem_cons, hvx, false_or] at hv
      simp only [setLevel, hvx, if_false]
      exact ihb v hv

theorem blevel_spec {g : DiGraph α} {order : List Nat} (ht : g.Topo order) (hw : g.WF) {v : Nat}
    (hv : v < g.n) : g.LongestFrom v (g.blevel order v) :=
  blevel_fold ht hw order [] (by simp) v ((ht.mem v).2 hv)

end DiGraph
end Verif
