import Verif.Proof.TrackerOps

/-!
# Invariants of the tracker: definitions, and how each part changes

Each part is a predicate on the state components it mentions, so that it is untouched by changes elsewhere.
-/

namespace Verif.Tracker
open Verif
open scoped List

/-- Tasks with a finish event in the channel. -/
def finIds (chan : List Event) : List Nat :=
  chan.filterMap (fun e => match e with | .finished f => some f.id | _ => none)
/-- Tasks with a start event in the channel. -/
def startIds (chan : List Event) : List Nat :=
  chan.filterMap (fun e => match e with | .started v _ _ _ => some v | _ => none)
/-- Tasks made ready. -/
def owners (flags : List Flag) : List Nat := flags.map (·.owner)
/-- Tasks whose flag is taken. -/
def takenIds (flags : List Flag) : List Nat := (flags.filter (·.taken)).map (·.owner)
/-- Tasks whose flag is not taken. -/
def untakenIds (flags : List Flag) : List Nat := (flags.filter (fun f => !f.taken)).map (·.owner)
/-- Ids of items. -/
def itemIds (l : List (Nat × Item)) : List Nat := l.map (·.2.id)
/-- Successfully processed tasks. -/
def okIds (p : List (Nat × ExitStatus)) : List Nat := (p.filter (·.2.isSuccess)).map (·.1)
/-- Tasks processed with a failure. -/
def failIds (p : List (Nat × ExitStatus)) : List Nat := (p.filter (fun x => !x.2.isSuccess)).map (·.1)

@[simp] theorem finIds_nil : finIds [] = [] := rfl
@[simp] theorem startIds_nil : startIds [] = [] := rfl
@[simp] theorem finIds_fin (e : Fin) (l : List Event) : finIds (.finished e :: l) = e.id :: finIds l := rfl
@[simp] theorem finIds_st (v : Nat) (h : String) (p : Nat) (j : String) (l : List Event) :
    finIds (.started v h p j :: l) = finIds l := rfl
@[simp] theorem startIds_fin (e : Fin) (l : List Event) : startIds (.finished e :: l) = startIds l := rfl
@[simp] theorem startIds_st (v : Nat) (h : String) (p : Nat) (j : String) (l : List Event) :
    startIds (.started v h p j :: l) = v :: startIds l := rfl
@[simp] theorem finIds_append (a b : List Event) : finIds (a ++ b) = finIds a ++ finIds b := by
  simp [finIds, List.filterMap_append]
@[simp] theorem startIds_append (a b : List Event) : startIds (a ++ b) = startIds a ++ startIds b := by
  simp [startIds, List.filterMap_append]
@[simp] theorem itemIds_append (a b : List (Nat × Item)) : itemIds (a ++ b) = itemIds a ++ itemIds b := by
  simp [itemIds]
@[simp] theorem itemIds_cons (a : Nat × Item) (b : List (Nat × Item)) : itemIds (a :: b) = a.2.id :: itemIds b := rfl
@[simp] theorem itemIds_nil : itemIds [] = [] := rfl
@[simp] theorem owners_append (a b : List Flag) : owners (a ++ b) = owners a ++ owners b := by simp [owners]
@[simp] theorem takenIds_append (a b : List Flag) : takenIds (a ++ b) = takenIds a ++ takenIds b := by simp [takenIds]
@[simp] theorem untakenIds_append (a b : List Flag) : untakenIds (a ++ b) = untakenIds a ++ untakenIds b := by
  simp [untakenIds]

theorem owners_fresh (vs : List Nat) : owners (vs.map (fun v => ⟨v, false⟩)) = vs := by
  simp [owners, Function.comp_def]
theorem takenIds_fresh (vs : List Nat) : takenIds (vs.map (fun v => ⟨v, false⟩)) = [] := by
  simp [takenIds, List.filter_map, Function.comp_def]
theorem untakenIds_fresh (vs : List Nat) : untakenIds (vs.map (fun v => ⟨v, false⟩)) = vs := by
  simp [untakenIds, List.filter_map, Function.comp_def]

theorem owners_perm (flags : List Flag) : owners flags ~ takenIds flags ++ untakenIds flags := by
  rw [owners, takenIds, untakenIds, ← List.map_append]
  exact (List.Perm.map _ (List.filter_append_perm (fun f : Flag => f.taken) flags)).symm

theorem owners_set {flags : List Flag} {k v : Nat} {b b' : Bool} (h : flags[k]? = some ⟨v, b⟩) :
    owners (flags.set k ⟨v, b'⟩) = owners flags := by
  apply List.ext_getElem?
  intro i
  simp only [owners, List.getElem?_map, List.getElem?_set]
  split
  · rename_i hk; subst hk
    rw [h]
    have := (List.getElem?_eq_some_iff.1 h).1
    simp [this]
  · rfl

theorem perm_eraseIdx {α : Type} {l : List α} {i : Nat} {x : α} (h : l[i]? = some x) : l ~ x :: l.eraseIdx i := by
  obtain ⟨hlt, e⟩ := List.getElem?_eq_some_iff.1 h
  subst e
  exact (List.getElem_cons_eraseIdx_perm hlt).symm

theorem taken_set : ∀ {flags : List Flag} {k v : Nat}, flags[k]? = some ⟨v, false⟩ →
    takenIds (flags.set k ⟨v, true⟩) ~ v :: takenIds flags ∧ untakenIds flags ~ v :: untakenIds (flags.set k ⟨v, true⟩) := by
  intro flags
  induction flags with
  | nil => intro k v h; simp at h
  | cons f fs ih =>
    intro k v h
    cases k with
    | zero =>
      simp at h; subst h
      simp [takenIds, untakenIds]
    | succ k =>
      simp only [List.getElem?_cons_succ] at h
      obtain ⟨h1, h2⟩ := ih h
      simp only [List.set_cons_succ]
      constructor
      · simp only [takenIds, List.filter_cons]
        split
        · simp only [List.map_cons]
          exact (List.Perm.cons _ h1).trans (List.Perm.swap _ _ _)
        · exact h1
      · simp only [untakenIds, List.filter_cons]
        split
        · simp only [List.map_cons]
          exact (List.Perm.cons _ h2).trans (List.Perm.swap _ _ _)
        · exact h2

/-! ### accounting of claimed tasks -/

/-- Every claimed task is in exactly one place. -/
def Acct (flags : List Flag) (claimed : List (Nat × Item)) (held lost : List Nat) (chan : List Event)
    (processed drained : List (Nat × ExitStatus)) : Prop :=
  ∀ v, (takenIds flags).count v = (itemIds claimed).count v + held.count v + lost.count v + (finIds chan).count v +
    (processed.map (·.1)).count v + (drained.map (·.1)).count v

theorem Acct.perm {flags claimed held lost chan processed drained}
    (h : Acct flags claimed held lost chan processed drained) :
    takenIds flags ~ itemIds claimed ++ held ++ lost ++ finIds chan ++ processed.map (·.1) ++ drained.map (·.1) := by
  rw [List.perm_iff_count]
  intro v
  simp only [List.count_append]
  have := h v
  omega

/-! ### items -/

/-- An item in queue `r`: its flag belongs to its task, its priority is that of the task, the task accepts runner type
`r`. -/
structure ItemOk (g : DiGraph Cmd) (flags : List Flag) (r : Nat) (it : Item) : Prop where
  flag : (flags[it.flag]?).map (·.owner) = some it.id
  prio : it.prio = (cmdOf g it.id).priority
  bit : (cmdOf g it.id).affinity.getLsbD r = true

/-- Batches not yet sent. -/
def todoOf : Pc → List (Nat × List Item)
  | .sending todo _ => todo
  | _ => []

/-- The item of flag `k` can still reach a receiver of type `r`. -/
def Avail (queues : Nat → List Item) (popped : List (Nat × Item)) (todo : List (Nat × List Item)) (r k : Nat) : Prop :=
  (∃ it ∈ queues r, it.flag = k) ∨ (∃ p ∈ popped, p.1 = r ∧ p.2.flag = k) ∨
    (∃ b ∈ todo, b.1 = r ∧ ∃ it ∈ b.2, it.flag = k)

structure Items (g : DiGraph Cmd) (flags : List Flag) (queues : Nat → List Item) (popped claimed : List (Nat × Item))
    (todo : List (Nat × List Item)) : Prop where
  queueOk : ∀ r, ∀ it ∈ queues r, ItemOk g flags r it
  poppedOk : ∀ p ∈ popped, ItemOk g flags p.1 p.2
  claimedOk : ∀ p ∈ claimed, ItemOk g flags p.1 p.2
  todoOk : ∀ b ∈ todo, ∀ it ∈ b.2, ItemOk g flags b.1 it
  avail : ∀ k v, flags[k]? = some ⟨v, false⟩ → ∀ r, (cmdOf g v).affinity.getLsbD r = true → Avail queues popped todo r k

theorem ItemOk.append {g flags r it} (fl : List Flag) (h : ItemOk g flags r it) : ItemOk g (flags ++ fl) r it := by
  refine ⟨?_, h.prio, h.bit⟩
  have := h.flag
  cases hf : flags[it.flag]? with
  | none => rw [hf] at this; simp at this
  | some f =>
    have hl := (List.getElem?_eq_some_iff.1 hf).1
    rw [List.getElem?_append_left hl]; exact this

theorem mem_itemsFor {g : DiGraph Cmd} : ∀ {vs : List Nat} {base : Nat} {it : Item}, it ∈ itemsFor g base vs ↔
    ∃ j, vs[j]? = some it.id ∧ it.flag = base + j ∧ it.prio = (cmdOf g it.id).priority := by
  intro vs
  induction vs with
  | nil => intro base it; simp [itemsFor]
  | cons v vs ih =>
    intro base it
    simp only [itemsFor, List.mem_cons, ih]
    constructor
    · rintro (rfl | ⟨j, h1, h2, h3⟩)
      · exact ⟨0, by simp⟩
      · exact ⟨j + 1, by simpa using h1, by omega, h3⟩
    · rintro ⟨j, h1, h2, h3⟩
      cases j with
      | zero =>
        left
        simp at h1 h2
        cases it
        simp_all
      | succ j => right; exact ⟨j, by simpa using h1, by omega, h3⟩

theorem mem_batches {g : DiGraph Cmd} {items : List Item} {b : Nat × List Item} : b ∈ batches g items ↔
    b.1 < 64 ∧ b.2 = items.filter (fun it => (cmdOf g it.id).affinity.getLsbD b.1) ∧ b.2 ≠ [] := by
  obtain ⟨i, l⟩ := b
  simp only [batches, List.mem_filter, List.mem_map, List.mem_range, Prod.mk.injEq]
  constructor
  · rintro ⟨⟨a, h1, h2, h3⟩, h4⟩
    subst h2
    exact ⟨h1, h3.symm, by simpa using h4⟩
  · rintro ⟨h1, h2, h3⟩
    exact ⟨⟨i, h1, rfl, h2.symm⟩, by simpa using h3⟩

theorem Items.addReady {g flags queues popped claimed} (h : Items g flags queues popped claimed []) (vs : List Nat) :
    Items g (flags ++ vs.map (fun v => ⟨v, false⟩)) queues popped claimed
      (batches g (itemsFor g flags.length vs)) := by
  refine ⟨fun r it hi => (h.queueOk r it hi).append _, fun p hp => (h.poppedOk p hp).append _,
    fun p hp => (h.claimedOk p hp).append _, ?_, ?_⟩
  · intro b hb it hit
    obtain ⟨_, h2, _⟩ := mem_batches.1 hb
    rw [h2] at hit
    obtain ⟨hm, hbit⟩ := List.mem_filter.1 hit
    obtain ⟨j, h4, h5, h6⟩ := mem_itemsFor.1 hm
    refine ⟨?_, h6, by simpa using hbit⟩
    rw [h5, List.getElem?_append_right (by omega)]
    simp [h4]
  · intro k v hk r hr
    by_cases hlt : k < flags.length
    · rw [List.getElem?_append_left hlt] at hk
      rcases h.avail k v hk r hr with h1 | h1 | ⟨b, hb, _⟩
      · exact .inl h1
      · exact .inr (.inl h1)
      · simp at hb
    · rw [List.getElem?_append_right (by omega)] at hk
      simp only [List.getElem?_map, Option.map_eq_some_iff] at hk
      obtain ⟨w, hw, e⟩ := hk
      simp only [Flag.mk.injEq, and_true] at e
      subst e
      right; right
      have hr64 : r < 64 := by
        apply Classical.byContradiction
        intro hn
        rw [BitVec.getLsbD_of_ge _ _ (by omega)] at hr
        cases hr
      have hit : (⟨w, (cmdOf g w).priority, k⟩ : Item) ∈ itemsFor g flags.length vs :=
        mem_itemsFor.2 ⟨k - flags.length, hw, by simp; omega, rfl⟩
      have hf : (⟨w, (cmdOf g w).priority, k⟩ : Item) ∈
          (itemsFor g flags.length vs).filter (fun it => (cmdOf g it.id).affinity.getLsbD r) :=
        List.mem_filter.2 ⟨hit, hr⟩
      exact ⟨(r, _), mem_batches.2 ⟨hr64, rfl, List.ne_nil_of_mem hf⟩, rfl, _, hf, rfl⟩

theorem Items.sendNext {g flags queues popped claimed i items todo}
    (h : Items g flags queues popped claimed ((i, items) :: todo)) :
    Items g flags (fun q => if q = i then queues q ++ items else queues q) popped claimed todo := by
  refine ⟨?_, h.poppedOk, h.claimedOk, fun b hb => h.todoOk b (by simp [hb]), ?_⟩
  · intro r it hit
    by_cases hr : r = i
    · subst hr
      simp only [if_true, List.mem_append] at hit
      rcases hit with hit | hit
      · exact h.queueOk r it hit
      · exact h.todoOk (r, items) (by simp) it hit
    · simp only [if_neg hr] at hit
      exact h.queueOk r it hit
  · intro k v hk r hr
    rcases h.avail k v hk r hr with ⟨it, h1, h2⟩ | h1 | ⟨b, hb, h1, it, h2, h3⟩
    · left
      refine ⟨it, ?_, h2⟩
      simp only
      split
      · exact List.mem_append_left _ h1
      · exact h1
    · exact .inr (.inl h1)
    · rcases List.mem_cons.1 hb with rfl | hb
      · left
        simp only at h1 h2
        refine ⟨it, ?_, h3⟩
        simp only
        rw [if_pos h1.symm]
        exact List.mem_append_right _ h2
      · exact .inr (.inr ⟨b, hb, h1, it, h2, h3⟩)

theorem Items.pop {g flags queues popped claimed todo} (h : Items g flags queues popped claimed todo)
    {r j : Nat} {it : Item} (hj : (queues r)[j]? = some it) :
    Items g flags (fun q => if q = r then (queues r).eraseIdx j else queues q) (popped ++ [(r, it)]) claimed todo := by
  have hp := perm_eraseIdx hj
  have hmem : it ∈ queues r := List.mem_of_getElem? hj
  refine ⟨?_, ?_, h.claimedOk, h.todoOk, ?_⟩
  · intro q x hx
    by_cases hq : q = r
    · subst hq
      simp only [if_true] at hx
      exact h.queueOk q x (List.mem_of_mem_eraseIdx hx)
    · simp only [if_neg hq] at hx; exact h.queueOk q x hx
  · intro p hp
    rcases List.mem_append.1 hp with hp | hp
    · exact h.poppedOk p hp
    · simp only [List.mem_singleton] at hp; subst hp; exact h.queueOk r it hmem
  · intro k v hk q hq
    rcases h.avail k v hk q hq with ⟨x, h1, h2⟩ | ⟨p, h1, h2⟩ | h1
    · by_cases hqr : q = r
      · subst hqr
        have := hp.subset h1
        rcases List.mem_cons.1 this with rfl | hx
        · exact .inr (.inl ⟨(q, x), by simp, rfl, h2⟩)
        · exact .inl ⟨x, by simpa using hx, h2⟩
      · exact .inl ⟨x, by simpa [hqr] using h1, h2⟩
    · exact .inr (.inl ⟨p, List.mem_append_left _ h1, h2⟩)
    · exact .inr (.inr h1)

theorem Items.claimLost {g flags queues popped claimed todo} (h : Items g flags queues popped claimed todo)
    {i r : Nat} {it : Item} (hi : popped[i]? = some (r, it)) {v : Nat} (hf : flags[it.flag]? = some ⟨v, true⟩) :
    Items g flags queues (popped.eraseIdx i) claimed todo := by
  have hp := perm_eraseIdx hi
  refine ⟨h.queueOk, fun p hp => h.poppedOk p (List.mem_of_mem_eraseIdx hp), h.claimedOk, h.todoOk, ?_⟩
  intro k w hk q hq
  rcases h.avail k w hk q hq with h1 | ⟨p, h1, h2, h3⟩ | h1
  · exact .inl h1
  · rcases List.mem_cons.1 (hp.subset h1) with rfl | h4
    · simp only at h3; rw [h3, hk] at hf; simp at hf
    · exact .inr (.inl ⟨p, h4, h2, h3⟩)
  · exact .inr (.inr h1)

theorem ItemOk.set {g flags r it} {k v : Nat} {b b' : Bool} (hf : flags[k]? = some ⟨v, b⟩) (h : ItemOk g flags r it) :
    ItemOk g (flags.set k ⟨v, b'⟩) r it := by
  refine ⟨?_, h.prio, h.bit⟩
  have e := owners_set (b' := b') hf
  have h1 := h.flag
  rw [← List.getElem?_map] at h1 ⊢
  show (owners _)[it.flag]? = _
  rw [e]; exact h1

theorem Items.claimWon {g flags queues popped claimed todo} (h : Items g flags queues popped claimed todo)
    {i r : Nat} {it : Item} (hi : popped[i]? = some (r, it)) {v : Nat} (hf : flags[it.flag]? = some ⟨v, false⟩) :
    Items g (flags.set it.flag ⟨v, true⟩) queues (popped.eraseIdx i) (claimed ++ [(r, it)]) todo := by
  have hp := perm_eraseIdx hi
  have hlt := (List.getElem?_eq_some_iff.1 hf).1
  refine ⟨fun r x hx => (h.queueOk r x hx).set hf, fun p hp => (h.poppedOk p (List.mem_of_mem_eraseIdx hp)).set hf, ?_,
    fun b hb x hx => (h.todoOk b hb x hx).set hf, ?_⟩
  · intro p hp
    rcases List.mem_append.1 hp with hp | hp
    · exact (h.claimedOk p hp).set hf
    · simp only [List.mem_singleton] at hp; subst hp
      exact (h.poppedOk _ (List.mem_of_getElem? hi)).set hf
  · intro k w hk q hq
    by_cases hki : k = it.flag
    · subst hki
      rw [List.getElem?_set_self hlt] at hk
      simp at hk
    · rw [List.getElem?_set_ne (Ne.symm hki)] at hk
      rcases h.avail k w hk q hq with h1 | ⟨p, h1, h2, h3⟩ | h1
      · exact .inl h1
      · rcases List.mem_cons.1 (hp.subset h1) with rfl | h4
        · exact absurd h3.symm hki
        · exact .inr (.inl ⟨p, h4, h2, h3⟩)
      · exact .inr (.inr h1)

theorem Items.account {g flags queues popped claimed todo} (h : Items g flags queues popped claimed todo) (i : Nat) :
    Items g flags queues popped (claimed.eraseIdx i) todo :=
  ⟨h.queueOk, h.poppedOk, fun p hp => h.claimedOk p (List.mem_of_mem_eraseIdx hp), h.todoOk, h.avail⟩

/-! ### dependencies -/

structure Deps (g : DiGraph Cmd) (made : List Nat) (processed : List (Nat × ExitStatus)) (unmet : Nat → Nat)
    (poisoned : Nat → Bool) (soft begun : Bool) : Prop where
  lt : ∀ v ∈ made, v < g.n
  nodup : made.Nodup
  met : ∀ v ∈ made, ∀ u, g.Dep u v → u ∈ okIds processed
  notBegun : begun = false → made = [] ∧ processed = []
  unmetEq : soft = false → ∀ v, poisoned v = false →
    unmet v = ((g.preds v).filter (fun u => decide (u ∉ okIds processed))).length
  poison : soft = false → ∀ v, poisoned v = true ↔ ∃ u, g.Dep u v ∧ u ∈ failIds processed
  ready : soft = false → begun = true → ∀ v, v < g.n → (∀ u, g.Dep u v → u ∈ okIds processed) → v ∈ made

theorem okIds_snoc (p : List (Nat × ExitStatus)) (x : Nat × ExitStatus) :
    okIds (p ++ [x]) = okIds p ++ if x.2.isSuccess then [x.1] else [] := by
  simp only [okIds, List.filter_append, List.map_append, List.filter_cons, List.filter_nil]
  split <;> simp
theorem failIds_snoc (p : List (Nat × ExitStatus)) (x : Nat × ExitStatus) :
    failIds (p ++ [x]) = failIds p ++ if x.2.isSuccess then [] else [x.1] := by
  simp only [failIds, List.filter_append, List.map_append, List.filter_cons, List.filter_nil]
  cases x.2.isSuccess <;> simp

theorem mem_okIds {p : List (Nat × ExitStatus)} {v : Nat} : v ∈ okIds p ↔ ∃ st, (v, st) ∈ p ∧ st.isSuccess = true := by
  simp only [okIds, List.mem_map, List.mem_filter, Prod.exists]
  constructor
  · rintro ⟨a, b, ⟨h1, h2⟩, rfl⟩; exact ⟨b, h1, h2⟩
  · rintro ⟨st, h1, h2⟩; exact ⟨v, st, ⟨h1, h2⟩, rfl⟩
theorem mem_failIds {p : List (Nat × ExitStatus)} {v : Nat} :
    v ∈ failIds p ↔ ∃ st, (v, st) ∈ p ∧ st.isSuccess = false := by
  simp only [failIds, List.mem_map, List.mem_filter, Prod.exists, Bool.not_eq_true']
  constructor
  · rintro ⟨a, b, ⟨h1, h2⟩, rfl⟩; exact ⟨b, h1, h2⟩
  · rintro ⟨st, h1, h2⟩; exact ⟨v, st, ⟨h1, h2⟩, rfl⟩

theorem ok_fail_disjoint {p : List (Nat × ExitStatus)} (hnd : (p.map (·.1)).Nodup) {v : Nat} (h1 : v ∈ okIds p)
    (h2 : v ∈ failIds p) : False := by
  induction p with
  | nil => simp [okIds] at h1
  | cons x xs ih =>
    simp only [List.map_cons, List.nodup_cons, List.mem_map, Prod.exists] at hnd
    obtain ⟨a, m1, e1⟩ := mem_okIds.1 h1
    obtain ⟨b, m2, e2⟩ := mem_failIds.1 h2
    rcases List.mem_cons.1 m1 with rfl | m3
    · rcases List.mem_cons.1 m2 with e | m2
      · simp only [Prod.mk.injEq, true_and] at e; subst e; rw [e1] at e2; cases e2
      · exact hnd.1 ⟨v, b, m2, rfl⟩
    · rcases List.mem_cons.1 m2 with e | m2
      · subst e; exact hnd.1 ⟨v, a, m3, rfl⟩
      · exact ih hnd.2 (mem_okIds.2 ⟨a, m3, e1⟩) (mem_failIds.2 ⟨b, m2, e2⟩)

theorem preds_count (g : DiGraph Cmd) (u v : Nat) : (g.preds v).count u = g.edges.count (u, v) := by
  simp only [DiGraph.preds, List.count_reverse]
  rw [List.count, List.countP_map, List.countP_filter, List.count]
  congr 1

theorem succs_count (g : DiGraph Cmd) (u v : Nat) : (g.succs u).count v = g.edges.count (u, v) := by
  simp only [DiGraph.succs, List.count_reverse]
  rw [List.count, List.countP_map, List.countP_filter, List.count]
  congr 1
  funext e
  obtain ⟨a, b⟩ := e
  simp only [Function.comp, Bool.beq_eq_decide_eq, Prod.mk.injEq, Bool.decide_and]
  rw [Bool.and_comm]

theorem filter_notin_snoc (l : List Nat) (ok : List Nat) (u : Nat) (hu : u ∉ ok) :
    (l.filter (fun x => decide (x ∉ ok ++ [u]))).length + l.count u = (l.filter (fun x => decide (x ∉ ok))).length := by
  induction l with
  | nil => rfl
  | cons x xs ih =>
    by_cases hx : x = u
    · subst hx
      have h1 : (x :: xs).filter (fun y => decide (y ∉ ok ++ [x])) = xs.filter (fun y => decide (y ∉ ok ++ [x])) := by
        rw [List.filter_cons, if_neg (by simp)]
      have h2 : (x :: xs).filter (fun y => decide (y ∉ ok)) = x :: xs.filter (fun y => decide (y ∉ ok)) := by
        rw [List.filter_cons, if_pos (by simpa using hu)]
      rw [h1, h2, List.count_cons_self, List.length_cons]; omega
    · rw [List.count_cons_of_ne hx]
      by_cases hxo : x ∈ ok
      · have h1 : (x :: xs).filter (fun y => decide (y ∉ ok ++ [u])) = xs.filter (fun y => decide (y ∉ ok ++ [u])) := by
          rw [List.filter_cons, if_neg (by simp [hxo])]
        have h2 : (x :: xs).filter (fun y => decide (y ∉ ok)) = xs.filter (fun y => decide (y ∉ ok)) := by
          rw [List.filter_cons, if_neg (by simpa using hxo)]
        rw [h1, h2]; exact ih
      · have h1 : (x :: xs).filter (fun y => decide (y ∉ ok ++ [u])) = x :: xs.filter (fun y => decide (y ∉ ok ++ [u])) := by
          rw [List.filter_cons, if_pos (by simp [hxo, hx])]
        have h2 : (x :: xs).filter (fun y => decide (y ∉ ok)) = x :: xs.filter (fun y => decide (y ∉ ok)) := by
          rw [List.filter_cons, if_pos (by simpa using hxo)]
        rw [h1, h2, List.length_cons, List.length_cons]; omega

theorem Deps.finSoft {g made processed unmet poisoned begun} (h : Deps g made processed unmet poisoned true begun)
    (hb : begun = true) (x : Nat × ExitStatus) :
    Deps g made (processed ++ [x]) unmet poisoned true begun := by
  refine ⟨h.lt, h.nodup, ?_, by simp [hb], by simp, by simp, by simp⟩
  intro v hv u hu
  rw [okIds_snoc]; exact List.mem_append_left _ (h.met v hv u hu)

theorem Deps.toSoft {g made processed unmet poisoned soft begun} (h : Deps g made processed unmet poisoned soft begun) :
    Deps g made processed unmet poisoned true begun :=
  ⟨h.lt, h.nodup, h.met, h.notBegun, by simp, by simp, by simp⟩

/-- A failure is processed. -/
theorem Deps.finFail {g made processed unmet poisoned} (h : Deps g made processed unmet poisoned false true)
    {u : Nat} {st : ExitStatus} (hst : st.isSuccess = false) {p : Nat → Bool}
    (hp : ∀ v, p v = (poisoned v || decide (v ∈ g.succs u))) :
    Deps g made (processed ++ [(u, st)]) unmet p false true := by
  have e1 : okIds (processed ++ [(u, st)]) = okIds processed := by rw [okIds_snoc]; simp [hst]
  have e2 : failIds (processed ++ [(u, st)]) = failIds processed ++ [u] := by rw [failIds_snoc]; simp [hst]
  refine ⟨h.lt, h.nodup, by rw [e1]; exact h.met, by simp, ?_, ?_, by rw [e1]; exact h.ready⟩
  · intro _ v hv
    rw [hp v, Bool.or_eq_false_iff] at hv
    rw [e1]; exact h.unmetEq rfl v hv.1
  · intro _ v
    rw [hp v, Bool.or_eq_true, h.poison rfl v, e2]
    simp only [decide_eq_true_eq, DiGraph.mem_succs, List.mem_append, List.mem_singleton]
    constructor
    · rintro (⟨w, h1, h2⟩ | h1)
      · exact ⟨w, h1, .inl h2⟩
      · exact ⟨u, h1, .inr rfl⟩
    · rintro ⟨w, h1, h2 | rfl⟩
      · exact .inl ⟨w, h1, h2⟩
      · exact .inr h1

/-- A success is processed; `vs` are the tasks that become ready. -/
theorem Deps.finOk {g : DiGraph Cmd} {made processed unmet poisoned} (h : Deps g made processed unmet poisoned false true)
    (hw : g.WF) {u : Nat} {st : ExitStatus} (hst : st.isSuccess = true) (hu : u ∉ processed.map (·.1))
    (hnd : (processed.map (·.1)).Nodup)
    {order : List Nat} (ho : order ~ g.succs u)
    {r : (Nat → Nat) × (Nat → Bool) × List Nat} (hr : statusLoop true (unmet, poisoned, []) order = .ok r) :
    Deps g (made ++ r.2.2) (processed ++ [(u, st)]) r.1 r.2.1 false true ∧ ∀ v ∈ r.2.2, v < g.n ∧ v ∉ made := by
  obtain ⟨a1, a2, a3, a4⟩ := statusLoop_ok hr
  have e1 : okIds (processed ++ [(u, st)]) = okIds processed ++ [u] := by rw [okIds_snoc]; simp [hst]
  have e2 : failIds (processed ++ [(u, st)]) = failIds processed := by rw [failIds_snoc]; simp [hst]
  have huo : u ∉ okIds processed := by
    intro hm
    obtain ⟨st', h1, _⟩ := mem_okIds.1 hm
    exact hu (List.mem_map.2 ⟨_, h1, rfl⟩)
  have huf : u ∉ failIds processed := by
    intro hm
    obtain ⟨st', h1, _⟩ := mem_failIds.1 hm
    exact hu (List.mem_map.2 ⟨_, h1, rfl⟩)
  have hcnt : ∀ v, order.count v = (g.preds v).count u := by
    intro v; rw [ho.count_eq, succs_count, preds_count]
  have hmemr : ∀ v, v ∈ r.2.2 ↔ poisoned v = false ∧ v ∈ order ∧ order.count v = unmet v := by
    intro v
    rw [← List.count_pos_iff, a4 v]
    simp only [List.count_nil, Nat.zero_add]
    split <;> simp_all
  have hmemo : ∀ v, v ∈ order ↔ g.Dep u v := by intro v; rw [ho.mem_iff, DiGraph.mem_succs]
  have hnew : ∀ v ∈ r.2.2, v < g.n ∧ v ∉ made := by
    intro v hv
    obtain ⟨h1, h2, h3⟩ := (hmemr v).1 hv
    have hd := (hmemo v).1 h2
    exact ⟨(hw _ hd).2, fun hm => huo (h.met v hm u hd)⟩
  have hunm : ∀ v, poisoned v = false →
      r.1 v = ((g.preds v).filter (fun x => decide (x ∉ okIds processed ++ [u]))).length := by
    intro v hv
    have h1 := (a2 v hv).2
    have h2 := h.unmetEq rfl v hv
    have h3 := filter_notin_snoc (g.preds v) (okIds processed) u huo
    have h4 := hcnt v
    omega
  refine ⟨⟨?_, ?_, ?_, by simp, ?_, ?_, ?_⟩, hnew⟩
  · intro v hv
    rcases List.mem_append.1 hv with hv | hv
    · exact h.lt v hv
    · exact (hnew v hv).1
  · rw [List.nodup_append]
    refine ⟨h.nodup, ?_, fun a ha b hb e => (hnew b hb).2 (e ▸ ha)⟩
    rw [List.nodup_iff_count]
    intro v
    rw [a4 v]
    simp only [List.count_nil]
    split <;> omega
  · intro v hv w hd
    rw [e1]
    rcases List.mem_append.1 hv with hv | hv
    · exact List.mem_append_left _ (h.met v hv w hd)
    · obtain ⟨h1, h2, h3⟩ := (hmemr v).1 hv
      have h4 := hunm v h1
      have h5 : r.1 v = 0 := by rw [(a2 v h1).2]; omega
      rw [h5] at h4
      have h6 := List.length_eq_zero_iff.1 h4.symm
      apply Classical.byContradiction
      intro hn
      have : w ∈ (g.preds v).filter (fun x => decide (x ∉ okIds processed ++ [u])) :=
        List.mem_filter.2 ⟨DiGraph.mem_preds.2 hd, by simpa using hn⟩
      rw [h6] at this; simp at this
  · intro _ v hv
    rw [a1] at hv
    rw [e1]; exact hunm v hv
  · intro _ v
    rw [a1, e2]; exact h.poison rfl v
  · intro _ _ v hv hall
    rw [e1] at hall
    by_cases hm : v ∈ made
    · exact List.mem_append_left _ hm
    · apply List.mem_append_right
      rw [hmemr]
      -- not poisoned: a failed dependency cannot also be successful
      have hd : g.Dep u v := by
        apply Classical.byContradiction
        intro hn
        apply hm
        refine h.ready rfl rfl v hv fun w hw' => ?_
        rcases List.mem_append.1 (hall w hw') with h1 | h1
        · exact h1
        · simp only [List.mem_singleton] at h1; subst h1; exact absurd hw' hn
      have hp : poisoned v = false := by
        apply Classical.byContradiction
        intro hn
        simp only [Bool.not_eq_false] at hn
        obtain ⟨w, h1, h2⟩ := (h.poison rfl v).1 hn
        rcases List.mem_append.1 (hall w h1) with h3 | h3
        · exact ok_fail_disjoint hnd h3 h2
        · simp only [List.mem_singleton] at h3; subst h3; exact huf h2
      refine ⟨hp, (hmemo v).2 hd, ?_⟩
      have h4 := hunm v hp
      have h6 : (g.preds v).filter (fun x => decide (x ∉ okIds processed ++ [u])) = [] := by
        rw [List.filter_eq_nil_iff]
        intro w hw'
        have := hall w (DiGraph.mem_preds.1 hw')
        simp only [decide_not, Bool.not_eq_true', decide_eq_false_iff_not, not_not]
        exact this
      rw [h6] at h4
      have := a2 v hp
      simp only [List.length_nil] at h4
      omega

end Verif.Tracker
