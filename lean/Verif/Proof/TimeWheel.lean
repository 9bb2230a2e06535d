import Verif.Spec.TimeWheel

/-! # The timer wheel does what its specification says (helper lemmas for `Verif.Props.TimeWheel`) -/

namespace Verif.TimeWheel

variable {α : Type}

/-! ## Slot maps -/

/-- Free slots are free. -/
structure SMInv (m : SlotMap α) : Prop where
  nodup : m.free.Nodup
  free : ∀ i ∈ m.free, ∃ v, m.slots[i]? = some (v, none)

theorem SMInv.empty : SMInv (SlotMap.empty : SlotMap α) := ⟨by simp [SlotMap.empty], by simp [SlotMap.empty]⟩

theorem get_eq_some {m : SlotMap α} {k : Key} {e : α} : m.get k = some e ↔ m.slots[k.idx]? = some (k.version, some e) := by
  unfold SlotMap.get
  constructor
  · intro h
    split at h
    · rename_i v e' hs
      split at h
      · rename_i hv; cases h; rw [hs, hv]
      · cases h
    · cases h
  · intro h; rw [h]; simp

theorem get_empty (k : Key) : (SlotMap.empty : SlotMap α).get k = none := by
  cases h : (SlotMap.empty : SlotMap α).get k with
  | none => rfl
  | some e =>
    rw [get_eq_some] at h
    simp only [SlotMap.empty] at h
    cases k with
    | mk i v => cases i <;> simp at h

theorem lt_of_getElem?_some {β : Type} {l : List β} {i : Nat} {x : β} (h : l[i]? = some x) : i < l.length := by
  have := List.getElem?_eq_some_iff.1 h
  exact this.1

theorem insert_inv {m : SlotMap α} (h : SMInv m) (e : α) : SMInv (m.insert e).1 := by
  unfold SlotMap.insert
  cases hf : m.free with
  | nil => exact ⟨by simp, by simp⟩
  | cons i fs =>
    have hn := h.nodup
    rw [hf, List.nodup_cons] at hn
    refine ⟨hn.2, fun j hj => ?_⟩
    obtain ⟨v, hv⟩ := h.free j (by rw [hf]; exact List.mem_cons_of_mem _ hj)
    have hne : i ≠ j := fun e => hn.1 (e ▸ hj)
    exact ⟨v, by simp only; rw [List.getElem?_set_ne hne]; exact hv⟩

theorem insert_get {m : SlotMap α} (h : SMInv m) (e : α) (k : Key) :
    (m.insert e).1.get k = if k = (m.insert e).2 then some e else m.get k := by
  unfold SlotMap.insert
  cases hf : m.free with
  | nil =>
    simp only
    by_cases hk : k = ⟨m.slots.length, 1⟩
    · rw [if_pos hk, get_eq_some, hk]; simp
    · rw [if_neg hk]
      by_cases hi : k.idx = m.slots.length
      · have h1 : m.get k = none := by unfold SlotMap.get; rw [hi]; simp
        rw [h1]
        unfold SlotMap.get
        simp only [hi, List.getElem?_append_right (Nat.le_refl _), Nat.sub_self, List.getElem?_cons_zero]
        split
        · rename_i hv; exact absurd (by cases k; simp_all) hk
        · rfl
      · have hs : (m.slots ++ [(1, some e)])[k.idx]? = m.slots[k.idx]? := by
          rcases Nat.lt_or_ge k.idx m.slots.length with hl | hl
          · rw [List.getElem?_append_left hl]
          · rw [List.getElem?_eq_none (by simp; omega), List.getElem?_eq_none hl]
        unfold SlotMap.get
        simp only [hs]
  | cons i fs =>
    obtain ⟨v, hv⟩ := h.free i (by rw [hf]; simp)
    have hl := lt_of_getElem?_some hv
    simp only [hv, Option.map_some, Option.getD_some]
    by_cases hk : k = ⟨i, v + 1⟩
    · rw [if_pos hk, get_eq_some, hk]; simp [List.getElem?_set_self hl]
    · rw [if_neg hk]
      by_cases hi : k.idx = i
      · have h1 : m.get k = none := by unfold SlotMap.get; rw [hi, hv]
        rw [h1]
        unfold SlotMap.get
        simp only [hi, List.getElem?_set_self hl]
        split
        · rename_i hh; exact absurd (by cases k; simp_all) hk
        · rfl
      · unfold SlotMap.get
        simp only [List.getElem?_set_ne (fun e => hi e.symm)]

theorem insert_fresh {m : SlotMap α} (h : SMInv m) (e : α) : m.get (m.insert e).2 = none := by
  unfold SlotMap.insert
  cases hf : m.free with
  | nil => simp [SlotMap.get]
  | cons i fs =>
    obtain ⟨v, hv⟩ := h.free i (by rw [hf]; simp)
    simp [SlotMap.get, hv]

theorem remove_inv {m : SlotMap α} (h : SMInv m) (k : Key) : SMInv (m.remove k) := by
  unfold SlotMap.remove
  cases hg : m.get k with
  | none => exact h
  | some e =>
    rw [get_eq_some] at hg
    have hl := lt_of_getElem?_some hg
    have hnf : k.idx ∉ m.free := by
      intro hm
      obtain ⟨v, hv⟩ := h.free _ hm
      rw [hg] at hv; cases hv
    refine ⟨List.nodup_cons.2 ⟨hnf, h.nodup⟩, fun j hj => ?_⟩
    rcases List.mem_cons.1 hj with rfl | hj
    · exact ⟨_, List.getElem?_set_self hl⟩
    · obtain ⟨v, hv⟩ := h.free j hj
      have hne : k.idx ≠ j := fun e => hnf (e ▸ hj)
      exact ⟨v, by simp only; rw [List.getElem?_set_ne hne]; exact hv⟩

theorem remove_get (m : SlotMap α) (k k' : Key) :
    (m.remove k).get k' = if k' = k then none else m.get k' := by
  unfold SlotMap.remove
  cases hg : m.get k with
  | none =>
    simp only
    split
    · rename_i e; rw [e, hg]
    · rfl
  | some e =>
    rw [get_eq_some] at hg
    have hl := lt_of_getElem?_some hg
    by_cases hi : k'.idx = k.idx
    · have h1 : SlotMap.get ⟨m.slots.set k.idx (k.version + 1, none), k.idx :: m.free⟩ k' = (none : Option α) := by
        unfold SlotMap.get
        simp only [hi, List.getElem?_set_self hl]
      rw [h1]
      split
      · rfl
      · rename_i hne
        unfold SlotMap.get
        rw [hi, hg]
        simp only
        rw [if_neg]
        intro hv
        exact hne (by cases k; cases k'; simp_all)
    · have hne : k' ≠ k := fun e => hi (by rw [e])
      rw [if_neg hne]
      unfold SlotMap.get
      simp only [List.getElem?_set_ne (fun e => hi e.symm)]

theorem mem_entries {m : SlotMap α} {k : Key} {e : α} : (k, e) ∈ m.entries ↔ m.get k = some e := by
  rw [get_eq_some]
  unfold SlotMap.entries
  simp only [List.mem_filterMap, List.mem_range]
  constructor
  · rintro ⟨i, hi, h⟩
    split at h
    · rename_i v e' hs; cases h; exact hs
    · cases h
  · intro h
    exact ⟨k.idx, lt_of_getElem?_some h, by rw [h]⟩

theorem entries_nodup (m : SlotMap α) : (m.entries.map (·.1)).Nodup := by
  unfold SlotMap.entries
  rw [List.Nodup, List.pairwise_map]
  refine List.Pairwise.filterMap _ (S := fun (a b : Key × α) => a.1 ≠ b.1) (R := fun a b => a ≠ b) ?_ List.nodup_range
  intro a b hab x hx y hy
  split at hx
  · cases hx
    split at hy
    · cases hy; simp [hab]
    · cases hy
  · cases hx

/-! ## The relation between wheel and specification -/

/-- The wheel holds exactly the pending timers `p`. -/
structure Rel (w : Wheel α) (p : List (Timer α)) : Prop where
  cur : w.current < 256
  nodup : (p.map (·.id)).Nodup
  look : ∀ k e, look w k = some e ↔ ∃ t ∈ p, t.id = k ∧ t.entry = e
  inv : ∀ i m, w.slots i = some m → SMInv m
  left : ∀ t ∈ p, 1 ≤ t.left ∧ t.left ≤ 256 ∧ (w.current + t.left) % 256 = t.id.slot

theorem Rel.new (d : Nat) : Rel (new d : Wheel α) [] :=
  ⟨by simp [TimeWheel.new], by simp, by simp [TimeWheel.look, TimeWheel.new], by simp [TimeWheel.new], by simp⟩

theorem ticksFor_step {D d : Nat} (h : d ≤ D) (h0 : D ≠ 0) :
    1 ≤ ticksFor D d ∧ ticksFor D d ≤ 256 ∧ ∀ c, (c + ticksFor D d) % 256 = (c + stepOf D d) % 256 := by
  have hle : 256 * d / D ≤ 256 := by
    apply Nat.div_le_of_le_mul
    rw [Nat.mul_comm D 256]
    exact Nat.mul_le_mul_left _ h
  unfold ticksFor stepOf
  generalize 256 * d / D = s at hle
  split
  · subst_vars; refine ⟨by omega, by omega, fun c => by omega⟩
  · exact ⟨by omega, hle, fun c => by omega⟩

theorem nodup_pairs {l : List (Timer α)} (h : (l.map (·.id)).Nodup) : (l.map (fun t => (t.id, t.entry))).Nodup := by
  rw [List.Nodup, List.pairwise_map] at h ⊢
  exact h.imp (fun hab heq => hab (by simpa using congrArg Prod.fst heq))

theorem tick_spec {w : Wheel α} {p : List (Timer α)} (h : Rel w p) :
    specRet p .tick (.fired (tick w).2) ∧ Rel (tick w).1 (specNext w.duration p .tick (.fired (tick w).2)) := by
  have hout : ∀ k e, (k, e) ∈ (tick w).2 ↔ look w k = some e ∧ k.slot = (w.current + 1) % 256 := by
    intro k e
    simp only [tick, TimeWheel.look]
    cases hs : w.slots ((w.current + 1) % 256) with
    | none =>
      simp only [List.not_mem_nil, false_iff]
      rintro ⟨h1, h2⟩
      rw [h2, hs] at h1; cases h1
    | some m =>
      simp only [List.mem_map, Prod.mk.injEq]
      constructor
      · rintro ⟨⟨k', e'⟩, hm, rfl, rfl⟩
        exact ⟨by rw [hs]; exact mem_entries.1 hm, rfl⟩
      · rintro ⟨h1, h2⟩
        rw [h2, hs] at h1
        exact ⟨(k.key, e), mem_entries.2 h1, by cases k; simp_all, rfl⟩
  have hone : ∀ t ∈ p, (t.left = 1 ↔ t.id.slot = (w.current + 1) % 256) := by
    intro t ht
    have := h.left t ht
    have := h.cur
    omega
  refine ⟨?_, ?_⟩
  · simp only [specRet]
    rw [List.perm_ext_iff_of_nodup]
    · rintro ⟨k, e⟩
      rw [hout]
      simp only [List.mem_map, List.mem_filter, beq_iff_eq, Prod.mk.injEq]
      constructor
      · rintro ⟨h1, h2⟩
        obtain ⟨t, ht, rfl, rfl⟩ := (h.look k e).1 h1
        exact ⟨t, ⟨ht, (hone t ht).2 h2⟩, rfl, rfl⟩
      · rintro ⟨t, ⟨ht, h1⟩, rfl, rfl⟩
        exact ⟨(h.look _ _).2 ⟨t, ht, rfl, rfl⟩, (hone t ht).1 h1⟩
    · simp only [tick]
      split
      · rename_i m _
        have := entries_nodup m
        rw [List.Nodup, List.pairwise_map] at this ⊢
        exact this.imp (fun hab heq => hab (by simp only [Prod.mk.injEq, TimerID.mk.injEq] at heq; exact heq.1.1))
      · simp
    · refine nodup_pairs (List.Nodup.sublist ?_ h.nodup)
      exact List.filter_sublist.map _
  · have hmem : ∀ t', t' ∈ specNext w.duration p .tick (.fired (tick w).2) ↔
        ∃ t ∈ p, t.left ≠ 1 ∧ t' = { t with left := t.left - 1 } := by
      intro t'
      simp only [specNext, List.mem_map, List.mem_filter, bne_iff_ne]
      constructor
      · rintro ⟨t, ⟨h1, h2⟩, rfl⟩; exact ⟨t, h1, h2, rfl⟩
      · rintro ⟨t, h1, h2, rfl⟩; exact ⟨t, ⟨h1, h2⟩, rfl⟩
    refine ⟨Nat.mod_lt _ (by omega), ?_, ?_, ?_, ?_⟩
    · simp only [specNext, List.map_map, Function.comp_def]
      exact List.Nodup.sublist (List.filter_sublist.map _) h.nodup
    · intro k e
      have hl : TimeWheel.look (tick w).1 k = if k.slot = (w.current + 1) % 256 then none else TimeWheel.look w k := by
        simp only [TimeWheel.look, tick, upd]
        split <;> simp
      rw [hl]
      constructor
      · intro hk
        split at hk
        · cases hk
        · rename_i hne
          obtain ⟨t, ht, rfl, rfl⟩ := (h.look k e).1 hk
          exact ⟨_, (hmem _).2 ⟨t, ht, fun h1 => hne ((hone t ht).1 h1), rfl⟩, rfl, rfl⟩
      · rintro ⟨t', ht', rfl, rfl⟩
        obtain ⟨t, ht, h1, rfl⟩ := (hmem _).1 ht'
        rw [if_neg (fun hs => h1 ((hone t ht).2 hs))]
        exact (h.look _ _).2 ⟨t, ht, rfl, rfl⟩
    · intro i m hm
      simp only [tick, upd] at hm
      split at hm
      · cases hm
      · exact h.inv i m hm
    · intro t' ht'
      obtain ⟨t, ht, h1, rfl⟩ := (hmem _).1 ht'
      have := h.left t ht
      have := h.cur
      simp only [tick]
      omega

theorem insert_spec {w w' : Wheel α} {p : List (Timer α)} (h : Rel w p) {d : Nat} {e : α} {k : TimerID}
    (hi : insert w d e = .ok (w', k)) :
    specRet p (.insert d e) (.id k) ∧ Rel w' (specNext w.duration p (.insert d e) (.id k)) := by
  unfold insert at hi
  split at hi
  · cases hi
  · split at hi
    · cases hi
    · rename_i hd h0
      simp only [Res.ok.injEq, Prod.mk.injEq] at hi
      obtain ⟨rfl, rfl⟩ := hi
      generalize hpos : (w.current + stepOf w.duration d) % 256 = pos
      have hm : SMInv ((w.slots pos).getD .empty) := by
        cases hs : w.slots pos with
        | none => exact SMInv.empty
        | some m => exact h.inv pos m hs
      have hget : ∀ key, TimeWheel.look w ⟨key, pos⟩ = ((w.slots pos).getD .empty).get key := by
        intro key
        simp only [TimeWheel.look]
        cases hs : w.slots pos with
        | none => simp [get_empty]
        | some m => rfl
      have hfresh : ∀ t ∈ p, t.id ≠ ⟨(((w.slots pos).getD .empty).insert e).2, pos⟩ := by
        intro t ht heq
        have h1 := (h.look t.id t.entry).2 ⟨t, ht, rfl, rfl⟩
        rw [heq, hget, insert_fresh hm] at h1
        cases h1
      have htf := ticksFor_step (D := w.duration) (d := d) (by omega) h0
      refine ⟨?_, ?_⟩
      · simp only [specRet, List.mem_map]
        rintro ⟨t, ht, heq⟩
        exact hfresh t ht heq
      · refine ⟨h.cur, ?_, ?_, ?_, ?_⟩
        · simp only [specNext, List.map_append, List.map_cons, List.map_nil, List.nodup_append]
          refine ⟨h.nodup, by simp, ?_⟩
          intro a ha b hb
          simp only [List.mem_singleton] at hb
          obtain ⟨t, ht, rfl⟩ := List.mem_map.1 ha
          rw [hb]
          exact hfresh t ht
        · intro k' e'
          have hl : TimeWheel.look { w with slots := upd w.slots pos (some (((w.slots pos).getD .empty).insert e).1) } k' =
              if k' = ⟨(((w.slots pos).getD .empty).insert e).2, pos⟩ then some e else TimeWheel.look w k' := by
            by_cases hs : k'.slot = pos
            · have hk : k' = ⟨k'.key, pos⟩ := by cases k'; simp_all
              rw [hk, hget]
              simp only [TimeWheel.look, upd, if_true, Option.bind_some]
              rw [insert_get hm]
              simp
            · rw [if_neg (fun hh => hs (by rw [hh]))]
              simp [TimeWheel.look, upd, hs]
          rw [hl]
          simp only [specNext, List.mem_append, List.mem_singleton]
          constructor
          · intro hh
            split at hh
            · rename_i hk; cases hh; exact ⟨_, .inr rfl, hk.symm, rfl⟩
            · obtain ⟨t, ht, h1, h2⟩ := (h.look k' e').1 hh
              exact ⟨t, .inl ht, h1, h2⟩
          · rintro ⟨t, ht | rfl, rfl, rfl⟩
            · rw [if_neg (hfresh t ht)]
              exact (h.look _ _).2 ⟨t, ht, rfl, rfl⟩
            · simp
        · intro i m hm'
          simp only [upd] at hm'
          split at hm'
          · cases hm'; exact insert_inv hm e
          · exact h.inv i m hm'
        · intro t ht
          simp only [specNext, List.mem_append, List.mem_singleton] at ht
          rcases ht with ht | rfl
          · exact h.left t ht
          · exact ⟨htf.1, htf.2.1, by rw [htf.2.2, hpos]⟩

theorem cancel_look (w : Wheel α) (k k' : TimerID) :
    look (cancel w k) k' = if k' = k then none else look w k' := by
  unfold cancel
  cases hs : w.slots k.slot with
  | none =>
    simp only
    split
    · rename_i e; subst e; simp [look, hs]
    · rfl
  | some m =>
    by_cases hsl : k'.slot = k.slot
    · simp only [look, upd, hsl, if_true, Option.bind_some, hs, remove_get]
      by_cases hk : k'.key = k.key
      · rw [if_pos hk, if_pos (by cases k; cases k'; simp_all)]
      · rw [if_neg hk, if_neg (fun e => hk (by rw [e]))]
    · rw [if_neg (fun e => hsl (by rw [e]))]
      simp [look, upd, hsl]

theorem cancel_current (w : Wheel α) (k : TimerID) : (cancel w k).current = w.current := by
  unfold cancel; split <;> rfl

theorem cancel_spec {w : Wheel α} {p : List (Timer α)} (h : Rel w p) (k : TimerID) :
    Rel (cancel w k) (specNext w.duration p (.cancel k) .unit) := by
  refine ⟨by rw [cancel_current]; exact h.cur, ?_, ?_, ?_, ?_⟩
  · exact List.Nodup.sublist (List.filter_sublist.map _) h.nodup
  · intro k' e'
    rw [cancel_look]
    simp only [specNext, List.mem_filter, bne_iff_ne]
    constructor
    · intro hh
      split at hh
      · cases hh
      · rename_i hne
        obtain ⟨t, ht, h1, h2⟩ := (h.look k' e').1 hh
        exact ⟨t, ⟨ht, by rw [h1]; exact hne⟩, h1, h2⟩
    · rintro ⟨t, ⟨ht, hne⟩, rfl, rfl⟩
      rw [if_neg hne]
      exact (h.look _ _).2 ⟨t, ht, rfl, rfl⟩
  · intro i m hm
    unfold cancel at hm
    split at hm
    · rename_i m0 hs
      simp only [upd] at hm
      split at hm
      · cases hm; exact remove_inv (h.inv _ _ hs) _
      · exact h.inv i m hm
    · exact h.inv i m hm
  · intro t ht
    rw [cancel_current]
    exact h.left t (List.mem_filter.1 ht).1

theorem step_duration {w w' : Wheel α} {o : Op α} {r : Ret α} (h : step w o = .ok (w', r)) : w'.duration = w.duration := by
  cases o with
  | tick => simp only [step, Res.ok.injEq, Prod.mk.injEq] at h; rw [← h.1]; rfl
  | insert d e =>
    simp only [step, insert] at h
    split at h
    · cases h
    · split at h
      · cases h
      · simp only [Res.bind, Res.ok.injEq, Prod.mk.injEq] at h; rw [← h.1]
  | cancel k =>
    simp only [step, Res.ok.injEq, Prod.mk.injEq] at h
    rw [← h.1]; unfold cancel; split <;> rfl

theorem step_spec {w w' : Wheel α} {p : List (Timer α)} (h : Rel w p) {o : Op α} {r : Ret α}
    (hs : step w o = .ok (w', r)) : specRet p o r ∧ Rel w' (specNext w.duration p o r) := by
  cases o with
  | tick =>
    simp only [step, Res.ok.injEq, Prod.mk.injEq] at hs
    obtain ⟨rfl, rfl⟩ := hs
    exact tick_spec h
  | insert d e =>
    simp only [step] at hs
    cases hi : insert w d e with
    | ok x =>
      obtain ⟨w1, k⟩ := x
      rw [hi] at hs
      simp only [Res.bind, Res.ok.injEq, Prod.mk.injEq] at hs
      obtain ⟨rfl, rfl⟩ := hs
      exact insert_spec h hi
    | err x => rw [hi] at hs; cases hs
    | panic x => rw [hi] at hs; cases hs
  | cancel k =>
    simp only [step, Res.ok.injEq, Prod.mk.injEq] at hs
    obtain ⟨rfl, rfl⟩ := hs
    exact ⟨trivial, cancel_spec h k⟩

theorem run_spec {os : List (Op α)} : ∀ {w w' : Wheel α} {p : List (Timer α)} {rs : List (Ret α)}, Rel w p →
    run w os = .ok (w', rs) → ∃ p', SpecRuns w.duration p os rs p' ∧ Rel w' p' := by
  induction os with
  | nil =>
    intro w w' p rs h hr
    simp only [run, Res.ok.injEq, Prod.mk.injEq] at hr
    obtain ⟨rfl, rfl⟩ := hr
    exact ⟨p, .nil p, h⟩
  | cons o os ih =>
    intro w w' p rs h hr
    simp only [run] at hr
    cases hs : step w o with
    | ok x =>
      obtain ⟨w1, r⟩ := x
      rw [hs] at hr
      simp only [Res.bind] at hr
      cases hr2 : run w1 os with
      | ok y =>
        obtain ⟨w2, rs2⟩ := y
        rw [hr2] at hr
        simp only [Res.ok.injEq, Prod.mk.injEq] at hr
        obtain ⟨rfl, rfl⟩ := hr
        obtain ⟨h1, h2⟩ := step_spec h hs
        obtain ⟨p', h3, h4⟩ := ih h2 hr2
        rw [step_duration hs] at h3
        exact ⟨p', .cons h1 h3, h4⟩
      | err x => rw [hr2] at hr; cases hr
      | panic x => rw [hr2] at hr; cases hr
    | err x => rw [hs] at hr; cases hr
    | panic x => rw [hs] at hr; cases hr

end Verif.TimeWheel
