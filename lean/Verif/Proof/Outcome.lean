import Verif.Spec.Outcome
import Verif.Proof.Deploy
import Verif.Props.TrackerRuns
import Verif.Props.Execute

/-!
# The outcome does not depend on the schedule (proofs)
-/

namespace Verif.Tracker
open Verif Verif.Props.Tracker
open scoped List

variable {c c' : Cfg} {lf : LogFile} {now : Int} {s : State} {as : List Act} {b : Behaviour}

theorem processed_from (hr : Runs c (init c lf now) as s) :
    ∀ x ∈ s.processed, ∃ e, Act.sendFinished e ∈ as ∧ e.id = x.1 ∧ e.status = x.2 := by
  refine Runs.snocInd (P := fun as s => ∀ x ∈ s.processed, ∃ e, Act.sendFinished e ∈ as ∧ e.id = x.1 ∧ e.status = x.2)
    ?_ ?_ hr
  · intro x hx; simp [init] at hx
  · intro as s a s' hr ih _ hs x hx
    rcases step_processed hs with h | ⟨e, he, h⟩
    · rw [h] at hx
      obtain ⟨e, h1, h2⟩ := ih x hx
      exact ⟨e, by simp [h1], h2⟩
    · rw [h] at hx
      rcases List.mem_append.1 hx with hx | hx
      · obtain ⟨e, h1, h2⟩ := ih x hx
        exact ⟨e, by simp [h1], h2⟩
      · simp only [List.mem_singleton] at hx
        have := (rinv hr).evs _ he
        exact ⟨e, List.mem_append_left _ this, by rw [hx], by rw [hx]⟩

/-- After a complete run every task made ready was reported, and `drain` had nothing to make up. -/
theorem all_reported (hg : Good c) (hr : Runs c (init c lf now) as s) (hno : NoShutdown as)
    (hq : quickFailures c [] (init c lf now) as < c.fizzlesAllowed) (he : ServingOver s) :
    s.soft = false ∧ (∀ w, w ∈ owners s.flags ↔ w ∈ s.processed.map (·.1)) ∧ s.drained = [] := by
  have hre : Reachable c lf now s := ⟨as, hr⟩
  have hend := ended_of_over he
  have hsoft : s.soft = false := by
    by_contra h
    have h := ((soft_exact hg hr (fun h => (hno _ h).1 rfl)).1 (by simpa using h)).2
    omega
  obtain ⟨_, hall⟩ := ended_facts hg hr (fun a ha => (hno a ha).2) hend
  have hlen : s.flags.length = s.processed.length := by
    rcases hall with h | h
    · exact h
    · rw [hsoft] at h; cases h
  have hnd := (order_topological hg hre).1
  have hsub : ∀ w, w ∈ s.processed.map (·.1) → w ∈ owners s.flags := by
    intro w hw
    obtain ⟨x, hx, rfl⟩ := List.mem_map.1 hw
    exact hre.obtained_made hg (hre.closed_obtained hg (st := x.2) (List.mem_append_left _ hx))
  have hp := (List.subperm_of_subset hnd hsub).perm_of_length_le (by simp [owners, hlen])
  refine ⟨hsoft, fun w => hp.mem_iff.symm, ?_⟩
  apply List.eq_nil_iff_forall_not_mem.2
  rintro ⟨v, st⟩ hx
  have h1 : v ∈ s.processed.map (·.1) :=
    hp.mem_iff.2 (hre.obtained_made hg (hre.closed_obtained hg (st := st) (List.mem_append_right _ hx)))
  have h2 := hre.closed_nodup hg
  unfold closedTasks at h2
  rw [List.map_append, List.nodup_append] at h2
  exact h2.2.2 v h1 v (List.mem_map.2 ⟨_, hx, rfl⟩) rfl

theorem reach_lt (hg : Good c) {u v : Nat} (h : c.g.Reach u v) : v < c.g.n := by
  obtain ⟨k, hk⟩ := h
  cases hk with
  | snoc _ h2 => exact (hg.wf _ h2).2

theorem reach_trans {g : DiGraph Cmd} {u v w : Nat} (h1 : g.Reach u v) (h2 : g.Reach v w) : g.Reach u w := by
  obtain ⟨k, hk⟩ := h1
  obtain ⟨m, hm⟩ := h2
  generalize hm' : m + 1 = m' at hm
  clear hm'
  have : ∃ j, g.Walk (j + 1) u w := by
    induction hm with
    | nil => exact ⟨k, hk⟩
    | snoc _ hd ih =>
      obtain ⟨j, hj⟩ := ih hk
      exact ⟨j + 1, .snoc hj hd⟩
  exact this

theorem walk_first {g : DiGraph Cmd} {k u v : Nat} (h : g.Walk (k + 1) u v) : ∃ x, g.Dep u x := by
  generalize hk : k + 1 = m at h
  induction h generalizing k with
  | nil => omega
  | @snoc j u v w h1 h2 ih =>
    cases j with
    | zero => cases h1; exact ⟨_, h2⟩
    | succ j => exact ih rfl

theorem reach_lt' (hg : Good c) {u v : Nat} (h : c.g.Reach u v) : u < c.g.n := by
  obtain ⟨k, hk⟩ := h
  obtain ⟨x, hx⟩ := walk_first hk
  exact (hg.wf _ hx).1

theorem reach_same {g g' : DiGraph Cmd} (h : g.edges = g'.edges) {u v : Nat} (hr : g.Reach u v) : g'.Reach u v := by
  obtain ⟨k, hk⟩ := hr
  refine ⟨k, ?_⟩
  generalize k + 1 = m at hk
  induction hk with
  | nil => exact .nil _
  | snoc _ h2 ih => exact .snoc ih (by unfold DiGraph.Dep at h2 ⊢; rwa [← h])

theorem due_same (h : SameTasks c c') {v : Nat} (hd : Due c b v) : Due c' b v := by
  obtain ⟨h1, h2⟩ := h
  refine ⟨?_, fun u hu => hd.2 u (reach_same h2.symm hu)⟩
  have := congrArg List.length h1
  simp only [List.length_map] at this
  have h3 := hd.1
  unfold DiGraph.n at h3 ⊢
  omega

theorem key_same (h : SameTasks c c') (v : Nat) : keyOf c v = keyOf c' v := by
  have := congrArg (fun l => l[v]?) h.1
  simp only [List.getElem?_map] at this
  unfold keyOf cmdOf
  cases h1 : c.g.nodes[v]? <;> cases h2 : c'.g.nodes[v]? <;> rw [h1, h2] at this <;> simp at this ⊢
  exact this

theorem done_keeps {a : Act} (hs : step c s a = .ok s') (h : s.pc = .done) : s'.lf = s.lf ∧ s'.drained = s.drained := by
  cases a with
  | begin order t => simp [step, h] at hs
  | sendDone t => simp [step, h] at hs
  | recvStarted t => simp [step, h] at hs
  | recvFinished order t => simp [step, h] at hs
  | drain order t => simp [step, h] at hs
  | sendNext => simp [step, h] at hs
  | tick d => simp only [step, Res.ok.injEq] at hs; subst hs; exact ⟨rfl, rfl⟩
  | trigger => simp only [step, Res.ok.injEq] at hs; subst hs; exact ⟨rfl, rfl⟩
  | cancel k => simp only [step, Res.ok.injEq] at hs; subst hs; exact ⟨rfl, rfl⟩
  | _ =>
    simp only [step] at hs
    repeat' split at hs
    all_goals first
      | cases hs; done
      | (simp only [Res.ok.injEq] at hs; subst hs; exact ⟨rfl, rfl⟩)
      | simp_all; done

/-- The entry shows what a runner reported. -/
def Told (c : Cfg) (as : List Act) (x : FinishedEntry) : Prop :=
  ∃ e, Act.sendFinished e ∈ as ∧ x.key = keyOf c e.id ∧ x.status = e.status.asI32 ∧ x.values = e.values

theorem told_of_no_drain (hr : Runs c (init c lf now) as s) (h : ∀ a ∈ as, a.isDrain = false) {x : FinishedEntry}
    (hx : LogEntry.finished x ∈ newEntries lf s) : Told c as x := by
  rcases entries_have_origin hr _ hx with h1 | ⟨⟨a, ha, hd⟩, _⟩
  · exact h1
  · rw [h a ha] at hd; cases hd

theorem not_sending (h : ended s.pc = true) : curOf s.pc = none := by
  cases hp : s.pc <;> rw [hp] at h <;> first | rfl | simp [ended] at h

theorem finList_closed (hg : Good c) (hr : Reachable c lf now s) (he : curOf s.pc = none) :
    finList (newEntries lf s) = (s.processed ++ s.drained).map (fun x => (keyOf c x.1, x.2.asI32)) := by
  obtain ⟨_, hh⟩ := hr.inv hg
  obtain ⟨_, _, hnew⟩ := hh.log.new_eq
  have := hnew.fin
  rw [he, List.filter_eq_self.2 (by simp)] at this
  exact this

theorem isDrain_cases (a : Act) : a.isDrain = false ∨ ∃ o t, a = .drain o t := by
  cases a with
  | drain o t => exact .inr ⟨o, t, rfl⟩
  | _ => exact .inl rfl

/-- As long as `drain` made nothing up, every Finished entry shows a report. -/
theorem told (hg : Good c) (hr : Runs c (init c lf now) as s) (hd : s.drained = []) {x : FinishedEntry}
    (hx : LogEntry.finished x ∈ newEntries lf s) : Told c as x := by
  have key : (s.pc ≠ .done → ∀ a ∈ as, a.isDrain = false) ∧
      (s.drained = [] → ∀ x, LogEntry.finished x ∈ newEntries lf s → Told c as x) := by
    refine Runs.snocInd (P := fun as s => (s.pc ≠ .done → ∀ a ∈ as, a.isDrain = false) ∧
      (s.drained = [] → ∀ x, LogEntry.finished x ∈ newEntries lf s → Told c as x)) ?_ ?_ hr
    · refine ⟨by simp, fun _ x hx => ?_⟩
      simp [init, newEntries] at hx
    · rintro as s a s' hr ⟨ih1, ih2⟩ hdis hs
      have hr' : Runs c (init c lf now) (as ++ [a]) s' := hr.append (.cons hdis hs (.nil _))
      have mono : ∀ x, Told c as x → Told c (as ++ [a]) x := fun x ⟨e, h1, h2⟩ => ⟨e, by simp [h1], h2⟩
      by_cases hp : s.pc = .done
      · obtain ⟨e1, e2⟩ := done_keeps hs hp
        refine ⟨fun h => absurd (done_stays hs hp) h, fun h x hx => mono x (ih2 (e2 ▸ h) x ?_)⟩
        unfold newEntries at hx ⊢
        rwa [e1] at hx
      rcases isDrain_cases a with ha | ⟨o, t, rfl⟩
      · have hall : ∀ b ∈ as ++ [a], b.isDrain = false := by
          intro b hb
          rcases List.mem_append.1 hb with hb | hb
          · exact ih1 hp b hb
          · simp only [List.mem_singleton] at hb; rw [hb]; exact ha
        exact ⟨fun _ => hall, fun _ x hx => told_of_no_drain hr' hall hx⟩
      · simp only [step] at hs
        split at hs
        · cases hs
        rename_i hj
        have hj : s.pc = .joined := by simpa using hj
        obtain ⟨hadds, _, h3, _, hk⟩ := Adds.drain (Q := fun _ => True) (T := fun _ => True) (D := True) True hs (by simp) trivial
          (by simp) (by simp)
        obtain ⟨new, h1, _⟩ := hadds
        refine ⟨fun h => absurd h3 h, fun hdr x hx => mono x (told_of_no_drain hr (ih1 hp) ?_)⟩
        have hre : Reachable c lf now s := ⟨_, hr⟩
        have hre' : Reachable c lf now s' := ⟨_, hr'⟩
        have f1 := finList_closed hg hre (by rw [hj]; rfl)
        have f2 := finList_closed hg hre' (by rw [h3]; rfl)
        obtain ⟨_, hh⟩ := hre.inv hg
        obtain ⟨_, hlf, _⟩ := hh.log.new_eq
        have hn : newEntries lf s' = newEntries lf s ++ new := by
          have : s'.lf.entries = lf.entries ++ (newEntries lf s ++ new) := by rw [h1, hlf, List.append_assoc]
          rw [newEntries, this, List.drop_left]
        have hpr : s'.processed = s.processed := hk.processed
        rw [hn, finList, List.filterMap_append, ← finList, ← finList, f1, hpr, hdr, List.append_nil, List.map_append,
          List.append_assoc] at f2
        have f3 := (List.append_eq_nil_iff.1 (List.append_right_eq_self.1 f2)).2
        rw [hn] at hx
        rcases List.mem_append.1 hx with hx | hx
        · exact hx
        · have : (x.key, x.status) ∈ finList new := List.mem_filterMap.2 ⟨_, hx, rfl⟩
          rw [f3] at this; cases this
  exact key.2 hd x hx

theorem sent_lt (hg : Good c) (hr : Runs c (init c lf now) as s) : ∀ e, Act.sendFinished e ∈ as → e.id < c.g.n := by
  refine Runs.snocInd (P := fun as _ => ∀ e, Act.sendFinished e ∈ as → e.id < c.g.n) (by simp) ?_ hr
  intro as s a s' hr ih hdis _ e he
  rcases List.mem_append.1 he with he | he
  · exact ih e he
  · simp only [List.mem_singleton] at he
    subst he
    have hre : Reachable c lf now s := ⟨_, hr⟩
    have hh : e.id ∈ s.held := by simpa [disciplined] using hdis
    exact (hre.inv hg).1.core.deps.lt _ (hre.busy_made hg (by simp [hh]))

end Verif.Tracker
