import Verif.Proof.Greedy

/-!
# Lemmas about how long an `execute` takes: the accounts
-/

namespace Verif.Sys
open Verif Verif.Tracker

variable {c : Cfg} {lf : LogFile} {now : Int} {s s' s0 : State}

/-! ### the tracker -/

theorem later_processed {tc : Tracker.Cfg} {t t' : Tracker.State} {as : List Tracker.Act} (hr : Tracker.Runs tc t as t') :
    ∀ x ∈ t.processed, x ∈ t'.processed := by
  induction hr with
  | nil => exact fun _ h => h
  | cons _ hs _ ih =>
    intro x hx
    apply ih
    rcases Tracker.step_processed hs with h | ⟨e, _, h⟩ <;> rw [h]
    · exact hx
    · exact List.mem_append_left _ hx

theorem later_done {tc : Tracker.Cfg} {t t' : Tracker.State} {as : List Tracker.Act} (hr : Tracker.Runs tc t as t') (h : t.pc = .done) :
    t'.pc = .done := by
  induction hr with
  | nil => exact h
  | cons _ hs _ ih => exact ih (done_stays hs h)

/-- May task `v` run (again) some time? -/
def mayRun (t : Tracker.State) (v : Nat) : Prop := Obtained t v ∨ t.readyOpen = true ∨ insideRecv t ≠ 0

theorem later_mayRun {tc : Tracker.Cfg} {t t' : Tracker.State} {as : List Tracker.Act} (hg : Good tc) (hr : Tracker.Runs tc t as t') :
    Tracker.Reachable tc lf now t → ∀ v, mayRun t' v → mayRun t v := by
  induction hr with
  | nil => exact fun _ _ h => h
  | @cons t t1 t' a as hd hs _ ih =>
    intro hrch v hv
    have h1 := ih (hrch.later (.cons hd hs (.nil _))) v hv
    by_cases ho : t.readyOpen = true
    · exact .inr (.inl ho)
    by_cases hin : insideRecv t = 0
    rotate_left
    · exact .inr (.inr hin)
    obtain ⟨k1, _, _, _, _, k6⟩ := step_closed (hrch.inv hg).1 (by simpa using ho) hs
    left
    rcases h1 with ⟨r, h1⟩ | h1 | h1
    · refine ⟨r, ?_⟩
      rw [obtained_same hs] at h1
      · exact h1
      · rintro k rfl
        simp only [insideRecv] at hin
        have : t.claimed = [] := List.eq_nil_of_length_eq_zero (by omega)
        simp [Tracker.step, this] at hs
    · rw [k1] at h1; cases h1
    · exact absurd (k6 hin) h1

/-- None of the tasks that `v` transitively depends on has failed. -/
def Clean (c : Cfg) (t : Tracker.State) (v : Nat) : Prop := ∀ u, c.tr.g.Reach u v → u ∉ failIds t.processed

theorem reach_dep {g : DiGraph Cmd} {u v : Nat} (h : g.Dep u v) : g.Reach u v := ⟨0, .snoc (.nil u) h⟩
theorem reach_snoc {g : DiGraph Cmd} {u v w : Nat} (h : g.Reach u v) (hd : g.Dep v w) : g.Reach u w := by
  obtain ⟨k, hk⟩ := h; exact ⟨k + 1, .snoc hk hd⟩

/-- All that a task made ready transitively depends on has succeeded. -/
theorem made_reach (hg : Good c.tr) {t : Tracker.State} (hr : Tracker.Reachable c.tr lf now t) : ∀ {k u v : Nat}, c.tr.g.Walk (k + 1) u v → v ∈ owners t.flags →
    u ∈ okIds t.processed := by
  intro k
  induction k with
  | zero =>
    intro u v hw hv
    cases hw with
    | snoc h hd => cases h; exact (hr.inv hg).1.core.deps.met v hv _ hd
  | succ k ih =>
    intro u v hw hv
    cases hw with
    | snoc h hd =>
      have h1 := (hr.inv hg).1.core.deps.met v hv _ hd
      obtain ⟨st, h2, _⟩ := mem_okIds.1 h1
      exact ih h (hr.busy_made hg (by simp only [List.mem_append, List.map_append]; exact .inr (.inl (List.mem_map.2 ⟨_, h2, rfl⟩))))

theorem ok_not_fail (hg : Good c.tr) {t : Tracker.State} (hr : Tracker.Reachable c.tr lf now t) {u : Nat} (h : u ∈ okIds t.processed) :
    u ∉ failIds t.processed := by
  intro h2
  have hn := hr.closed_nodup hg
  simp only [closedTasks, List.map_append] at hn
  exact ok_fail_disjoint (List.nodup_append.1 hn).1 h h2

theorem made_clean (hg : Good c.tr) {t : Tracker.State} (hr : Tracker.Reachable c.tr lf now t) {v : Nat} (hv : v ∈ owners t.flags) : Clean c t v := by
  rintro u ⟨k, hk⟩
  exact ok_not_fail hg hr (made_reach hg hr hk hv)

theorem held_unprocessed (hg : Good c.tr) {t : Tracker.State} (hr : Tracker.Reachable c.tr lf now t) {v : Nat} (hv : v ∈ t.held) :
    v ∉ t.processed.map (·.1) := by
  intro h
  have := ((hr.inv hg).1.core.place hg).uniq
  rw [List.map_append] at this
  have h1 := List.nodup_iff_count.1 this v
  simp only [List.count_append] at h1
  rw [← List.count_pos_iff] at hv h
  omega

/-! ### chains -/

theorem chain_reach {g : DiGraph Cmd} {v : Nat} {l : List Nat} (h : DepChain g (v :: l)) : ∀ u ∈ l, g.Reach u v := by
  induction l generalizing v with
  | nil => simp
  | cons w l ih =>
    cases h with
    | cons hd h =>
      intro u hu
      rcases List.mem_cons.1 hu with rfl | hu
      · exact reach_dep hd
      · exact reach_snoc (ih h u hu) hd

/-- At most one task of a chain runs. -/
theorem chain_one (hg : Good c.tr) (h : Calmly c lf now s) (hpc : s.tr.pc ≠ .done) {l : List Nat} (hl : DepChain c.tr.g l) :
    l.countP (runsTask · s) ≤ 1 := by
  induction l with
  | nil => simp
  | cons v l ih =>
    have hrest : l.countP (runsTask · s) ≤ 1 := by
      cases l with
      | nil => simp
      | cons w l => cases hl with | cons _ h => exact ih h
    rw [List.countP_cons]
    cases hr : runsTask v s with
    | false => simpa using hrest
    | true =>
      have : l.countP (runsTask · s) = 0 := by
        rw [List.countP_eq_zero]
        intro u hu hru
        obtain ⟨st, h1⟩ := runsTask_iff.1 hr
        obtain ⟨st', h2⟩ := runsTask_iff.1 hru
        have k1 := running_held h hpc h1
        have k2 := running_held h hpc h2
        obtain ⟨k, hk⟩ := chain_reach hl u hu
        have := made_reach hg h.inv.reach hk (h.inv.reach.busy_made hg (by simp [k1]))
        obtain ⟨x, hx, _⟩ := mem_okIds.1 this
        exact held_unprocessed hg h.inv.reach k2 (List.mem_map.2 ⟨_, hx, rfl⟩)
      simp [this]

/-! ### how many processes run -/

/-- The task of a loop whose process runs. -/
def runL : Loop → List Nat | .running v _ => [v] | _ => []

theorem mem_runL {v : Nat} : v ∈ s.loops.flatMap runL ↔ runsTask v s = true := by
  rw [runsTask_iff, List.mem_flatMap]
  constructor
  · rintro ⟨l, hl, h⟩
    cases l with
    | running w st => simp only [runL, List.mem_singleton] at h; subst h; exact ⟨st, hl⟩
    | _ => simp [runL] at h
  · rintro ⟨st, h⟩
    exact ⟨_, h, by simp [runL]⟩

theorem runL_nodup (hg : Good c.tr) (h : Calmly c lf now s) (hpc : s.tr.pc ≠ .done) : (s.loops.flatMap runL).Nodup := by
  rw [List.nodup_iff_count]
  intro v
  have h1 : (s.loops.flatMap runL).count v ≤ (s.loops.flatMap ownL).count v :=
    count_flatMap_le (f := runL) (g := ownL) (fun l => by cases l <;> simp [runL, ownL]) _
  have h2 := h.inv.live.own hpc v
  have h3 := List.nodup_iff_count.1 (Live.held_nodup hg h.inv.reach) v
  simp only [owned, List.count_append] at h2
  omega

theorem runL_lt (hg : Good c.tr) (h : Calmly c lf now s) (hpc : s.tr.pc ≠ .done) {v : Nat} (hv : runsTask v s = true) : v < c.tr.g.n := by
  obtain ⟨st, h1⟩ := runsTask_iff.1 hv
  exact (h.inv.reach.inv hg).1.core.deps.lt v (h.inv.reach.busy_made hg (by simp [running_held h hpc h1]))

theorem runL_count (hg : Good c.tr) (h : Calmly c lf now s) (hpc : s.tr.pc ≠ .done) :
    (List.range c.tr.g.n).countP (runsTask · s) = (s.loops.flatMap runL).length := by
  rw [List.countP_eq_length_filter]
  apply Nat.le_antisymm
  · refine (List.nodup_range.filter _).length_le_of_subset ?_
    intro v hv
    exact mem_runL.2 (List.mem_filter.1 hv).2
  · refine (runL_nodup hg h hpc).length_le_of_subset ?_
    intro v hv
    have := mem_runL.1 hv
    exact List.mem_filter.2 ⟨List.mem_range.2 (runL_lt hg h hpc this), this⟩

theorem runL_le (ls : List Loop) : (ls.flatMap runL).length ≤ ls.length := by
  induction ls with
  | nil => simp
  | cons l ls ih =>
    simp only [List.flatMap_cons, List.length_append, List.length_cons]
    have : (runL l).length ≤ 1 := by cases l <;> simp [runL]
    omega

theorem runL_all : ∀ {ls : List Loop} {p : Nat}, (∀ i, i < p → ∃ v st, ls[i]? = some (Loop.running v st)) → p ≤ (ls.flatMap runL).length := by
  intro ls
  induction ls with
  | nil =>
    intro p h
    cases p with
    | zero => simp
    | succ p => obtain ⟨v, st, h⟩ := h 0 (by omega); simp at h
  | cons l ls ih =>
    intro p h
    cases p with
    | zero => simp
    | succ p =>
      obtain ⟨v, st, h0⟩ := h 0 (by omega)
      simp only [List.getElem?_cons_zero, Option.some.injEq] at h0
      subst h0
      have := ih (p := p) (fun i hi => by
        obtain ⟨v, st, h1⟩ := h (i + 1) (by omega)
        exact ⟨v, st, by simpa using h1⟩)
      simp only [List.flatMap_cons, runL, List.length_append, List.length_cons, List.length_nil]
      omega

theorem allBusy_count (hg : Good c.tr) (h : Calmly c lf now s) (hpc : s.tr.pc ≠ .done) (hb : allBusy c s = true) :
    c.numParallel ≤ (List.range c.tr.g.n).countP (runsTask · s) := by
  rw [runL_count hg h hpc]
  apply runL_all
  intro i hi
  simp only [allBusy, List.all_eq_true, List.mem_range] at hb
  have := hb i hi
  split at this
  · rename_i v st heq; exact ⟨v, st, heq⟩
  · cases this

/-! ### the accounts -/

/-- Time in which not all loops are busy. -/
def idle (c : Cfg) (s0 : State) (as : List Act) : Nat := timeIn c (fun s => !allBusy c s) s0 as

/-- The accounts of a run. -/
structure Books (c : Cfg) (s0 : State) (as : List Act) (s : State) : Prop where
  chain : ∀ v, v < c.tr.g.n → v ∉ s.tr.processed.map (·.1) → Clean c s.tr v → mayRun s.tr v →
    ∃ l, DepChain c.tr.g (v :: l) ∧ idle c s0 as ≤ timeOf c s0 as (v :: l)
  longest : ∃ l, DepChain c.tr.g l ∧ idle c s0 as ≤ timeOf c s0 as l
  slots : c.numParallel * elapsed as ≤ work c s0 as + (c.numParallel - 1) * idle c s0 as

theorem tick_step {a : Act} (hd : 0 < ticks a) (hs : step c s a = .ok s') :
    ∃ d, a = .server (.tick d) ∧ s' = { s with tr := { s.tr with now := s.tr.now + d } } := by
  cases a with
  | server b =>
    cases b with
    | tick d => exact ⟨d, rfl, by simpa [step, serverAct, trk, Tracker.step, Res.bind] using hs.symm⟩
    | _ => simp [ticks] at hd
  | _ => simp [ticks] at hd

theorem Books.step (hg : Good c.tr) (hdisp : Displayable c.tr) (hrun : LocallyRunnable c) (hord : Ordered c.tr)
    (hne : c.tr.g.n ≠ 0) (hpar : c.numParallel ≠ 0) (haff : AnyLoop c) {as : List Act} {a : Act} (hr : Runs c s0 as s)
    (h : Calmly c lf now s) (hpo : polite c s a = true) (hs : Sys.step c s a = .ok s') (hpc : s'.tr.pc ≠ .done)
    (hp : 0 < ticks a → Resting c s) (hb : Books c s0 as s) : Books c s0 (as ++ [a]) s' := by
  have htr := (h.inv.step hg hpo hs).1
  have hpc0 : s.tr.pc ≠ .done := fun e => hpc (later_done htr e)
  have eidle : idle c s0 (as ++ [a]) = idle c s0 as + if allBusy c s then 0 else ticks a := by
    unfold idle
    rw [timeIn_snoc _ hr hs]
    cases allBusy c s <;> simp
  have etime := timeOf_snoc hr hs
  rcases Nat.eq_zero_or_pos (ticks a) with h0 | h0
  · have ei : idle c s0 (as ++ [a]) = idle c s0 as := by rw [eidle, h0]; simp
    have et : ∀ l, timeOf c s0 (as ++ [a]) l = timeOf c s0 as l := fun l => by rw [etime, h0]; simp
    refine ⟨?_, ?_, ?_⟩
    · intro v hv hnp hcl hm
      rw [ei]
      simp only [et]
      refine hb.chain v hv ?_ ?_ (later_mayRun hg htr h.inv.reach v hm)
      · intro hx
        obtain ⟨x, hx, e⟩ := List.mem_map.1 hx
        exact hnp (List.mem_map.2 ⟨x, later_processed htr x hx, e⟩)
      · intro u hu hf
        obtain ⟨st, h1, h2⟩ := mem_failIds.1 hf
        exact hcl u hu (mem_failIds.2 ⟨st, later_processed htr _ h1, h2⟩)
    · rw [ei]; simp only [et]; exact hb.longest
    · rw [ei, elapsed_snoc, h0, work_eq, et, ← work_eq]; exact hb.slots
  · have hrest := hp h0
    obtain ⟨d, rfl, rfl⟩ := tick_step h0 hs
    simp only [ticks] at *
    have hmono : ∀ l, timeOf c s0 as l ≤ timeOf c s0 (as ++ [.server (.tick d)]) l := fun l => by rw [etime]; omega
    cases hbusy : allBusy c s with
    | true =>
      simp only [hbusy, if_true, Nat.add_zero] at eidle
      refine ⟨?_, ?_, ?_⟩
      · intro v hv hnp hcl hm
        obtain ⟨l, h1, h2⟩ := hb.chain v hv hnp hcl hm
        exact ⟨l, h1, by rw [eidle]; exact Nat.le_trans h2 (hmono _)⟩
      · obtain ⟨l, h1, h2⟩ := hb.longest
        exact ⟨l, h1, by rw [eidle]; exact Nat.le_trans h2 (hmono _)⟩
      · rw [eidle, elapsed_snoc, work_eq, etime, ← work_eq, Nat.mul_add]
        have := Nat.mul_le_mul_right d (allBusy_count hg h hpc0 hbusy)
        have := hb.slots
        simp only [ticks]
        omega
    | false =>
      simp only [hbusy, Bool.false_eq_true, if_false] at eidle
      have own : ∀ v, runsTask v s = true → ∃ l, DepChain c.tr.g (v :: l) ∧
          idle c s0 (as ++ [.server (.tick d)]) ≤ timeOf c s0 (as ++ [.server (.tick d)]) (v :: l) := by
        intro v hv
        obtain ⟨st, h1⟩ := runsTask_iff.1 hv
        have hh := running_held h hpc0 h1
        have hmade := h.inv.reach.busy_made hg (v := v) (by simp [hh])
        obtain ⟨l, h2, h3⟩ := hb.chain v (runL_lt hg h hpc0 hv) (held_unprocessed hg h.inv.reach hh) (made_clean hg h.inv.reach hmade)
          (.inl ((h.inv.reach.obtained_iff hg).2 (by simp [hh])))
        refine ⟨l, h2, ?_⟩
        rw [eidle, etime, List.countP_cons]
        simp only [hv, if_true, Nat.add_mul, Nat.one_mul]
        omega
      refine ⟨?_, ?_, ?_⟩
      · intro v
        induction v using Nat.strongRecOn with
        | _ v ih =>
          intro hv hnp hcl hm
          by_cases hrv : runsTask v s = true
          · exact own v hrv
          by_cases ho : s.tr.readyOpen = true
          · by_cases hall : ∀ u, c.tr.g.Dep u v → u ∈ okIds s.tr.processed
            · exact absurd (rest_ready hg hdisp hrun hord hne hpar haff h hpc0 hrest ho hbusy hv hall hnp) hrv
            · simp only [not_forall] at hall
              obtain ⟨u, hu, hnok⟩ := hall
              have hlt := hord u v hu
              have hunp : u ∉ s.tr.processed.map (·.1) := by
                intro hx
                obtain ⟨⟨u', st⟩, hx', rfl⟩ := List.mem_map.1 hx
                cases hst : st.isSuccess with
                | true => exact hnok (mem_okIds.2 ⟨st, hx', hst⟩)
                | false => exact hcl _ (reach_dep hu) (mem_failIds.2 ⟨st, hx', hst⟩)
              obtain ⟨l, h1, h2⟩ := ih u hlt (by omega) hunp (fun w hw => hcl w (reach_snoc hw hu)) (.inr (.inl ho))
              refine ⟨u :: l, .cons hu h1, Nat.le_trans h2 ?_⟩
              simp only [timeOf, List.map_cons, List.sum_cons]
              omega
          · have hin := rest_inside hg hdisp hrun hord hne hpar h hpc0 hrest (by simpa using ho)
            rcases hm with hm | hm | hm
            · obtain ⟨_, _, hch, _, _⟩ := rest_idle hg hdisp hrun hord hne hpar h hpc0 hrest
              have hx := (h.inv.reach.obtained_iff hg).1 hm
              rw [h.inv.live.lost hpc0, hch, (h.inv.reach.inv hg).2.undrained hpc0] at hx
              simp only [finIds_nil, List.append_nil, List.mem_append] at hx
              rcases hx with hx | hx
              · exact absurd (rest_held hg hdisp hrun hord hne hpar h hpc0 hrest hx) hrv
              · exact absurd hx hnp
            · exact absurd hm ho
            · exact absurd hin hm
      · obtain ⟨v, st, hv⟩ := rest_running hg hdisp hrun hord hne hpar h hpc0 hrest
        obtain ⟨l, h1, h2⟩ := own v (runsTask_iff.2 ⟨st, hv⟩)
        exact ⟨_, h1, h2⟩
      · obtain ⟨v, st, hv⟩ := rest_running hg hdisp hrun hord hne hpar h hpc0 hrest
        have hv := runsTask_iff.2 ⟨st, hv⟩
        have h1 : 0 < (List.range c.tr.g.n).countP (runsTask · s) :=
          List.countP_pos_iff.2 ⟨v, List.mem_range.2 (runL_lt hg h hpc0 hv), hv⟩
        rw [eidle, elapsed_snoc, work_eq, etime, ← work_eq, Nat.mul_add, Nat.mul_add]
        have h2 := Nat.mul_le_mul_right d h1
        have := hb.slots
        simp only [ticks]
        obtain ⟨q, hq⟩ : ∃ q, c.numParallel = q + 1 := ⟨c.numParallel - 1, by omega⟩
        rw [hq] at this ⊢
        simp only [Nat.add_sub_cancel, Nat.add_mul, Nat.one_mul] at this ⊢
        omega

theorem Books.init : Books c s0 [] s := by
  refine ⟨fun v _ _ _ _ => ⟨[], .one v, by simp [idle, timeIn]⟩, ⟨[0], .one 0, by simp [idle, timeIn]⟩, by simp [elapsed]⟩

theorem books (hg : Good c.tr) (hdisp : Displayable c.tr) (hrun : LocallyRunnable c) (hord : Ordered c.tr)
    (hne : c.tr.g.n ≠ 0) (hpar : c.numParallel ≠ 0) (haff : AnyLoop c) (hl : c.remote = false) {as : List Act} (hr : Runs c (init c lf now) as s)
    (ha : ∀ a ∈ as, isTrigger a = false ∧ isDie a = false) (hp : Swift c (init c lf now) as) (hpc : s.tr.pc ≠ .done) :
    Books c (init c lf now) as s := by
  revert ha hp hpc
  refine Runs.snocInd (P := fun as s => (∀ a ∈ as, isTrigger a = false ∧ isDie a = false) → Swift c (Sys.init c lf now) as → s.tr.pc ≠ .done →
    Books c (Sys.init c lf now) as s) ?_ ?_ hr
  · intro _ _ _; exact Books.init
  · intro as s a s' hr ih hpo hs ha hp hpc
    have ha' : ∀ a ∈ as, isTrigger a = false ∧ isDie a = false := fun a h => ha a (List.mem_append_left _ h)
    have hc := (Calmly.init (now := now) (lf := lf) hl).runs hg hr ha'
    obtain ⟨h1, h2⟩ := swift_snoc hr hp
    have htr := (hc.inv.step hg hpo hs).1
    exact Books.step hg hdisp hrun hord hne hpar haff hr hc hpo hs hpc h2 (ih ha' h1 (fun e => hpc (later_done htr e)))

/-- Lower bounds: the tasks of a chain ran one after the other, and at most `numParallel + 1` tasks at once. -/
theorem at_least (hg : Good c.tr) (hpar : c.numParallel ≠ 0) (hl : c.remote = false) {as : List Act} (hr : Runs c (init c lf now) as s)
    (ha : ∀ a ∈ as, isTrigger a = false ∧ isDie a = false) (hpc : s.tr.pc ≠ .done) :
    (∀ l, DepChain c.tr.g l → timeOf c (init c lf now) as l ≤ elapsed as) ∧
      work c (init c lf now) as ≤ (c.numParallel + 1) * elapsed as := by
  revert ha hpc
  refine Runs.snocInd (P := fun as s => (∀ a ∈ as, isTrigger a = false ∧ isDie a = false) → s.tr.pc ≠ .done →
    (∀ l, DepChain c.tr.g l → timeOf c (Sys.init c lf now) as l ≤ elapsed as) ∧
      work c (Sys.init c lf now) as ≤ (c.numParallel + 1) * elapsed as) ?_ ?_ hr
  · intro _ _
    have : ∀ l, timeOf c (Sys.init c lf now) [] l = 0 := by
      intro l
      cases l with
      | nil => rfl
      | cons v l => simp [timeOf, ran, timeIn]
    exact ⟨fun l _ => by rw [this]; omega, by rw [work_eq, this]; omega⟩
  · intro as s a s' hr ih hpo hs ha hpc
    have ha' : ∀ a ∈ as, isTrigger a = false ∧ isDie a = false := fun a h => ha a (List.mem_append_left _ h)
    have hc := (Calmly.init (now := now) (lf := lf) hl).runs hg hr ha'
    have htr := (hc.inv.step hg hpo hs).1
    have hpc0 : s.tr.pc ≠ .done := fun e => hpc (later_done htr e)
    obtain ⟨h1, h2⟩ := ih ha' hpc0
    refine ⟨fun l hl => ?_, ?_⟩
    · rw [timeOf_snoc hr hs, elapsed_snoc]
      have k1 := Nat.mul_le_mul_right (ticks a) (chain_one hg hc hpc0 hl)
      have k2 := h1 l hl
      omega
    · rw [work_eq, timeOf_snoc hr hs, ← work_eq, elapsed_snoc, Nat.mul_add, runL_count hg hc hpc0]
      have hlen := hc.loops.len
      rw [if_neg hpar] at hlen
      have k1 := Nat.mul_le_mul_right (ticks a) (hlen ▸ runL_le s.loops)
      omega

end Verif.Sys
