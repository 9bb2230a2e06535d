import Verif.Proof.Stuck2

/-!
# Until `execute` returns there is always something to do
-/

namespace Verif.Sys
open Verif Verif.Tracker

variable {c : Cfg} {lf : LogFile} {now : Int} {s s' : State}

/-- Some action of execgraph itself is possible. -/
def Able (c : Cfg) (s : State) : Prop := ∃ a s', ownAct a = true ∧ step c s a = .ok s'

theorem trk_can {a : Tracker.Act} {t : Tracker.State} (h : Tracker.step c.tr s.tr a = .ok t) (f : State → State) :
    trk c s a f = .ok (f { s with tr := t }) := by
  unfold trk
  rw [h]
  rfl

theorem able_server {a : Tracker.Act} {t : Tracker.State} (ha : serverAct a = true) (hs : Tracker.step c.tr s.tr a = .ok t)
    (h1 : ∀ d, a ≠ .tick d) (h2 : a ≠ .trigger) (h3 : ∀ k, a ≠ .cancel k) (h4 : a ≠ .ctrlC) : Able c s := by
  refine ⟨.server a, _, ?_, by simp only [step, ha, if_true]; exact trk_can hs id⟩
  cases a <;> simp_all [ownAct, internal]

variable (hg : Good c.tr) (hdisp : Displayable c.tr) (hrun : LocallyRunnable c)

section
include hg hrun

theorem ownL_made (h : Calmly c lf now s) (hpc : s.tr.pc ≠ .done) {l : Loop} (hl : l ∈ s.loops) {v : Nat} (hv : v ∈ ownL l) :
    spawnable (cmdOf c.tr.g v) = true := by
  have ho : v ∈ owned s := by
    unfold owned
    simp only [List.mem_append]
    exact .inl (.inl (.inl (.inl (List.mem_flatMap.2 ⟨l, hl, hv⟩))))
  have hh : v ∈ s.tr.held := by
    have := h.inv.live.own hpc v
    rw [← List.count_pos_iff] at ho ⊢
    omega
  have hm := h.inv.reach.busy_made hg (v := v) (by simp [hh])
  have hlt := (h.inv.reach.inv hg).1.core.deps.lt v hm
  have := (hrun _ (List.mem_of_getElem? (node_of_lt hlt))).1
  simpa [spawnable] using this

/-- A loop outside `recv` can go on, unless its process is running. -/
theorem loop_able (h : Calmly c lf now s) (hpc : live s.tr = true) {i : Nat} {l : Loop} (hl : s.loops[i]? = some l)
    (h1 : l ≠ .inRecv) (h2 : l ≠ .exited) (h3 : ∀ v, l ≠ .killed v) (h4 : ∀ v, l ≠ .dead v) :
    Able c s ∨ (s.tr.token ≠ some .hard ∧ ∃ v start, l = .running v start) := by
  have hm := List.mem_of_getElem? hl
  have hnd : s.tr.pc ≠ .done := by intro e; simp [live, e] at hpc
  have sent : ∀ v host pid j, ∃ t, Tracker.step c.tr s.tr (.sendStarted v host pid j) = .ok t := by
    intro v host pid j
    refine ⟨_, by simp only [Tracker.step, hpc]; rfl⟩
  have fin : ∀ e, ∃ t, Tracker.step c.tr s.tr (.sendFinished e) = .ok t := by
    intro e
    refine ⟨_, by simp only [Tracker.step, hpc]; rfl⟩
  cases l with
  | top =>
    left
    cases hc : recvCheck s.tr (loopType c i) with
    | ok u =>
      have : ∃ t, Tracker.step c.tr s.tr (.enter (loopType c i)) = .ok t := ⟨_, by simp only [Tracker.step, hpc, hc]; rfl⟩
      obtain ⟨t, ht⟩ := this
      exact ⟨.loopRecv i, _, rfl, by simp only [step, hl, hc]; exact trk_can ht _⟩
    | error e => exact ⟨.loopRecv i, _, rfl, by simp only [step, hl, hc]; rfl⟩
  | inRecv => exact absurd rfl h1
  | got v =>
    left
    have := ownL_made hg hrun h hnd hm (v := v) (by simp [ownL])
    exact ⟨.loopSpawn i true, _, rfl, by simp only [step, hl, this, if_true]; rfl⟩
  | spawned v st =>
    left
    obtain ⟨t, ht⟩ := sent v "" 0 ""
    exact ⟨.loopStarted i "" 0, _, rfl, by simp only [step, hl]; exact trk_can ht _⟩
  | failing v =>
    left
    obtain ⟨t, ht⟩ := sent v "" 0 ""
    exact ⟨.loopStarted i "" 0, _, rfl, by simp only [step, hl]; exact trk_can ht _⟩
  | running v st =>
    by_cases htok : s.tr.token = some .hard
    · left
      exact ⟨.loopHard i, _, rfl, by simp only [step, hl, htok]; rfl⟩
    · right
      exact ⟨htok, v, st, rfl⟩
  | failed v =>
    left
    obtain ⟨t, ht⟩ := fin ⟨v, .code (-1), [], none⟩
    exact ⟨.loopReport i, _, rfl, by simp only [step, hl]; exact trk_can ht _⟩
  | cancelled v =>
    left
    obtain ⟨t, ht⟩ := fin ⟨v, .cancelled, [], none⟩
    exact ⟨.loopReport i, _, rfl, by simp only [step, hl]; exact trk_can ht _⟩
  | ended v code values =>
    left
    obtain ⟨t, ht⟩ := fin ⟨v, .code code, values, none⟩
    exact ⟨.loopReport i, _, rfl, by simp only [step, hl]; exact trk_can ht _⟩
  | exited => exact absurd rfl h2
  | killed v => exact absurd rfl (h3 v)
  | dead v => exact absurd rfl (h4 v)

theorem loop_can (h : Calmly c lf now s) (hpc : live s.tr = true) {i : Nat} {l : Loop} (hl : s.loops[i]? = some l)
    (h1 : l ≠ .inRecv) (h2 : l ≠ .exited) (h3 : ∀ v, l ≠ .killed v) (h4 : ∀ v, l ≠ .dead v) :
    Able c s ∨ (s.tr.token ≠ some .hard ∧ ProcessRunning s) := by
  rcases loop_able hg hrun h hpc hl h1 h2 h3 h4 with h5 | ⟨h5, v, st, rfl⟩
  · exact .inl h5
  · exact .inr ⟨h5, v, st, List.mem_of_getElem? hl⟩

/-- So can a loop that has a task. -/
theorem held_can (h : Calmly c lf now s) (hpc : live s.tr = true) (htok : s.tr.token ≠ some .hard) {v : Nat} (hv : v ∈ s.tr.held) :
    Able c s ∨ (s.tr.token ≠ some .hard ∧ ProcessRunning s) := by
  have hnd : s.tr.pc ≠ .done := by intro e; simp [live, e] at hpc
  have ho : v ∈ owned s := by
    have := h.inv.live.own hnd v
    rw [← List.count_pos_iff] at hv ⊢
    omega
  obtain ⟨n1, n2, n3, n4⟩ := h.noServer
  simp only [owned, n1, n2, n3, n4, ownR, List.flatMap_nil, List.map_nil, List.append_nil] at ho
  obtain ⟨l, hl, hvl⟩ := List.mem_flatMap.1 ho
  obtain ⟨i, hi⟩ := List.getElem?_of_mem hl
  refine loop_can hg hrun h hpc hi ?_ ?_ ?_ ?_
  · rintro rfl; simp [ownL] at hvl
  · rintro rfl; simp [ownL] at hvl
  · rintro w rfl; exact htok (h.loops.killed w hl)
  · rintro w rfl; exact h.loops.alive w hl

end

section
include hg hdisp

/-- A receiver that has popped an item can look at its flag. -/
theorem popped_can (h : Calmly c lf now s) (hp : s.tr.popped ≠ []) : Able c s := by
  obtain ⟨p, hpm⟩ := List.exists_mem_of_ne_nil _ hp
  obtain ⟨k, hk⟩ := List.getElem?_of_mem hpm
  have hti := (h.inv.reach.inv hg).1
  obtain ⟨q, it⟩ := p
  have hfl := (hti.core.items.poppedOk (q, it) hpm).flag
  obtain ⟨t, ht⟩ := can_step hg hdisp h.inv.reach (.claim k) (by
    simp only [Tracker.step, hk]
    cases hf : s.tr.flags[it.flag]? with
    | none => simp [hf] at hfl
    | some f => simp only; split <;> simp)
  exact able_server rfl ht (by simp) (by simp) (by simp) (by simp)

/-- A receiver that has won a flag can return the task. -/
theorem claimed_can (h : Calmly c lf now s) (hp : s.tr.claimed ≠ []) : Able c s := by
  obtain ⟨p, hpm⟩ := List.exists_mem_of_ne_nil _ hp
  obtain ⟨k, hk⟩ := List.getElem?_of_mem hpm
  obtain ⟨q, it⟩ := p
  have hc : 0 < receivers c q s.loops := by
    have hrc := h.loops.recv q
    rw [h.noServer.handlers, inside_count] at hrc
    simp only [List.flatMap_nil, List.count_nil, Nat.add_zero] at hrc
    have : 0 < (s.tr.claimed.map (·.1)).count q := List.count_pos_iff.2 (List.mem_map.2 ⟨_, hpm, rfl⟩)
    omega
  obtain ⟨i, hi, hr⟩ := receivers_pos.1 hc
  obtain ⟨t, ht⟩ := can_step hg hdisp h.inv.reach (.account k) (by
    simp only [Tracker.step, hk]
    split <;> simp)
  exact ⟨.loopGot i k, _, rfl, by simp only [step, hi, hk, hr, if_true]; exact trk_can ht _⟩

end

include hg hdisp hrun

/-- Until `execute` returns, execgraph can do something by itself, or some process is running and there was no hard
cancellation. -/
theorem Calmly.able (hord : Ordered c.tr) (hne : c.tr.g.n ≠ 0) (hpar : c.numParallel ≠ 0) (h : Calmly c lf now s)
    (hpc : s.tr.pc ≠ .done) : Able c s ∨ (s.tr.token ≠ some .hard ∧ ProcessRunning s) := by
  obtain ⟨hti, hth⟩ := h.inv.reach.inv hg
  have serve : (s.tr.pc = .new ∨ (∃ todo fin, s.tr.pc = .sending todo fin) ∨ (s.tr.pc = .idle ∧ s.tr.chan ≠ []) ∨ s.tr.pc = .joined) →
      Able c s := by
    intro hx
    obtain ⟨a, t, ha, ht, h1, h2, h3, h4⟩ := can_serve hg hdisp h.inv.reach hx
    exact able_server ha ht h1 h2 h3 h4
  by_cases hpop : s.tr.popped = []
  rotate_left
  · exact .inl (popped_can hg hdisp h hpop)
  by_cases hcl : s.tr.claimed = []
  rotate_left
  · exact .inl (claimed_can hg hdisp h hcl)
  have hwait : ∀ {i : Nat}, s.loops[i]? = some .inRecv → ∃ k : Nat, s.tr.waiting[k]? = some (loopType c i) := by
    intro i hi
    have h1 : 0 < receivers c (loopType c i) s.loops := receivers_pos.2 ⟨i, hi, rfl⟩
    have hrc := h.loops.recv (loopType c i)
    rw [h.noServer.handlers, inside_count, hpop, hcl] at hrc
    simp only [List.flatMap_nil, List.count_nil, Nat.add_zero] at hrc
    rw [hrc] at h1
    simp only [List.map_nil, List.count_nil, Nat.add_zero] at h1
    exact List.getElem?_of_mem (List.count_pos_iff.1 h1)
  cases hp : s.tr.pc with
  | new => exact .inl (serve (.inl hp))
  | sending todo fin => exact .inl (serve (.inr (.inl ⟨_, _, hp⟩)))
  | joined => exact .inl (serve (.inr (.inr (.inr hp))))
  | done => exact absurd hp hpc
  | joining =>
    have hlive : live s.tr = true := by simp [live, hp]
    have hclosed := hti.shape.endClosed (by rw [hp]; rfl)
    by_cases hall : allExited s.loops = true
    · left
      have hw : s.tr.waiting = [] := by
        by_contra hw
        obtain ⟨r, hr⟩ := List.exists_mem_of_ne_nil _ hw
        have h1 : 0 < receivers c r s.loops := by
          have hrc := h.loops.recv r
          rw [h.noServer.handlers, inside_count] at hrc
          simp only [List.flatMap_nil, List.count_nil, Nat.add_zero] at hrc
          have := List.count_pos_iff.2 hr
          omega
        obtain ⟨i, hi, _⟩ := receivers_pos.1 h1
        have := List.all_eq_true.1 hall _ (List.mem_of_getElem? hi)
        cases this
      have : ∃ t, Tracker.step c.tr s.tr .joinDone = .ok t :=
        ⟨_, by simp only [Tracker.step, hp, hw, hpop, hcl]; rfl⟩
      obtain ⟨t, ht⟩ := this
      refine ⟨.joinDone, { s with tr := t }, rfl, ?_⟩
      simp only [step]
      rw [if_pos (by rw [hall, h.noServer.handlers, h.noServer.reaper]; rfl)]
      exact trk_can ht id
    · unfold allExited at hall
      simp only [List.all_eq_true, not_forall] at hall
      obtain ⟨l, hl, hx⟩ := hall
      obtain ⟨i, hi⟩ := List.getElem?_of_mem hl
      by_cases hin : l = .inRecv
      · subst hin
        left
        obtain ⟨k, hk⟩ := hwait hi
        have hlt := (List.getElem?_eq_some_iff.1 hk).1
        have : ∃ t, Tracker.step c.tr s.tr (.leave k) = .ok t := ⟨_, by simp only [Tracker.step, hlt, if_true]; rfl⟩
        obtain ⟨t, ht⟩ := this
        refine ⟨.loopClosed i k, setLoop i .exited { s with tr := t }, rfl, ?_⟩
        simp only [step, hi]
        rw [if_pos ⟨hclosed, hk⟩]
        exact trk_can ht _
      · refine loop_can hg hrun h hlive hi hin ?_ ?_ ?_
        · rintro rfl; exact hx rfl
        · rintro v rfl; exact hx rfl
        · rintro v rfl; exact hx rfl
  | idle =>
    have hlive : live s.tr = true := by simp [live, hp]
    by_cases hch : s.tr.chan = []
    rotate_left
    · exact .inl (serve (.inr (.inr (.inl ⟨hp, hch⟩))))
    by_cases htok : s.tr.token = some .hard
    · left
      refine able_server (a := .seeHard) (t := leaveLoop s.tr) rfl ?_ (by simp) (by simp) (by simp) (by simp)
      simp [Tracker.step, hp, htok]
    have hlost := h.inv.live.lost (by rw [hp]; simp)
    by_cases hsoft : s.tr.soft = true
    · obtain ⟨x, hx⟩ := List.exists_mem_of_ne_nil _ (h.quiet.infl hp hsoft)
      have := hti.tr.inflOpen x.1 (List.mem_map.2 ⟨x, hx, rfl⟩)
      rw [hp, hlost, hch] at this
      simp only [List.append_nil, finIds_nil, curOf] at this
      rcases this with this | this
      · exact held_can hg hrun h hlive htok this
      · simp at this
    · have hsoft : s.tr.soft = false := by simpa using hsoft
      have hopen : s.tr.readyOpen = true := by
        cases ho : s.tr.readyOpen with
        | true => rfl
        | false =>
          rcases hti.shape.closedIf ho with h1 | h1
          · rw [hsoft] at h1; cases h1
          · rw [hp] at h1; cases h1
      by_cases hheld : s.tr.held = []
      rotate_left
      · obtain ⟨v, hv⟩ := List.exists_mem_of_ne_nil _ hheld
        exact held_can hg hrun h hlive htok hv
      have hroot : ∃ v, v < c.tr.g.n ∧ c.tr.g.preds v = [] := by
        refine ⟨0, by omega, ?_⟩
        by_contra hpr
        obtain ⟨u, hu⟩ := List.exists_mem_of_ne_nil _ hpr
        have := hord u 0 (DiGraph.mem_preds.1 hu)
        omega
      obtain ⟨as, has⟩ := h.inv.reach
      have hroi := Tracker.alive hroot has (by simp [hp]) (by rw [hp]; rfl)
      have hcnt := hti.core.cnt.roi
      rw [hth.undrained (by simp [hp])] at hcnt
      simp only [List.length_nil, Nat.add_zero] at hcnt
      have hex : ∃ v ∈ owners s.tr.flags, v ∉ s.tr.processed.map (·.1) := by
        by_contra hall
        have hsub : ∀ v ∈ owners s.tr.flags, v ∈ s.tr.processed.map (·.1) := by
          intro v hv; by_contra hn; exact hall ⟨v, hv, hn⟩
        have := hti.core.deps.nodup.length_le_of_subset hsub
        simp only [owners, List.length_map] at this
        omega
      obtain ⟨v, hv, hnp⟩ := hex
      have hvn := hti.core.deps.lt v hv
      have hu : v ∈ untakenIds s.tr.flags := by
        rcases List.mem_append.1 ((owners_perm s.tr.flags).mem_iff.1 hv) with ht | hu
        · have h1 := (hti.core.acct.perm.mem_iff).1 ht
          rw [hcl, hheld, hlost, hch, hth.undrained (by simp [hp])] at h1
          simp only [itemIds, finIds_nil, List.append_nil, List.map_nil, List.nil_append] at h1
          exact absurd h1 hnp
        · exact hu
      obtain ⟨f, hf, hfv⟩ := List.mem_map.1 hu
      obtain ⟨hf, hft⟩ := List.mem_filter.1 hf
      simp only [Bool.not_eq_true'] at hft
      obtain ⟨k, hk⟩ := List.getElem?_of_mem hf
      have hk' : s.tr.flags[k]? = some ⟨v, false⟩ := by rw [hk, ← hfv, ← hft]
      have hloop : ∃ i l, s.loops[i]? = some l ∧ (cmdOf c.tr.g v).affinity.getLsbD (loopType c i) = true := by
        have hlen := h.loops.len
        rw [if_neg hpar] at hlen
        rcases (hrun _ (List.mem_of_getElem? (node_of_lt hvn))).2 with hb | hb
        · have h0 : 0 < s.loops.length := by omega
          refine ⟨0, s.loops[0], by simp, ?_⟩
          have : loopType c 0 = 0 := by unfold loopType; rw [if_pos (by omega)]
          rw [this]; exact hb
        · have h0 : c.numParallel < s.loops.length := by omega
          refine ⟨c.numParallel, s.loops[c.numParallel], by simp, ?_⟩
          have : loopType c c.numParallel = 1 := by unfold loopType; rw [if_neg (by omega)]
          rw [this]; exact hb
      obtain ⟨i, l, hi, hb⟩ := hloop
      have hl := List.mem_of_getElem? hi
      by_cases hin : l = .inRecv
      · subst hin
        left
        obtain ⟨w, hw⟩ := hwait hi
        rcases hti.core.items.avail k v hk' _ hb with ⟨x, hx, hxk⟩ | ⟨p, hpp, _, hpk⟩ | ⟨b, hbm, _⟩
        · obtain ⟨j, t, ht⟩ := Tracker.can_pop (c := c.tr) hw (List.ne_nil_of_mem hx)
          exact able_server rfl ht (by simp) (by simp) (by simp) (by simp)
        · rw [hpop] at hpp; cases hpp
        · rw [hp] at hbm; simp [todoOf] at hbm
      · refine loop_can hg hrun h hlive hi hin ?_ ?_ ?_
        · rintro rfl
          rw [h.loops.out _ hl (.inl rfl)] at hopen; cases hopen
        · rintro w rfl
          exact htok (h.loops.killed w hl)
        · rintro w rfl
          exact h.loops.alive w hl

end Verif.Sys
