import Verif.Proof.Progress
import Verif.Proof.Recv
import Verif.Proof.Stuck3
import Verif.Proof.System10
import Verif.Props.Execute

/-!
# When nothing moves the tasks forward
-/

namespace Verif.Sys
open Verif Verif.Tracker

variable {c : Cfg} {lf : LogFile} {now : Int} {s s' : State}

/-- Some action of execgraph itself that brings the tasks forward is possible. -/
def CanWork (c : Cfg) (s : State) : Prop := ∃ a s', selfAct a = true ∧ working s a = true ∧ step c s a = .ok s'

/-- The same, without entering `recv`. -/
def CanDo (c : Cfg) (s : State) : Prop := ∃ a s', selfAct a = true ∧ limited a = false ∧ working s a = true ∧ step c s a = .ok s'

theorem CanDo.canWork (h : CanDo c s) : CanWork c s := by
  obtain ⟨a, s', h1, _, h2⟩ := h
  exact ⟨a, s', h1, h2⟩

theorem AtRest.no (h : AtRest c s) : ¬ CanDo c s := fun ⟨a, s', h1, h2, _, h3⟩ => h ⟨a, s', h1, h2, h3⟩

/-- What holds if nobody asked for a soft shutdown and no loop panicked, with remote runners. -/
structure Served (c : Cfg) (lf : LogFile) (now : Int) (s : State) : Prop where
  inv : Inv c lf now s
  quiet : Tracker.Quiet s.tr
  loops : LoopsOk c s
  wheel : s.wheel.duration = wheelDuration
  flags : ∀ (h f rt : Nat) (j : String), s.handlers[h]? = some (Handler.waiting f rt j) → s.tr.pc ≠ .done → f ∈ s.tr.flagsSet ∨ Props.Tracker.Unprocessed s.tr f

/-- What holds in every run. -/
structure Sound (c : Cfg) (lf : LogFile) (now : Int) (s : State) : Prop where
  inv : Inv c lf now s
  recv : RecvOk c s
  wheel : s.wheel.duration = wheelDuration

theorem Sound.of_runs (hg : Good c.tr) {as : List Act} (hr : Runs c (init c lf now) as s) : Sound c lf now s :=
  ⟨(Runs.inv hg (Inv.init c lf now) hr).1, .of_runs hr, wheel_duration hr⟩

theorem Served.sound (h : Served c lf now s) : Sound c lf now s := ⟨h.inv, h.loops.recv, h.wheel⟩

theorem flags_sent (hg : Good c.tr) {as : List Act} (hr : Runs c (init c lf now) as s) :
    ∀ (h f rt : Nat) (j : String), s.handlers[h]? = some (.waiting f rt j) →
      ∃ e, Tracker.Act.sendFinished e ∈ toTracker c (init c lf now) as ∧ e.flag = some f := by
  refine Runs.snocInd (P := fun as s => ∀ (h f rt : Nat) (j : String), s.handlers[h]? = some (.waiting f rt j) →
      ∃ e, Tracker.Act.sendFinished e ∈ toTracker c (init c lf now) as ∧ e.flag = some f) ?_ ?_ hr
  · intro h f rt j hx; simp [init] at hx
  · intro as s a s' hr ih hp hs h f rt j hx
    have old : s.handlers[h]? = some (.waiting f rt j) → ∃ e, Tracker.Act.sendFinished e ∈ toTracker c (init c lf now) (as ++ [a]) ∧ e.flag = some f := by
      intro hx
      obtain ⟨e, h1, h2⟩ := ih h f rt j hx
      refine ⟨e, ?_, h2⟩
      unfold toTracker
      rw [collect_snoc hr]
      exact List.mem_append_left _ h1
    rcases step_handlers hs with h1 | ⟨r, x, rfl, h1, h2⟩ | ⟨i, x, x', h1, h2, h3⟩
    · rw [h1] at hx; exact old hx
    · rw [h1] at hx
      by_cases hlt : h < s.handlers.length
      · rw [List.getElem?_append_left hlt] at hx; exact old hx
      · rw [List.getElem?_append_right (by omega)] at hx
        have := List.mem_of_getElem? hx
        rw [List.mem_singleton] at this
        subst this
        cases h2
    · rw [h2] at hx
      by_cases hi : i = h
      · subst hi
        rw [List.getElem?_set_self (List.getElem?_eq_some_iff.1 h1).1] at hx
        simp only [Option.some.injEq] at hx
        subst hx
        cases h3 with
        | reportNext conn code values rt =>
          refine ⟨⟨conn.node, .code code, values, some s.nextFlag⟩, ?_, rfl⟩
          unfold toTracker
          rw [collect_snoc hr]
          refine List.mem_append_right _ ?_
          simp [trackerAct, h1]
      · rw [List.getElem?_set_ne hi] at hx
        exact old hx

theorem Served.of_runs (hg : Good c.tr) {as : List Act} (hr : Runs c (init c lf now) as s)
    (ha : ∀ a ∈ as, isTrigger a = false ∧ isDie a = false) : Served c lf now s := by
  have hcore : Inv c lf now s ∧ Tracker.Quiet s.tr ∧ LoopsOk c s := by
    revert ha
    refine Runs.snocInd (P := fun as s => (∀ a ∈ as, isTrigger a = false ∧ isDie a = false) →
      Inv c lf now s ∧ Tracker.Quiet s.tr ∧ LoopsOk c s) ?_ ?_ hr
    · intro _; exact ⟨Inv.init c lf now, Quiet.init c.tr lf now, LoopsOk.init c lf now⟩
    · intro as s a s' hr ih hp hs ha
      obtain ⟨i1, i2, i3⟩ := ih (fun x hx => ha x (by simp [hx]))
      obtain ⟨h1, h2⟩ := ha a (by simp)
      obtain ⟨h3, h4⟩ := i1.step hg hp hs
      exact ⟨⟨i1.reach.later h3, h4⟩, Quiet.sys hg i1 i2 hp hs h1, i3.step hg i1 i2 hs h2⟩
  refine ⟨hcore.1, hcore.2.1, hcore.2.2, wheel_duration hr, ?_⟩
  intro h f rt j hx hpc
  obtain ⟨e, h1, h2⟩ := flags_sent hg hr h f rt j hx
  rcases Props.Tracker.reports_acknowledged (hr.toInit hg) h1 h2 with h3 | h3 | h3
  · exact .inr h3
  · exact .inl h3
  · exact absurd h3.1 hpc

variable (hg : Good c.tr) (hdisp : Displayable c.tr) (hst : Startable c)

theorem canDo_server {a : Tracker.Act} {t : Tracker.State} (ha : serverAct a = true) (hs : Tracker.step c.tr s.tr a = .ok t)
    (h1 : ∀ d, a ≠ .tick d) (h2 : a ≠ .trigger) (h3 : ∀ k, a ≠ .cancel k) (h4 : a ≠ .ctrlC) : CanDo c s := by
  refine ⟨.server a, _, ?_, rfl, ?_, by simp only [step, ha, if_true]; exact trk_can hs id⟩
  · cases a <;> simp_all [selfAct, ownAct, internal]
  · cases a <;> simp_all [working]

theorem canWork_server {a : Tracker.Act} {t : Tracker.State} (ha : serverAct a = true) (hs : Tracker.step c.tr s.tr a = .ok t)
    (h1 : ∀ d, a ≠ .tick d) (h2 : a ≠ .trigger) (h3 : ∀ k, a ≠ .cancel k) (h4 : a ≠ .ctrlC) : CanWork c s :=
  (canDo_server ha hs h1 h2 h3 h4).canWork

section
include hg hst

theorem made_startable (h : Sound c lf now s) (hpc : s.tr.pc ≠ .done) {l : Loop} (hl : l ∈ s.loops) {v : Nat} (hv : v ∈ ownL l) :
    spawnable (cmdOf c.tr.g v) = true := by
  have ho : v ∈ owned s := by
    unfold owned
    simp only [List.mem_append]
    exact .inl (.inl (.inl (.inl (List.mem_flatMap.2 ⟨l, hl, hv⟩))))
  have hh : v ∈ s.tr.held := by
    have := h.inv.live.own hpc v
    rw [← List.count_pos_iff] at ho ⊢
    omega
  have hm := h.inv.reach.busy_made hg (v := v) (by simp [hh])
  have hlt := (h.inv.reach.inv hg).1.core.deps.lt v hm
  have := hst _ (List.mem_of_getElem? (node_of_lt hlt))
  simpa [spawnable] using this

end

/-- A loop outside `recv` can go on, unless its process is running. -/
theorem loop_works (hpc : live s.tr = true) {i : Nat} {l : Loop} (hl : s.loops[i]? = some l)
    (hsp : ∀ v, l = .got v → spawnable (cmdOf c.tr.g v) = true)
    (h1 : l ≠ .inRecv) (h2 : l ≠ .exited) (h3 : ∀ v, l ≠ .killed v) (h4 : ∀ v, l ≠ .dead v) :
    CanWork c s ∨ (s.tr.token ≠ some .hard ∧ ∃ v st, l = .running v st) := by
  have sent : ∀ v host pid j, ∃ t, Tracker.step c.tr s.tr (.sendStarted v host pid j) = .ok t := by
    intro v host pid j
    refine ⟨_, by simp only [Tracker.step, hpc]; rfl⟩
  have fin : ∀ e, ∃ t, Tracker.step c.tr s.tr (.sendFinished e) = .ok t := by
    intro e
    refine ⟨_, by simp only [Tracker.step, hpc]; rfl⟩
  cases l with
  | top =>
    left
    cases hc : recvCheck s.tr (loopType c i) with
    | ok u =>
      have : ∃ t, Tracker.step c.tr s.tr (.enter (loopType c i)) = .ok t := ⟨_, by simp only [Tracker.step, hpc, hc]; rfl⟩
      obtain ⟨t, ht⟩ := this
      exact ⟨.loopRecv i, _, rfl, rfl, by simp only [step, hl, hc]; exact trk_can ht _⟩
    | error e => exact ⟨.loopRecv i, _, rfl, rfl, by simp only [step, hl, hc]; rfl⟩
  | inRecv => exact absurd rfl h1
  | got v =>
    left
    have := hsp v rfl
    exact ⟨.loopSpawn i true, _, rfl, rfl, by simp only [step, hl, this, if_true]; rfl⟩
  | spawned v st =>
    left
    obtain ⟨t, ht⟩ := sent v "" 0 ""
    exact ⟨.loopStarted i "" 0, _, rfl, rfl, by simp only [step, hl]; exact trk_can ht _⟩
  | failing v =>
    left
    obtain ⟨t, ht⟩ := sent v "" 0 ""
    exact ⟨.loopStarted i "" 0, _, rfl, rfl, by simp only [step, hl]; exact trk_can ht _⟩
  | running v st =>
    by_cases htok : s.tr.token = some .hard
    · left
      exact ⟨.loopHard i, _, rfl, rfl, by simp only [step, hl, htok]; rfl⟩
    · right
      exact ⟨htok, v, st, rfl⟩
  | failed v =>
    left
    obtain ⟨t, ht⟩ := fin ⟨v, .code (-1), [], none⟩
    exact ⟨.loopReport i, _, rfl, rfl, by simp only [step, hl]; exact trk_can ht _⟩
  | cancelled v =>
    left
    obtain ⟨t, ht⟩ := fin ⟨v, .cancelled, [], none⟩
    exact ⟨.loopReport i, _, rfl, rfl, by simp only [step, hl]; exact trk_can ht _⟩
  | ended v code values =>
    left
    obtain ⟨t, ht⟩ := fin ⟨v, .code code, values, none⟩
    exact ⟨.loopReport i, _, rfl, rfl, by simp only [step, hl]; exact trk_can ht _⟩
  | exited => exact absurd rfl h2
  | killed v => exact absurd rfl (h3 v)
  | dead v => exact absurd rfl (h4 v)

/-- Is a handler on its way with a task? -/
def onTheWay : Handler → Bool
  | .got _ _ | .timed _ _ _ _ | .ending _ _ _ _ | .reporting _ _ _ _ => true
  | _ => false

/-- A handler that is on its way with a task can go on. -/
theorem handler_does (h : Sound c lf now s) (hpc : live s.tr = true) {i : Nat} {x : Handler} (hx : s.handlers[i]? = some x)
    (ho : onTheWay x = true) : CanDo c s := by
  cases x with
  | got v j =>
    obtain ⟨r, hr⟩ := insert_panics_not h.wheel 0
    exact ⟨.hTimer i 0, _, rfl, rfl, rfl, by simp only [step, hx]; rw [hr]; rfl⟩
  | timed v j txn tm => exact ⟨.hInsert i, _, rfl, rfl, rfl, by simp only [step, hx]; rfl⟩
  | ending cn cd vs nx => exact ⟨.hCancel i, _, rfl, rfl, rfl, by simp only [step, hx]; rfl⟩
  | reporting cn cd vs nx =>
    have : ∃ t, Tracker.step c.tr s.tr (.sendFinished ⟨cn.node, .code cd, vs, some s.nextFlag⟩) = .ok t :=
      ⟨_, by simp only [Tracker.step, hpc]; rfl⟩
    obtain ⟨t, ht⟩ := this
    exact ⟨.hReport i, _, rfl, rfl, rfl, by simp only [step, hx]; exact trk_can ht _⟩
  | _ => simp [onTheWay] at ho

theorem handler_works (h : Sound c lf now s) (hpc : live s.tr = true) {i : Nat} {x : Handler} (hx : s.handlers[i]? = some x)
    (ho : onTheWay x = true) : CanWork c s := (handler_does h hpc hx ho).canWork

/-- So can the reaper when it has something to report. -/
theorem reaper_works (hpc : live s.tr = true) {v : Nat} {vs : List Nat} (hx : s.reaper = .sending (v :: vs)) : CanWork c s := by
  have : ∃ t, Tracker.step c.tr s.tr (.sendFinished ⟨v, .disconnected, [], none⟩) = .ok t :=
    ⟨_, by simp only [Tracker.step, hpc]; rfl⟩
  obtain ⟨t, ht⟩ := this
  exact ⟨.reapSend, _, rfl, by simp [working, hx], by simp only [step, hx]; exact trk_can ht _⟩

section
include hg hdisp

theorem popped_does (h : Sound c lf now s) (hp : s.tr.popped ≠ []) : CanDo c s := by
  obtain ⟨p, hpm⟩ := List.exists_mem_of_ne_nil _ hp
  obtain ⟨k, hk⟩ := List.getElem?_of_mem hpm
  have hti := (h.inv.reach.inv hg).1
  obtain ⟨q, it⟩ := p
  have hfl := (hti.core.items.poppedOk (q, it) hpm).flag
  obtain ⟨t, ht⟩ := can_step hg hdisp h.inv.reach (.claim k) (by
    simp only [Tracker.step, hk]
    cases hf : s.tr.flags[it.flag]? with
    | none => simp [hf] at hfl
    | some f => simp only; split <;> simp)
  exact canDo_server rfl ht (by simp) (by simp) (by simp) (by simp)

theorem popped_works (h : Sound c lf now s) (hp : s.tr.popped ≠ []) : CanWork c s := (popped_does hg hdisp h hp).canWork

theorem mem_types {r : Nat} {hs : List Handler} : 0 < (hs.flatMap hTypes).count r ↔ ∃ (i : Nat) (j : String), hs[i]? = some (.inRecv r j) := by
  rw [List.count_pos_iff, List.mem_flatMap]
  constructor
  · rintro ⟨x, hx, hr⟩
    obtain ⟨i, hi⟩ := List.getElem?_of_mem hx
    cases x <;> simp [hTypes] at hr
    subst hr
    exact ⟨i, _, hi⟩
  · rintro ⟨i, j, hi⟩
    exact ⟨_, List.mem_of_getElem? hi, by simp [hTypes]⟩

theorem claimed_does (h : Sound c lf now s) (hp : s.tr.claimed ≠ []) : CanDo c s := by
  obtain ⟨p, hpm⟩ := List.exists_mem_of_ne_nil _ hp
  obtain ⟨k, hk⟩ := List.getElem?_of_mem hpm
  obtain ⟨q, it⟩ := p
  have hrc := h.recv q
  rw [inside_count] at hrc
  have hc : 0 < (s.tr.claimed.map (·.1)).count q := List.count_pos_iff.2 (List.mem_map.2 ⟨_, hpm, rfl⟩)
  obtain ⟨t, ht⟩ := can_step hg hdisp h.inv.reach (.account k) (by
    simp only [Tracker.step, hk]
    split <;> simp)
  by_cases hr : 0 < receivers c q s.loops
  · obtain ⟨i, hi, hr⟩ := receivers_pos.1 hr
    exact ⟨.loopGot i k, _, rfl, rfl, rfl, by simp only [step, hi, hk, hr, if_true]; exact trk_can ht _⟩
  · have : 0 < (s.handlers.flatMap hTypes).count q := by omega
    obtain ⟨i, j, hi⟩ := (mem_types hg hdisp).1 this
    exact ⟨.hGot i k, _, rfl, rfl, rfl, by simp only [step, hi, hk, if_true]; exact trk_can ht _⟩

theorem claimed_works (h : Sound c lf now s) (hp : s.tr.claimed ≠ []) : CanWork c s := (claimed_does hg hdisp h hp).canWork

end

/-- The execution has come to a halt while the server waits: for a process, a remote runner, the reaper, or for somebody who takes a
task. -/
structure Halted (c : Cfg) (s : State) : Prop where
  idle : s.tr.pc = .idle
  chan : s.tr.chan = []
  token : s.tr.token ≠ some .hard
  handlers : ∀ x ∈ s.handlers, onTheWay x = false
  loops : ∀ l ∈ s.loops, l = .inRecv ∨ l = .exited ∨ ∃ v st, l = .running v st
  why : ProcessRunning s ∨ s.conns ≠ [] ∨ ownR s.reaper ≠ [] ∨ ∃ v, RunnerMissing c s v

/-- The execution waits for the HTTP server to come to an end. -/
structure Closing (s : State) : Prop where
  joining : s.tr.pc = .joining
  token : s.tr.token = some .hard
  closed : s.tr.readyOpen = false
  handlers : ∀ x ∈ s.handlers, onTheWay x = false
  loops : allExited s.loops = true
  popped : s.tr.popped = []
  claimed : s.tr.claimed = []
  why : ¬ (allDone s.handlers = true ∧ (reaperEnded s.reaper = true ∨ s.reaper = .idle))

theorem inside_waiting (h : Sound c lf now s) (hpop : s.tr.popped = []) (hcl : s.tr.claimed = []) {r : Nat} (hw : Waits c s r) :
    ∃ k : Nat, s.tr.waiting[k]? = some r := by
  have hrc := h.recv r
  rw [inside_count, hpop, hcl] at hrc
  simp only [List.map_nil, List.count_nil, Nat.add_zero] at hrc
  have : 0 < s.tr.waiting.count r := by
    rcases hw with ⟨i, hi, rfl⟩ | ⟨j, hj⟩
    · have h1 : 0 < receivers c (loopType c i) s.loops := receivers_pos.2 ⟨i, hi, rfl⟩
      omega
    · have h1 : 0 < (s.handlers.flatMap hTypes).count r :=
        List.count_pos_iff.2 (List.mem_flatMap.2 ⟨_, hj, by simp [hTypes]⟩)
      omega
  exact List.getElem?_of_mem (List.count_pos_iff.1 this)

theorem waiting_somebody (h : Sound c lf now s) {r : Nat} (hw : r ∈ s.tr.waiting) : Waits c s r := by
  have hrc := h.recv r
  rw [inside_count] at hrc
  have := List.count_pos_iff.2 hw
  by_cases h1 : 0 < receivers c r s.loops
  · obtain ⟨i, hi, hr⟩ := receivers_pos.1 h1
    exact .inl ⟨i, hi, hr⟩
  · have h2 : 0 < (s.handlers.flatMap hTypes).count r := by omega
    rw [List.count_pos_iff, List.mem_flatMap] at h2
    obtain ⟨x, hx, hr⟩ := h2
    cases x <;> simp [hTypes] at hr
    subst hr
    exact .inr ⟨_, hx⟩

theorem reaper_moves (hl : live s.tr = true) (h1 : s.reaper ≠ .idle) (h2 : s.reaper ≠ .stopped) (h3 : ∀ e, s.reaper ≠ .dead e) :
    ∃ a s', reapAct a = true ∧ step c s a = .ok s' := by
  cases hr : s.reaper with
  | idle => exact absurd hr h1
  | stopped => exact absurd hr h2
  | dead e => exact absurd hr (h3 e)
  | removing txns expired =>
    cases txns with
    | cons t ts => exact ⟨.reapRemove, _, rfl, by simp only [step, hr]; rfl⟩
    | nil =>
      cases ht : s.tr.token with
      | none => exact ⟨.reapCheck [], _, rfl, by simp only [step, hr, ht]; rfl⟩
      | some k =>
        cases k with
        | hard => exact ⟨.reapCheck [], _, rfl, by simp only [step, hr, ht]; rfl⟩
        | afterTime t =>
          have : ∃ o s', step c s (.reapCheck o) = .ok s' :=
            ⟨(s.conns.filter (fun x => decide (x.2.start > t))).map (·.1), _, by
              simp only [step, hr, ht]
              rw [if_pos (List.isPerm_iff.2 (.refl _))]⟩
          obtain ⟨o, s', hs⟩ := this
          exact ⟨_, s', rfl, hs⟩
  | softRemoving txns expired =>
    cases txns with
    | nil => exact ⟨.reapRemove, _, rfl, by simp only [step, hr]; rfl⟩
    | cons t ts =>
      cases hl : s.conns.lookup t with
      | some x => exact ⟨.reapRemove, _, rfl, by simp only [step, hr, hl]; rfl⟩
      | none => exact ⟨.reapRemove, _, rfl, by simp only [step, hr, hl]; rfl⟩
  | sending vs =>
    cases vs with
    | nil => exact ⟨.reapSend, _, rfl, by simp only [step, hr]; rfl⟩
    | cons v vs =>
      have : ∃ t, Tracker.step c.tr s.tr (.sendFinished ⟨v, .disconnected, [], none⟩) = .ok t :=
        ⟨_, by simp only [Tracker.step, hl]; rfl⟩
      obtain ⟨t, ht⟩ := this
      exact ⟨.reapSend, _, rfl, by simp only [step, hr]; exact trk_can ht _⟩

/-- A handler that waits can go on where everything else has been handled, unless it waits for a task. -/
theorem handler_moves (h : Served c lf now s) (hl : live s.tr = true) (hor : s.tr.chan = [] ∧ s.tr.pc = .idle ∨ s.tr.token = some .hard)
    {i : Nat} {x : Handler} (hi : s.handlers[i]? = some x) (hw : (∃ rt j, x = .toRecv rt j) ∨ ∃ f rt j, x = .waiting f rt j) :
    ∃ a s', ofHandler i a = true ∧ step c s a = .ok s' := by
  rcases hw with ⟨rt, j, rfl⟩ | ⟨f, rt, j, rfl⟩
  · cases hc : recvCheck s.tr rt with
    | ok u =>
      have : ∃ t, Tracker.step c.tr s.tr (.enter rt) = .ok t := ⟨_, by simp only [Tracker.step, hl, hc]; rfl⟩
      obtain ⟨t, ht⟩ := this
      exact ⟨.hRecv i, _, by simp [ofHandler], by simp only [step, hi, hc]; exact trk_can ht _⟩
    | error e => cases e <;> exact ⟨.hRecv i, _, by simp [ofHandler], by simp only [step, hi, hc]; rfl⟩
  · have : f ∈ s.tr.flagsSet ∨ s.tr.token = some .hard := by
      rcases hor with ⟨h1, h2⟩ | h1
      · rcases h.flags i f rt j hi (by rw [h2]; simp) with h3 | ⟨e, h3, _⟩ | ⟨todo, e, h3, _⟩
        · exact .inl h3
        · rw [h1] at h3; cases h3
        · rw [h2] at h3; cases h3
      · exact .inr h1
    refine ⟨.hFlag i, setH i (.toRecv rt j) s, by simp [ofHandler], ?_⟩
    simp only [step, hi]
    rw [if_pos this]

/-- So can one that waits for a task when the channel is closed. -/
theorem handler_leaves (h : Sound c lf now s) (hclosed : s.tr.readyOpen = false) (hpop : s.tr.popped = []) (hcl : s.tr.claimed = [])
    {i rt : Nat} {j : String} (hi : s.handlers[i]? = some (.inRecv rt j)) : ∃ a s', ofHandler i a = true ∧ step c s a = .ok s' := by
  obtain ⟨k, hk⟩ := inside_waiting h hpop hcl (.inr ⟨j, List.mem_of_getElem? hi⟩)
  have hlt := (List.getElem?_eq_some_iff.1 hk).1
  have : ∃ t, Tracker.step c.tr s.tr (.leave k) = .ok t := ⟨_, by simp only [Tracker.step, hlt, if_true]; rfl⟩
  obtain ⟨t, ht⟩ := this
  refine ⟨.hLeave i k false, setH i (.done (some .gone)) { s with tr := t }, by simp [ofHandler], ?_⟩
  simp only [step, hi]
  rw [if_pos ⟨hk, .inr (.inr hclosed)⟩]
  exact trk_can ht _

theorem self_of_reap {a : Act} (h : reapAct a = true) : selfAct a = true := by
  cases a <;> simp_all [reapAct, selfAct, ownAct, internal]

theorem self_of_handler {i : Nat} {a : Act} (h : ofHandler i a = true) : selfAct a = true := by
  cases a with
  | hLeave x y z => cases z <;> simp_all [ofHandler, selfAct, ownAct, internal]
  | _ => simp_all [ofHandler, selfAct, ownAct, internal]

include hg hdisp hst

/-- If nothing can bring the tasks forward and `execute` has not returned. -/
theorem Served.standstill (hord : Ordered c.tr) (hne : c.tr.g.n ≠ 0) (h : Served c lf now s) (hin : Intact s)
    (hpc : s.tr.pc ≠ .done) (hno : ¬ CanWork c s) : Halted c s ∨ Closing s := by
  obtain ⟨hti, hth⟩ := h.inv.reach.inv hg
  have serve : ¬ (s.tr.pc = .new ∨ (∃ todo fin, s.tr.pc = .sending todo fin) ∨ (s.tr.pc = .idle ∧ s.tr.chan ≠ []) ∨ s.tr.pc = .joined) := by
    intro hx
    obtain ⟨a, t, ha, ht, h1, h2, h3, h4⟩ := can_serve hg hdisp h.inv.reach hx
    exact hno (canWork_server ha ht h1 h2 h3 h4)
  have hpop : s.tr.popped = [] := by
    by_contra hpop
    exact hno (popped_works hg hdisp h.sound hpop)
  have hcl : s.tr.claimed = [] := by
    by_contra hcl
    exact hno (claimed_works hg hdisp h.sound hcl)
  have hhand : live s.tr = true → ∀ x ∈ s.handlers, onTheWay x = false := by
    intro hl x hx
    obtain ⟨i, hi⟩ := List.getElem?_of_mem hx
    by_contra ho
    exact hno (handler_works h.sound hl hi (by simpa using ho))
  have spawn : ∀ l ∈ s.loops, ∀ v, l = .got v → spawnable (cmdOf c.tr.g v) = true := by
    rintro l hl v rfl
    exact made_startable hg hst h.sound hpc hl (by simp [ownL])
  cases hp : s.tr.pc with
  | new => exact absurd (.inl hp) serve
  | sending todo fin => exact absurd (.inr (.inl ⟨_, _, hp⟩)) serve
  | joined => exact absurd (.inr (.inr (.inr hp))) serve
  | done => exact absurd hp hpc
  | joining =>
    right
    have hlive : live s.tr = true := by simp [live, hp]
    have hclosed := hti.shape.endClosed (by rw [hp]; rfl)
    have hhard := h.quiet.hard (by rw [hp]; rfl)
    have hall : allExited s.loops = true := by
      unfold allExited
      rw [List.all_eq_true]
      intro l hl
      obtain ⟨i, hi⟩ := List.getElem?_of_mem hl
      by_cases hin : l = .inRecv
      · subst hin
        exfalso
        obtain ⟨k, hk⟩ := inside_waiting h.sound hpop hcl (.inl ⟨i, hi, rfl⟩)
        have hlt := (List.getElem?_eq_some_iff.1 hk).1
        have : ∃ t, Tracker.step c.tr s.tr (.leave k) = .ok t := ⟨_, by simp only [Tracker.step, hlt, if_true]; rfl⟩
        obtain ⟨t, ht⟩ := this
        refine hno ⟨.loopClosed i k, setLoop i .exited { s with tr := t }, rfl, rfl, ?_⟩
        simp only [step, hi]
        rw [if_pos ⟨hclosed, hk⟩]
        exact trk_can ht _
      · by_contra hx
        rcases loop_works hlive hi (spawn l hl) hin (by rintro rfl; exact hx rfl) (by rintro v rfl; exact hx rfl)
          (by rintro v rfl; exact hx rfl) with h1 | h1
        · exact hno h1
        · exact h1.1 hhard
    refine ⟨hp, hhard, hclosed, hhand hlive, hall, hpop, hcl, ?_⟩
    rintro ⟨h1, h2⟩
    rcases h2 with h2 | h2
    · have hw : s.tr.waiting = [] := by
        by_contra hw
        obtain ⟨r, hr⟩ := List.exists_mem_of_ne_nil _ hw
        rcases waiting_somebody h.sound hr with ⟨i, hi, _⟩ | ⟨j, hj⟩
        · have := List.all_eq_true.1 hall _ (List.mem_of_getElem? hi)
          cases this
        · have := List.all_eq_true.1 h1 _ hj
          cases this
      have : ∃ t, Tracker.step c.tr s.tr .joinDone = .ok t :=
        ⟨_, by simp only [Tracker.step, hp, hw, hpop, hcl]; rfl⟩
      obtain ⟨t, ht⟩ := this
      refine hno ⟨.joinDone, { s with tr := t }, rfl, rfl, ?_⟩
      simp only [step]
      rw [if_pos (by rw [hall, h1, h2]; rfl)]
      exact trk_can ht id
    · refine hno ⟨.reapStop, { s with reaper := .stopped }, rfl, rfl, ?_⟩
      simp only [step]
      rw [if_pos ⟨h2, hhard, h1⟩]
  | idle =>
    left
    have hlive : live s.tr = true := by simp [live, hp]
    have hch : s.tr.chan = [] := by
      by_contra hch
      exact absurd (.inr (.inr (.inl ⟨hp, hch⟩))) serve
    have htok : s.tr.token ≠ some .hard := by
      intro htok
      refine hno (canWork_server (a := .seeHard) (t := leaveLoop s.tr) rfl ?_ (by simp) (by simp) (by simp) (by simp))
      simp [Tracker.step, hp, htok]
    have hlost := h.inv.live.lost (by rw [hp]; simp)
    have hloops : ∀ l ∈ s.loops, l = .inRecv ∨ l = .exited ∨ ∃ v st, l = .running v st := by
      intro l hl
      obtain ⟨i, hi⟩ := List.getElem?_of_mem hl
      by_cases h1 : l = .inRecv
      · exact .inl h1
      by_cases h2 : l = .exited
      · exact .inr (.inl h2)
      rcases loop_works hlive hi (spawn l hl) h1 h2 (by rintro w rfl; exact htok (h.loops.killed w hl))
        (by rintro w rfl; exact h.loops.alive w hl) with h3 | ⟨_, h3⟩
      · exact absurd h3 hno
      · exact .inr (.inr h3)
    refine ⟨hp, hch, htok, hhand hlive, hloops, ?_⟩
    have howner : s.tr.held ≠ [] → ProcessRunning s ∨ s.conns ≠ [] ∨ ownR s.reaper ≠ [] ∨ ∃ v, RunnerMissing c s v := by
      intro hh
      obtain ⟨v, hv⟩ := List.exists_mem_of_ne_nil _ hh
      have ho : v ∈ owned s := by
        have := h.inv.live.own hpc v
        rw [← List.count_pos_iff] at hv ⊢
        omega
      unfold owned at ho
      rw [hin.conns, List.append_nil] at ho
      simp only [List.mem_append] at ho
      rcases ho with ((ho | ho) | ho) | ho
      · obtain ⟨l, hl, hvl⟩ := List.mem_flatMap.1 ho
        rcases hloops l hl with rfl | rfl | ⟨w, st, rfl⟩
        · simp [ownL] at hvl
        · simp [ownL] at hvl
        · exact .inl ⟨_, _, hl⟩
      · exfalso
        obtain ⟨x, hx, hvx⟩ := List.mem_flatMap.1 ho
        have h1 := hhand hlive x hx
        cases x <;> first | (simp [ownH] at hvx; done) | (simp [onTheWay] at h1; done) | exact hin.handlers _ hx
      · exact .inr (.inl (by intro e; rw [e] at ho; simp at ho))
      · exact .inr (.inr (.inl (List.ne_nil_of_mem ho)))
    by_cases hsoft : s.tr.soft = true
    · refine howner ?_
      obtain ⟨x, hx⟩ := List.exists_mem_of_ne_nil _ (h.quiet.infl hp hsoft)
      have := hti.tr.inflOpen x.1 (List.mem_map.2 ⟨x, hx, rfl⟩)
      rw [hp, hlost, hch] at this
      simp only [List.append_nil, finIds_nil, curOf] at this
      rcases this with this | this
      · exact List.ne_nil_of_mem this
      · simp at this
    · by_cases hheld : s.tr.held = []
      rotate_left
      · exact howner hheld
      right; right; right
      have hroot : ∃ v, v < c.tr.g.n ∧ c.tr.g.preds v = [] := by
        refine ⟨0, by omega, ?_⟩
        by_contra hpr
        obtain ⟨u, hu⟩ := List.exists_mem_of_ne_nil _ hpr
        have := hord u 0 (DiGraph.mem_preds.1 hu)
        omega
      obtain ⟨as, has⟩ := h.inv.reach
      have hroi := Tracker.alive hroot has (by simp [hp]) (by rw [hp]; rfl)
      have hcnt := hti.core.cnt.roi
      rw [hth.undrained (by simp [hp])] at hcnt
      simp only [List.length_nil, Nat.add_zero] at hcnt
      have hex : ∃ v ∈ owners s.tr.flags, v ∉ s.tr.processed.map (·.1) := by
        by_contra hall
        have hsub : ∀ v ∈ owners s.tr.flags, v ∈ s.tr.processed.map (·.1) := by
          intro v hv; by_contra hn; exact hall ⟨v, hv, hn⟩
        have := hti.core.deps.nodup.length_le_of_subset hsub
        simp only [owners, List.length_map] at this
        omega
      obtain ⟨v, hv, hnp⟩ := hex
      have hvn := hti.core.deps.lt v hv
      have hu : v ∈ untakenIds s.tr.flags := by
        rcases List.mem_append.1 ((owners_perm s.tr.flags).mem_iff.1 hv) with ht | hu
        · have h1 := (hti.core.acct.perm.mem_iff).1 ht
          rw [hcl, hheld, hlost, hch, hth.undrained (by simp [hp])] at h1
          simp only [itemIds, finIds_nil, List.append_nil, List.map_nil, List.nil_append] at h1
          exact absurd h1 hnp
        · exact hu
      obtain ⟨f, hf, hfv⟩ := List.mem_map.1 hu
      obtain ⟨hf, hft⟩ := List.mem_filter.1 hf
      simp only [Bool.not_eq_true'] at hft
      obtain ⟨k, hk⟩ := List.getElem?_of_mem hf
      have hk' : s.tr.flags[k]? = some ⟨v, false⟩ := by rw [hk, ← hfv, ← hft]
      have hopen : s.tr.readyOpen = true := by
        cases ho : s.tr.readyOpen with
        | true => rfl
        | false =>
          rcases hti.shape.closedIf ho with h1 | h1
          · exact absurd h1 hsoft
          · rw [hp] at h1; cases h1
      refine ⟨v, hvn, hopen, ⟨f, hf, hfv, hft⟩, fun r hr => ?_⟩
      have hitem : ∃ it ∈ s.tr.queues r, it.id = v := by
        rcases hti.core.items.avail k v hk' _ hr with ⟨x, hx, hxk⟩ | ⟨p, hpp, _, hpk⟩ | ⟨b, hbm, _⟩
        · refine ⟨x, hx, ?_⟩
          have := (hti.core.items.queueOk r x hx).flag
          rw [hxk, hk'] at this
          simpa using this.symm
        · rw [hpop] at hpp; cases hpp
        · rw [hp] at hbm; simp [todoOf] at hbm
      refine ⟨hitem, fun hw => ?_⟩
      obtain ⟨it, hit, _⟩ := hitem
      obtain ⟨w, hw⟩ := inside_waiting h.sound hpop hcl hw
      obtain ⟨j, t, ht⟩ := Tracker.can_pop (c := c.tr) hw (List.ne_nil_of_mem hit)
      exact hno (canWork_server rfl ht (by simp) (by simp) (by simp) (by simp))


/-- Nothing at all that execgraph does by itself is possible: `execute` waits for a process, a remote runner that has a task, or
for somebody who takes a task. -/
theorem Served.at_rest (hord : Ordered c.tr) (hne : c.tr.g.n ≠ 0) (h : Served c lf now s) (hin : Intact s)
    (hpc : s.tr.pc ≠ .done) (hno : ¬ ∃ a s', selfAct a = true ∧ step c s a = .ok s') :
    (s.tr.pc = .idle ∧ s.tr.chan = [] ∧ s.tr.token ≠ some .hard) ∧
    (∀ x ∈ s.handlers, (∃ r, x = .done r) ∨ ∃ rt j, x = .inRecv rt j) ∧
    (∀ l ∈ s.loops, l = .inRecv ∨ l = .exited ∨ ∃ v st, l = .running v st) ∧
    (s.reaper = .idle ∨ s.reaper = .stopped) ∧
    (ProcessRunning s ∨ s.conns ≠ [] ∨ ∃ v, RunnerMissing c s v) := by
  have hnw : ¬ CanWork c s := fun ⟨a, s', h1, _, h2⟩ => hno ⟨a, s', h1, h2⟩
  have hreap : live s.tr = true → s.reaper = .idle ∨ s.reaper = .stopped := by
    intro hl
    by_contra hr
    rw [not_or] at hr
    obtain ⟨a, s', h1, h2⟩ := reaper_moves (c := c) hl hr.1 hr.2 hin.reaper
    exact hno ⟨a, s', self_of_reap h1, h2⟩
  have hwho : ∀ x ∈ s.handlers, live s.tr = true → s.tr.chan = [] ∧ s.tr.pc = .idle ∨ s.tr.token = some .hard → onTheWay x = false →
      (∃ r, x = .done r) ∨ ∃ rt j, x = .inRecv rt j := by
    intro x hx hl hor ho
    obtain ⟨i, hi⟩ := List.getElem?_of_mem hx
    cases x with
    | done r => exact .inl ⟨_, rfl⟩
    | inRecv rt j => exact .inr ⟨_, _, rfl⟩
    | dead v => exact absurd hx (hin.handlers v)
    | toRecv rt j =>
      obtain ⟨a, s', h1, h2⟩ := handler_moves h hl hor hi (.inl ⟨_, _, rfl⟩)
      exact absurd ⟨a, s', self_of_handler h1, h2⟩ hno
    | waiting f rt j =>
      obtain ⟨a, s', h1, h2⟩ := handler_moves h hl hor hi (.inr ⟨_, _, _, rfl⟩)
      exact absurd ⟨a, s', self_of_handler h1, h2⟩ hno
    | _ => simp [onTheWay] at ho
  rcases h.standstill hg hdisp hst hord hne hin hpc hnw with hh | hc
  · have hl : live s.tr = true := by simp [live, hh.idle]
    refine ⟨⟨hh.idle, hh.chan, hh.token⟩, fun x hx => hwho x hx hl (.inl ⟨hh.chan, hh.idle⟩) (hh.handlers x hx), hh.loops, hreap hl, ?_⟩
    rcases hh.why with h1 | h1 | h1 | h1
    · exact .inl h1
    · exact .inr (.inl h1)
    · rcases hreap hl with h2 | h2 <;> rw [h2] at h1 <;> exact absurd rfl h1
    · exact .inr (.inr h1)
  · exfalso
    have hl : live s.tr = true := by simp [live, hc.joining]
    refine hc.why ⟨?_, ?_⟩
    · unfold allDone
      rw [List.all_eq_true]
      intro x hx
      rcases hwho x hx hl (.inr hc.token) (hc.handlers x hx) with ⟨r, rfl⟩ | ⟨rt, j, rfl⟩
      · rfl
      · exfalso
        obtain ⟨i, hi⟩ := List.getElem?_of_mem hx
        obtain ⟨a, s', h1, h2⟩ := handler_leaves h.sound hc.closed hc.popped hc.claimed hi
        exact hno ⟨a, s', self_of_handler h1, h2⟩
    · rcases hreap hl with h2 | h2
      · exact .inr h2
      · rw [h2]; exact .inl rfl

end Verif.Sys
