import Verif.Proof.Stuck3
import Verif.Proof.Deploy

/-!
# Runs in which nothing goes wrong; fair runs
-/

namespace Verif.Tracker
open Verif

variable {c : Cfg} {lf : LogFile} {now : Int} {s s' : State}

theorem token_half {t : SysTime} {e : Fin} {k : Option Cancel} (h : finishHalf c t s e = .ok s') (hk : s.token = k) :
    s'.token = k ∨ ended s'.pc = true ∨ s'.soft = true := by
  obtain ⟨lf, ⟨_, rfl⟩ | ⟨hx, rfl⟩⟩ := finishHalf_cases h
  · exact .inr (.inl rfl)
  · by_cases hz : s.nFizzled ≥ c.fizzlesAllowed
    · right; right
      simp only [finLogged, hz, if_true]
    · left
      simp only [finLogged, hz, if_false]
      exact hk

/-- Who changes the token. -/
theorem token_step {a : Act} (hs : Tracker.step c s a = .ok s') (hc : ∀ k, a ≠ .cancel k) :
    s'.token = s.token ∨ ended s'.pc = true ∨ s'.soft = true := by
  cases a with
  | cancel k => exact absurd rfl (hc k)
  | begin o t =>
    simp only [Tracker.step] at hs
    repeat' split at hs
    · cases hs
    · cases hs
    · simp only [Res.ok.injEq] at hs; subst hs; exact .inl rfl
    · obtain ⟨_, _, _, _, rfl⟩ := addReady_ok hs
      exact .inl rfl
  | sendDone t =>
    simp only [Tracker.step] at hs
    split at hs
    · split at hs
      · simp only [Res.ok.injEq] at hs; subst hs; exact .inl rfl
      · exact token_half hs rfl
    · cases hs
  | recvStarted x =>
    simp only [Tracker.step] at hs
    split at hs
    · cases hs
    · split at hs
      · obtain ⟨s1, h5, h6⟩ := Res.bind_ok.1 hs
        obtain ⟨lf, _, rfl⟩ := writeLog_ok.1 h5
        split at h6
        · cases h6
        · simp only [Res.ok.injEq] at h6; subst h6; exact .inl rfl
      · cases hs
  | recvFinished o x =>
    simp only [Tracker.step] at hs
    split at hs
    · cases hs
    · split at hs
      · obtain ⟨sn, um, po, _, h | ⟨vs, _, _, h⟩⟩ := handleFinished_cases hs
        · exact token_half h rfl
        · obtain ⟨_, _, _, _, rfl⟩ := addReady_ok h
          exact .inl rfl
      · cases hs
  | drain o t =>
    simp only [Tracker.step] at hs
    split at hs
    · cases hs
    · rename_i hp
      have hend : ended s.pc = true := by
        have : s.pc = .joined := by simpa using hp
        rw [this]; rfl
      exact .inr (.inl (step_ended (a := .drain o t) (by simp only [Tracker.step, hp, if_false]; exact hs) hend).1)
  | _ =>
    simp only [Tracker.step] at hs
    repeat' split at hs
    all_goals first
      | (cases hs; done)
      | (simp only [Res.ok.injEq] at hs; subst hs; first | exact .inl rfl | exact .inr (.inl rfl))

/-- Nothing in the run asks the server to stop, and every reported end is exit code 0. -/
structure Peace (c : Cfg) (lf : LogFile) (now : Int) (as : List Act) (s : State) : Prop where
  no : NoShutdown as
  quick : quickFailures c [] (init c lf now) as = 0
  soft : s.soft = false
  quiet : Quiet s
  tok : ended s.pc = false → s.token = none

theorem peace (hg : Good c) (hz : c.fizzlesAllowed ≠ 0) {as : List Act} (hr : Runs c (init c lf now) as s)
    (h1 : ∀ a ∈ as, a ≠ .trigger ∧ a ≠ .ctrlC ∧ ∀ k, a ≠ .cancel k)
    (h2 : ∀ e, Act.sendFinished e ∈ as → e.status = .code 0) : Peace c lf now as s := by
  revert h1 h2
  refine Runs.snocInd (P := fun as s => (∀ a ∈ as, a ≠ .trigger ∧ a ≠ .ctrlC ∧ ∀ k, a ≠ .cancel k) →
    (∀ e, Act.sendFinished e ∈ as → e.status = .code 0) → Peace c lf now as s) ?_ ?_ hr
  · intro _ _
    exact ⟨by simp [NoShutdown], rfl, rfl, Quiet.init c lf now, fun _ => rfl⟩
  · intro as s a s' hr ih hd hs h1 h2
    obtain ⟨i1, i2, i3, i4, i5⟩ := ih (fun x hx => h1 x (by simp [hx])) (fun e he => h2 e (by simp [he]))
    obtain ⟨a1, a2, a3⟩ := h1 a (by simp)
    have hr' := hr.snoc hd hs
    have hst : a ≠ .seeTrigger := by
      rintro rfl
      simp only [Tracker.step, i4.trig, if_true] at hs
      split at hs <;> cases hs
    have hsh : a ≠ .seeHard := by
      rintro rfl
      simp only [Tracker.step] at hs
      split at hs
      · cases hs
      · rename_i hp
        have hp : s.pc = .idle := by simpa using hp
        rw [i5 (by rw [hp]; rfl)] at hs
        simp at hs
    have hno : NoShutdown (as ++ [a]) := by
      intro x hx
      rcases List.mem_append.1 hx with hx | hx
      · exact i1 x hx
      · rw [List.mem_singleton] at hx; subst hx
        exact ⟨hst, hsh, a2⟩
    have hq : quickFailures c [] (init c lf now) (as ++ [a]) = 0 := by
      obtain ⟨t', ht⟩ := quickFailures_snoc (a := a) hr []
      rw [ht, i2]
      have : quickAt t' s a = false := by
        unfold quickAt
        split
        · rename_i e _ hch
          have := h2 e (List.mem_append_left _ ((Props.Tracker.rinv hr).evs (.finished e) (by rw [hch]; simp)))
          simp only [this]
          split <;> simp
        · rfl
      rw [this]; rfl
    have hsoft : s'.soft = false := by
      by_contra hne
      have := ((soft_exact hg hr' (fun h => (hno _ h).1 rfl)).1 (by simpa using hne)).2
      omega
    refine ⟨hno, hq, hsoft, ?_, ?_⟩
    · exact i4.step (Reachable.inv hg ⟨as, hr⟩).1 hs a1 (fun k e => absurd e (a3 k))
    · intro he
      rcases token_step hs a3 with h | h | h
      · rw [h]
        refine i5 ?_
        by_contra hne
        have := (step_ended hs (by simpa using hne)).1
        rw [he] at this; cases this
      · rw [he] at h; cases h
      · rw [hsoft] at h; cases h

end Verif.Tracker

namespace Verif.Sys
open Verif Verif.Tracker

variable {c : Cfg} {lf : LogFile} {now : Int} {s s' : State}

/-- A loop that has nothing bad to report. -/
def Fine : Loop → Prop
  | .failing _ | .failed _ | .cancelled _ => False
  | .ended _ code _ => code = 0
  | _ => True

theorem fine_set {ls : List Loop} {i : Nat} {l' : Loop} (h : ∀ l ∈ ls, Fine l) (h' : Fine l') : ∀ l ∈ ls.set i l', Fine l := by
  intro l hl
  rcases List.mem_or_eq_of_mem_set hl with hl | rfl
  · exact h l hl
  · exact h'

theorem calm_of_right {a : Act} (h : wrong a = false) : isTrigger a = false ∧ isDie a = false := by
  unfold wrong at h
  constructor
  · unfold isTrigger; split <;> simp_all
  · unfold isDie; split <;> simp_all

theorem local_of_noServer (hn : NoServer s) {a : Act} (hs : step c s a = .ok s') : isLocal a = true := by
  obtain ⟨h1, h2, h3, h4⟩ := hn
  cases a with
  | request r => simp [step, h1] at hs
  | _ => first | rfl | simp [step, h1, h2] at hs

theorem fine_step {a : Act} (hloc : isLocal a = true) (h : ∀ l ∈ s.loops, Fine l) (ha : wrong a = false)
    (ht : ∀ t, s.tr.token ≠ some (.afterTime t)) (hs : step c s a = .ok s') :
    (∀ l ∈ s'.loops, Fine l) ∧ (∀ e, Tracker.Act.sendFinished e ∈ trackerAct c s a → e.status = .code 0) ∧
    (∀ b ∈ trackerAct c s a, b ≠ .trigger ∧ b ≠ .ctrlC ∧ ∀ k, b ≠ .cancel k) := by
  cases a with
  | server b =>
    simp only [step] at hs
    split at hs
    · rename_i hsa
      obtain ⟨t, ht, rfl⟩ := trk_ok.1 hs
      refine ⟨h, ?_, ?_⟩
      · intro e he
        simp only [trackerAct, List.mem_singleton] at he
        subst he
        simp [serverAct] at hsa
      · intro x hx
        simp only [trackerAct, List.mem_singleton] at hx
        subst hx
        cases x <;> simp_all [wrong]
    · cases hs
  | joinDone =>
    simp only [step] at hs
    split at hs
    · obtain ⟨t, ht, rfl⟩ := trk_ok.1 hs
      exact ⟨h, by simp [trackerAct], by simp [trackerAct]⟩
    · cases hs
  | loopRecv i =>
    have e1 : (∀ e, Tracker.Act.sendFinished e ∈ trackerAct c s (.loopRecv i) → e.status = .code 0) := by
      intro e he; simp only [trackerAct] at he; split at he <;> simp at he
    have e2 : ∀ b ∈ trackerAct c s (.loopRecv i), b ≠ .trigger ∧ b ≠ .ctrlC ∧ ∀ k, b ≠ .cancel k := by
      intro b hb; simp only [trackerAct] at hb; split at hb <;> simp at hb; subst hb; simp
    refine ⟨?_, e1, e2⟩
    simp only [step] at hs
    repeat' split at hs
    · obtain ⟨t, ht, rfl⟩ := trk_ok.1 hs
      exact fine_set h trivial
    · simp only [Res.ok.injEq] at hs; subst hs
      exact fine_set h trivial
    · cases hs
  | loopClosed i k =>
    refine ⟨?_, by simp [trackerAct], by simp [trackerAct]⟩
    simp only [step] at hs
    repeat' split at hs
    · obtain ⟨t, ht, rfl⟩ := trk_ok.1 hs
      exact fine_set h trivial
    · cases hs
    · cases hs
  | loopGot i k =>
    refine ⟨?_, by simp [trackerAct], by simp [trackerAct]⟩
    simp only [step] at hs
    repeat' split at hs
    · obtain ⟨t, ht, rfl⟩ := trk_ok.1 hs
      exact fine_set h trivial
    · cases hs
    · cases hs
  | loopSpawn i ok =>
    refine ⟨?_, by simp [trackerAct], by simp [trackerAct]⟩
    have hok : ok = true := by cases ok <;> simp_all [wrong]
    subst hok
    simp only [step] at hs
    split at hs
    · split at hs
      · simp only [Res.ok.injEq] at hs; subst hs
        rw [if_pos trivial]
        exact fine_set h trivial
      · cases hs
    · cases hs
  | loopDie i => simp [wrong] at ha
  | loopStarted i host pid =>
    have hnf : ∀ v, s.loops[i]? ≠ some (.failing v) := fun v hv => h _ (List.mem_of_getElem? hv)
    refine ⟨?_, ?_, ?_⟩
    · simp only [step] at hs
      split at hs
      · obtain ⟨t, ht, rfl⟩ := trk_ok.1 hs
        exact fine_set h trivial
      · rename_i v hv; exact absurd hv (hnf v)
      · cases hs
    · intro e he; simp only [trackerAct] at he; split at he <;> simp at he
    · intro b hb
      simp only [trackerAct] at hb
      split at hb <;> simp at hb <;> (subst hb; simp)
  | loopSoft i =>
    simp only [step] at hs
    split at hs
    · rename_i t _ htk; exact absurd htk (ht t)
    · cases hs
  | loopHard i =>
    refine ⟨?_, by simp [trackerAct], by simp [trackerAct]⟩
    simp only [step] at hs
    repeat' split at hs
    · simp only [Res.ok.injEq] at hs; subst hs
      exact fine_set h trivial
    · cases hs
  | loopOutput i code values =>
    refine ⟨?_, by simp [trackerAct], by simp [trackerAct]⟩
    have hok : code = 0 := by simpa [wrong] using ha
    subst hok
    simp only [step] at hs
    repeat' split at hs
    · simp only [Res.ok.injEq] at hs; subst hs
      exact fine_set h rfl
    · cases hs
  | loopReport i =>
    have hnf : ∀ v, s.loops[i]? ≠ some (.failed v) := fun v hv => h _ (List.mem_of_getElem? hv)
    have hnc : ∀ v, s.loops[i]? ≠ some (.cancelled v) := fun v hv => h _ (List.mem_of_getElem? hv)
    have hz : ∀ v code vs, s.loops[i]? = some (.ended v code vs) → code = 0 := fun v code vs hv => h _ (List.mem_of_getElem? hv)
    refine ⟨?_, ?_, ?_⟩
    · simp only [step] at hs
      split at hs
      · rename_i v hv; exact absurd hv (hnf v)
      · rename_i v hv; exact absurd hv (hnc v)
      · obtain ⟨t, ht, rfl⟩ := trk_ok.1 hs
        exact fine_set h trivial
      · cases hs
    · intro e he
      simp only [trackerAct] at he
      split at he
      · rename_i v hv; exact absurd hv (hnf v)
      · rename_i v hv; exact absurd hv (hnc v)
      · rename_i v code vs hv
        simp only [List.mem_singleton, Tracker.Act.sendFinished.injEq] at he
        subst he
        rw [hz v code vs hv]
      · cases he
    · intro b hb
      simp only [trackerAct] at hb
      split at hb <;> simp at hb <;> (subst hb; simp)
  | _ => simp [isLocal] at hloc

/-- The run of the scheduler inside a run in which nothing goes wrong. -/
theorem fine_runs (hg : Good c.tr) (hl : c.remote = false) (hz : c.tr.fizzlesAllowed ≠ 0) {as : List Act}
    (hr : Runs c (init c lf now) as s) (ha : ∀ a ∈ as, wrong a = false) :
    (∀ l ∈ s.loops, Fine l) ∧ (∀ e, Tracker.Act.sendFinished e ∈ toTracker c (init c lf now) as → e.status = .code 0) ∧
    (∀ b ∈ toTracker c (init c lf now) as, b ≠ .trigger ∧ b ≠ .ctrlC ∧ ∀ k, b ≠ .cancel k) := by
  revert ha
  refine Runs.snocInd (P := fun as s => (∀ a ∈ as, wrong a = false) → (∀ l ∈ s.loops, Fine l) ∧
    (∀ e, Tracker.Act.sendFinished e ∈ toTracker c (init c lf now) as → e.status = .code 0) ∧
    (∀ b ∈ toTracker c (init c lf now) as, b ≠ .trigger ∧ b ≠ .ctrlC ∧ ∀ k, b ≠ .cancel k)) ?_ ?_ hr
  · intro _
    refine ⟨?_, by simp [toTracker, collect], by simp [toTracker, collect]⟩
    intro l hl
    simp only [init] at hl
    split at hl
    · cases hl
    · rw [List.eq_of_mem_replicate hl]; trivial
  · intro as s a s' hr ih hp hs ha
    obtain ⟨i1, i2, i3⟩ := ih (fun x hx => ha x (by simp [hx]))
    have hpe := Tracker.peace hg hz (hr.toInit hg) i3 i2
    have htok : ∀ t, s.tr.token ≠ some (.afterTime t) := by
      intro t e
      have := hpe.quiet.tok t e
      rw [hpe.soft] at this; cases this
    obtain ⟨f1, f2, f3⟩ := fine_step (local_of_noServer ((NoServer.init hl).runs hr) hs) i1 (ha a (by simp)) htok hs
    unfold toTracker at i2 i3 ⊢
    rw [collect_snoc hr]
    refine ⟨f1, fun e he => ?_, fun b hb => ?_⟩
    · rcases List.mem_append.1 he with he | he
      · exact i2 e he
      · exact f2 e he
    · rcases List.mem_append.1 hb with hb | hb
      · exact i3 b hb
      · exact f3 b hb

theorem fine_peace (hg : Good c.tr) (hl : c.remote = false) (hz : c.tr.fizzlesAllowed ≠ 0) {as : List Act}
    (hr : Runs c (init c lf now) as s) (ha : ∀ a ∈ as, wrong a = false) :
    Peace c.tr lf now (toTracker c (init c lf now) as) s.tr ∧ ∀ u, ¬ FailedIn s.tr u := by
  obtain ⟨_, h2, h3⟩ := fine_runs hg hl hz hr ha
  refine ⟨Tracker.peace hg hz (hr.toInit hg) h3 h2, ?_⟩
  rintro u ⟨st, hst, hne⟩
  obtain ⟨e, he, _, h⟩ := processed_reported (hr.toInit hg) _ hst
  simp only at h
  exact hne (by rw [← h]; exact h2 e he)

/-! ### infinite runs -/

variable {σ : Nat → State} {α : Nat → Act}

theorem InfRun.from (h : InfRun c lf now σ α) (j : Nat) : ∀ k, Runs c (σ j) ((List.range k).map (fun i => α (j + i))) (σ (j + k)) := by
  intro k
  induction k with
  | zero => exact .nil _
  | succ k ih =>
    rw [List.range_succ, List.map_append]
    exact ih.snoc (h.next (j + k)).1 (h.next (j + k)).2

theorem InfRun.prefix (h : InfRun c lf now σ α) (k : Nat) : Runs c (init c lf now) ((List.range k).map α) (σ k) := by
  have := h.from 0 k
  rw [h.start] at this
  simpa using this

theorem polite_internal {a : Act} (h : internal a = true) : polite c s a = true := by
  cases a <;> simp_all [internal, polite]

theorem internal_of_own {a : Act} (h : ownAct a = true) : internal a = true ∧ isDie a = false := by
  cases a <;> simp_all [ownAct, internal, isDie]

/-- Something inside can happen while `execute` has not returned. -/
theorem Calmly.enabled (hg : Good c.tr) (hdisp : Displayable c.tr) (hrun : LocallyRunnable c) (hord : Ordered c.tr)
    (hne : c.tr.g.n ≠ 0) (hpar : c.numParallel ≠ 0) (h : Calmly c lf now s) (hpc : s.tr.pc ≠ .done) :
    ∃ a s', internal a = true ∧ isDie a = false ∧ isTrigger a = false ∧ step c s a = .ok s' := by
  rcases Calmly.able hg hdisp hrun hord hne hpar h hpc with ⟨a, s', h1, h2⟩ | ⟨_, v, st, hl⟩
  · obtain ⟨h3, h4⟩ := internal_of_own h1
    refine ⟨a, s', h3, h4, ?_, h2⟩
    cases a <;> simp_all [isTrigger, internal]
    split <;> simp_all
  · obtain ⟨i, hi⟩ := List.getElem?_of_mem hl
    exact ⟨.loopOutput i 0 [], _, rfl, rfl, rfl, by simp only [step, hi]; rfl⟩

/-- A fair run comes to an end. -/
theorem fair_ends (hg : Good c.tr) (hdisp : Displayable c.tr) (hrun : LocallyRunnable c) (hord : Ordered c.tr)
    (hne : c.tr.g.n ≠ 0) (hpar : c.numParallel ≠ 0) (hl : c.remote = false) (h : InfRun c lf now σ α) (hf : Fair c σ α)
    (ha : ∀ k, isTrigger (α k) = false ∧ isDie (α k) = false) : ∃ k, (σ k).tr.pc = .done := by
  by_contra hno
  have hno : ∀ k, (σ k).tr.pc ≠ .done := fun k hk => hno ⟨k, hk⟩
  have calm : ∀ k, Calmly c lf now (σ k) := by
    intro k
    refine (Calmly.init hl).runs hg (h.prefix k) ?_
    intro a hm
    obtain ⟨i, _, rfl⟩ := List.mem_map.1 hm
    exact ha i
  have trig : ∀ k, ((List.range k).map α).countP isTrigger = 0 := by
    intro k
    rw [List.countP_eq_zero]
    intro a hm
    obtain ⟨i, _, rfl⟩ := List.mem_map.1 hm
    rw [(ha i).1]; simp
  have more : ∀ m, ∃ k, m ≤ ((List.range k).map α).countP internal := by
    intro m
    induction m with
    | zero => exact ⟨0, Nat.zero_le _⟩
    | succ m ih =>
      obtain ⟨k, hk⟩ := ih
      obtain ⟨a, s', h1, h2, _, h4⟩ := Calmly.enabled hg hdisp hrun hord hne hpar (calm k) (hno k)
      obtain ⟨j, hj, hi⟩ := hf k ⟨a, s', h1, h2, h4⟩
      refine ⟨j + 1, ?_⟩
      obtain ⟨d, rfl⟩ := Nat.exists_eq_add_of_le hj
      rw [List.range_succ, List.map_append, List.countP_append, List.range_add, List.map_append, List.countP_append]
      simp only [List.map_cons, List.map_nil, List.countP_cons, List.countP_nil, hi, if_true]
      omega
  obtain ⟨k, hk⟩ := more (left c (init c lf now) + 1)
  have := left_runs hg (h.prefix k) (Inv.init c lf now) (NoServer.init hl)
  rw [trig k] at this
  omega

/-- It is always possible to come to an end. -/
theorem can_finish (hg : Good c.tr) (hdisp : Displayable c.tr) (hrun : LocallyRunnable c) (hord : Ordered c.tr)
    (hne : c.tr.g.n ≠ 0) (hpar : c.numParallel ≠ 0) : ∀ m {s : State}, Calmly c lf now s → left c s ≤ m →
    ∃ bs s', Runs c s bs s' ∧ s'.tr.pc = .done ∧ (∀ a ∈ bs, internal a = true) ∧ bs.length ≤ left c s := by
  intro m
  induction m with
  | zero =>
    intro s h hm
    by_cases hd : s.tr.pc = .done
    · exact ⟨[], s, .nil _, hd, by simp, by simp⟩
    · obtain ⟨a, s', h1, h2, h3, h4⟩ := Calmly.enabled hg hdisp hrun hord hne hpar h hd
      have := left_runs hg (.cons (polite_internal h1) h4 (.nil _)) h.inv h.noServer
      simp only [List.countP_cons, List.countP_nil, h1, h3, if_true] at this
      simp at this
      omega
  | succ m ih =>
    intro s h hm
    by_cases hd : s.tr.pc = .done
    · exact ⟨[], s, .nil _, hd, by simp, by simp⟩
    · obtain ⟨a, s', h1, h2, h3, h4⟩ := Calmly.enabled hg hdisp hrun hord hne hpar h hd
      have hr1 : Runs c s [a] s' := .cons (polite_internal h1) h4 (.nil _)
      have := left_runs hg hr1 h.inv h.noServer
      simp only [List.countP_cons, List.countP_nil, h1, h3, if_true] at this
      simp at this
      obtain ⟨bs, s2, i1, i2, i3, i4⟩ := ih (h.runs hg hr1 (by simp [h2, h3])) (by omega)
      refine ⟨a :: bs, s2, hr1.append i1, i2, ?_, ?_⟩
      · simpa [h1] using i3
      · simp only [List.length_cons]; omega

/-! ### there are fair runs -/

/-- Where an action inside is possible, one is possible with which nothing goes wrong. -/
theorem right_enabled (h : ∃ a s', internal a = true ∧ isDie a = false ∧ step c s a = .ok s') :
    ∃ a s', internal a = true ∧ wrong a = false ∧ step c s a = .ok s' := by
  obtain ⟨a, s', h1, h2, h3⟩ := h
  by_cases hw : wrong a = false
  · exact ⟨a, s', h1, hw, h3⟩
  · cases a with
    | server b => cases b <;> simp_all [wrong, internal]
    | loopDie i => simp [isDie] at h2
    | loopSpawn i ok =>
      simp only [step] at h3
      split at h3
      · rename_i v hl
        split at h3
        · rename_i hsp
          exact ⟨.loopSpawn i true, _, rfl, rfl, by simp only [step, hl, hsp, if_true]; rfl⟩
        · cases h3
      · cases h3
    | loopOutput i code vs =>
      simp only [step] at h3
      split at h3
      · rename_i v st hl
        exact ⟨.loopOutput i 0 vs, _, rfl, rfl, by simp only [step, hl]; rfl⟩
      · cases h3
    | _ => simp [wrong] at hw

theorem tick_enabled (c : Cfg) (s : State) : step c s (.server (.tick 1)) = .ok { s with tr := { s.tr with now := s.tr.now + (1 : Nat) } } := rfl

open Classical in
/-- Some possible action, one inside if there is one; the clock else. -/
noncomputable def pick (c : Cfg) (s : State) : Act × State :=
  if h : ∃ x : Act × State, internal x.1 = true ∧ wrong x.1 = false ∧ step c s x.1 = .ok x.2 then choose h
  else (.server (.tick 1), { s with tr := { s.tr with now := s.tr.now + (1 : Nat) } })

theorem pick_ok (c : Cfg) (s : State) : polite c s (pick c s).1 = true ∧ step c s (pick c s).1 = .ok (pick c s).2 ∧
    wrong (pick c s).1 = false ∧
    ((∃ a s', internal a = true ∧ isDie a = false ∧ step c s a = .ok s') → internal (pick c s).1 = true) := by
  unfold pick
  split
  · rename_i h
    obtain ⟨h1, h2, h3⟩ := Classical.choose_spec h
    exact ⟨polite_internal h1, h3, h2, fun _ => h1⟩
  · rename_i h
    refine ⟨rfl, tick_enabled c s, rfl, fun h' => ?_⟩
    obtain ⟨a, s', h1, h2, h3⟩ := right_enabled h'
    exact absurd ⟨(a, s'), h1, h2, h3⟩ h

/-- The states of the run that always takes the picked action. -/
noncomputable def pickRun (c : Cfg) (lf : LogFile) (now : Int) : Nat → State
  | 0 => init c lf now
  | k + 1 => (pick c (pickRun c lf now k)).2

theorem exists_fair (c : Cfg) (lf : LogFile) (now : Int) :
    ∃ σ α, InfRun c lf now σ α ∧ Fair c σ α ∧ ∀ k, wrong (α k) = false := by
  refine ⟨pickRun c lf now, fun k => (pick c (pickRun c lf now k)).1, ⟨rfl, fun k => ?_⟩, ?_, fun k => ?_⟩
  · obtain ⟨h1, h2, _⟩ := pick_ok c (pickRun c lf now k)
    exact ⟨h1, h2⟩
  · intro k hk
    exact ⟨k, Nat.le_refl _, (pick_ok c (pickRun c lf now k)).2.2.2 hk⟩
  · exact (pick_ok c (pickRun c lf now k)).2.2.1

end Verif.Sys
