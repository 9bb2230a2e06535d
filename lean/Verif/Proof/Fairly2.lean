import Verif.Proof.Fairly

/-!
# Fair runs with remote runners exist; runs in which nothing goes wrong
-/

namespace Verif.Sys
open Verif Verif.Tracker

variable {c : Cfg} {lf : LogFile} {now : Int} {s s' : State} {σ : Nat → State} {α : Nat → Act}

/-- What is lost stays lost. -/
theorem Intact.back {a : Act} (hs : step c s a = .ok s') (h : Intact s') : Intact s := by
  refine ⟨?_, ?_, ?_, ?_⟩
  · intro v hv
    obtain ⟨j, hj⟩ := List.getElem?_of_mem hv
    rcases step_loops hs with ⟨h1, _⟩ | ⟨i, l, l', o, h1, h2, h3, _⟩
    · exact h.loops v (by rw [h1]; exact hv)
    · have hne : i ≠ j := by
        rintro rfl
        rw [hj] at h1
        simp only [Option.some.injEq] at h1
        subst h1
        cases h3
      refine h.loops v ?_
      rw [h2]
      exact List.mem_of_getElem? (i := j) (by rw [List.getElem?_set_ne hne]; exact hj)
  · intro v hv
    obtain ⟨j, hj⟩ := List.getElem?_of_mem hv
    rcases step_handlers hs with h1 | ⟨r, x, rfl, h1, h2⟩ | ⟨i, x, x', h1, h2, h3⟩
    · exact h.handlers v (by rw [h1]; exact hv)
    · exact h.handlers v (by rw [h1]; exact List.mem_append_left _ hv)
    · have hne : i ≠ j := by
        rintro rfl
        rw [hj] at h1
        simp only [Option.some.injEq] at h1
        subst h1
        cases h3
      refine h.handlers v ?_
      rw [h2]
      exact List.mem_of_getElem? (i := j) (by rw [List.getElem?_set_ne hne]; exact hj)
  · intro e he
    exact h.reaper e (step_reaper_dead hs he)
  · obtain ⟨l, hl⟩ := step_forgotten hs
    have := h.conns
    rw [hl] at this
    exact (List.append_eq_nil_iff.1 this).1

/-- After everything has returned nothing moves. -/
theorem over_quiet (ho : over s = true) {a : Act} (hs : step c s a = .ok s') :
    working s a = false ∧ waitAct a = false ∧ reapAct a = false := by
  simp only [over, Bool.and_eq_true, beq_iff_eq, List.isEmpty_iff] at ho
  obtain ⟨⟨⟨⟨⟨⟨h1, h2⟩, h3⟩, h4⟩, h5⟩, h6⟩, h7⟩ := ho
  have hl : ∀ {i : Nat} {l : Loop}, s.loops[i]? = some l → l = .exited ∨ (∃ v, l = .killed v) ∨ ∃ v, l = .dead v := by
    intro i l hx
    have := List.all_eq_true.1 h5 l (List.mem_of_getElem? hx)
    cases l <;> simp_all
  have hh : ∀ {i : Nat} {x : Handler}, s.handlers[i]? = some x → (∃ r, x = .done r) ∨ ∃ v, x = .dead v := by
    intro i x hx
    have := List.all_eq_true.1 h6 x (List.mem_of_getElem? hx)
    cases x <;> simp_all
  have hlive : live s.tr = false := by simp [live, h1]
  rcases step_handlers hs with e1 | ⟨r, x, rfl, e1, e2⟩ | ⟨i, x, x', e1, e2, e3⟩
  rotate_left
  · exact ⟨rfl, rfl, rfl⟩
  · exfalso
    rcases hh e1 with ⟨r, rfl⟩ | ⟨v, rfl⟩ <;> cases e3
  rcases step_loops hs with ⟨f1, _⟩ | ⟨i, l, l', o, f1, f2, f3, _⟩
  rotate_left
  · exfalso
    rcases hl f1 with rfl | ⟨v, rfl⟩ | ⟨v, rfl⟩ <;> cases f3
  cases a with
  | request r => exact ⟨rfl, rfl, rfl⟩
  | server b =>
    simp only [step] at hs
    split at hs
    · obtain ⟨t, ht, rfl⟩ := trk_ok.1 hs
      refine ⟨?_, rfl, rfl⟩
      cases b <;> first
        | rfl
        | (exfalso; simp [Tracker.step, h1, h2, h3, h4, hlive] at ht; done)
        | (exfalso; simp [serverAct] at *; done)
    · cases hs
  | joinDone =>
    exfalso
    simp only [step] at hs
    split at hs
    · obtain ⟨t, ht, rfl⟩ := trk_ok.1 hs
      simp [Tracker.step, h1] at ht
    · cases hs
  | loopDie i =>
    exfalso
    simp only [step] at hs
    split at hs
    · rename_i v hm
      cases hx : s.loops[i]? with
      | none => rw [hx] at hm; cases hm
      | some l =>
        rw [hx] at hm
        rcases hl hx with rfl | ⟨w, rfl⟩ | ⟨w, rfl⟩ <;> cases hm
    · cases hs
  | reapTick =>
    exfalso
    simp only [step] at hs
    split at hs
    · rename_i hr; rw [hr] at h7; cases h7
    · cases hs
  | reapRemove =>
    exfalso
    simp only [step] at hs
    split at hs
    · rename_i hr; rw [hr] at h7; cases h7
    · rename_i hr; rw [hr] at h7; cases h7
    · rename_i hr; rw [hr] at h7; cases h7
    · cases hs
  | reapCheck o =>
    exfalso
    simp only [step] at hs
    split at hs
    · rename_i hr; rw [hr] at h7; cases h7
    · cases hs
  | reapSend =>
    exfalso
    simp only [step] at hs
    split at hs
    · rename_i hr; rw [hr] at h7; cases h7
    · rename_i hr; rw [hr] at h7; cases h7
    · cases hs
  | reapStop =>
    exfalso
    simp only [step] at hs
    split at hs
    · rename_i hr; rw [hr.1] at h7; cases h7
    · cases hs
  | _ =>
    exfalso
    simp only [step] at hs
    repeat' split at hs
    all_goals first
      | (cases hs; done)
      | (rcases hh (by assumption) with ⟨r, e⟩ | ⟨v, e⟩ <;> cases e; done)
      | (rcases hl (by assumption) with e | ⟨v, e⟩ | ⟨v, e⟩ <;> cases e; done)

/-- A finite run goes on with an idle clock. -/
theorem extend {as : List Act} (hr : Runs c s as s') : ∃ (σ : Nat → State) (α : Nat → Act), σ 0 = s ∧
    (∀ k, polite c (σ k) (α k) = true ∧ step c (σ k) (α k) = .ok (σ (k + 1))) ∧
    (∀ k, as.length ≤ k → σ k = s' ∧ α k = .server (.tick 0)) ∧ (∀ k, k < as.length → as[k]? = some (α k)) := by
  induction hr with
  | nil s =>
    refine ⟨fun _ => s, fun _ => .server (.tick 0), rfl, fun k => ⟨rfl, ?_⟩, fun k _ => ⟨rfl, rfl⟩, fun k hk => by simp at hk⟩
    simp [step, serverAct, trk, Tracker.step, Res.bind]
  | @cons s s1 s' a as hp hs _ ih =>
    obtain ⟨σ, α, h0, h1, h2, h3⟩ := ih
    refine ⟨fun k => match k with | 0 => s | k + 1 => σ k, fun k => match k with | 0 => a | k + 1 => α k, rfl, ?_, ?_, ?_⟩
    · intro k
      cases k with
      | zero => exact ⟨hp, by simp only [h0]; exact hs⟩
      | succ k => exact h1 k
    · intro k hk
      cases k with
      | zero => simp at hk
      | succ k => exact h2 k (by simpa using hk)
    · intro k hk
      cases k with
      | zero => simp
      | succ k => simpa using h3 k (by simpa using hk)

/-- A run at whose end everything has returned without losses goes on for ever in a fair way. -/
theorem exists_just {as : List Act} (hr : Runs c (init c lf now) as s) (ho : over s = true) (hin : Intact s)
    (htok : s.tr.token = some .hard) :
    ∃ σ α, InfRun c lf now σ α ∧ Justly c σ α ∧ Strong c σ α (fun _ a => isReapTick a) ∧ Cooperative c σ α ∧ ConnsEnd σ ∧
      (∀ k, Intact (σ k)) ∧ (∀ k, as.length ≤ k → σ k = s) ∧
      (∀ k, as.length ≤ k → α k = .server (.tick 0)) ∧ (∀ k, k < as.length → as[k]? = some (α k)) := by
  obtain ⟨σ, α, h0, h1, h2, h3⟩ := extend hr
  have strong : ∀ P : State → Act → Bool, (∀ a s', step c s a = .ok s' → P s a = false) → Strong c σ α P := by
    intro P hP hx
    exfalso
    obtain ⟨j, hj, a, s', h4, h5⟩ := hx as.length
    rw [(h2 j hj).1] at h4 h5
    rw [hP a s' h5] at h4
    cases h4
  refine ⟨σ, α, ⟨h0, h1⟩, ⟨?_, ?_, ?_⟩, ?_, ⟨?_, ?_⟩, ?_, ?_, fun k hk => (h2 k hk).1, fun k hk => (h2 k hk).2, h3⟩
  · exact strong _ (fun a s' hs => by simp [(over_quiet ho hs).1])
  · refine fun h => strong _ (fun a s' hs => ?_)
    have := (over_quiet ho hs).2.1
    cases hx : ofHandler h a with
    | false => rfl
    | true => rw [wait_of_handler hx] at this; cases this
  · exact strong _ (fun a s' hs => (over_quiet ho hs).2.2)
  · refine strong _ (fun a s' hs => ?_)
    cases a with
    | reapTick =>
      exfalso
      simp only [step] at hs
      split at hs
      · rename_i hr
        simp [over, hr, reaperEnded] at ho
      · cases hs
    | _ => rfl
  · intro k v _
    exact ⟨max k as.length, Nat.le_max_left _ _, .inr (by rw [(h2 _ (Nat.le_max_right _ _)).1]; exact htok)⟩
  · exact ⟨as.length, fun j hj _ => by rw [(h2 j hj).2]; rfl⟩
  · intro k txn _
    exact ⟨max k as.length, Nat.le_max_left _ _, .inr (by rw [(h2 _ (Nat.le_max_right _ _)).1]; exact htok)⟩
  · have hback : ∀ d k, Intact (σ (k + d)) → Intact (σ k) := by
      intro d
      induction d with
      | zero => exact fun k h => h
      | succ d ih => exact fun k h => ih k (Intact.back (h1 (k + d)).2 h)
    intro k
    refine hback as.length k ?_
    rw [(h2 _ (Nat.le_add_left _ _)).1]
    exact hin

/-- Such a run does nothing else. -/
theorem only_these {as : List Act} (h1 : ∀ k, as.length ≤ k → α k = .server (.tick 0))
    (h2 : ∀ k, k < as.length → as[k]? = some (α k)) (k : Nat) : α k ∈ as ∨ α k = .server (.tick 0) := by
  by_cases hk : k < as.length
  · exact .inl (List.mem_of_getElem? (h2 k hk))
  · exact .inr (h1 k (by omega))

theorem collect_at {β : Type} {f : State → Act → List β} (hn : ∀ k, step c (σ k) (α k) = .ok (σ (k + 1))) {as : List Act} {j : Nat}
    (h2 : ∀ k, k < as.length → as[k]? = some (α (j + k))) (hf : collect f c (σ j) as = []) :
    ∀ k, k < as.length → f (σ (j + k)) (α (j + k)) = [] := by
  induction as generalizing j with
  | nil => intro k hk; simp at hk
  | cons a as ih =>
    have e := h2 0 (by simp)
    simp only [List.getElem?_cons_zero, Option.some.injEq, Nat.add_zero] at e
    subst e
    rw [collect, hn j, List.append_eq_nil_iff] at hf
    intro k hk
    cases k with
    | zero => exact hf.1
    | succ k =>
      have := ih (j := j + 1) (fun k hk => by
        have := h2 (k + 1) (by simpa using hk)
        rw [show j + 1 + k = j + (k + 1) by omega]
        simpa using this) hf.2 k (by simpa using hk)
      rwa [show j + 1 + k = j + (k + 1) by omega] at this

/-- What does not happen in the finite run does not happen in the infinite one. -/
theorem never_there {β : Type} {f : State → Act → List β} (h : InfRun c lf now σ α) {as : List Act}
    (h1 : ∀ k, as.length ≤ k → α k = .server (.tick 0)) (h2 : ∀ k, k < as.length → as[k]? = some (α k))
    (hf : collect f c (init c lf now) as = []) (ht : ∀ s, f s (.server (.tick 0)) = []) (k : Nat) : f (σ k) (α k) = [] := by
  by_cases hk : k < as.length
  · have := collect_at (c := c) (f := f) (j := 0) (fun k => (h.next k).2) (fun k hk => by simpa using h2 k hk) (by rw [h.start]; exact hf) k hk
    simpa using this
  · rw [h1 k (by omega)]; exact ht _

/-! ### nothing goes wrong -/

/-- A handler that has nothing bad to report. -/
def FineH : Handler → Prop
  | .ending _ code _ _ | .reporting _ code _ _ => code = 0
  | _ => True

theorem fineH_step (h : ∀ x ∈ s.handlers, FineH x) {a : Act} (ha : wrongAt s a = false) (hs : step c s a = .ok s') :
    ∀ x ∈ s'.handlers, FineH x := by
  rcases step_handlers hs with h1 | ⟨r, x, rfl, h1, h2⟩ | ⟨i, x, x', h1, h2, h3⟩
  · rw [h1]; exact h
  · rw [h1]
    intro y hy
    rcases List.mem_append.1 hy with hy | hy
    · exact h y hy
    · rw [List.mem_singleton] at hy
      subst hy
      cases h2 with
      | done => trivial
      | start => trivial
      | ending txn conn code values next e1 e2 e3 e4 =>
        obtain ⟨au, ji, bo⟩ := r
        simp only at e4
        subst e4
        show code = 0
        simpa [wrongAt] using ha
  · rw [h2]
    have hx := h x (List.mem_of_getElem? h1)
    intro y hy
    rcases List.mem_or_eq_of_mem_set hy with hy | rfl
    · exact h y hy
    · cases h3 <;> first | trivial | exact hx

theorem server_sends (h : ∀ x ∈ s.handlers, FineH x) {a : Act} (ha : wrongAt s a = false) (hl : isLocal a = false) :
    (∀ e, Tracker.Act.sendFinished e ∈ trackerAct c s a → e.status = .code 0) ∧
    (∀ b ∈ trackerAct c s a, b ≠ .trigger ∧ b ≠ .ctrlC ∧ ∀ k, b ≠ .cancel k) := by
  cases a with
  | hReport i =>
    simp only [trackerAct]
    split
    · rename_i conn code vs nx hx
      have := h _ (List.mem_of_getElem? hx)
      simp only [FineH] at this
      subst this
      simp
    · simp
  | reapSend =>
    simp only [trackerAct]
    split
    · rename_i hr; simp [wrongAt, hr] at ha
    · simp
  | request r =>
    simp only [trackerAct]
    repeat' split
    all_goals simp
  | _ =>
    first
      | (simp [isLocal] at hl; done)
      | (simp only [trackerAct]; simp; done)
      | (simp only [trackerAct]; repeat' split
         all_goals simp)

theorem wrong_of_at {a : Act} (h : wrongAt s a = false) : wrong a = false := by
  cases a with
  | request r => rfl
  | reapSend => rfl
  | _ => exact h

/-- The run of the scheduler inside a run in which nothing goes wrong. -/
theorem fine_remote (hg : Good c.tr) (hz : c.tr.fizzlesAllowed ≠ 0) (h : InfRun c lf now σ α) (ha : ∀ k, wrongAt (σ k) (α k) = false) :
    ∀ k, (∀ l ∈ (σ k).loops, Fine l) ∧ (∀ x ∈ (σ k).handlers, FineH x) ∧
    (∀ e, Tracker.Act.sendFinished e ∈ toTracker c (init c lf now) ((List.range k).map α) → e.status = .code 0) ∧
    (∀ b ∈ toTracker c (init c lf now) ((List.range k).map α), b ≠ .trigger ∧ b ≠ .ctrlC ∧ ∀ k, b ≠ .cancel k) := by
  intro k
  induction k with
  | zero =>
    refine ⟨?_, ?_, by simp [toTracker, collect], by simp [toTracker, collect]⟩
    · intro l hl
      rw [h.start] at hl
      simp only [init] at hl
      split at hl
      · cases hl
      · rw [List.eq_of_mem_replicate hl]; trivial
    · intro x hx
      rw [h.start] at hx
      simp [init] at hx
  | succ k ih =>
    obtain ⟨i1, i2, i3, i4⟩ := ih
    have hr := h.prefix k
    have hs := (h.next k).2
    have hpe := Tracker.peace hg hz (hr.toInit hg) i4 i3
    have htok : ∀ t, (σ k).tr.token ≠ some (.afterTime t) := by
      intro t e
      have := hpe.quiet.tok t e
      rw [hpe.soft] at this; cases this
    have key : (∀ l ∈ (σ (k + 1)).loops, Fine l) ∧
        (∀ e, Tracker.Act.sendFinished e ∈ trackerAct c (σ k) (α k) → e.status = .code 0) ∧
        (∀ b ∈ trackerAct c (σ k) (α k), b ≠ .trigger ∧ b ≠ .ctrlC ∧ ∀ k, b ≠ .cancel k) := by
      cases hl : isLocal (α k) with
      | true => exact fine_step hl i1 (wrong_of_at (ha k)) htok hs
      | false =>
        refine ⟨?_, server_sends i2 (ha k) hl⟩
        rcases step_loops hs with ⟨f1, _⟩ | ⟨i, l, l', o, f1, f2, f3, _⟩
        · rw [f1]; exact i1
        · cases hx : α k <;> rw [hx] at f3 hl <;> first | (simp [isLocal] at hl; done) | cases f3
    obtain ⟨f1, f2, f3⟩ := key
    rw [List.range_succ, List.map_append]
    simp only [List.map_cons, List.map_nil]
    unfold toTracker at i3 i4 ⊢
    rw [collect_snoc hr]
    refine ⟨f1, fineH_step i2 (ha k) hs, fun e he => ?_, fun b hb => ?_⟩
    · rcases List.mem_append.1 he with he | he
      · exact i3 e he
      · exact f2 e he
    · rcases List.mem_append.1 hb with hb | hb
      · exact i4 b hb
      · exact f3 b hb

theorem remote_peace (hg : Good c.tr) (hz : c.tr.fizzlesAllowed ≠ 0) (h : InfRun c lf now σ α) (ha : ∀ k, wrongAt (σ k) (α k) = false)
    (k : Nat) : Peace c.tr lf now (toTracker c (init c lf now) ((List.range k).map α)) (σ k).tr ∧ ∀ u, ¬ FailedIn (σ k).tr u := by
  obtain ⟨_, _, h2, h3⟩ := fine_remote hg hz h ha k
  have hr := h.prefix k
  refine ⟨Tracker.peace hg hz (hr.toInit hg) h3 h2, ?_⟩
  rintro u ⟨st, hst, hne⟩
  obtain ⟨e, he, _, h⟩ := processed_reported (hr.toInit hg) _ hst
  simp only at h
  exact hne (by rw [← h]; exact h2 e he)

end Verif.Sys
