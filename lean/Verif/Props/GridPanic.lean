import Verif.Props.Grid

/-!
# C167: a broken input pipe ends the remote runner
-/

namespace Verif.Props.GridPanic
open Verif Verif.Grid

variable {P : Type} {c : Family.Cfg P} {lf : LogFile} {now : Int} {s s' : State P} {as : List Act} {a : Act}

/-- The pipes are in the state after a failed write only if the runner has panicked. -/
def PanicInv (s : State P) : Prop := ∀ i k, s.far i = some k → k.st.stage = .panicked → ∃ r, s.runners[i]? = some r ∧ r.st.phase = .panicked

theorem far_guard {i : Nat} {b : ChildIo.Act} (hs : step c s (.far i b) = .ok s') : ∃ k k', s.far i = some k ∧
    s' = { s with far := fun j => if j = i then some k' else s.far j } ∧ (k'.st.stage = .panicked → k.st.stage = .panicked) := by
  simp only [step] at hs
  split at hs
  · split at hs
    · rename_i k' hk
      cases hs
      cases hf : s.far i with
      | none => rw [hf] at hk; cases hk
      | some k =>
        rw [hf] at hk
        simp only [Option.bind_some, Option.filter_eq_some_iff] at hk
        refine ⟨k, k', rfl, rfl, fun h => ?_⟩
        have := hk.2
        simp only [panicked, h, Bool.not_true, Bool.false_or] at this
        split at this
        · assumption
        · cases this
    · cases hs
  · cases hs

theorem follow_panicked {v : Option Nat} {p q : Remote.Phase} {k : Option (Far P)} {k' : Far P} (h : follow c v p q k = some (some k')) (hk : k'.st.stage = .panicked) :
    q = .panicked ∨ k = some k' := by
  unfold follow at h
  split at h
  · cases v with
    | none => cases h
    | some v =>
      simp only [Option.map_some, Option.some.injEq] at h
      subst h
      simp only [ChildIo.init] at hk
      split at hk <;> cases hk
  · cases v with
    | none => cases h
    | some v =>
      simp only [Option.map_some, Option.some.injEq] at h
      subst h
      simp only [ChildIo.init] at hk
      split at hk <;> cases hk
  · cases k with
    | none => cases h
    | some k =>
      simp only [Option.bind_some, Option.map_eq_some_iff, Option.some.injEq] at h
      obtain ⟨x, hx, rfl⟩ := h
      have := (does_ok hx).2.2
      simp only [ChildIo.step] at this
      split at this
      · simp only [Res.ok.injEq] at this; rw [← this] at hk; cases hk
      · cases this
  · exact .inl rfl
  · cases k with
    | none => cases h
    | some k =>
      simp only [Option.bind_some, Option.map_eq_some_iff, Option.some.injEq] at h
      obtain ⟨x, hx, rfl⟩ := h
      have := (does_ok hx).2.2
      simp only [ChildIo.step] at this
      split at this
      · simp only [Res.ok.injEq] at this; rw [← this] at hk; cases hk
      · cases this
  · split at h
    · rename_i x hx
      split at h
      · simp only [Option.some.injEq] at h
        subst h
        cases k with
        | none => cases hx
        | some k =>
          have := (does_ok (k := k) hx).2.2
          simp only [ChildIo.step] at this
          split at this
          · split at this
            · simp only [Res.ok.injEq] at this; rw [← this] at hk; cases hk
            · cases this
          · cases this
      · cases h
    · cases h
  all_goals first
    | (cases k with
       | none => cases h
       | some k =>
         simp only [Option.map_some, Option.some.injEq] at h
         subst h
         cases hk)
    | exact .inr (Option.some.inj h)

theorem PanicInv.step (h : PanicInv s) (hs : step c s a = .ok s') : PanicInv s' := by
  cases a with
  | near i b =>
    obtain ⟨_, h2, _, h4⟩ := step_near hs
    unfold PanicInv
    rw [h2, h4]; exact h
  | far i b =>
    obtain ⟨k, k', h1, e, h2⟩ := far_guard hs
    subst e
    intro j x hx hp
    replace hx : (if j = i then some k' else s.far j) = some x := hx
    split at hx
    · rename_i e; subst e
      cases hx
      exact h j k h1 (h2 hp)
    · exact h j x hx hp
  | cl b =>
    obtain ⟨h1, _, h3⟩ := step_cl hs
    obtain ⟨f1, f2⟩ := far_who h3
    intro j k hk hp
    by_cases hw : who b = some j
    · obtain ⟨r, r2, g1, g2, g3⟩ := f2 j hw
      have g2 : s'.runners[j]? = some r2 := g2
      rw [hk] at g3
      rcases follow_panicked g3 hp with e | e
      · exact ⟨r2, g2, e⟩
      · obtain ⟨r0, h0, hph⟩ := h j k e hp
        rw [g1] at h0; cases h0
        refine ⟨r2, g2, ?_⟩
        cases Cluster.step_runner h1 (j := j) (r' := r2) g2 with
        | same hsame =>
          have hsame : s.runners[j]? = some r2 := hsame
          rw [g1] at hsame; cases hsame; exact hph
        | new cfg e =>
          obtain ⟨r', e', h'⟩ := runner_next h1 g1
          have e' : s'.runners[j]? = some r' := e'
          rw [g2] at e'; cases e'
          rcases h' with rfl | ⟨_, ⟨z, hz, _⟩ | ⟨w, z, hz⟩⟩
          · exact hph
          · exact (Remote.frozen (.inl hph) hz).1.trans hph
          · rw [hph] at hz; simp [Cluster.hears] at hz
        | act r3 x _ hr3 _ hst ht _ =>
          have hr3 : s.runners[j]? = some r3 := hr3
          rw [g1] at hr3; cases hr3
          exact (Remote.frozen (.inl hph) hst).1.trans hph
        | hear r3 x y n got _ hr3 hh hst ht _ =>
          have hr3 : s.runners[j]? = some r3 := hr3
          rw [g1] at hr3; cases hr3
          exact (Remote.frozen (.inl hph) hst).1.trans hph
    · rw [f1 j hw] at hk
      obtain ⟨r, hr, hph⟩ := h j k hk hp
      obtain ⟨r', e', h'⟩ := runner_next h1 hr
      rcases h' with rfl | ⟨e, _⟩
      · exact ⟨_, e', hph⟩
      · exact absurd e hw

/-- If writing the input of a task has failed (nobody has it open any more), the remote runner has panicked: it does not go on as if nothing had happened, and it does nothing ever after, so that no report comes. -/
theorem broken_input_panics (hr : Runs c (init c lf now) as s) {i : Nat} {k : Far P} (hk : s.far i = some k) (hp : k.st.stage = .panicked) :
    (∃ r, s.runners[i]? = some r ∧ r.st.phase = .panicked) ∧
    ∀ {bs : List Act} {s' : State P}, Runs c s bs s' → ∃ r', s'.runners[i]? = some r' ∧ r'.st.phase = .panicked := by
  have inv : PanicInv s := by
    refine Runs.snocInd (Q := fun _ s => PanicInv s) ?_ ?_ hr
    · intro i k h; cases h
    · intro as s a s' _ ih hs; exact ih.step hs
  refine ⟨inv i k hk hp, fun {bs s'} hb => ?_⟩
  obtain ⟨r, h1, h2⟩ := inv i k hk hp
  clear hk hp inv hr
  induction hb generalizing r with
  | nil => exact ⟨r, h1, h2⟩
  | @cons s s1 s2 a as hs _ ih =>
    cases a with
    | near j b =>
      obtain ⟨_, e, _, _⟩ := step_near hs
      exact ih r (by rw [e]; exact h1) h2
    | far j b =>
      obtain ⟨_, _, _, e, _⟩ := far_guard hs
      subst e
      exact ih r h1 h2
    | cl b =>
      obtain ⟨g, _, _⟩ := step_cl hs
      obtain ⟨r', e', h'⟩ := runner_next g h1
      refine ih r' e' ?_
      rcases h' with rfl | ⟨_, ⟨z, hz, _⟩ | ⟨w, z, hz⟩⟩
      · exact h2
      · exact (Remote.frozen (.inl h2) hz).1.trans h2
      · rw [h2] at hz; simp [Cluster.hears] at hz

/-! ### a task that does not read its input -/

/-- One task with an input of two bytes, for remote runners: it closes its input and goes on. -/
def deaf : Family.Cfg Nat where
  sys := (Props.Grid.jam 1).sys
  op := fun _ n => if n = 0 then .closeInput 1 else .exit 0
  start := fun _ => 0
  cap := 1

set_option maxRecDepth 20000 in
/-- The hypotheses are met: the runner starts the task, which closes its input; the runner cannot write it. The process is still there. -/
example : ∃ s k, Runs deaf (init deaf Tracker.emptyLog 0)
      (Props.Grid.jamRun ++ [.far 0 (.run 0), .cl (.runner 0 (.fed false))]) s ∧
    s.far 0 = some k ∧ k.st.stage = .panicked ∧ k.st.procs.length = 1 := by
  obtain ⟨s, h1, h2⟩ := runs_of_after (c := deaf) (as := Props.Grid.jamRun ++ [.far 0 (.run 0), .cl (.runner 0 (.fed false))])
    (p := fun s => match s.far 0 with
      | some k => panicked k && k.st.procs.length == 1
      | none => false) (by with_unfolding_all rfl)
  split at h2
  · rename_i k hk
    simp only [Bool.and_eq_true, beq_iff_eq, panicked] at h2
    obtain ⟨h2, h3⟩ := h2
    split at h2
    · rename_i hp
      exact ⟨s, k, h1, hk, hp, h3⟩
    · cases h2
  · cases h2

end Verif.Props.GridPanic
