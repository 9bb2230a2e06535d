import Verif.Spec.Lifetime
import Verif.Proof.System8

/-!
# The lifetime of the tracker: proofs
-/

namespace Verif.Lifetime
open Verif Verif.Tracker Verif.Sys

variable {c : Sys.Cfg} {lf : LogFile} {now : Int}

theorem Runs.snoc {s s1 s' : State} {as : List Act} {a : Act} (h : Runs c s as s1) (hs : step c s1 a = .ok s') : Runs c s (as ++ [a]) s' := by
  induction h with
  | nil => exact .cons hs (.nil _)
  | cons h1 _ ih => exact .cons h1 (ih hs)

theorem runs_append {s s' : State} {as bs : List Act} : Runs c s (as ++ bs) s' ↔ ∃ s1, Runs c s as s1 ∧ Runs c s1 bs s' := by
  induction as generalizing s with
  | nil => exact ⟨fun h => ⟨s, .nil _, h⟩, fun ⟨s1, h1, h2⟩ => by cases h1; exact h2⟩
  | cons a as ih =>
    constructor
    · intro h
      cases h with
      | cons hs h =>
        obtain ⟨s1, h1, h2⟩ := ih.1 h
        exact ⟨s1, .cons hs h1, h2⟩
    · rintro ⟨s1, h1, h2⟩
      cases h1 with
      | cons hs h1 => exact .cons hs (ih.2 ⟨s1, h1, h2⟩)

theorem runs_det {s s1 s2 : State} {as : List Act} (h1 : Runs c s as s1) (h2 : Runs c s as s2) : s1 = s2 := by
  induction h1 with
  | nil => cases h2; rfl
  | cons hs _ ih =>
    cases h2 with
    | cons hs' h2 =>
      rw [hs] at hs'
      cases hs'
      exact ih h2

theorem Runs.snocInd {s0 : State} {Q : List Act → State → Prop} (h0 : Q [] s0)
    (hstep : ∀ as s a s', Runs c s0 as s → Q as s → step c s a = .ok s' → Q (as ++ [a]) s') {as : List Act} {s : State}
    (hr : Runs c s0 as s) : Q as s := by
  have key : ∀ (bs : List Act) (s1 : State) (as1 : List Act), Runs c s0 as1 s1 → Q as1 s1 → ∀ s', Runs c s1 bs s' → Q (as1 ++ bs) s' := by
    intro bs
    induction bs with
    | nil => intro s1 as1 h1 q1 s' h; cases h; simpa using q1
    | cons b bs ih =>
      intro s1 as1 h1 q1 s' h
      cases h with
      | cons hs hr =>
        have := ih _ (as1 ++ [b]) (h1.snoc hs) (hstep _ _ _ _ h1 q1 hs) s' hr
        simpa using this
  exact key as s0 [] (.nil _) h0 s hr

/-- Nobody is left who could do something with the tracker. -/
structure AllQuiet (s : Sys.State) : Prop where
  quit : Quit s
  waiting : s.tr.waiting = []
  popped : s.tr.popped = []
  claimed : s.tr.claimed = []

/-- After the join there is nobody who could do something. -/
def JoinInv (s : Sys.State) : Prop := s.tr.pc = .joined ∨ s.tr.pc = .done → AllQuiet s

/-- Nobody can use the tracker any more. -/
theorem quiet_no_use {s s' : Sys.State} {a : Sys.Act} (h : AllQuiet s) (hp : s.tr.pc = .joined ∨ s.tr.pc = .done)
    (hu : uses a = true) : Sys.step c s a ≠ .ok s' := by
  intro hs
  obtain ⟨⟨q1, q2, q3⟩, w, p, cl⟩ := h
  have hlive : live s.tr = false := by unfold live; rcases hp with h | h <;> simp [h]
  cases a with
  | server b =>
    cases b with
    | pop i j => simp [Sys.step, serverAct, trk, Tracker.step, w, Res.bind] at hs
    | claim i => simp [Sys.step, serverAct, trk, Tracker.step, p, Res.bind] at hs
    | _ => cases hu
  | request r => simp [Sys.step, hlive] at hs
  | reapSend =>
    simp only [Sys.step] at hs
    repeat' split at hs
    all_goals first
      | (cases hs; done)
      | (simp_all [reaperEnded]; done)
  | loopRecv i | loopClosed i _ | loopGot i _ | loopSpawn i _ | loopDie i | loopStarted i _ _ | loopReport i =>
    cases hl : s.loops[i]? with
    | none => simp [Sys.step, hl] at hs
    | some l =>
      have := List.all_eq_true.1 q1 l (List.mem_of_getElem? hl)
      cases l <;> first | (simp at this; done) | (simp [Sys.step, hl, mayDie] at hs)
  | hRecv i | hLeave i _ _ | hGot i _ | hTimer i _ | hDie i | hInsert i | hReport i =>
    cases hl : s.handlers[i]? with
    | none => simp [Sys.step, hl] at hs
    | some l =>
      have := List.all_eq_true.1 q2 l (List.mem_of_getElem? hl)
      cases l <;> first | (simp at this; done) | (simp [Sys.step, hl] at hs)
  | _ => cases hu

theorem tracker_quiet {tc : Tracker.Cfg} {t t' : Tracker.State} {b : Tracker.Act} (hs : Tracker.step tc t b = .ok t')
    (hp : t.pc = .joined ∨ t.pc = .done) (h1 : t.waiting = []) (h2 : t.popped = []) (h3 : t.claimed = []) :
    t'.waiting = [] ∧ t'.popped = [] ∧ t'.claimed = [] := by
  have hlive : live t = false := by unfold live; rcases hp with h | h <;> simp [h]
  cases b with
  | drain order x =>
    simp only [Tracker.step] at hs
    split at hs
    · cases hs
    · have := (Kept.drain hs).1
      exact ⟨this.waiting.trans h1, this.popped.trans h2, this.claimed.trans h3⟩
  | sendStarted | sendFinished | lose | enter => simp [Tracker.step, hlive] at hs
  | leave | pop | claim | account => simp [Tracker.step, h1, h2, h3] at hs
  | tick | trigger | cancel =>
    simp only [Tracker.step, Res.ok.injEq] at hs
    subst hs
    exact ⟨h1, h2, h3⟩
  | «begin» order x =>
    simp only [Tracker.step] at hs
    split at hs
    · cases hs
    · rename_i h; rcases hp with e | e <;> simp [e] at h
  | sendNext | sendDone => rcases hp with e | e <;> simp [Tracker.step, e] at hs
  | recvStarted | recvFinished | seeTrigger | seeHard | ctrlC | joinDone => rcases hp with e | e <;> simp [Tracker.step, e] at hs

theorem joinInv_step {s s' : Sys.State} {a : Sys.Act} (h : JoinInv s) (hs : Sys.step c s a = .ok s') : JoinInv s' := by
  intro hp
  by_cases hold : s.tr.pc = .joined ∨ s.tr.pc = .done
  · obtain ⟨⟨q1, q2, q3⟩, w, p, cl⟩ := h hold
    have hlive : live s.tr = false := by unfold live; rcases hold with h | h <;> simp [h]
    have htr : s'.tr.waiting = [] ∧ s'.tr.popped = [] ∧ s'.tr.claimed = [] := by
      rcases step_tr hs with ⟨e, _⟩ | ⟨b, _, hb, _⟩
      · rw [e]; exact ⟨w, p, cl⟩
      · exact tracker_quiet hb hold w p cl
    refine ⟨⟨?_, ?_, ?_⟩, htr.1, htr.2.1, htr.2.2⟩
    · rcases step_loops hs with ⟨e, _⟩ | ⟨i, l, l', o, hl, e, hm, _⟩
      · rw [e]; exact q1
      · have := List.all_eq_true.1 q1 l (List.mem_of_getElem? hl)
        cases hm <;> simp at this
    · rcases step_handlers hs with e | ⟨r, x, rfl, e, _⟩ | ⟨h, x, x', hx, e, hm⟩
      · rw [e]; exact q2
      · simp only [Sys.step] at hs
        split at hs
        · cases hs
        · rename_i hn; exact absurd (.inr hlive) hn
      · have := List.all_eq_true.1 q2 x (List.mem_of_getElem? hx)
        cases hm <;> simp at this
    · cases hre : isReap a with
      | false => rw [(View.step hre hs).2]; exact q3
      | true =>
        exfalso
        cases a with
        | reapTick | reapCheck _ | reapSend | reapStop | reapRemove =>
          simp only [Sys.step] at hs
          repeat' split at hs
          all_goals first
            | (cases hs; done)
            | (simp_all [reaperEnded]; done)
        | _ => cases hre
  · cases a with
    | joinDone =>
      simp only [Sys.step] at hs
      split at hs
      · rename_i hc
        simp only [Bool.and_eq_true] at hc
        obtain ⟨t, ht, rfl⟩ := trk_ok.1 hs
        simp only [Tracker.step] at ht
        split at ht
        · cases ht
        · split at ht
          · rename_i hemp
            simp only [Bool.and_eq_true, List.isEmpty_iff] at hemp
            simp only [Res.ok.injEq] at ht
            subst ht
            exact ⟨⟨hc.1.1, hc.1.2, hc.2⟩, hemp.1.1, hemp.1.2, hemp.2⟩
          · cases ht
      · cases hs
    | _ =>
      exfalso
      rcases step_tr hs with ⟨e, _⟩ | ⟨b, hb0, hb, h4⟩
      · exact hold (e ▸ hp)
      · refine hold (pc_joined hb ?_ hp)
        rintro rfl
        rcases h4 with ⟨_, h4⟩ | ⟨h4, _⟩
        · cases h4
        · first
            | (simp [trackerAct] at hb0; done)
            | (simp [trackerAct] at hb0; exact h4 _ (by rw [hb0]); done)
            | (simp only [trackerAct] at hb0
               repeat' split at hb0
               all_goals simp at hb0; done)

theorem joinInv_init : JoinInv (Sys.init c lf now) := by
  intro h; rcases h with h | h <;> cases h

theorem joinInv_runs {as : List Act} {s : State} (hr : Runs c (init c lf now) as s) : JoinInv s.sys := by
  refine Runs.snocInd (Q := fun _ s => JoinInv s.sys) joinInv_init ?_ hr
  intro as s a s' _ ih hs
  cases a with
  | sys a =>
    simp only [step] at hs
    split at hs
    · cases hs
    · obtain ⟨t, ht, hs⟩ := Res.bind_ok.1 hs
      simp only [Res.ok.injEq] at hs
      subst hs
      exact joinInv_step ih ht
  | _ =>
    simp only [step] at hs
    split at hs
    · simp only [Res.ok.injEq] at hs; subst hs; exact ih
    · cases hs

/-- The join, once done, stays done. -/
theorem joined_stays {s s' : Sys.State} {a : Sys.Act} (hs : Sys.step c s a = .ok s') (hp : s.tr.pc = .joined ∨ s.tr.pc = .done) :
    s'.tr.pc = .joined ∨ s'.tr.pc = .done := by
  rcases step_tr hs with ⟨e, _⟩ | ⟨b, _, hb, _⟩
  · rw [e]; exact hp
  · have hlive : live s.tr = false := by unfold live; rcases hp with h | h <;> simp [h]
    cases b with
    | drain order x =>
      simp only [Tracker.step] at hb
      split at hb
      · cases hb
      · exact .inr (Kept.drain hb).2
    | sendStarted | sendFinished | lose | enter => simp [Tracker.step, hlive] at hb
    | tick | trigger | cancel =>
      simp only [Tracker.step, Res.ok.injEq] at hb
      rw [← hb]
      exact hp
    | «begin» order x =>
      simp only [Tracker.step] at hb
      split at hb
      · cases hb
      · rename_i h; rcases hp with e | e <;> simp [e] at h
    | sendNext | sendDone => rcases hp with e | e <;> simp [Tracker.step, e] at hb
    | recvStarted | recvFinished | seeTrigger | seeHard | ctrlC | joinDone => rcases hp with e | e <;> simp [Tracker.step, e] at hb
    | leave | pop | claim | account =>
      simp only [Tracker.step] at hb
      repeat' split at hb
      all_goals first
        | (cases hb; done)
        | (simp only [Res.ok.injEq] at hb; rw [← hb]; exact hp)

/-- While `execute` is active nothing dangles; when it has returned, it had joined; when something dangles, it had not. -/
structure FrameInv (c : Sys.Cfg) (s0 : State) (as : List Act) (s : State) : Prop where
  active : s.frame = .active → s.dangling = false
  returned : s.frame = .returned → (s.sys.tr.pc = .joined ∨ s.sys.tr.pc = .done) ∧ s.dangling = false
  unwound : s.frame = .unwound → (s.sys.tr.pc = .joined ∨ s.sys.tr.pc = .done) ∧ s.dangling = false ∨
    ∃ as1 s1 as2, as = as1 ++ .unwind :: as2 ∧ Runs c s0 as1 s1 ∧ s1.sys.tr.pc ≠ .joined ∧ s1.sys.tr.pc ≠ .done

theorem frameInv_runs {as : List Act} {s : State} (hr : Runs c (init c lf now) as s) : FrameInv c (init c lf now) as s := by
  refine Runs.snocInd (Q := fun as s => FrameInv c (init c lf now) as s) ⟨fun _ => rfl, by simp [init], by simp [init]⟩ ?_ hr
  intro as s a s' hr ih hs
  have mono : (∃ as1 s1 as2, as = as1 ++ .unwind :: as2 ∧ Runs c (init c lf now) as1 s1 ∧ s1.sys.tr.pc ≠ .joined ∧ s1.sys.tr.pc ≠ .done) →
      ∃ as1 s1 as2, as ++ [a] = as1 ++ .unwind :: as2 ∧ Runs c (init c lf now) as1 s1 ∧ s1.sys.tr.pc ≠ .joined ∧ s1.sys.tr.pc ≠ .done := by
    rintro ⟨as1, s1, as2, e, h⟩
    exact ⟨as1, s1, as2 ++ [a], by rw [e]; simp, h⟩
  have hj := joinInv_runs hr
  cases a with
  | sys a =>
    simp only [step] at hs
    split at hs
    · cases hs
    · obtain ⟨t, ht, hs⟩ := Res.bind_ok.1 hs
      simp only [Res.ok.injEq] at hs
      subst hs
      have nouse : (s.sys.tr.pc = .joined ∨ s.sys.tr.pc = .done) → uses a = false := by
        intro hp
        cases hu : uses a with
        | false => rfl
        | true => exact absurd ht (quiet_no_use (hj hp) hp hu)
      refine ⟨?_, ?_, ?_⟩
      · intro hf
        simp only at hf ⊢
        rw [ih.active hf, hf]; simp
      · intro hf
        obtain ⟨h1, h2⟩ := ih.returned hf
        exact ⟨joined_stays ht h1, by simp only; rw [h2, nouse h1]; rfl⟩
      · intro hf
        rcases ih.unwound hf with ⟨h1, h2⟩ | h
        · exact .inl ⟨joined_stays ht h1, by simp only; rw [h2, nouse h1]; rfl⟩
        · exact .inr (mono h)
  | ret =>
    simp only [step] at hs
    split at hs
    · rename_i hc
      simp only [Res.ok.injEq] at hs
      subst hs
      exact ⟨by simp, fun _ => ⟨.inr hc.2, ih.active hc.1⟩, by simp⟩
    · cases hs
  | unwind =>
    simp only [step] at hs
    split at hs
    · rename_i hc
      simp only [Res.ok.injEq] at hs
      subst hs
      refine ⟨by simp, by simp, fun _ => ?_⟩
      by_cases hp : s.sys.tr.pc = .joined
      · exact .inl ⟨.inl hp, ih.active hc.1⟩
      · exact .inr ⟨as, s, [], rfl, hr, hp, hc.2⟩
    · cases hs
  | drop =>
    simp only [step] at hs
    split at hs
    · simp only [Res.ok.injEq] at hs
      subst hs
      refine ⟨ih.active, ih.returned, fun hf => ?_⟩
      rcases ih.unwound hf with h | h
      · exact .inl h
      · exact .inr (mono h)
    · cases hs

end Verif.Lifetime
