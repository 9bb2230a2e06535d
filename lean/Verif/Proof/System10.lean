import Verif.Proof.System8
import Verif.Proof.System9

/-!
# Where start reports come from (proofs)
-/

namespace Verif.Sys
open Verif Verif.Tracker

variable {c : Cfg} {lf : LogFile} {now : Int} {s s' s0 : State} {as : List Act} {a : Act}

theorem spawned_starts (hr : Runs c (init c lf now) as s) :
    ∀ (i v : Nat) (st : Int), s.loops[i]? = some (.spawned v st) → v ∈ collect loopStarts c (init c lf now) as := by
  refine Runs.snocInd (P := fun as s => ∀ (i v : Nat) (st : Int), s.loops[i]? = some (.spawned v st) →
    v ∈ collect loopStarts c (init c lf now) as) ?_ ?_ hr
  · intro i v st h
    have : ∀ l ∈ (init c lf now).loops, l = .top := by
      intro l hl
      simp only [init] at hl
      split at hl <;> simp_all
    have := this _ (List.mem_of_getElem? h)
    cases this
  · intro as s a s' hr ih hpol hs i v st h
    rcases step_loops hs with ⟨e, _⟩ | ⟨k, l, l', o, hl, e, hm, _⟩
    · rw [e] at h; exact mem_more hr (ih i v st h) _
    · rw [e] at h
      by_cases hk : k = i
      · subst hk
        obtain ⟨hlt, _⟩ := List.getElem?_eq_some_iff.1 hl
        rw [List.getElem?_set_self hlt, Option.some.injEq] at h
        subst h
        cases hm with
        | recv l' h => rcases h with h | h <;> cases h
        | spawn => rw [collect_snoc hr]; simp [loopStarts, hl]
      · rw [List.getElem?_set_ne hk] at h
        exact mem_more hr (ih i v st h) _

/-- Where start reports come from. -/
def StartTrue (c : Cfg) (s0 : State) (as : List Act) (v : Nat) (host : String) (pid : Nat) (job : String) : Prop :=
  (job = "" ∧ v ∈ collect loopStarts c s0 as) ∨ (job = "" ∧ pid = 0 ∧ v ∈ collect failedSpawns c s0 as) ∨
  ∃ T, (T, v, host, pid, job) ∈ collect (begunRequests c) c s0 as

theorem start_true (hr : Runs c (init c lf now) as s) {v : Nat} {host : String} {pid : Nat} {job : String}
    (he : .sendStarted v host pid job ∈ toTracker c (init c lf now) as) : StartTrue c (init c lf now) as v host pid job := by
  refine Runs.snocInd (P := fun as s => .sendStarted v host pid job ∈ toTracker c (init c lf now) as →
    StartTrue c (init c lf now) as v host pid job) ?_ ?_ hr he
  · intro h; cases h
  · intro as s a s' hr ih hpol hs he
    unfold toTracker at he
    rw [collect_snoc hr] at he
    rcases List.mem_append.1 he with he | he
    · rcases ih he with ⟨h1, h2⟩ | ⟨h1, h2, h3⟩ | ⟨T, h1⟩
      · exact .inl ⟨h1, mem_more hr h2 _⟩
      · exact .inr (.inl ⟨h1, h2, mem_more hr h3 _⟩)
      · exact .inr (.inr ⟨T, mem_more hr h1 _⟩)
    · cases a with
      | server b =>
        simp only [trackerAct, List.mem_singleton] at he
        subst he
        simp only [step] at hs
        split at hs
        · rename_i hb; cases hb
        · cases hs
      | loopStarted i ho p =>
        simp only [trackerAct] at he
        split at he
        · rename_i v' st hl
          simp only [List.mem_singleton, Tracker.Act.sendStarted.injEq] at he
          obtain ⟨rfl, rfl, rfl, rfl⟩ := he
          exact .inl ⟨rfl, mem_more hr (spawned_starts hr _ _ _ hl) _⟩
        · rename_i v' hl
          simp only [List.mem_singleton, Tracker.Act.sendStarted.injEq] at he
          obtain ⟨rfl, rfl, rfl, rfl⟩ := he
          exact .inr (.inl ⟨rfl, rfl, mem_more hr ((all_say hr).1 _ (List.mem_of_getElem? hl)) _⟩)
        · cases he
      | request r =>
        simp only [trackerAct] at he
        split at he
        · rename_i tk T ho p j ha hb hj
          split at he
          · rename_i ht
            split at he
            · rename_i conn hl
              simp only [List.mem_singleton, Tracker.Act.sendStarted.injEq] at he
              obtain ⟨rfl, rfl, rfl, rfl⟩ := he
              refine .inr (.inr ⟨T, ?_⟩)
              rw [collect_snoc hr]
              simp [begunRequests, ha, hb, hj, ht, hl]
            · cases he
          · cases he
        · cases he
      | _ =>
        simp only [trackerAct] at he
        repeat' split at he
        all_goals simp at he

/-! ### no panics -/

theorem insert_duration {w : TimeWheel.Wheel Nat} {d e : Nat} {r : TimeWheel.Wheel Nat × TimeWheel.TimerID}
    (h : TimeWheel.insert w d e = .ok r) : r.1.duration = w.duration := by
  refine TimeWheel.step_duration (o := .insert d e) (r := .id r.2) ?_
  simp [TimeWheel.step, h, Res.bind]

theorem cancel_duration {w : TimeWheel.Wheel Nat} (k : TimeWheel.TimerID) : (TimeWheel.cancel w k).duration = w.duration := by
  unfold TimeWheel.cancel; split <;> rfl

theorem wheel_duration (hr : Runs c (init c lf now) as s) : s.wheel.duration = wheelDuration := by
  refine Runs.snocInd (P := fun _ s => s.wheel.duration = wheelDuration) ?_ ?_ hr
  · rfl
  · intro as s a s' hr ih _ hs
    cases hre : isReap a with
    | false =>
      cases (View.step hre hs).1 with
      | same _ h => rw [h]; exact ih
      | map _ _ _ h => rw [h]; exact ih
      | drop _ _ h => rw [h]; exact ih
      | insert _ _ _ h => rw [h]; exact ih
      | ping _ cn k _ _ h => exact (insert_duration h).trans ((cancel_duration _).trans ih)
      | cancel k _ h => rw [h, cancel_duration]; exact ih
      | timer _ _ k h => exact (insert_duration h).trans ih
    | true =>
      cases a with
      | reapTick =>
        simp only [step] at hs
        split at hs
        · simp only [Res.ok.injEq] at hs
          subst hs
          exact ih
        · cases hs
      | reapStop =>
        simp only [step] at hs
        split at hs
        · simp only [Res.ok.injEq] at hs; subst hs; exact ih
        · cases hs
      | reapRemove =>
        simp only [step] at hs
        repeat' split at hs
        all_goals first | (cases hs; done) | (simp only [Res.ok.injEq] at hs; subst hs; exact ih)
      | reapCheck l =>
        simp only [step] at hs
        repeat' split at hs
        all_goals first | (cases hs; done) | (simp only [Res.ok.injEq] at hs; subst hs; exact ih)
      | reapSend =>
        simp only [step] at hs
        split at hs
        · obtain ⟨t, _, rfl⟩ := trk_ok.1 hs; exact ih
        · simp only [Res.ok.injEq] at hs; subst hs; exact ih
        · cases hs
      | _ => cases hre

theorem no_panic (hg : Good c.tr) (hd : Displayable c.tr) (hr : Runs c (init c lf now) as s) (a : Act) (m : String) :
    step c s a ≠ .panic m := by
  have ht : ∀ b f, trk c s b f ≠ .panic m := by
    intro b f e
    unfold trk at e
    cases h : Tracker.step c.tr s.tr b with
    | ok t => rw [h] at e; cases e
    | err x => rw [h] at e; cases e
    | panic m' => exact ((Reachable.inv hg ⟨as, hr⟩).reach.inv hg).1.no_panic hg hd b m' h
  intro e
  have hw := wheel_duration hr
  cases a with
  | request r =>
    simp only [step] at e
    split at e
    · cases e
    · unfold takeRequest at e
      repeat' split at e
      all_goals try (cases e; done)
      · unfold begunH at e
        repeat' split at e
        all_goals first | (cases e; done) | exact ht _ _ e
      · unfold pingH at e
        split at e
        · cases e
        · rename_i conn _
          obtain ⟨r', h⟩ := insert_panics_not (w := TimeWheel.cancel s.wheel conn.timer) ((cancel_duration _).trans hw) (by assumption)
          rw [h] at e; cases e
  | hTimer h txn =>
    simp only [step] at e
    split at e
    · obtain ⟨r', h⟩ := insert_panics_not hw txn
      rw [h] at e; cases e
    · cases e
  | _ =>
    simp only [step] at e
    repeat' split at e
    all_goals first | (cases e; done) | exact ht _ _ e

end Verif.Sys
