import Verif.Spec.Average
import Verif.Proof.TrackerFizzle

/-!
# The ring buffer of runtimes follows the trace
-/

namespace Verif.Average
open Verif Verif.Tracker

variable {c : Cfg} {lf : LogFile} {now : Int}

theorem step_tr {s s' : State} {a : Act} (h : step c s a = .ok s') : Tracker.step c s.tr a = .ok s'.tr ∧ s'.ring = ringAfter s a := by
  unfold step at h
  obtain ⟨t, h1, h2⟩ := Res.bind_ok.1 h
  simp only [Res.ok.injEq] at h2; subst h2
  exact ⟨h1, rfl⟩

theorem Runs.tr {s s' : State} {as : List Act} (h : Runs c s as s') : Tracker.Runs c s.tr as s'.tr := by
  induction h with
  | nil => exact .nil _
  | cons hd hs _ ih => exact .cons hd (step_tr hs).1 ih

theorem runs_of_tr {as : List Act} : ∀ {s : State} {t : Tracker.State}, Tracker.Runs c s.tr as t → ∃ r, Runs c s as ⟨t, r⟩ := by
  induction as with
  | nil => intro s t h; cases h; exact ⟨s.ring, .nil _⟩
  | cons a as ih =>
    intro s t h
    cases h with
    | @cons _ t1 _ _ _ hd hs hr =>
      obtain ⟨r, h⟩ := ih (s := ⟨t1, ringAfter s a⟩) hr
      exact ⟨r, .cons hd (by simp [step, hs, Res.bind]) h⟩

theorem finished_new {s : Tracker.State} (hg : Good c) (hr : Reachable c lf now s) {e : Fin} {rest : List Event}
    (hch : s.chan = .finished e :: rest) : e.id ∉ s.processed.map (·.1) := by
  obtain ⟨hi, _⟩ := hr.inv hg
  have := (hi.core.place hg).uniq
  rw [hch] at this
  rw [List.nodup_append] at this
  intro hm
  exact this.2.2 e.id (by simp) e.id (by simp only [List.map_append, List.mem_append]; exact .inl hm) rfl

/-- What an action other than `drain` pushes is what the trace says. -/
theorem ring_step {s : State} {a : Act} {times : List (Nat × Int)} (hg : Good c) (hr : Reachable c lf now s.tr)
    (ht : TimesOk times s.tr) (hd : ∀ o t, a ≠ .drain o t) :
    ringAfter s a = (runtimeAt times s.tr a).foldl Ring.push s.ring := by
  cases a with
  | recvFinished o t =>
    simp only [ringAfter, runtimeAt]
    cases hch : s.tr.chan with
    | nil => rfl
    | cons ev rest =>
      cases ev with
      | started => rfl
      | finished e =>
        simp only [record]
        rw [ht e.id (finished_new hg hr hch)]
        cases s.tr.inflight.lookup e.id with
        | none => rfl
        | some st =>
          simp only
          cases hst : e.status.isSuccess with
          | true => rw [isSuccess_iff] at hst; simp [hst]
          | false => rw [isSuccess_false_iff] at hst; simp [hst]
  | drain o t => exact absurd rfl (hd o t)
  | _ => simp [ringAfter, runtimeAt]

theorem ring_runs {s s' : State} {as : List Act} {times : List (Nat × Int)} (hg : Good c) (hr : Reachable c lf now s.tr)
    (ht : TimesOk times s.tr) (h : Runs c s as s') (hd : s'.tr.pc ≠ .done) :
    s'.ring = (runtimes c times s.tr as).foldl Ring.push s.ring := by
  induction h generalizing times with
  | nil => rfl
  | @cons s s1 s2 a as hdis hs hrest ih =>
    obtain ⟨h1, h2⟩ := step_tr hs
    have hnd := hrest.tr.notDone hd
    have hk := fizz_step hg hr ht h1 hnd
    have := ih (hr.later (.cons hdis h1 (.nil _))) hk.2 hd
    rw [this, h2, ring_step hg hr ht, ← List.foldl_append]
    · simp only [runtimes, h1]
    · rintro o t rfl
      simp only [Tracker.step] at h1
      split at h1
      · cases h1
      · exact hnd (Kept.drain h1).2

/-- The clock. -/
theorem now_step {s s' : Tracker.State} {a : Act} (h : Tracker.step c s a = .ok s') (hd : s'.pc ≠ .done) : s.now ≤ s'.now := by
  have hfin : ∀ {s s' : Tracker.State} {t : SysTime} {e : Fin}, finishHalf c t s e = .ok s' → s'.now = s.now := by
    intro s s' t e h
    obtain ⟨lf, ⟨_, rfl⟩ | ⟨_, rfl⟩⟩ := finishHalf_cases h <;> rw [finLogged_eq] <;> rfl
  cases a with
  | tick d => simp only [Tracker.step, Res.ok.injEq] at h; subst h; exact Int.le_add_of_nonneg_right (Int.natCast_nonneg d)
  | begin order t =>
    simp only [Tracker.step] at h
    repeat' split at h
    · cases h
    · cases h
    · simp only [Res.ok.injEq] at h; subst h; exact Int.le_refl _
    · obtain ⟨_, _, _, _, rfl⟩ := addReady_ok h; exact Int.le_refl _
  | sendDone t =>
    simp only [Tracker.step] at h
    split at h
    · split at h
      · simp only [Res.ok.injEq] at h; subst h; exact Int.le_refl _
      · rw [hfin h]; exact Int.le_refl _
    · cases h
  | recvStarted t =>
    simp only [Tracker.step] at h
    split at h
    · cases h
    · split at h
      · obtain ⟨s1, h1, h2⟩ := Res.bind_ok.1 h
        obtain ⟨lf, _, rfl⟩ := writeLog_ok.1 h1
        split at h2
        · cases h2
        · simp only [Res.ok.injEq] at h2; subst h2; exact Int.le_refl _
      · cases h
  | recvFinished order t =>
    simp only [Tracker.step] at h
    split at h
    · cases h
    · split at h
      · obtain ⟨sn, um, po, _, h1 | ⟨vs, _, _, h1⟩⟩ := handleFinished_cases h
        · rw [hfin h1]; exact Int.le_refl _
        · obtain ⟨_, _, _, _, rfl⟩ := addReady_ok h1; exact Int.le_refl _
      · cases h
  | drain order t =>
    simp only [Tracker.step] at h
    split at h
    · cases h
    · exact absurd (Kept.drain h).2 hd
  | pop i j =>
    simp only [Tracker.step] at h
    split at h
    · cases h
    · split at h
      · cases h
      · split at h
        · simp only [Res.ok.injEq] at h; subst h; exact Int.le_refl _
        · cases h
  | trigger => simp only [Tracker.step, Res.ok.injEq] at h; subst h; exact Int.le_refl _
  | cancel k => simp only [Tracker.step, Res.ok.injEq] at h; subst h; exact Int.le_refl _
  | _ =>
    simp only [Tracker.step] at h
    repeat' split at h
    all_goals first
      | cases h; done
      | (simp only [Res.ok.injEq] at h; subst h; exact Int.le_refl _)

theorem mem_of_lookup {l : List (Nat × Int)} {v : Nat} {t : Int} (h : l.lookup v = some t) : (v, t) ∈ l := by
  induction l with
  | nil => cases h
  | cons x xs ih =>
    obtain ⟨k, u⟩ := x
    simp only [List.lookup_cons] at h
    split at h
    · rename_i hk
      simp only [Option.some.injEq] at h; subst h
      simp only [beq_iff_eq] at hk; subst hk; simp
    · exact List.mem_cons_of_mem _ (ih h)

/-- No runtime is longer than the run. -/
theorem runtimes_le {now0 : Int} {as : List Act} : ∀ {s s' : Tracker.State} {times : List (Nat × Int)}, Tracker.Runs c s as s' →
    s'.pc ≠ .done → now0 ≤ s.now → (∀ x ∈ times, now0 ≤ x.2) →
    (∀ d ∈ runtimes c times s as, (d : Int) ≤ s'.now - now0) ∧ s.now ≤ s'.now := by
  induction as with
  | nil => intro s s' times h _ _ _; cases h; exact ⟨by simp [runtimes], Int.le_refl _⟩
  | cons a as ih =>
    intro s s' times h hd hn ht
    cases h with
    | @cons _ s1 _ _ _ hdis hs hrest =>
      have h1 := now_step hs (hrest.notDone hd)
      have ht1 : ∀ x ∈ timesAfter times s a, now0 ≤ x.2 := by
        intro x hx
        unfold timesAfter at hx
        split at hx
        · rcases List.mem_cons.1 hx with rfl | hx
          · exact hn
          · exact ht x hx
        · exact ht x hx
      obtain ⟨h2, h3⟩ := ih hrest hd (by omega) ht1
      refine ⟨?_, by omega⟩
      intro d hm
      simp only [runtimes, hs] at hm
      rcases List.mem_append.1 hm with hm | hm
      · unfold runtimeAt at hm
        split at hm
        · rename_i e rest _
          split at hm
          · rename_i t hl
            have := ht _ (mem_of_lookup hl)
            simp only at this
            split at hm
            · simp only [List.mem_singleton] at hm
              subst hm
              omega
            · cases hm
          · cases hm
        · cases hm
      · exact h2 d hm

end Verif.Average
