import Verif.Proof.TrackerRuns

/-!
# Counting quick failures
-/

namespace Verif.Tracker
open Verif
open scoped List

variable {c : Cfg} {lf : LogFile} {now : Int} {s s' : State}

/-- `times` agrees with the code's inflight map on tasks not yet finished. -/
def TimesOk (times : List (Nat × Int)) (s : State) : Prop :=
  ∀ v, v ∉ s.processed.map (·.1) → times.lookup v = s.inflight.lookup v

theorem lookup_filter_ne {l : List (Nat × Int)} {v w : Nat} (h : w ≠ v) :
    (l.filter (fun x => x.1 != v)).lookup w = l.lookup w := by
  induction l with
  | nil => rfl
  | cons x xs ih =>
    obtain ⟨k, t⟩ := x
    simp only [List.filter_cons]
    by_cases hk : k = v
    · subst hk
      have : (w == k) = false := by simpa using h
      simp [List.lookup_cons, this, ih]
    · have hk' : (k != v) = true := by simpa using hk
      simp only [hk', if_true, List.lookup_cons, ih]

theorem TimesOk.same {times : List (Nat × Int)} (h : TimesOk times s) (h1 : s'.processed = s.processed)
    (h2 : s'.inflight = s.inflight) : TimesOk times s' := by
  intro v hv; rw [h1] at hv; rw [h2]; exact h v hv

theorem finishHalf_fizz {t : SysTime} {e : Fin} (h : finishHalf c t s e = .ok s') :
    s'.nFizzled = s.nFizzled ∧ s'.processed = s.processed ∧ s'.inflight = s.inflight.filter (fun x => x.1 != e.id) ∧
    (s'.soft = true ↔ s.soft = true ∨ s.nFizzled ≥ c.fizzlesAllowed) ∧ (s'.pc = .idle ∨ s'.pc = .joining) := by
  obtain ⟨lf, ⟨_, rfl⟩ | ⟨_, rfl⟩⟩ := finishHalf_cases h <;> rw [finLogged_eq]
  · refine ⟨rfl, rfl, rfl, ?_, .inr rfl⟩
    simp only [leaveLoop, zeroReady]; split
    · simp_all
    · rename_i hlt
      exact ⟨fun h => .inl h, fun h => h.resolve_right hlt⟩
  · refine ⟨rfl, rfl, rfl, ?_, .inl rfl⟩
    simp only; split
    · simp_all
    · rename_i hlt
      exact ⟨fun h => .inl h, fun h => h.resolve_right hlt⟩

/-- The counter of quick failures follows the trace. -/
theorem fizz_step {a : Act} {times : List (Nat × Int)} (hg : Good c) (hr : Reachable c lf now s) (ht : TimesOk times s)
    (hs : step c s a = .ok s') (hd : s'.pc ≠ .done) :
    s'.nFizzled = s.nFizzled + (quickAt times s a).toNat ∧ TimesOk (timesAfter times s a) s' := by
  cases a with
  | recvStarted t =>
    simp only [step] at hs
    split at hs
    · cases hs
    · split at hs
      · rename_i id ho p j rest hch
        obtain ⟨s1, h1, h2⟩ := Res.bind_ok.1 hs
        obtain ⟨lf, _, rfl⟩ := writeLog_ok.1 h1
        split at h2
        · cases h2
        · simp only [Res.ok.injEq] at h2; subst h2
          refine ⟨by simp [quickAt], ?_⟩
          intro v hv
          have := ht v hv
          simp only [timesAfter, hch, List.lookup_cons]
          rw [this]
      · cases hs
  | recvFinished order t =>
    simp only [step] at hs
    split at hs
    · cases hs
    · split at hs
      · rename_i e rest hch
        obtain ⟨hi, hh⟩ := hr.inv hg
        have hnot : e.id ∉ s.processed.map (·.1) := by
          have := (hi.core.place hg).uniq
          rw [hch] at this
          rw [List.nodup_append] at this
          intro hm
          exact this.2.2 e.id (by simp) e.id (by simp only [List.map_append, List.mem_append]; exact .inl hm) rfl
        have hl := ht e.id hnot
        have hq : quickAt times s (.recvFinished order t) = (!e.status.isSuccess && fizzled s e.id) := by
          simp only [quickAt, hch, fizzled]
          rw [hl]
          cases s.inflight.lookup e.id with
          | none => simp
          | some x =>
            simp only [fizzledCutoff]
            cases hst : e.status.isSuccess with
            | true => rw [isSuccess_iff] at hst; simp [hst]
            | false => rw [isSuccess_false_iff] at hst; simp [hst]; congr
        have hta : timesAfter times s (.recvFinished order t) = times := by simp [timesAfter]
        rw [hta]
        have hnat : ∀ b : Bool, (if b = true then s.nFizzled + 1 else s.nFizzled) = s.nFizzled + b.toNat := by
          intro b; cases b <;> simp
        have hfz : ∀ x, fizzled { s with chan := x, processed := s.processed ++ [(e.id, e.status)] } e.id = fizzled s e.id := fun _ => rfl
        obtain ⟨sn, um, po, _, h1 | ⟨vs, _, _, h1⟩⟩ := handleFinished_cases hs
        · obtain ⟨k1, k2, k3, _, _⟩ := finishHalf_fizz h1
          refine ⟨?_, ?_⟩
          · rw [k1, hq, ← hnat]
            simp only [booked]
            rfl
          · intro v hv
            rw [k2] at hv
            rw [k3]
            simp only [booked, List.map_append, List.map_cons, List.map_nil, List.mem_append, List.mem_singleton, not_or] at hv ⊢
            rw [lookup_filter_ne hv.2]
            exact ht v hv.1
        · obtain ⟨_, _, _, _, rfl⟩ := addReady_ok h1
          refine ⟨?_, ?_⟩
          · rw [hq, ← hnat]
            simp only [booked]
            rfl
          · intro v hv
            simp only [booked, List.map_append, List.map_cons, List.map_nil, List.mem_append, List.mem_singleton, not_or] at hv ⊢
            exact ht v hv.1
      · cases hs
  | begin order t =>
    simp only [step] at hs
    split at hs
    · cases hs
    · split at hs
      · cases hs
      · split at hs
        · simp only [Res.ok.injEq] at hs; subst hs; exact ⟨by simp [quickAt], ht.same rfl rfl⟩
        · obtain ⟨_, _, _, _, rfl⟩ := addReady_ok hs; exact ⟨by simp [quickAt], ht.same rfl rfl⟩
  | sendDone t =>
    simp only [step] at hs
    split at hs
    · rename_i fin hpc
      split at hs
      · simp only [Res.ok.injEq] at hs; subst hs; exact ⟨by simp [quickAt], ht.same rfl rfl⟩
      · rename_i e
        obtain ⟨k1, k2, k3, _, _⟩ := finishHalf_fizz hs
        refine ⟨by rw [k1]; simp [quickAt], ?_⟩
        have hcp := (hr.inv hg).1.shape.curProc _ _ hpc
        intro v hv
        rw [k2] at hv
        have hne : v ≠ e.id := by
          rintro rfl
          exact hv (List.mem_map.2 ⟨_, hcp, rfl⟩)
        rw [k3, lookup_filter_ne hne]
        exact ht v hv
    · cases hs
  | drain order t =>
    simp only [step] at hs
    split at hs
    · cases hs
    · exact absurd (Kept.drain hs).2 hd
  | pop i j =>
    simp only [step] at hs
    split at hs
    · cases hs
    · split at hs
      · cases hs
      · split at hs
        · simp only [Res.ok.injEq] at hs; subst hs; exact ⟨by simp [quickAt], ht.same rfl rfl⟩
        · cases hs
  | sendNext =>
    simp only [step] at hs
    split at hs
    · simp only [Res.ok.injEq] at hs; subst hs; exact ⟨by simp [quickAt], ht.same rfl rfl⟩
    · cases hs
  | tick d => simp only [step, Res.ok.injEq] at hs; subst hs; exact ⟨by simp [quickAt], ht.same rfl rfl⟩
  | trigger => simp only [step, Res.ok.injEq] at hs; subst hs; exact ⟨by simp [quickAt], ht.same rfl rfl⟩
  | cancel k => simp only [step, Res.ok.injEq] at hs; subst hs; exact ⟨by simp [quickAt], ht.same rfl rfl⟩
  | _ =>
    simp only [step] at hs
    repeat' split at hs
    all_goals first
      | cases hs; done
      | (simp only [Res.ok.injEq] at hs; subst hs; exact ⟨by simp [quickAt, leaveLoop, zeroReady], ht.same rfl rfl⟩)

theorem done_stays {a : Act} (hs : step c s a = .ok s') (h : s.pc = .done) : s'.pc = .done := by
  cases a with
  | begin order t => simp [step, h] at hs
  | sendDone t => simp [step, h] at hs
  | recvStarted t => simp [step, h] at hs
  | recvFinished order t => simp [step, h] at hs
  | drain order t => simp [step, h] at hs
  | sendNext => simp [step, h] at hs
  | tick d => simp only [step, Res.ok.injEq] at hs; subst hs; exact h
  | trigger => simp only [step, Res.ok.injEq] at hs; subst hs; exact h
  | cancel k => simp only [step, Res.ok.injEq] at hs; subst hs; exact h
  | _ =>
    simp only [step] at hs
    repeat' split at hs
    all_goals first
      | cases hs; done
      | (simp only [Res.ok.injEq] at hs; subst hs; exact h)
      | simp_all; done

theorem Runs.notDone {as : List Act} (hr : Runs c s as s') (h : s'.pc ≠ .done) : s.pc ≠ .done := by
  induction hr with
  | nil => exact h
  | cons hd hs _ ih =>
    intro e
    exact ih h (done_stays hs e)

theorem fizz_runs {as : List Act} {times : List (Nat × Int)} (hg : Good c) (hr : Reachable c lf now s)
    (ht : TimesOk times s) (h : Runs c s as s') (hd : s'.pc ≠ .done) :
    s'.nFizzled = s.nFizzled + quickFailures c times s as := by
  induction h generalizing times with
  | nil => simp [quickFailures]
  | @cons s s1 s2 a as hdis hs hrest ih =>
    obtain ⟨h1, h2⟩ := fizz_step hg hr ht hs (hrest.notDone hd)
    have := ih (hr.later (.cons hdis hs (.nil _))) h2 hd
    simp only [quickFailures, hs]
    omega

/-- Without a soft shutdown from outside: when the soft shutdown because of failures happens. -/
theorem soft_iff {as : List Act} (hg : Good c) (hr : Runs c (init c lf now) as s) (hno : Act.seeTrigger ∉ as)
    (hd : s.pc ≠ .done) :
    (s.soft = true → s.processed ≠ [] ∧ s.nFizzled ≥ c.fizzlesAllowed) ∧
    ((∀ todo fin, s.pc ≠ .sending todo fin) → s.processed ≠ [] → s.nFizzled ≥ c.fizzlesAllowed → s.soft = true) ∧
    (∀ todo, s.pc = .sending todo none → s.processed = []) := by
  revert hno hd
  refine Runs.snocInd (P := fun as s => Act.seeTrigger ∉ as → s.pc ≠ .done →
    (s.soft = true → s.processed ≠ [] ∧ s.nFizzled ≥ c.fizzlesAllowed) ∧
    ((∀ todo fin, s.pc ≠ .sending todo fin) → s.processed ≠ [] → s.nFizzled ≥ c.fizzlesAllowed → s.soft = true) ∧
    (∀ todo, s.pc = .sending todo none → s.processed = [])) ?_ ?_ hr
  · intro _ _; simp [init]
  · intro as s a s' hr ih hdis hs hno hd
    have hd0 : s.pc ≠ .done := fun e => hd (done_stays hs e)
    obtain ⟨i1, i2, i3⟩ := ih (fun h => hno (by simp [h])) hd0
    have same : s'.soft = s.soft → s'.processed = s.processed → s'.nFizzled = s.nFizzled → s'.pc = s.pc →
        (s'.soft = true → s'.processed ≠ [] ∧ s'.nFizzled ≥ c.fizzlesAllowed) ∧
        ((∀ todo fin, s'.pc ≠ .sending todo fin) → s'.processed ≠ [] → s'.nFizzled ≥ c.fizzlesAllowed → s'.soft = true) ∧
        (∀ todo, s'.pc = .sending todo none → s'.processed = []) := by
      intro e1 e2 e3 e4
      rw [e1, e2, e3, e4]; exact ⟨i1, i2, i3⟩
    have hreach : Reachable c lf now s := ⟨_, hr⟩
    have hfin : ∀ {s0 s' : State} {t : SysTime} {e : Fin}, finishHalf c t s0 e = .ok s' → s0.processed ≠ [] →
        (s0.soft = true → s0.nFizzled ≥ c.fizzlesAllowed) →
        (s'.soft = true → s'.processed ≠ [] ∧ s'.nFizzled ≥ c.fizzlesAllowed) ∧
        ((∀ todo fin, s'.pc ≠ .sending todo fin) → s'.processed ≠ [] → s'.nFizzled ≥ c.fizzlesAllowed → s'.soft = true) ∧
        (∀ todo, s'.pc = .sending todo none → s'.processed = []) := by
      intro s0 s' t e h h1 h2
      obtain ⟨k1, k2, _, k4, k5⟩ := finishHalf_fizz h
      rw [k1, k2]
      refine ⟨fun h => ⟨h1, ?_⟩, fun _ _ h => k4.2 (.inr h), ?_⟩
      · rcases k4.1 h with h | h
        · exact h2 h
        · exact h
      · intro todo hx
        rcases k5 with k5 | k5 <;> rw [k5] at hx <;> simp at hx
    cases a with
    | seeTrigger => exact absurd (by simp) hno
    | begin order t =>
      simp only [step] at hs
      split at hs
      · cases hs
      · rename_i hpc
        simp only [ne_eq, Decidable.not_not] at hpc
        have hsoft := (hreach.inv hg).1.shape.newSoft hpc
        obtain ⟨h1, h2, _⟩ := (hreach.inv hg).1.atNew hpc
        have hp0 : s.processed = [] := by
          have := (hreach.inv hg).1.core.deps.notBegun
          rw [hpc] at this
          exact (this rfl).2
        split at hs
        · cases hs
        · split at hs
          · simp only [Res.ok.injEq] at hs; subst hs
            simp [hsoft, hp0]
          · obtain ⟨_, _, _, _, rfl⟩ := addReady_ok hs
            simp [hsoft, hp0]
    | sendNext =>
      simp only [step] at hs
      split at hs
      · rename_i i items todo fin hpc
        simp only [Res.ok.injEq] at hs; subst hs
        refine ⟨i1, fun h => absurd rfl (h todo fin), ?_⟩
        intro t hx
        simp only [Pc.sending.injEq] at hx
        exact i3 _ (by rw [hpc, hx.2])
      · cases hs
    | sendDone t =>
      simp only [step] at hs
      split at hs
      · rename_i fin hpc
        split at hs
        · simp only [Res.ok.injEq] at hs; subst hs
          have := i3 _ hpc
          refine ⟨i1, fun _ h => absurd this h, by simp⟩
        · rename_i e
          have hcp := (hreach.inv hg).1.shape.curProc _ _ hpc
          refine hfin hs ?_ ?_
          · intro h; simp only at h; rw [h] at hcp; simp at hcp
          · intro h; exact (i1 h).2
      · cases hs
    | recvStarted t =>
      simp only [step] at hs
      split at hs
      · cases hs
      · split at hs
        · obtain ⟨s1, h1, h2⟩ := Res.bind_ok.1 hs
          obtain ⟨lf, _, rfl⟩ := writeLog_ok.1 h1
          split at h2
          · cases h2
          · simp only [Res.ok.injEq] at h2; subst h2; exact same rfl rfl rfl rfl
        · cases hs
    | recvFinished order t =>
      simp only [step] at hs
      split at hs
      · cases hs
      · split at hs
        · rename_i e rest hch
          have hmono : ∀ sn, s.nFizzled ≤ (booked c.g { s with chan := rest, processed := s.processed ++ [(e.id, e.status)] } e sn).nFizzled := by
            intro sn; simp only [booked]; split <;> omega
          obtain ⟨sn, um, po, _, h1 | ⟨vs, _, hsf, h1⟩⟩ := handleFinished_cases hs
          · refine hfin h1 (by simp [booked]) ?_
            intro h
            have h := (i1 h).2
            have := hmono sn
            exact Nat.le_trans h this
          · obtain ⟨_, _, _, _, rfl⟩ := addReady_ok h1
            refine ⟨?_, fun h => absurd rfl (h _ _), by simp⟩
            intro h
            simp only [booked] at h
            rw [show ({ s with chan := rest } : State).soft = s.soft from rfl] at hsf
            rw [hsf] at h; cases h
        · cases hs
    | drain order t =>
      simp only [step] at hs
      split at hs
      · cases hs
      · exact absurd (Kept.drain hs).2 hd
    | seeHard =>
      simp only [step] at hs
      split at hs
      · cases hs
      · rename_i hpc
        simp only [ne_eq, Decidable.not_not] at hpc
        split at hs
        · cases hs
        · simp only [Res.ok.injEq] at hs; subst hs
          exact ⟨i1, fun _ => i2 (by rw [hpc]; simp), by simp [leaveLoop, zeroReady]⟩
    | ctrlC =>
      simp only [step] at hs
      split at hs
      · cases hs
      · rename_i hpc
        simp only [ne_eq, Decidable.not_not] at hpc
        simp only [Res.ok.injEq] at hs; subst hs
        exact ⟨i1, fun _ => i2 (by rw [hpc]; simp), by simp [leaveLoop, zeroReady]⟩
    | joinDone =>
      simp only [step] at hs
      split at hs
      · cases hs
      · rename_i hpc
        simp only [ne_eq, Decidable.not_not] at hpc
        split at hs
        · simp only [Res.ok.injEq] at hs; subst hs
          exact ⟨i1, fun _ => i2 (by rw [hpc]; simp), by simp⟩
        · cases hs
    | tick d => simp only [step, Res.ok.injEq] at hs; subst hs; exact same rfl rfl rfl rfl
    | trigger => simp only [step, Res.ok.injEq] at hs; subst hs; exact same rfl rfl rfl rfl
    | cancel k => simp only [step, Res.ok.injEq] at hs; subst hs; exact same rfl rfl rfl rfl
    | _ =>
      simp only [step] at hs
      repeat' split at hs
      all_goals first
        | cases hs; done
        | (simp only [Res.ok.injEq] at hs; subst hs; exact same rfl rfl rfl rfl)

theorem quickFailures_snoc {as : List Act} {s0 : State} {a : Act} (h : Runs c s0 as s) (times : List (Nat × Int)) :
    ∃ times', quickFailures c times s0 (as ++ [a]) = quickFailures c times s0 as + (quickAt times' s a).toNat := by
  induction h generalizing times with
  | nil s =>
    refine ⟨times, ?_⟩
    simp only [List.nil_append, quickFailures, Nat.zero_add]
    cases step c s a <;> rfl
  | @cons s s1 s2 b bs hd hs hr ih =>
    obtain ⟨t', ht⟩ := ih (timesAfter times s b)
    refine ⟨t', ?_⟩
    simp only [List.cons_append, quickFailures, hs]
    rw [ht]; omega

/-- When the soft shutdown because of failures happens, in terms of the run. -/
theorem soft_exact {as : List Act} (hg : Good c) (hr : Runs c (init c lf now) as s) (hno : Act.seeTrigger ∉ as) :
    (s.soft = true → s.processed ≠ [] ∧ quickFailures c [] (init c lf now) as ≥ c.fizzlesAllowed) ∧
    ((∀ todo fin, s.pc ≠ .sending todo fin) → s.processed ≠ [] →
      quickFailures c [] (init c lf now) as ≥ c.fizzlesAllowed → s.soft = true) := by
  revert hno
  refine Runs.snocInd (P := fun as s => Act.seeTrigger ∉ as →
    (s.soft = true → s.processed ≠ [] ∧ quickFailures c [] (init c lf now) as ≥ c.fizzlesAllowed) ∧
    ((∀ todo fin, s.pc ≠ .sending todo fin) → s.processed ≠ [] →
      quickFailures c [] (init c lf now) as ≥ c.fizzlesAllowed → s.soft = true)) ?_ ?_ hr
  · intro _; simp [init]
  · intro as s a s' hr ih hd hs hno
    have hr' := hr.snoc hd hs
    by_cases hdone : s'.pc = .done
    · have hend : ended s.pc = true := by
        by_contra hne
        have hne : ended s.pc = false := by simpa using hne
        have := (step_exit hs hne (by rw [hdone]; rfl)).1
        rw [hdone] at this; cases this
      obtain ⟨_, _, _, e4, e5, _⟩ := step_ended hs hend
      obtain ⟨t', ht⟩ := quickFailures_snoc (a := a) hr []
      have hq : quickAt t' s a = false := by
        cases a with
        | recvFinished o t =>
          have : s.pc ≠ .idle := by intro e; rw [e] at hend; simp [ended] at hend
          simp [step, this] at hs
        | _ => simp [quickAt]
      rw [ht, hq, e4, e5]
      obtain ⟨i1, i2⟩ := ih (fun h => hno (by simp [h]))
      refine ⟨i1, fun _ => i2 ?_⟩
      intro td f e; rw [e] at hend; simp [ended] at hend
    · obtain ⟨h1, h2, _⟩ := soft_iff hg hr' hno hdone
      have hf := fizz_runs hg ⟨[], .nil _⟩ (times := []) (fun v _ => by simp [init]) hr' hdone
      have h0 : (init c lf now).nFizzled = 0 := rfl
      rw [h0, Nat.zero_add] at hf
      rw [← hf]
      exact ⟨h1, h2⟩

end Verif.Tracker
