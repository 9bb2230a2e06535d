import Verif.Proof.Greedy2

/-!
# A check that execgraph has nothing left to do, for concrete cases
-/

namespace Verif.Sys
open Verif Verif.Tracker

variable {c : Cfg} {s s' : State}

/-- Every process runs or waits for a task, the server waits, and the queues are empty. -/
def restful (s : State) : Bool :=
  s.tr.pc == .idle && s.tr.chan.isEmpty && s.tr.popped.isEmpty && s.tr.claimed.isEmpty && !s.tr.trigger && s.tr.token.isNone &&
    s.tr.readyOpen && s.handlers.isEmpty && s.reaper == .stopped &&
    s.loops.all (fun l => match l with | .running _ _ => true | .inRecv => true | _ => false) &&
    s.tr.waiting.all (fun r => (s.tr.queues r).isEmpty) && !s.loops.isEmpty

theorem resting_of_restful (h : restful s = true) : Resting c s := by
  simp only [restful, Bool.and_eq_true, beq_iff_eq, List.isEmpty_iff, Bool.not_eq_true', Option.isNone_iff_eq_none, List.all_eq_true] at h
  obtain ⟨⟨⟨⟨⟨⟨⟨⟨⟨⟨⟨hpc, hch⟩, hpop⟩, hcl⟩, htr⟩, htok⟩, hopen⟩, hh⟩, hre⟩, hl⟩, hw⟩, hne⟩ := h
  have hloop : ∀ (i : Nat) (l : Loop), s.loops[i]? = some l → l = .inRecv ∨ ∃ v st, l = .running v st := by
    intro i l hi
    have := hl l (List.mem_of_getElem? hi)
    cases l with
    | running v st => exact .inr ⟨v, st, rfl⟩
    | inRecv => exact .inl rfl
    | _ => cases this
  rintro ⟨a, t, ha, hs⟩
  cases a with
  | server b =>
    simp only [step, trk] at hs
    split at hs
    · cases b with
      | tick d => cases ha
      | begin order x => simp [Tracker.step, hpc, Res.bind] at hs
      | sendNext => simp [Tracker.step, hpc, Res.bind] at hs
      | sendDone x => simp [Tracker.step, hpc, Res.bind] at hs
      | recvStarted x => simp [Tracker.step, hpc, hch, Res.bind] at hs
      | recvFinished order x => simp [Tracker.step, hpc, hch, Res.bind] at hs
      | seeTrigger => simp [Tracker.step, hpc, htr, Res.bind] at hs
      | seeHard => simp [Tracker.step, hpc, htok, Res.bind] at hs
      | ctrlC => cases ha
      | drain order x => simp [Tracker.step, hpc, Res.bind] at hs
      | pop i j =>
        simp only [Tracker.step] at hs
        cases hi : s.tr.waiting[i]? with
        | none => simp [hi, Res.bind] at hs
        | some r =>
          have := hw r (List.mem_of_getElem? hi)
          simp [hi, this, Res.bind] at hs
      | claim i => simp [Tracker.step, hpop, Res.bind] at hs
      | trigger => cases ha
      | cancel k => cases ha
      | _ => rename_i hx; cases hx
    · cases hs
  | joinDone =>
    simp only [step, trk, Tracker.step, hpc] at hs
    split at hs <;> simp [Res.bind] at hs
  | loopRecv i =>
    simp only [step] at hs
    cases hi : s.loops[i]? with
    | none => simp [hi] at hs
    | some l => rcases hloop i l hi with rfl | ⟨v, st, rfl⟩ <;> simp [hi] at hs
  | loopClosed i k =>
    simp only [step] at hs
    cases hi : s.loops[i]? with
    | none => simp [hi] at hs
    | some l => rcases hloop i l hi with rfl | ⟨v, st, rfl⟩ <;> simp [hi, hopen] at hs
  | loopGot i k =>
    simp only [step] at hs
    cases hi : s.loops[i]? with
    | none => simp [hi] at hs
    | some l => rcases hloop i l hi with rfl | ⟨v, st, rfl⟩ <;> simp [hi, hcl] at hs
  | loopSpawn i ok =>
    simp only [step] at hs
    cases hi : s.loops[i]? with
    | none => simp [hi] at hs
    | some l => rcases hloop i l hi with rfl | ⟨v, st, rfl⟩ <;> simp [hi] at hs
  | loopDie i => cases ha
  | loopStarted i host pid =>
    simp only [step] at hs
    cases hi : s.loops[i]? with
    | none => simp [hi] at hs
    | some l => rcases hloop i l hi with rfl | ⟨v, st, rfl⟩ <;> simp [hi] at hs
  | loopSoft i =>
    simp only [step] at hs
    cases hi : s.loops[i]? with
    | none => simp [hi] at hs
    | some l => rcases hloop i l hi with rfl | ⟨v, st, rfl⟩ <;> simp [hi, htok] at hs
  | loopHard i =>
    simp only [step] at hs
    cases hi : s.loops[i]? with
    | none => simp [hi] at hs
    | some l => rcases hloop i l hi with rfl | ⟨v, st, rfl⟩ <;> simp [hi, htok] at hs
  | loopOutput i code values => cases ha
  | loopReport i =>
    simp only [step] at hs
    cases hi : s.loops[i]? with
    | none => simp [hi] at hs
    | some l => rcases hloop i l hi with rfl | ⟨v, st, rfl⟩ <;> simp [hi] at hs
  | request r => cases ha
  | reapTick => simp [step, hre] at hs
  | reapRemove => simp [step, hre] at hs
  | reapCheck o => simp [step, hre] at hs
  | reapSend => simp [step, hre] at hs
  | reapStop => simp [step, hre] at hs
  | hRecv h => simp [step, hh] at hs
  | hLeave h k t => simp [step, hh] at hs
  | hDrop h k => simp [step, hh] at hs
  | hGot h k => simp [step, hh] at hs
  | hTimer h t => simp [step, hh] at hs
  | hDie h => simp [step, hh] at hs
  | hInsert h => simp [step, hh] at hs
  | hCancel h => simp [step, hh] at hs
  | hReport h => simp [step, hh] at hs
  | hFlag h => simp [step, hh] at hs

/-- Decidable form of `Swift`. -/
def swiftly (c : Cfg) : State → List Act → Bool
  | _, [] => true
  | s, a :: as => (ticks a == 0 || restful s) && match step c s a with | .ok s' => swiftly c s' as | _ => true

theorem swift_of_swiftly : ∀ {as : List Act} {s : State}, swiftly c s as = true → Swift c s as := by
  intro as
  induction as with
  | nil => intro s _; trivial
  | cons a as ih =>
    intro s h
    simp only [swiftly, Bool.and_eq_true, Bool.or_eq_true, beq_iff_eq] at h
    refine ⟨fun hd => resting_of_restful (h.1.resolve_left (by omega)), fun s' hs => ih ?_⟩
    rw [hs] at h
    exact h.2

end Verif.Sys
