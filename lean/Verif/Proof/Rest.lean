import Verif.Spec.Progress

/-!
# A check that execgraph has nothing left to do by itself, for concrete cases with remote runners
-/

namespace Verif.Sys
open Verif Verif.Tracker

variable {c : Cfg} {s s' : State}

/-- Every process runs, every loop and request waits or is answered, the server waits, and the queues are empty. -/
def still (s : State) : Bool :=
  s.tr.pc == .idle && s.tr.chan.isEmpty && s.tr.popped.isEmpty && s.tr.claimed.isEmpty && !s.tr.trigger && s.tr.token.isNone &&
    s.tr.readyOpen && (s.reaper == .idle || s.reaper == .stopped) &&
    s.handlers.all (fun x => match x with | .toRecv _ _ => true | .inRecv _ _ => true | .done _ => true | .dead _ => true | _ => false) &&
    s.loops.all (fun l => match l with | .running _ _ => true | .inRecv => true | .top => true | _ => false) &&
    s.tr.waiting.all (fun r => (s.tr.queues r).isEmpty)

theorem atRest_of_still (h : still s = true) : AtRest c s := by
  simp only [still, Bool.and_eq_true, Bool.or_eq_true, beq_iff_eq, List.isEmpty_iff, Bool.not_eq_true', Option.isNone_iff_eq_none, List.all_eq_true] at h
  obtain ⟨⟨⟨⟨⟨⟨⟨⟨⟨⟨hpc, hch⟩, hpop⟩, hcl⟩, htr⟩, htok⟩, hopen⟩, hre⟩, hha⟩, hl⟩, hw⟩ := h
  have hloop : ∀ (i : Nat) (l : Loop), s.loops[i]? = some l → l = .inRecv ∨ l = .top ∨ ∃ v st, l = .running v st := by
    intro i l hi
    have := hl l (List.mem_of_getElem? hi)
    cases l with
    | running v st => exact .inr (.inr ⟨v, st, rfl⟩)
    | inRecv => exact .inl rfl
    | top => exact .inr (.inl rfl)
    | _ => cases this
  have hhand : ∀ (i : Nat) (x : Handler), s.handlers[i]? = some x →
      (∃ r j, x = .toRecv r j) ∨ (∃ r j, x = .inRecv r j) ∨ (∃ r, x = .done r) ∨ ∃ v, x = .dead v := by
    intro i x hi
    have := hha x (List.mem_of_getElem? hi)
    cases x with
    | toRecv r j => exact .inl ⟨r, j, rfl⟩
    | inRecv r j => exact .inr (.inl ⟨r, j, rfl⟩)
    | done r => exact .inr (.inr (.inl ⟨r, rfl⟩))
    | dead v => exact .inr (.inr (.inr ⟨v, rfl⟩))
    | _ => cases this
  rintro ⟨a, t, ha, hlim, hs⟩
  cases a with
  | server b =>
    simp only [step, trk] at hs
    split at hs
    · cases b with
      | tick d => cases ha
      | begin order x => simp [Tracker.step, hpc, Res.bind] at hs
      | sendNext => simp [Tracker.step, hpc, Res.bind] at hs
      | sendDone x => simp [Tracker.step, hpc, Res.bind] at hs
      | recvStarted x => simp [Tracker.step, hpc, hch, Res.bind] at hs
      | recvFinished order x => simp [Tracker.step, hpc, hch, Res.bind] at hs
      | seeTrigger => simp [Tracker.step, hpc, htr, Res.bind] at hs
      | seeHard => simp [Tracker.step, hpc, htok, Res.bind] at hs
      | ctrlC => cases ha
      | drain order x => simp [Tracker.step, hpc, Res.bind] at hs
      | pop i j =>
        simp only [Tracker.step] at hs
        cases hi : s.tr.waiting[i]? with
        | none => simp [hi, Res.bind] at hs
        | some r =>
          have := hw r (List.mem_of_getElem? hi)
          simp [hi, this, Res.bind] at hs
      | claim i => simp [Tracker.step, hpop, Res.bind] at hs
      | trigger => cases ha
      | cancel k => cases ha
      | _ => rename_i hx; cases hx
    · cases hs
  | joinDone =>
    simp only [step, trk, Tracker.step, hpc] at hs
    split at hs <;> simp [Res.bind] at hs
  | loopRecv i => cases hlim
  | loopClosed i k =>
    simp only [step] at hs
    cases hi : s.loops[i]? with
    | none => simp [hi] at hs
    | some l => rcases hloop i l hi with rfl | rfl | ⟨v, st, rfl⟩ <;> simp [hi, hopen] at hs
  | loopGot i k =>
    simp only [step] at hs
    cases hi : s.loops[i]? with
    | none => simp [hi] at hs
    | some l => rcases hloop i l hi with rfl | rfl | ⟨v, st, rfl⟩ <;> simp [hi, hcl] at hs
  | loopSpawn i ok =>
    simp only [step] at hs
    cases hi : s.loops[i]? with
    | none => simp [hi] at hs
    | some l => rcases hloop i l hi with rfl | rfl | ⟨v, st, rfl⟩ <;> simp [hi] at hs
  | loopDie i => cases ha
  | loopStarted i host pid =>
    simp only [step] at hs
    cases hi : s.loops[i]? with
    | none => simp [hi] at hs
    | some l => rcases hloop i l hi with rfl | rfl | ⟨v, st, rfl⟩ <;> simp [hi] at hs
  | loopSoft i =>
    simp only [step] at hs
    cases hi : s.loops[i]? with
    | none => simp [hi] at hs
    | some l => rcases hloop i l hi with rfl | rfl | ⟨v, st, rfl⟩ <;> simp [hi, htok] at hs
  | loopHard i =>
    simp only [step] at hs
    cases hi : s.loops[i]? with
    | none => simp [hi] at hs
    | some l => rcases hloop i l hi with rfl | rfl | ⟨v, st, rfl⟩ <;> simp [hi, htok] at hs
  | loopOutput i code values => cases ha
  | loopReport i =>
    simp only [step] at hs
    cases hi : s.loops[i]? with
    | none => simp [hi] at hs
    | some l => rcases hloop i l hi with rfl | rfl | ⟨v, st, rfl⟩ <;> simp [hi] at hs
  | request r => cases ha
  | reapTick => cases ha
  | reapRemove => rcases hre with hre | hre <;> simp [step, hre] at hs
  | reapCheck o => rcases hre with hre | hre <;> simp [step, hre] at hs
  | reapSend => rcases hre with hre | hre <;> simp [step, hre] at hs
  | reapStop => rcases hre with hre | hre <;> simp [step, hre, htok] at hs
  | hRecv h => cases hlim
  | hDrop h k => cases ha
  | hDie h => cases ha
  | hLeave h k b =>
    cases b with
    | true => cases ha
    | false =>
      simp only [step] at hs
      cases hi : s.handlers[h]? with
      | none => simp [hi] at hs
      | some x => rcases hhand h x hi with ⟨_, _, rfl⟩ | ⟨_, _, rfl⟩ | ⟨_, rfl⟩ | ⟨_, rfl⟩ <;> simp [hi, htok, hopen] at hs
  | hGot h k =>
    simp only [step] at hs
    cases hi : s.handlers[h]? with
    | none => simp [hi] at hs
    | some x => rcases hhand h x hi with ⟨_, _, rfl⟩ | ⟨_, _, rfl⟩ | ⟨_, rfl⟩ | ⟨_, rfl⟩ <;> simp [hi, hcl] at hs
  | hTimer h t =>
    simp only [step] at hs
    cases hi : s.handlers[h]? with
    | none => simp [hi] at hs
    | some x => rcases hhand h x hi with ⟨_, _, rfl⟩ | ⟨_, _, rfl⟩ | ⟨_, rfl⟩ | ⟨_, rfl⟩ <;> simp [hi, hcl] at hs
  | hInsert h =>
    simp only [step] at hs
    cases hi : s.handlers[h]? with
    | none => simp [hi] at hs
    | some x => rcases hhand h x hi with ⟨_, _, rfl⟩ | ⟨_, _, rfl⟩ | ⟨_, rfl⟩ | ⟨_, rfl⟩ <;> simp [hi, hcl] at hs
  | hCancel h =>
    simp only [step] at hs
    cases hi : s.handlers[h]? with
    | none => simp [hi] at hs
    | some x => rcases hhand h x hi with ⟨_, _, rfl⟩ | ⟨_, _, rfl⟩ | ⟨_, rfl⟩ | ⟨_, rfl⟩ <;> simp [hi, hcl] at hs
  | hReport h =>
    simp only [step] at hs
    cases hi : s.handlers[h]? with
    | none => simp [hi] at hs
    | some x => rcases hhand h x hi with ⟨_, _, rfl⟩ | ⟨_, _, rfl⟩ | ⟨_, rfl⟩ | ⟨_, rfl⟩ <;> simp [hi, hcl] at hs
  | hFlag h =>
    simp only [step] at hs
    cases hi : s.handlers[h]? with
    | none => simp [hi] at hs
    | some x => rcases hhand h x hi with ⟨_, _, rfl⟩ | ⟨_, _, rfl⟩ | ⟨_, rfl⟩ | ⟨_, rfl⟩ <;> simp [hi, hcl] at hs

end Verif.Sys
