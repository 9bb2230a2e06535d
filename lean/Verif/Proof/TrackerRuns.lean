import Verif.Proof.TrackerFacts

/-!
# Facts about whole runs of the tracker
-/

namespace Verif.Tracker
open Verif
open scoped List

variable {c : Cfg} {lf : LogFile} {now : Int} {s s' : State}

theorem Runs.append {s1 s2 s3 : State} {as bs : List Act} (h1 : Runs c s1 as s2) (h2 : Runs c s2 bs s3) :
    Runs c s1 (as ++ bs) s3 := by
  induction h1 with
  | nil => exact h2
  | cons hd hs _ ih => exact .cons hd hs (ih h2)

theorem Runs.snoc {s1 s2 s3 : State} {as : List Act} {a : Act} (h1 : Runs c s1 as s2) (hd : disciplined s2 a = true)
    (hs : step c s2 a = .ok s3) : Runs c s1 (as ++ [a]) s3 := h1.append (.cons hd hs (.nil _))

theorem Reachable.later {as : List Act} (h : Reachable c lf now s) (h2 : Runs c s as s') : Reachable c lf now s' := by
  obtain ⟨bs, h⟩ := h
  exact ⟨_, h.append h2⟩

/-- Induction over a run from its end. -/
theorem Runs.snocInd {s0 : State} {P : List Act → State → Prop} (h0 : P [] s0)
    (hstep : ∀ as s a s', Runs c s0 as s → P as s → disciplined s a = true → step c s a = .ok s' → P (as ++ [a]) s') :
    ∀ {as : List Act} {s : State}, Runs c s0 as s → P as s := by
  have key : ∀ (bs : List Act) (as : List Act) (s s' : State), Runs c s0 as s → P as s → Runs c s bs s' → P (as ++ bs) s' := by
    intro bs
    induction bs with
    | nil => intro as s s' _ hp hb; cases hb; simpa using hp
    | cons b bs ih =>
      intro as s s' hr hp hb
      cases hb with
      | cons hd hs hb =>
        have := ih (as ++ [b]) _ s' (hr.snoc hd hs) (hstep as s b _ hr hp hd hs) hb
        simpa using this
  intro as s hr
  simpa using key as [] s0 s (.nil _) h0 hr

/-! ### leaving the loop -/

/-- An action that leaves the loop of `background_serve`. -/
theorem step_exit {a : Act} (hs : step c s a = .ok s') (h : ended s.pc = false) (h' : ended s'.pc = true) :
    s'.pc = .joining ∧ (a = .seeHard ∨ a = .ctrlC ∨ s'.nRoi = 0 ∨ (s'.soft = true ∧ s'.inflight = [])) := by
  have fin : ∀ {s s' : State} {t : SysTime} {e : Fin}, finishHalf c t s e = .ok s' → ended s'.pc = true →
      s'.pc = .joining ∧ (s'.nRoi = 0 ∨ (s'.soft = true ∧ s'.inflight = [])) := by
    intro s s' t e h he
    obtain ⟨lf, ⟨hx, rfl⟩ | ⟨hx, rfl⟩⟩ := finishHalf_cases h
    · exact ⟨rfl, hx⟩
    · simp [ended] at he
  cases a with
  | begin order t =>
    simp only [step] at hs
    split at hs
    · cases hs
    · split at hs
      · cases hs
      · split at hs
        · simp only [Res.ok.injEq] at hs; subst hs; simp [ended] at h'
        · obtain ⟨_, _, _, _, rfl⟩ := addReady_ok hs; simp [ended] at h'
  | sendDone t =>
    simp only [step] at hs
    split at hs
    · split at hs
      · simp only [Res.ok.injEq] at hs; subst hs; simp [ended] at h'
      · obtain ⟨h1, h2⟩ := fin hs h'; exact ⟨h1, .inr (.inr h2)⟩
    · cases hs
  | recvStarted t =>
    simp only [step] at hs
    split at hs
    · cases hs
    · split at hs
      · obtain ⟨s1, h1, h2⟩ := Res.bind_ok.1 hs
        obtain ⟨lf, _, rfl⟩ := writeLog_ok.1 h1
        split at h2
        · cases h2
        · simp only [Res.ok.injEq] at h2; subst h2; simp only at h'; rw [h] at h'; cases h'
      · cases hs
  | recvFinished order t =>
    simp only [step] at hs
    split at hs
    · cases hs
    · split at hs
      · rename_i e rest hch
        obtain ⟨sn, um, po, _, h1 | ⟨vs, _, _, h1⟩⟩ := handleFinished_cases hs
        · obtain ⟨h1, h2⟩ := fin h1 h'; exact ⟨h1, .inr (.inr h2)⟩
        · obtain ⟨_, _, _, _, rfl⟩ := addReady_ok h1; simp [ended] at h'
      · cases hs
  | seeHard =>
    simp only [step] at hs
    split at hs
    · cases hs
    · split at hs
      · cases hs
      · simp only [Res.ok.injEq] at hs; subst hs; exact ⟨rfl, .inl rfl⟩
  | ctrlC =>
    simp only [step] at hs
    split at hs
    · cases hs
    · simp only [Res.ok.injEq] at hs; subst hs; exact ⟨rfl, .inr (.inl rfl)⟩
  | joinDone =>
    simp only [step] at hs
    split at hs
    · cases hs
    · rename_i hpc
      simp only [ne_eq, Decidable.not_not] at hpc
      rw [hpc] at h; simp [ended] at h
  | drain order t =>
    simp only [step] at hs
    split at hs
    · cases hs
    · rename_i hpc
      simp only [ne_eq, Decidable.not_not] at hpc
      rw [hpc] at h; simp [ended] at h
  | tick d => simp only [step, Res.ok.injEq] at hs; subst hs; rw [h] at h'; cases h'
  | trigger => simp only [step, Res.ok.injEq] at hs; subst hs; rw [h] at h'; cases h'
  | cancel k => simp only [step, Res.ok.injEq] at hs; subst hs; rw [h] at h'; cases h'
  | sendNext =>
    simp only [step] at hs
    split at hs
    · simp only [Res.ok.injEq] at hs; subst hs; simp [ended] at h'
    · cases hs
  | _ =>
    simp only [step] at hs
    repeat' split at hs
    all_goals first
      | cases hs; done
      | (simp only [Res.ok.injEq] at hs; subst hs; simp only [zeroReady] at h'; rw [h] at h'; cases h')
      | (simp only [Res.ok.injEq] at hs; subst hs; simp only at h'; rw [h] at h'; cases h')

/-- After the loop was left. -/
theorem step_ended {a : Act} (hs : step c s a = .ok s') (h : ended s.pc = true) :
    ended s'.pc = true ∧ s'.flags.length = s.flags.length ∧ owners s'.flags = owners s.flags ∧
      s'.processed = s.processed ∧ s'.soft = s.soft ∧ (s'.inflight = s.inflight ∨ s'.inflight = []) ∧
      s'.readyOpen = s.readyOpen := by
  have hne : s.pc ≠ .idle := by intro e; rw [e] at h; simp [ended] at h
  have hnn : s.pc ≠ .new := by intro e; rw [e] at h; simp [ended] at h
  cases a with
  | begin order t => simp only [step] at hs; rw [if_pos hnn] at hs; cases hs
  | sendDone t =>
    simp only [step] at hs
    split at hs
    · rename_i hpc; rw [hpc] at h; simp [ended] at h
    · cases hs
  | recvStarted t => simp only [step] at hs; rw [if_pos hne] at hs; cases hs
  | recvFinished order t => simp only [step] at hs; rw [if_pos hne] at hs; cases hs
  | seeTrigger => simp only [step] at hs; rw [if_pos hne] at hs; cases hs
  | seeHard => simp only [step] at hs; rw [if_pos hne] at hs; cases hs
  | ctrlC => simp only [step] at hs; rw [if_pos hne] at hs; cases hs
  | sendNext =>
    simp only [step] at hs
    split at hs
    · rename_i hpc; rw [hpc] at h; simp [ended] at h
    · cases hs
  | drain order t =>
    simp only [step] at hs
    split at hs
    · cases hs
    · obtain ⟨k, hp⟩ := Kept.drain hs
      refine ⟨by rw [hp]; rfl, by rw [k.flags], by rw [k.flags], k.processed, k.soft, ?_, k.readyOpen⟩
      right
      have hs0 := hs
      unfold Tracker.drain at hs
      obtain ⟨r, h1, hs⟩ := Res.bind_ok.1 hs
      split at hs
      · cases hs
      · obtain ⟨s1, h2, hs⟩ := Res.bind_ok.1 hs
        simp only [Res.ok.injEq] at hs
        subst hs
        have : ∀ {vs : List Nat} {s s' : State}, drainRest c t vs s = .ok s' → s'.inflight = s.inflight := by
          intro vs
          induction vs with
          | nil => intro s s' h; simp only [Tracker.drainRest, Res.ok.injEq] at h; subst h; rfl
          | cons v vs ih =>
            intro s s' h
            simp only [Tracker.drainRest] at h
            obtain ⟨s1, h1, h⟩ := Res.bind_ok.1 h
            obtain ⟨s2, h2, h⟩ := Res.bind_ok.1 h
            obtain ⟨_, sn, _, _, rfl⟩ := book1_ok h1
            obtain ⟨lf, _, rfl⟩ := writeLog_ok.1 h2
            rw [ih h]; rfl
        rw [this h2]
  | claim i =>
    simp only [step] at hs
    split at hs
    · cases hs
    · split at hs
      · cases hs
      · rename_i f hf
        split at hs
        · simp only [Res.ok.injEq] at hs; subst hs; exact ⟨h, rfl, rfl, rfl, rfl, .inl rfl, rfl⟩
        · simp only [Res.ok.injEq] at hs; subst hs
          refine ⟨h, by simp, ?_, rfl, rfl, .inl rfl, rfl⟩
          exact owners_set (v := f.owner) (b := f.taken) (b' := true) (by simpa using hf)
  | tick d => simp only [step, Res.ok.injEq] at hs; subst hs; exact ⟨h, rfl, rfl, rfl, rfl, .inl rfl, rfl⟩
  | trigger => simp only [step, Res.ok.injEq] at hs; subst hs; exact ⟨h, rfl, rfl, rfl, rfl, .inl rfl, rfl⟩
  | cancel k => simp only [step, Res.ok.injEq] at hs; subst hs; exact ⟨h, rfl, rfl, rfl, rfl, .inl rfl, rfl⟩
  | _ =>
    simp only [step] at hs
    repeat' split at hs
    all_goals first
      | cases hs; done
      | (simp only [Res.ok.injEq] at hs; subst hs; exact ⟨by first | exact h | rfl, rfl, rfl, rfl, rfl, .inl rfl, rfl⟩)

/-- When nothing is ready or inflight, every task made ready was processed, and nothing is on its way. -/
theorem all_processed (hg : Good c) (hr : Reachable c lf now s) (hpc : s.pc ≠ .done) (h0 : s.nRoi = 0) :
    s.flags.length = s.processed.length ∧ s.held = [] ∧ s.lost = [] ∧ finIds s.chan = [] := by
  obtain ⟨hi, hh⟩ := hr.inv hg
  have h1 := hi.core.cnt.roi
  have h2 := hh.undrained hpc
  have h3 := hi.core.lens
  rw [h2] at h1 h3
  simp only [List.length_nil] at h1 h3
  refine ⟨by omega, ?_, ?_, ?_⟩ <;> apply List.eq_nil_of_length_eq_zero <;> omega

/-- After serving ended other than by hard cancellation or ctrl-c. -/
theorem ended_facts (hg : Good c) {as : List Act} (hr : Runs c (init c lf now) as s)
    (hno : ∀ a ∈ as, a ≠ .seeHard ∧ a ≠ .ctrlC) (he : ended s.pc = true) :
    s.inflight = [] ∧ (s.flags.length = s.processed.length ∨ s.soft = true) := by
  revert hno he
  refine Runs.snocInd (P := fun as s => (∀ a ∈ as, a ≠ .seeHard ∧ a ≠ .ctrlC) → ended s.pc = true →
    s.inflight = [] ∧ (s.flags.length = s.processed.length ∨ s.soft = true)) ?_ ?_ hr
  · intro _ h; simp [init, ended] at h
  · intro as s a s' hr ih hd hs hno he
    have hno' : ∀ a ∈ as, a ≠ .seeHard ∧ a ≠ .ctrlC := fun b hb => hno b (by simp [hb])
    by_cases hE : ended s.pc = true
    · obtain ⟨h1, h2⟩ := ih hno' hE
      obtain ⟨_, e1, _, e2, e3, e4, _⟩ := step_ended hs hE
      refine ⟨?_, by rw [e1, e2, e3]; exact h2⟩
      rcases e4 with e4 | e4
      · rw [e4, h1]
      · exact e4
    · simp only [Bool.not_eq_true] at hE
      obtain ⟨hpc, hx⟩ := step_exit hs hE he
      have hna := hno a (by simp)
      rcases hx with hx | hx | hx | hx
      · exact absurd hx hna.1
      · exact absurd hx hna.2
      · have hreach : Reachable c lf now s' := ⟨_, hr.snoc hd hs⟩
        obtain ⟨h1, h2, h3, h4⟩ := all_processed hg hreach (by rw [hpc]; simp) hx
        refine ⟨?_, .inl h1⟩
        have htr := (hreach.inv hg).1.tr
        rw [hpc] at htr
        cases hinf : s'.inflight with
        | nil => rfl
        | cons x xs =>
          have := htr.inflOpen x.1 (by rw [hinf]; simp)
          rw [h2, h3, h4] at this
          simp [curOf] at this
      · exact ⟨hx.2, .inr hx.1⟩

/-! ### after the queues were closed -/

/-- Effects of an action once the queues are closed. -/
theorem step_closed {a : Act} {rc0 : StrMap RuncountStatus} (hi : Inv c rc0 s) (ho : s.readyOpen = false)
    (hs : step c s a = .ok s') :
    s'.readyOpen = false ∧ owners s'.flags = owners s.flags ∧ (s.soft = true → s'.soft = true) ∧
      s'.obtained.length + insideRecv s' ≤ s.obtained.length + insideRecv s ∧
      (s.claimed = [] → (∀ b sn, s.qs b = some sn → sn.numReady = 0) → ∀ b sn, s'.qs b = some sn → sn.numReady = 0) ∧
      (insideRecv s = 0 → insideRecv s' = 0) := by
  have hbook : ∀ {s s' : State} {g : DiGraph Cmd} {e : Fin}, book1 g s e = .ok s' →
      (∀ b sn, s.qs b = some sn → sn.numReady = 0) → ∀ b sn, s'.qs b = some sn → sn.numReady = 0 := by
    intro s s' g e h hz b sn hq
    obtain ⟨_, sn0, hq0, _, rfl⟩ := book1_ok h
    simp only [booked] at hq
    split at hq
    · simp only [Option.some.injEq] at hq; subst hq; exact hz _ sn0 hq0
    · exact hz _ _ hq
  have hlog : ∀ {s s' : State} {e : LogEntry}, writeLog s e = .ok s' → s'.qs = s.qs := by
    intro s s' e h
    obtain ⟨lf, _, rfl⟩ := writeLog_ok.1 h
    rfl
  have hfin : ∀ {s s' : State} {t : SysTime} {e : Fin}, s.readyOpen = false → finishHalf c t s e = .ok s' →
      s'.readyOpen = false ∧ owners s'.flags = owners s.flags ∧ (s.soft = true → s'.soft = true) ∧
      s'.obtained.length + insideRecv s' ≤ s.obtained.length + insideRecv s ∧
      ((∀ b sn, s.qs b = some sn → sn.numReady = 0) → ∀ b sn, s'.qs b = some sn → sn.numReady = 0) ∧
      (insideRecv s = 0 → insideRecv s' = 0) := by
    intro s s' t e ho h
    obtain ⟨lf, ⟨hx, rfl⟩ | ⟨hx, rfl⟩⟩ := finishHalf_cases h
    · rw [finLogged_eq]
      refine ⟨rfl, rfl, ?_, Nat.le_refl _, ?_, id⟩
      · intro h; simp only [leaveLoop, zeroReady]; split <;> simp [h]
      · intro hz b sn hq
        simp only [leaveLoop, zeroReady, Option.map_eq_some_iff] at hq
        obtain ⟨y, _, rfl⟩ := hq
        rfl
    · rw [finLogged_eq]
      refine ⟨by simp [ho], rfl, ?_, Nat.le_refl _, fun hz => hz, id⟩
      intro h; simp only; split <;> simp [h]
  cases a with
  | begin order t =>
    simp only [step] at hs
    split at hs
    · cases hs
    · rename_i hpc
      simp only [ne_eq, Decidable.not_not] at hpc
      rcases hi.shape.closedIf ho with h | h
      · have := hi.shape.newSoft hpc; rw [h] at this; cases this
      · rw [hpc] at h; simp [ended] at h
  | sendDone t =>
    simp only [step] at hs
    split at hs
    · rename_i f hpc
      have := hi.shape.sendingOpen _ _ hpc
      rw [ho] at this; cases this
    · cases hs
  | recvStarted t =>
    simp only [step] at hs
    split at hs
    · cases hs
    · split at hs
      · obtain ⟨s1, h1, h2⟩ := Res.bind_ok.1 hs
        obtain ⟨lf, _, rfl⟩ := writeLog_ok.1 h1
        split at h2
        · cases h2
        · simp only [Res.ok.injEq] at h2; subst h2
          exact ⟨ho, rfl, id, Nat.le_refl _, fun _ hz => hz, id⟩
      · cases hs
  | recvFinished order t =>
    simp only [step] at hs
    split at hs
    · cases hs
    · rename_i hpc
      simp only [ne_eq, Decidable.not_not] at hpc
      have hsoft : s.soft = true := by
        rcases hi.shape.closedIf ho with h | h
        · exact h
        · rw [hpc] at h; simp [ended] at h
      split at hs
      · rename_i e rest hch
        obtain ⟨sn, um, po, hq, h1 | ⟨vs, _, h0, h1⟩⟩ := handleFinished_cases hs
        · obtain ⟨k1, k2, k3, k4, k5, k6⟩ := hfin (by simpa [booked] using ho) h1
          refine ⟨k1, k2, k3, k4, fun _ hz => k5 ?_, k6⟩
          intro b sn' hq'
          simp only [booked] at hq'
          split at hq'
          · simp only [Option.some.injEq] at hq'; subst hq'; exact hz _ sn hq
          · exact hz _ _ hq'
        · rw [show ({ s with chan := rest } : State).soft = s.soft from rfl, hsoft] at h0; cases h0
      · cases hs
  | drain order t =>
    simp only [step] at hs
    split at hs
    · cases hs
    · obtain ⟨k, _⟩ := Kept.drain hs
      have hin : insideRecv s' = insideRecv s := by simp [insideRecv, k.waiting, k.popped, k.claimed]
      refine ⟨by rw [k.readyOpen]; exact ho, by rw [k.flags], by rw [k.soft]; exact id, ?_, fun _ hz => ?_, by rw [hin]; exact id⟩
      · rw [hin, k.obtained]; exact Nat.le_refl _
      · unfold Tracker.drain at hs
        obtain ⟨r, h1, hs⟩ := Res.bind_ok.1 hs
        split at hs
        · cases hs
        · obtain ⟨s2, h2, hs⟩ := Res.bind_ok.1 hs
          simp only [Res.ok.injEq] at hs
          subst hs
          have l1 : ∀ {es : List Event} {infl : List (Nat × Int)} {s : State} {r : State × List (Nat × Int)},
              drainLoop c t es infl s = .ok r → (∀ b sn, s.qs b = some sn → sn.numReady = 0) →
              ∀ b sn, r.1.qs b = some sn → sn.numReady = 0 := by
            intro es
            induction es with
            | nil =>
              intro infl s r h hz
              simp only [Tracker.drainLoop, Res.ok.injEq] at h
              subst h; exact hz
            | cons ev es ih =>
              intro infl s r h hz
              cases ev with
              | started id h p j =>
                simp only [Tracker.drainLoop] at h
                obtain ⟨s1, h1, h⟩ := Res.bind_ok.1 h
                split at h
                · cases h
                · exact ih h (by rw [hlog h1]; exact hz)
              | finished e =>
                simp only [Tracker.drainLoop] at h
                obtain ⟨s1, h1, h⟩ := Res.bind_ok.1 h
                obtain ⟨s2, h2, h⟩ := Res.bind_ok.1 h
                obtain ⟨s3, h3, h⟩ := Res.bind_ok.1 h
                have z1 := hbook h1 hz
                refine ih h ?_
                have z2 : ∀ b sn, s2.qs b = some sn → sn.numReady = 0 := by
                  split at h2
                  · simp only [Res.ok.injEq] at h2; subst h2; exact z1
                  · rw [hlog h2]; exact z1
                simp only
                rw [hlog h3]; exact z2
          have l2 : ∀ {vs : List Nat} {s s' : State}, drainRest c t vs s = .ok s' →
              (∀ b sn, s.qs b = some sn → sn.numReady = 0) → ∀ b sn, s'.qs b = some sn → sn.numReady = 0 := by
            intro vs
            induction vs with
            | nil => intro s s' h hz; simp only [Tracker.drainRest, Res.ok.injEq] at h; subst h; exact hz
            | cons v vs ih =>
              intro s s' h hz
              simp only [Tracker.drainRest] at h
              obtain ⟨s1, h1, h⟩ := Res.bind_ok.1 h
              obtain ⟨s2, h2, h⟩ := Res.bind_ok.1 h
              exact ih h (by simp only; rw [hlog h2]; exact hbook h1 hz)
          intro b sn hq
          exact l2 h2 (l1 h1 hz) b sn hq
  | pop i j =>
    simp only [step] at hs
    split at hs
    · cases hs
    · rename_i r hi
      split at hs
      · cases hs
      · split at hs
        · simp only [Res.ok.injEq] at hs; subst hs
          have hl := (List.getElem?_eq_some_iff.1 hi).1
          refine ⟨ho, rfl, id, ?_, fun _ hz => hz, ?_⟩
          · simp only [insideRecv, List.length_eraseIdx, hl, if_true, List.length_append, List.length_singleton]; omega
          · simp only [insideRecv]; omega
        · cases hs
  | claim i =>
    simp only [step] at hs
    split at hs
    · cases hs
    · rename_i r it hi
      have hl := (List.getElem?_eq_some_iff.1 hi).1
      split at hs
      · cases hs
      · rename_i f hf
        split at hs
        · simp only [Res.ok.injEq] at hs; subst hs
          refine ⟨ho, rfl, id, ?_, fun _ hz => hz, ?_⟩
          · simp only [insideRecv, List.length_eraseIdx, hl, if_true, List.length_append, List.length_singleton]; omega
          · simp only [insideRecv]; omega
        · simp only [Res.ok.injEq] at hs; subst hs
          refine ⟨ho, ?_, id, ?_, fun _ hz => hz, ?_⟩
          · exact owners_set (v := f.owner) (b := f.taken) (b' := true) (by simpa using hf)
          · simp only [insideRecv, List.length_eraseIdx, hl, if_true, List.length_append, List.length_singleton]; omega
          · simp only [insideRecv]; omega
  | account i =>
    simp only [step] at hs
    split at hs
    · cases hs
    · rename_i r it hi
      have hl := (List.getElem?_eq_some_iff.1 hi).1
      split at hs
      · cases hs
      · simp only [Res.ok.injEq] at hs; subst hs
        refine ⟨ho, rfl, id, ?_, ?_, ?_⟩
        · simp only [insideRecv, List.length_eraseIdx, hl, if_true, List.length_append, List.length_singleton]; omega
        · intro he; rw [he] at hl; simp at hl
        · simp only [insideRecv]; omega
  | enter r =>
    simp only [step] at hs
    split at hs
    · cases hs
    · split at hs
      · rename_i hc
        unfold recvCheck at hc
        split at hc
        · cases hc
        · cases hc
      · cases hs
  | leave i =>
    simp only [step] at hs
    split at hs
    · rename_i hl
      simp only [Res.ok.injEq] at hs; subst hs
      refine ⟨ho, rfl, id, ?_, fun _ hz => hz, ?_⟩
      · simp only [insideRecv, List.length_eraseIdx, hl, if_true]; omega
      · simp only [insideRecv]; omega
    · cases hs
  | sendNext =>
    simp only [step] at hs
    split at hs
    · simp only [Res.ok.injEq] at hs; subst hs
      exact ⟨ho, rfl, id, Nat.le_refl _, fun _ hz => hz, id⟩
    · cases hs
  | tick d => simp only [step, Res.ok.injEq] at hs; subst hs; exact ⟨ho, rfl, id, Nat.le_refl _, fun _ hz => hz, id⟩
  | trigger => simp only [step, Res.ok.injEq] at hs; subst hs; exact ⟨ho, rfl, id, Nat.le_refl _, fun _ hz => hz, id⟩
  | cancel k => simp only [step, Res.ok.injEq] at hs; subst hs; exact ⟨ho, rfl, id, Nat.le_refl _, fun _ hz => hz, id⟩
  | _ =>
    have hzero : ∀ (s0 : State), (∀ b sn, (zeroReady s0).qs b = some sn → sn.numReady = 0) := by
      intro s0 b sn hq
      simp only [zeroReady, Option.map_eq_some_iff] at hq
      obtain ⟨y, _, rfl⟩ := hq
      rfl
    simp only [step] at hs
    repeat' split at hs
    all_goals first
      | cases hs; done
      | (simp only [Res.ok.injEq] at hs; subst hs; exact ⟨ho, rfl, id, Nat.le_refl _, fun _ hz => hz, id⟩)
      | (simp only [Res.ok.injEq] at hs; subst hs; exact ⟨rfl, rfl, fun _ => rfl, Nat.le_refl _, fun _ _ => hzero _, id⟩)
      | (simp only [Res.ok.injEq] at hs; subst hs; exact ⟨rfl, rfl, id, Nat.le_refl _, fun _ _ => hzero _, id⟩)

/-- The same over a run. -/
theorem Runs.closed {as : List Act} (hg : Good c) (hr : Reachable c lf now s) (ho : s.readyOpen = false) (h : Runs c s as s') :
    s'.readyOpen = false ∧ owners s'.flags = owners s.flags ∧ (s.soft = true → s'.soft = true) ∧
      s'.obtained.length + insideRecv s' ≤ s.obtained.length + insideRecv s ∧
      (insideRecv s = 0 → (∀ b sn, s.qs b = some sn → sn.numReady = 0) → insideRecv s' = 0 ∧
        ∀ b sn, s'.qs b = some sn → sn.numReady = 0) := by
  induction h with
  | nil => exact ⟨ho, rfl, id, Nat.le_refl _, fun h hz => ⟨h, hz⟩⟩
  | @cons s s1 s2 a as hd hs hr2 ih =>
    obtain ⟨h1, h2, h3, h4, h5, h6⟩ := step_closed (hr.inv hg).1 ho hs
    obtain ⟨k1, k2, k3, k4, k5⟩ := ih (hr.later (.cons hd hs (.nil _))) h1
    refine ⟨k1, k2.trans h2, fun h => k3 (h3 h), by omega, fun hin hz => k5 (h6 hin) (h5 ?_ hz)⟩
    simp only [insideRecv] at hin
    exact List.eq_nil_of_length_eq_zero (by omega)

/-! ### while serving, something is ready or inflight -/

theorem finishHalf_alive {t : SysTime} {e : Fin} (h : finishHalf c t s e = .ok s') (hp : ended s'.pc = false) :
    s'.nRoi ≠ 0 := by
  obtain ⟨lf, ⟨hx, rfl⟩ | ⟨hx, rfl⟩⟩ := finishHalf_cases h
  · simp [leaveLoop, zeroReady, ended] at hp
  · intro h0; exact hx (.inl h0)

/-- While serving, the counter of ready or inflight tasks is positive, if there is a task without dependencies. -/
theorem alive (hroot : ∃ v, v < c.g.n ∧ c.g.preds v = []) {as : List Act}
    (hr : Runs c (init c lf now) as s) (hp : s.pc ≠ .new) (he : ended s.pc = false) : s.nRoi ≠ 0 := by
  have key : (s.pc = .new → s.unmet = fun v => (c.g.preds v).length) ∧ (s.pc ≠ .new → ended s.pc = false → s.nRoi ≠ 0) := by
    refine Runs.snocInd (P := fun _ s => (s.pc = .new → s.unmet = fun v => (c.g.preds v).length) ∧
      (s.pc ≠ .new → ended s.pc = false → s.nRoi ≠ 0)) ?_ ?_ hr
    · exact ⟨fun _ => rfl, by simp [init]⟩
    · intro as s a s' hr ih hd hs
      cases a with
      | begin order t =>
        simp only [step] at hs
        split at hs
        · cases hs
        · rename_i hpc
          simp only [ne_eq, Decidable.not_not] at hpc
          split at hs
          · cases hs
          · rename_i hperm
            simp only [Bool.not_eq_false] at hperm
            have hperm := List.isPerm_iff.1 hperm
            have hne : order ≠ [] := by
              intro e0
              subst e0
              obtain ⟨v, hv, hv2⟩ := hroot
              have : v ∈ (List.range c.g.n).filter (fun v => s.unmet v == 0) := by
                rw [ih.1 hpc]; simp [hv, hv2]
              rw [← hperm.mem_iff] at this
              simp at this
            rw [if_neg (by simpa using hne)] at hs
            obtain ⟨_, _, _, _, rfl⟩ := addReady_ok hs
            refine ⟨by simp, fun _ _ => ?_⟩
            have : 0 < order.length := List.length_pos_iff.2 hne
            simp only; omega
      | sendDone t =>
        simp only [step] at hs
        split at hs
        · rename_i f hpc
          have h0 := ih.2 (by rw [hpc]; simp) (by rw [hpc]; rfl)
          split at hs
          · simp only [Res.ok.injEq] at hs; subst hs
            exact ⟨by simp, fun _ _ => h0⟩
          · refine ⟨?_, fun _ he => finishHalf_alive hs he⟩
            obtain ⟨lf, ⟨_, rfl⟩ | ⟨_, rfl⟩⟩ := finishHalf_cases hs
            · intro h; simp [leaveLoop, zeroReady] at h
            · intro h; simp at h
        · cases hs
      | recvStarted t =>
        simp only [step] at hs
        split at hs
        · cases hs
        · split at hs
          · obtain ⟨s1, h1, h2⟩ := Res.bind_ok.1 hs
            obtain ⟨lf, _, rfl⟩ := writeLog_ok.1 h1
            split at h2
            · cases h2
            · simp only [Res.ok.injEq] at h2; subst h2
              exact ih
          · cases hs
      | recvFinished order t =>
        simp only [step] at hs
        split at hs
        · cases hs
        · split at hs
          · rename_i e rest hch
            obtain ⟨sn, um, po, _, h1 | ⟨vs, hne, _, h1⟩⟩ := handleFinished_cases hs
            · refine ⟨?_, fun _ he => finishHalf_alive h1 he⟩
              obtain ⟨lf, ⟨_, rfl⟩ | ⟨_, rfl⟩⟩ := finishHalf_cases h1
              · intro h; simp [leaveLoop, zeroReady] at h
              · intro h; simp at h
            · obtain ⟨_, _, _, _, rfl⟩ := addReady_ok h1
              refine ⟨by simp, fun _ _ => ?_⟩
              have : 0 < vs.length := List.length_pos_iff.2 hne
              simp only; omega
          · cases hs
      | drain order t =>
        simp only [step] at hs
        split at hs
        · cases hs
        · obtain ⟨k, hp⟩ := Kept.drain hs
          exact ⟨by rw [hp]; simp, by rw [hp]; simp [ended]⟩
      | sendNext =>
        simp only [step] at hs
        split at hs
        · rename_i hpc
          have h0 := ih.2 (by rw [hpc]; simp) (by rw [hpc]; rfl)
          simp only [Res.ok.injEq] at hs; subst hs
          exact ⟨by simp, fun _ _ => h0⟩
        · cases hs
      | tick d => simp only [step, Res.ok.injEq] at hs; subst hs; exact ih
      | trigger => simp only [step, Res.ok.injEq] at hs; subst hs; exact ih
      | cancel k => simp only [step, Res.ok.injEq] at hs; subst hs; exact ih
      | _ =>
        simp only [step] at hs
        repeat' split at hs
        all_goals first
          | cases hs; done
          | (simp only [Res.ok.injEq] at hs; subst hs; exact ih)
          | (simp only [Res.ok.injEq] at hs; subst hs; exact ⟨by simp [leaveLoop, zeroReady], by simp [leaveLoop, zeroReady, ended]⟩)
          | (simp only [Res.ok.injEq] at hs; subst hs; exact ⟨by simp, by simp [ended]⟩)
  exact key.2 hp he

/-! ### where obtained tasks come from -/

/-- In the run `as` a receiver of type `r` popped item `it`, having the highest priority in its queue. -/
def PoppedIn (c : Cfg) (s0 : State) (as : List Act) (r : Nat) (it : Item) : Prop :=
  ∃ as1 i j as2 s1, as = as1 ++ .pop i j :: as2 ∧ Runs c s0 as1 s1 ∧ s1.waiting[i]? = some r ∧ it ∈ s1.queues r ∧
    ∀ x ∈ s1.queues r, x.prio ≤ it.prio

theorem PoppedIn.snoc {s0 : State} {as : List Act} {r : Nat} {it : Item} (h : PoppedIn c s0 as r it) (a : Act) :
    PoppedIn c s0 (as ++ [a]) r it := by
  obtain ⟨as1, i, j, as2, s1, rfl, h⟩ := h
  exact ⟨as1, i, j, as2 ++ [a], s1, by simp, h⟩

theorem popped_origin {as : List Act} {s0 : State} (h0 : s0.popped = [] ∧ s0.claimed = [] ∧ s0.obtained = [])
    (hr : Runs c s0 as s) :
    (∀ x ∈ s.popped ++ s.claimed, PoppedIn c s0 as x.1 x.2) ∧
    ∀ x ∈ s.obtained, ∃ it, it.id = x.2 ∧ PoppedIn c s0 as x.1 it := by
  refine Runs.snocInd (P := fun as s => (∀ x ∈ s.popped ++ s.claimed, PoppedIn c s0 as x.1 x.2) ∧
    ∀ x ∈ s.obtained, ∃ it, it.id = x.2 ∧ PoppedIn c s0 as x.1 it) ?_ ?_ hr
  · rw [h0.1, h0.2.1, h0.2.2]; simp
  · intro as s a s' hr ih hd hs
    have same : s'.popped = s.popped → s'.claimed = s.claimed → s'.obtained = s.obtained →
        (∀ x ∈ s'.popped ++ s'.claimed, PoppedIn c s0 (as ++ [a]) x.1 x.2) ∧
        ∀ x ∈ s'.obtained, ∃ it, it.id = x.2 ∧ PoppedIn c s0 (as ++ [a]) x.1 it := by
      intro e1 e2 e3
      rw [e1, e2, e3]
      refine ⟨fun x hx => (ih.1 x hx).snoc a, fun x hx => ?_⟩
      obtain ⟨it, h1, h2⟩ := ih.2 x hx
      exact ⟨it, h1, h2.snoc a⟩
    cases a with
    | pop i j =>
      simp only [step] at hs
      split at hs
      · cases hs
      · rename_i r hi
        split at hs
        · cases hs
        · rename_i it hj
          split at hs
          · rename_i hall
            simp only [Res.ok.injEq] at hs; subst hs
            refine ⟨?_, fun x hx => ?_⟩
            · intro x hx
              simp only [List.append_assoc, List.mem_append, List.mem_singleton] at hx
              rcases hx with hx | hx | hx
              · exact (ih.1 x (by simp [hx])).snoc _
              · subst hx
                refine ⟨as, i, j, [], s, rfl, hr, hi, List.mem_of_getElem? hj, ?_⟩
                simpa using hall
              · exact (ih.1 x (by simp [hx])).snoc _
            · obtain ⟨it, h1, h2⟩ := ih.2 x hx
              exact ⟨it, h1, h2.snoc _⟩
          · cases hs
    | claim i =>
      simp only [step] at hs
      split at hs
      · cases hs
      · rename_i r it hi
        have hm := List.mem_of_getElem? hi
        split at hs
        · cases hs
        · split at hs
          · simp only [Res.ok.injEq] at hs; subst hs
            refine ⟨?_, fun x hx => ?_⟩
            · intro x hx
              rcases List.mem_append.1 hx with hx | hx
              · exact (ih.1 x (List.mem_append_left _ (List.mem_of_mem_eraseIdx hx))).snoc _
              · exact (ih.1 x (List.mem_append_right _ hx)).snoc _
            · obtain ⟨it, h1, h2⟩ := ih.2 x hx
              exact ⟨it, h1, h2.snoc _⟩
          · simp only [Res.ok.injEq] at hs; subst hs
            refine ⟨?_, fun x hx => ?_⟩
            · intro x hx
              rcases List.mem_append.1 hx with hx | hx
              · exact (ih.1 x (List.mem_append_left _ (List.mem_of_mem_eraseIdx hx))).snoc _
              · rcases List.mem_append.1 hx with hx | hx
                · exact (ih.1 x (List.mem_append_right _ hx)).snoc _
                · simp only [List.mem_singleton] at hx
                  subst hx
                  exact (ih.1 (r, it) (List.mem_append_left _ hm)).snoc _
            · obtain ⟨it, h1, h2⟩ := ih.2 x hx
              exact ⟨it, h1, h2.snoc _⟩
    | account i =>
      simp only [step] at hs
      split at hs
      · cases hs
      · rename_i r it hi
        have hm := List.mem_of_getElem? hi
        split at hs
        · cases hs
        · simp only [Res.ok.injEq] at hs; subst hs
          refine ⟨?_, fun x hx => ?_⟩
          · intro x hx
            rcases List.mem_append.1 hx with hx | hx
            · exact (ih.1 x (List.mem_append_left _ hx)).snoc _
            · exact (ih.1 x (List.mem_append_right _ (List.mem_of_mem_eraseIdx hx))).snoc _
          · rcases List.mem_append.1 hx with hx | hx
            · obtain ⟨it, h1, h2⟩ := ih.2 x hx
              exact ⟨it, h1, h2.snoc _⟩
            · simp only [List.mem_singleton] at hx
              subst hx
              exact ⟨it, rfl, (ih.1 (r, it) (List.mem_append_right _ hm)).snoc _⟩
    | begin order t =>
      simp only [step] at hs
      split at hs
      · cases hs
      · split at hs
        · cases hs
        · split at hs
          · simp only [Res.ok.injEq] at hs; subst hs; exact same rfl rfl rfl
          · obtain ⟨_, _, _, _, rfl⟩ := addReady_ok hs; exact same rfl rfl rfl
    | sendDone t =>
      simp only [step] at hs
      split at hs
      · split at hs
        · simp only [Res.ok.injEq] at hs; subst hs; exact same rfl rfl rfl
        · obtain ⟨lf, ⟨_, rfl⟩ | ⟨_, rfl⟩⟩ := finishHalf_cases hs <;> rw [finLogged_eq] at same ⊢ <;> exact same rfl rfl rfl
      · cases hs
    | recvStarted t =>
      simp only [step] at hs
      split at hs
      · cases hs
      · split at hs
        · obtain ⟨s1, h1, h2⟩ := Res.bind_ok.1 hs
          obtain ⟨lf, _, rfl⟩ := writeLog_ok.1 h1
          split at h2
          · cases h2
          · simp only [Res.ok.injEq] at h2; subst h2; exact same rfl rfl rfl
        · cases hs
    | recvFinished order t =>
      simp only [step] at hs
      split at hs
      · cases hs
      · split at hs
        · obtain ⟨sn, um, po, _, h1 | ⟨vs, _, _, h1⟩⟩ := handleFinished_cases hs
          · obtain ⟨lf, ⟨_, rfl⟩ | ⟨_, rfl⟩⟩ := finishHalf_cases h1 <;> rw [finLogged_eq] at same ⊢ <;> exact same rfl rfl rfl
          · obtain ⟨_, _, _, _, rfl⟩ := addReady_ok h1; exact same rfl rfl rfl
        · cases hs
    | drain order t =>
      simp only [step] at hs
      split at hs
      · cases hs
      · have k := (Kept.drain hs).1
        exact same k.popped k.claimed k.obtained
    | sendNext =>
      simp only [step] at hs
      split at hs
      · simp only [Res.ok.injEq] at hs; subst hs; exact same rfl rfl rfl
      · cases hs
    | tick d => simp only [step, Res.ok.injEq] at hs; subst hs; exact same rfl rfl rfl
    | trigger => simp only [step, Res.ok.injEq] at hs; subst hs; exact same rfl rfl rfl
    | cancel k => simp only [step, Res.ok.injEq] at hs; subst hs; exact same rfl rfl rfl
    | _ =>
      simp only [step] at hs
      repeat' split at hs
      all_goals first
        | cases hs; done
        | (simp only [Res.ok.injEq] at hs; subst hs; exact same rfl rfl rfl)

end Verif.Tracker
