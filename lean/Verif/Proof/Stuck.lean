import Verif.Proof.TrackerSafe
import Verif.Proof.TrackerEntries
import Verif.Proof.TrackerRuns
import Verif.Proof.System

/-!
# The tracker never stops by itself: what is possible where
-/

namespace Verif.Tracker
open Verif

variable {c : Cfg} {lf : LogFile} {now : Int} {s s' : State}

section
variable (hg : Good c) (hdisp : Displayable c) (hr : Reachable c lf now s)
include hg hdisp hr

theorem can_step (a : Act) (h : step c s a ≠ .err ()) : ∃ s', step c s a = .ok s' := by
  cases hs : step c s a with
  | ok s' => exact ⟨s', rfl⟩
  | err e => exact absurd hs h
  | panic m => exact absurd hs ((hr.inv hg).1.no_panic hg hdisp a m)

omit hg hdisp hr in
theorem bind_ne {α β : Type} {r : Res Unit α} {f : α → Res Unit β} (h1 : ∀ e, r ≠ .err e) (h2 : ∀ x, f x ≠ .err ()) :
    r.bind f ≠ .err () := by
  cases r with
  | ok x => exact h2 x
  | err e => exact absurd rfl (h1 e)
  | panic m => simp [Res.bind]

omit hg hdisp hr in
theorem writeLog_ne (s : State) (e : LogEntry) (x : Unit) : writeLog s e ≠ .err x := by
  unfold writeLog; split <;> simp

omit hg hdisp hr in
theorem readyAll_ne (g : DiGraph Cmd) (t : SysTime) (vs : List Nat) : ∀ (s : State) (x : Unit), readyAll g t s vs ≠ .err x := by
  induction vs with
  | nil => intro s x; simp [readyAll]
  | cons v vs ih =>
    intro s x
    refine bind_ne ?_ (fun y => ih y ())
    intro e
    unfold readyOne
    split
    · simp
    · split
      · simp
      · exact bind_ne (writeLog_ne _ _) (fun _ => by simp)

omit hg hdisp hr in
theorem addReady_ne (t : SysTime) (s : State) (vs : List Nat) (fin : Option Fin) : addReady c t s vs fin ≠ .err () := by
  unfold addReady
  split
  · simp
  · split
    · simp
    · refine bind_ne (readyAll_ne _ _ _ _) (fun y => ?_)
      split <;> simp

omit hg hdisp hr in
theorem finishHalf_ne (t : SysTime) (s : State) (e : Fin) : finishHalf c t s e ≠ .err () := by
  unfold finishHalf
  refine bind_ne ?_ (fun y => bind_ne (writeLog_ne _ _) (fun z => ?_))
  · intro x
    split
    · simp
    · exact writeLog_ne _ _ _
  · simp only; split <;> split <;> simp

omit hg hdisp hr in
theorem statusLoop_ne (ok : Bool) (ds : List Nat) : ∀ acc x, statusLoop ok acc ds ≠ .err x := by
  induction ds with
  | nil => intro acc x; simp [statusLoop]
  | cons d ds ih =>
    intro acc x
    obtain ⟨um, po, rd⟩ := acc
    simp only [statusLoop]
    cases hst : statusStep ok (um, po, rd) d with
    | ok y => exact ih y x
    | panic m => simp [Res.bind]
    | err e =>
      exfalso
      simp only [statusStep] at hst
      repeat' split at hst
      all_goals cases hst

omit hg hdisp hr in
theorem book1_ne (s : State) (e : Fin) (x : Unit) : book1 c.g s e ≠ .err x := by
  unfold book1
  repeat' split
  all_goals simp

omit hg hdisp hr in
theorem drainLoop_ne (t : SysTime) (es : List Event) : ∀ infl s x, drainLoop c t es infl s ≠ .err x := by
  induction es with
  | nil => intro infl s x; simp [drainLoop]
  | cons e es ih =>
    intro infl s x
    cases e with
    | started id h p j =>
      simp only [drainLoop]
      refine bind_ne (writeLog_ne _ _) (fun y => ?_)
      split
      · simp
      · exact ih _ _ _
    | finished e =>
      simp only [drainLoop]
      refine bind_ne (book1_ne _ _) (fun y => bind_ne ?_ (fun z => bind_ne (writeLog_ne _ _) (fun w => ih _ _ _)))
      intro x
      split
      · simp
      · exact writeLog_ne _ _ _

omit hg hdisp hr in
theorem drainRest_ne (t : SysTime) (vs : List Nat) : ∀ s x, drainRest c t vs s ≠ .err x := by
  induction vs with
  | nil => intro s x; simp [drainRest]
  | cons v vs ih =>
    intro s x
    simp only [drainRest]
    exact bind_ne (book1_ne _ _) (fun y => bind_ne (writeLog_ne _ _) (fun z => ih _ _))

/-- Before it waits for events, and when there is one, the server task goes on by itself; `drain` does too. -/
theorem can_serve (h : s.pc = .new ∨ (∃ todo fin, s.pc = .sending todo fin) ∨ (s.pc = .idle ∧ s.chan ≠ []) ∨ s.pc = .joined) :
    ∃ a s', Sys.serverAct a = true ∧ step c s a = .ok s' ∧
      (∀ d, a ≠ .tick d) ∧ a ≠ .trigger ∧ (∀ k, a ≠ .cancel k) ∧ a ≠ .ctrlC := by
  rcases h with hpc | ⟨todo, fin, hpc⟩ | ⟨hpc, hch⟩ | hpc
  · obtain ⟨s', hs⟩ := can_step hg hdisp hr (.begin ((List.range c.g.n).filter (fun v => s.unmet v == 0)) ⟨0, 0⟩) (by
      simp only [step, hpc]
      rw [if_neg (by simp), if_neg (by simp [List.isPerm_iff])]
      split
      · simp
      · exact addReady_ne _ _ _ _)
    exact ⟨_, s', rfl, hs, by simp, by simp, by simp, by simp⟩
  · cases todo with
    | nil =>
      obtain ⟨s', hs⟩ := can_step hg hdisp hr (.sendDone ⟨0, 0⟩) (by
        simp only [step, hpc]
        split
        · simp
        · exact finishHalf_ne _ _ _)
      exact ⟨_, s', rfl, hs, by simp, by simp, by simp, by simp⟩
    | cons b todo =>
      obtain ⟨s', hs⟩ := can_step hg hdisp hr .sendNext (by simp [step, hpc])
      exact ⟨_, s', rfl, hs, by simp, by simp, by simp, by simp⟩
  · cases hc : s.chan with
    | nil => exact absurd hc hch
    | cons ev rest =>
      cases ev with
      | started v h p j =>
        obtain ⟨s', hs⟩ := can_step hg hdisp hr (.recvStarted ⟨0, 0⟩) (by
          simp only [step, hpc, hc]
          rw [if_neg (by simp)]
          refine bind_ne (writeLog_ne _ _) (fun y => ?_)
          split <;> simp)
        exact ⟨_, s', rfl, hs, by simp, by simp, by simp, by simp⟩
      | finished e =>
        obtain ⟨s', hs⟩ := can_step hg hdisp hr (.recvFinished (c.g.succs e.id) ⟨0, 0⟩) (by
          simp only [step, hpc, hc]
          rw [if_neg (by simp)]
          unfold handleFinished
          refine bind_ne (book1_ne _ _) (fun y => ?_)
          split
          · split
            · simp
            · exact finishHalf_ne _ _ _
          · rw [if_neg (by simp [List.isPerm_iff])]
            refine bind_ne (statusLoop_ne _ _ _) (fun z => ?_)
            simp only
            split
            · exact finishHalf_ne _ _ _
            · exact addReady_ne _ _ _ _)
        exact ⟨_, s', rfl, hs, by simp, by simp, by simp, by simp⟩
  · cases hl : drainLoop c ⟨0, 0⟩ s.chan s.inflight s with
    | err e => exact absurd hl (drainLoop_ne _ _ _ _ _)
    | panic m =>
      exfalso
      refine (hr.inv hg).1.no_panic hg hdisp (.drain [] ⟨0, 0⟩) m ?_
      simp only [step, hpc, drain, hl]
      rfl
    | ok r =>
      obtain ⟨s', hs⟩ := can_step hg hdisp hr (.drain (r.2.map (·.1)) ⟨0, 0⟩) (by
        simp only [step, hpc]
        rw [if_neg (by simp)]
        show (drainLoop c ⟨0, 0⟩ s.chan s.inflight s).bind _ ≠ _
        rw [hl]
        show (if _ then _ else _) ≠ _
        rw [if_neg (by simp [List.isPerm_iff])]
        exact bind_ne (drainRest_ne _ _ _) (fun x => by simp))
      exact ⟨_, s', rfl, hs, by simp, by simp, by simp, by simp⟩

end

/-- A waiting receiver of type `r` can pop as long as queue `r` is not empty. -/
theorem can_pop {i r : Nat} (hw : s.waiting[i]? = some r) (hq : s.queues r ≠ []) : ∃ j s', step c s (.pop i j) = .ok s' := by
  have hmax : ∀ l : List Item, l ≠ [] → ∃ (j : Nat) (it : Item), l[j]? = some it ∧ ∀ x ∈ l, x.prio ≤ it.prio := by
    intro l
    induction l with
    | nil => intro h; exact absurd rfl h
    | cons y ys ih =>
      intro _
      by_cases hys : ys = []
      · subst hys; exact ⟨0, y, rfl, by simp⟩
      · obtain ⟨j, it, h1, h2⟩ := ih hys
        by_cases hle : y.prio ≤ it.prio
        · exact ⟨j + 1, it, by simpa using h1, by simpa using ⟨hle, h2⟩⟩
        · refine ⟨0, y, rfl, ?_⟩
          intro x hx
          rcases List.mem_cons.1 hx with rfl | hx
          · exact Nat.le_refl _
          · exact Nat.le_trans (h2 x hx) (by omega)
  obtain ⟨j, it, h1, h2⟩ := hmax _ hq
  simp only [step]
  refine ⟨j, ?_⟩
  rw [hw]
  simp only [h1]
  rw [if_pos (by simpa using h2)]
  exact ⟨_, rfl⟩

/-! ### without a soft shutdown request -/

/-- What holds if nobody asked for a soft shutdown. -/
structure Quiet (s : State) : Prop where
  trig : s.trigger = false
  tok : ∀ t, s.token = some (.afterTime t) → s.soft = true
  infl : s.pc = .idle → s.soft = true → s.inflight ≠ []
  hard : ended s.pc = true → s.token = some .hard

theorem Quiet.init (c : Cfg) (lf : LogFile) (now : Int) : Quiet (Tracker.init c lf now) := by
  refine ⟨rfl, ?_, ?_, ?_⟩ <;> simp [Tracker.init, ended]

theorem Quiet.half {t : SysTime} {e : Fin} (h : finishHalf c t s e = .ok s') (h1 : s.trigger = false)
    (h2 : ∀ t, s.token = some (.afterTime t) → s.soft = true) : Quiet s' := by
  obtain ⟨lf, ⟨_, rfl⟩ | ⟨hx, rfl⟩⟩ := finishHalf_cases h
  · refine ⟨?_, ?_, ?_, ?_⟩
    · rw [finLogged_eq]; exact h1
    · intro t ht; simp [leaveLoop, zeroReady, tokenCancel_hard] at ht
    · intro hp; simp [leaveLoop, zeroReady] at hp
    · intro _; simp [leaveLoop, zeroReady, tokenCancel_hard]
  · refine ⟨?_, ?_, ?_, ?_⟩
    · rw [finLogged_eq]; exact h1
    · intro t ht
      simp only [finLogged] at ht ⊢
      by_cases hz : s.nFizzled ≥ c.fizzlesAllowed
      · simp only [hz, if_true]
      · simp only [hz, if_false] at ht ⊢
        exact h2 t ht
    · intro _ hs hi
      exact hx (.inr ⟨hs, hi⟩)
    · intro he; simp [ended] at he

theorem Quiet.step {rc0 : StrMap RuncountStatus} (hi : Inv c rc0 s) (h : Quiet s) {a : Act} (hs : Tracker.step c s a = .ok s')
    (ha : a ≠ .trigger) (hc : ∀ k, a = .cancel k → k = .hard) : Quiet s' := by
  have hnosoft : s.pc ≠ .idle → ended s.pc = false → s.soft = false := by
    intro h1 h2
    cases hpc : s.pc with
    | new => exact hi.shape.newSoft hpc
    | idle => exact absurd hpc h1
    | sending t f =>
      have := hi.shape.sendingOpen t f hpc
      cases hsf : s.soft with
      | false => rfl
      | true => rw [hi.shape.softClosed hsf] at this; cases this
    | joining => rw [hpc] at h2; cases h2
    | joined => rw [hpc] at h2; cases h2
    | done => rw [hpc] at h2; cases h2
  obtain ⟨h1, h2, h3, h4⟩ := h
  cases a with
  | begin order t =>
    simp only [Tracker.step] at hs
    split at hs
    · cases hs
    · rename_i hpc
      have hpc : s.pc = .new := by simpa using hpc
      split at hs
      · cases hs
      · split at hs
        · simp only [Res.ok.injEq] at hs; subst hs
          refine ⟨h1, h2, fun _ hx => ?_, fun he => ?_⟩
          · have := hi.shape.newSoft hpc
            simp only [this] at hx; cases hx
          · simp [ended] at he
        · obtain ⟨_, _, _, _, rfl⟩ := addReady_ok hs
          exact ⟨h1, h2, fun hp => by simp at hp, fun he => by simp [ended] at he⟩
  | sendNext =>
    simp only [Tracker.step] at hs
    split at hs
    · simp only [Res.ok.injEq] at hs; subst hs
      exact ⟨h1, h2, fun hp => by simp at hp, fun he => by simp [ended] at he⟩
    · cases hs
  | sendDone x =>
    simp only [Tracker.step] at hs
    split at hs
    · rename_i fin hpc
      split at hs
      · simp only [Res.ok.injEq] at hs; subst hs
        refine ⟨h1, h2, fun _ hx => ?_, fun he => by simp [ended] at he⟩
        have := hnosoft (by rw [hpc]; simp) (by rw [hpc]; rfl)
        simp only [this] at hx; cases hx
      · exact Quiet.half hs h1 h2
    · cases hs
  | recvStarted x =>
    simp only [Tracker.step] at hs
    split at hs
    · cases hs
    · rename_i hpc
      have hpc : s.pc = .idle := by simpa using hpc
      split at hs
      · obtain ⟨s1, h5, h6⟩ := Res.bind_ok.1 hs
        obtain ⟨lf, _, rfl⟩ := writeLog_ok.1 h5
        split at h6
        · cases h6
        · simp only [Res.ok.injEq] at h6; subst h6
          exact ⟨h1, h2, fun _ _ => by simp, h4⟩
      · cases hs
  | recvFinished order x =>
    simp only [Tracker.step] at hs
    split at hs
    · cases hs
    · split at hs
      · obtain ⟨sn, um, po, _, h | ⟨vs, _, _, h⟩⟩ := handleFinished_cases hs
        · exact Quiet.half h h1 h2
        · obtain ⟨_, _, _, _, rfl⟩ := addReady_ok h
          exact ⟨h1, h2, fun hp => by simp at hp, fun he => by simp [ended] at he⟩
      · cases hs
  | seeTrigger =>
    simp only [Tracker.step, h1, if_true] at hs
    split at hs <;> cases hs
  | seeHard =>
    simp only [Tracker.step] at hs
    split at hs
    · cases hs
    · split at hs
      · cases hs
      · simp only [Res.ok.injEq] at hs; subst hs
        refine ⟨h1, fun t ht => ?_, fun hp => ?_, fun _ => ?_⟩
        · simp [leaveLoop, zeroReady, tokenCancel_hard] at ht
        · simp [leaveLoop, zeroReady] at hp
        · simp [leaveLoop, zeroReady, tokenCancel_hard]
  | ctrlC =>
    simp only [Tracker.step] at hs
    split at hs
    · cases hs
    · simp only [Res.ok.injEq] at hs; subst hs
      refine ⟨h1, fun t ht => ?_, fun hp => ?_, fun _ => ?_⟩
      · simp [leaveLoop, zeroReady, tokenCancel_hard] at ht
      · simp [leaveLoop, zeroReady] at hp
      · simp [leaveLoop, zeroReady, tokenCancel_hard]
  | joinDone =>
    simp only [Tracker.step] at hs
    split at hs
    · cases hs
    · rename_i hpc
      have hpc : s.pc = .joining := by simpa using hpc
      split at hs
      · simp only [Res.ok.injEq] at hs; subst hs
        exact ⟨h1, h2, fun hp => by simp at hp, fun _ => h4 (by rw [hpc]; rfl)⟩
      · cases hs
  | drain order x =>
    simp only [Tracker.step] at hs
    split at hs
    · cases hs
    · rename_i hpc
      have hpc : s.pc = .joined := by simpa using hpc
      obtain ⟨k, hp⟩ := Kept.drain hs
      refine ⟨by rw [k.trigger]; exact h1, by rw [k.token, k.soft]; exact h2, fun h => ?_, fun _ => ?_⟩
      · rw [hp] at h; cases h
      · rw [k.token]; exact h4 (by rw [hpc]; rfl)
  | trigger => exact absurd rfl ha
  | cancel k =>
    simp only [Tracker.step, Res.ok.injEq] at hs; subst hs
    have := hc k rfl
    subst this
    refine ⟨h1, fun t ht => ?_, h3, fun _ => ?_⟩
    · simp [tokenCancel_hard] at ht
    · simp [tokenCancel_hard]
  | tick d => simp only [Tracker.step, Res.ok.injEq] at hs; subst hs; exact ⟨h1, h2, h3, h4⟩
  | _ =>
    simp only [Tracker.step] at hs
    repeat' split at hs
    all_goals first
      | cases hs; done
      | (simp only [Res.ok.injEq] at hs; subst hs; exact ⟨h1, h2, h3, h4⟩)

/-- A hard cancellation stays. -/
theorem hard_stays {a : Act} (hs : step c s a = .ok s') (h : s.token = some .hard) : s'.token = some .hard := by
  have half : ∀ {s1 s2 : State} {x : SysTime} {e : Fin}, finishHalf c x s1 e = .ok s2 → s1.token = some .hard →
      s2.token = some .hard := by
    intro s1 s2 x e hf ht
    have : ∀ lf, (finLogged c s1 e lf).token = some .hard := by
      intro lf
      simp only [finLogged]
      split
      · simp only [ht, tokenCancel_of_hard]
      · exact ht
    obtain ⟨lf, ⟨_, rfl⟩ | ⟨_, rfl⟩⟩ := finishHalf_cases hf
    · simp [leaveLoop, zeroReady, tokenCancel_hard]
    · exact this lf
  cases a with
  | begin order t =>
    simp only [step] at hs
    split at hs
    · cases hs
    · split at hs
      · cases hs
      · split at hs
        · simp only [Res.ok.injEq] at hs; subst hs; exact h
        · obtain ⟨_, _, _, _, rfl⟩ := addReady_ok hs; exact h
  | sendDone x =>
    simp only [step] at hs
    split at hs
    · split at hs
      · simp only [Res.ok.injEq] at hs; subst hs; exact h
      · exact half hs h
    · cases hs
  | recvStarted x =>
    simp only [step] at hs
    split at hs
    · cases hs
    · split at hs
      · obtain ⟨s1, h5, h6⟩ := Res.bind_ok.1 hs
        obtain ⟨lf, _, rfl⟩ := writeLog_ok.1 h5
        split at h6
        · cases h6
        · simp only [Res.ok.injEq] at h6; subst h6; exact h
      · cases hs
  | recvFinished order x =>
    simp only [step] at hs
    split at hs
    · cases hs
    · split at hs
      · obtain ⟨sn, um, po, _, hh | ⟨vs, _, _, hh⟩⟩ := handleFinished_cases hs
        · exact half hh h
        · obtain ⟨_, _, _, _, rfl⟩ := addReady_ok hh; exact h
      · cases hs
  | drain order x =>
    simp only [step] at hs
    split at hs
    · cases hs
    · rw [(Kept.drain hs).1.token]; exact h
  | cancel k => simp only [step, Res.ok.injEq] at hs; subst hs; simp [h, tokenCancel_of_hard]
  | tick d => simp only [step, Res.ok.injEq] at hs; subst hs; exact h
  | trigger => simp only [step, Res.ok.injEq] at hs; subst hs; exact h
  | _ =>
    simp only [step] at hs
    repeat' split at hs
    all_goals first
      | cases hs; done
      | (simp only [Res.ok.injEq] at hs; subst hs; first | exact h | rfl)

/-! ### who is inside `recv` -/

/-- Runner types of the receivers inside `recv`. -/
def inside (s : State) : List Nat := s.waiting ++ s.popped.map (·.1) ++ s.claimed.map (·.1)

theorem inside_count (s : State) (r : Nat) :
    (inside s).count r = s.waiting.count r + (s.popped.map (·.1)).count r + (s.claimed.map (·.1)).count r := by
  simp only [inside, List.count_append]

theorem count_eraseIdx {α : Type} (f : α → Nat) {x : α} (r : Nat) : ∀ {l : List α} {i : Nat}, l[i]? = some x →
    ((l.eraseIdx i).map f).count r + [f x].count r = (l.map f).count r
  | [], _, h => by simp at h
  | y :: l, 0, h => by
    simp only [List.getElem?_cons_zero, Option.some.injEq] at h
    subst h
    simp only [List.eraseIdx_zero, List.tail_cons, List.map_cons, List.count_cons, List.count_nil]
    omega
  | y :: l, i + 1, h => by
    simp only [List.getElem?_cons_succ] at h
    have := count_eraseIdx f r h
    simp only [List.eraseIdx_cons_succ, List.map_cons, List.count_cons] at this ⊢
    omega

theorem count_eraseIdx_id {x : Nat} (r : Nat) {l : List Nat} {i : Nat} (h : l[i]? = some x) :
    (l.eraseIdx i).count r + [x].count r = l.count r := by
  have := count_eraseIdx (fun y : Nat => y) r h
  simpa using this

theorem server_inside {a : Act} (ha : Sys.serverAct a = true) (hs : step c s a = .ok s') (r : Nat) :
    (inside s').count r = (inside s).count r := by
  have half : ∀ {s1 s2 : State} {x : SysTime} {e : Fin}, finishHalf c x s1 e = .ok s2 → inside s2 = inside s1 := by
    intro s1 s2 x e hf
    obtain ⟨lf, ⟨_, rfl⟩ | ⟨_, rfl⟩⟩ := finishHalf_cases hf <;> rw [finLogged_eq] <;> rfl
  cases a with
  | begin order t =>
    simp only [step] at hs
    split at hs
    · cases hs
    · split at hs
      · cases hs
      · split at hs
        · simp only [Res.ok.injEq] at hs; subst hs; rfl
        · obtain ⟨_, _, _, _, rfl⟩ := addReady_ok hs; rfl
  | sendDone x =>
    simp only [step] at hs
    split at hs
    · split at hs
      · simp only [Res.ok.injEq] at hs; subst hs; rfl
      · rw [half hs]; rfl
    · cases hs
  | recvStarted x =>
    simp only [step] at hs
    split at hs
    · cases hs
    · split at hs
      · obtain ⟨s1, h5, h6⟩ := Res.bind_ok.1 hs
        obtain ⟨lf, _, rfl⟩ := writeLog_ok.1 h5
        split at h6
        · cases h6
        · simp only [Res.ok.injEq] at h6; subst h6; rfl
      · cases hs
  | recvFinished order x =>
    simp only [step] at hs
    split at hs
    · cases hs
    · split at hs
      · obtain ⟨sn, um, po, _, hh | ⟨vs, _, _, hh⟩⟩ := handleFinished_cases hs
        · rw [half hh]; rfl
        · obtain ⟨_, _, _, _, rfl⟩ := addReady_ok hh; rfl
      · cases hs
  | drain order x =>
    simp only [step] at hs
    split at hs
    · cases hs
    · obtain ⟨k, _⟩ := Kept.drain hs
      simp only [inside, k.waiting, k.popped, k.claimed]
  | pop i j =>
    simp only [step] at hs
    split at hs
    · cases hs
    · rename_i q hq
      split at hs
      · cases hs
      · split at hs
        · simp only [Res.ok.injEq] at hs; subst hs
          have := count_eraseIdx_id r hq
          simp only [inside_count, List.map_append, List.count_append, List.map_cons, List.map_nil]
          omega
        · cases hs
  | claim i =>
    simp only [step] at hs
    split at hs
    · cases hs
    · rename_i q it hq
      have := count_eraseIdx (fun x : Nat × Item => x.1) r hq
      simp only at this
      split at hs
      · cases hs
      · split at hs
        · simp only [Res.ok.injEq] at hs; subst hs
          simp only [inside_count, List.count_append]
          omega
        · simp only [Res.ok.injEq] at hs; subst hs
          simp only [inside_count, List.map_append, List.count_append, List.map_cons, List.map_nil]
          omega
  | tick d => simp only [step, Res.ok.injEq] at hs; subst hs; rfl
  | trigger => simp only [step, Res.ok.injEq] at hs; subst hs; rfl
  | cancel k => simp only [step, Res.ok.injEq] at hs; subst hs; rfl
  | joinDone => simp [Sys.serverAct] at ha
  | enter r => simp [Sys.serverAct] at ha
  | leave r => simp [Sys.serverAct] at ha
  | account r => simp [Sys.serverAct] at ha
  | sendStarted => simp [Sys.serverAct] at ha
  | sendFinished => simp [Sys.serverAct] at ha
  | lose => simp [Sys.serverAct] at ha
  | _ =>
    simp only [step] at hs
    repeat' split at hs
    all_goals first
      | cases hs; done
      | (simp only [Res.ok.injEq] at hs; subst hs; rfl)

end Verif.Tracker
