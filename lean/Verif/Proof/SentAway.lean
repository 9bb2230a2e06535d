import Verif.Proof.System5
import Verif.Props.TrackerRuns

/-!
# Why a runner is sent away (helper lemmas for C175)
-/

namespace Verif.Tracker

variable {c : Cfg} {lf : LogFile} {now : Int} {s s' : State}

/-- While serving, the token says "hard" only if somebody cancelled. -/
theorem hard_cause {as : List Act} (hr : Runs c (init c lf now) as s) (hh : s.token = some .hard)
    (he : ended s.pc = false) : Act.cancel .hard ∈ as := by
  revert hh he
  refine Runs.snocInd (P := fun as s => s.token = some .hard → ended s.pc = false → Act.cancel .hard ∈ as) ?_ ?_ hr
  · intro h; simp [init] at h
  · intro as s a s' hr ih hd hs hh he
    have hes : ended s.pc = false := by
      cases h : ended s.pc with
      | false => rfl
      | true => rw [(step_ended hs h).1] at he; cases he
    have old : s.token = some .hard → Act.cancel .hard ∈ as ++ [a] := fun h => List.mem_append_left _ (ih h hes)
    have half : ∀ {s1 s2 : State} {x : SysTime} {e : Fin}, finishHalf c x s1 e = .ok s2 → ended s2.pc = false →
        s2.token = some .hard → s1.token = some .hard := by
      intro s1 s2 x e h h1 h2
      obtain ⟨lf, ⟨_, rfl⟩ | ⟨_, rfl⟩⟩ := finishHalf_cases h
      · simp [leaveLoop, zeroReady, ended] at h1
      · have h2 : (finLogged c s1 e lf).token = some .hard := h2
        unfold finLogged at h2
        simp only at h2
        split at h2
        · unfold tokenCancel at h2
          cases hk : s1.token with
          | none => rw [hk] at h2; simp at h2
          | some k =>
            cases k with
            | hard => rfl
            | afterTime t0 =>
              rw [hk] at h2
              simp only at h2
              split at h2 <;> simp at h2
        · exact h2
    cases a with
    | cancel k =>
      simp only [step, Res.ok.injEq] at hs; subst hs
      by_cases hk : k = .hard
      · subst hk; exact List.mem_append_right _ (by simp)
      · apply old
        cases k with
        | hard => exact absurd rfl hk
        | afterTime t =>
          simp only [tokenCancel] at hh
          cases hk : s.token with
          | none => rw [hk] at hh; simp at hh
          | some k =>
            cases k with
            | hard => rfl
            | afterTime t0 =>
              rw [hk] at hh
              simp only at hh
              split at hh <;> simp at hh
    | begin order x =>
      simp only [step] at hs
      split at hs
      · cases hs
      · split at hs
        · cases hs
        · split at hs
          · simp only [Res.ok.injEq] at hs; subst hs; exact old hh
          · obtain ⟨_, _, _, _, rfl⟩ := addReady_ok hs; exact old hh
    | sendDone x =>
      simp only [step] at hs
      split at hs
      · split at hs
        · simp only [Res.ok.injEq] at hs; subst hs; exact old hh
        · have h1 := half hs he hh; exact old h1
      · cases hs
    | recvStarted x =>
      simp only [step] at hs
      split at hs
      · cases hs
      · split at hs
        · obtain ⟨s1, h1, h2⟩ := Res.bind_ok.1 hs
          obtain ⟨lf, _, rfl⟩ := writeLog_ok.1 h1
          split at h2
          · cases h2
          · simp only [Res.ok.injEq] at h2; subst h2; exact old hh
        · cases hs
    | recvFinished order x =>
      simp only [step] at hs
      split at hs
      · cases hs
      · split at hs
        · obtain ⟨sn, um, po, _, h | ⟨vs, _, _, h⟩⟩ := handleFinished_cases hs
          · have h1 := half h he hh; exact old h1
          · obtain ⟨_, _, _, _, rfl⟩ := addReady_ok h; exact old hh
        · cases hs
    | drain order x =>
      simp only [step] at hs
      split at hs
      · cases hs
      · rename_i hp
        simp only [ne_eq, Decidable.not_not] at hp
        rw [hp] at hes; cases hes
    | _ =>
      simp only [step] at hs
      repeat' split at hs
      all_goals first
        | cases hs; done
        | (simp only [Res.ok.injEq] at hs; subst hs; exact old hh)
        | (simp only [Res.ok.injEq] at hs; subst hs; simp [leaveLoop, zeroReady, ended] at he)

/-- Without a shutdown from outside and with few quick failures, the queues are closed only when serving is over. -/
theorem closed_over (hg : Good c) {as : List Act} (hr : Runs c (init c lf now) as s) (hno : NoShutdown as)
    (hq : quickFailures c [] (init c lf now) as < c.fizzlesAllowed) (hc : s.readyOpen = false) : ended s.pc = true := by
  obtain ⟨hi, _⟩ := Reachable.inv hg ⟨as, hr⟩
  rcases hi.shape.closedIf hc with h | h
  · have h := ((soft_exact hg hr (fun h => (hno _ h).1 rfl)).1 h).2
    omega
  · exact h

theorem over_of_ended (h : ended s.pc = true) : ServingOver s := by
  unfold ServingOver
  cases hp : s.pc with
  | joining => exact .inl rfl
  | joined => exact .inr (.inl rfl)
  | done => exact .inr (.inr rfl)
  | _ => rw [hp] at h; cases h

end Verif.Tracker

namespace Verif.Sys
open Verif.Tracker hiding Act Cfg State Runs init step replay after runs_of_replay runs_of_after Reachable Inv live

variable {c : Cfg} {lf : LogFile} {now : Int} {s s' : State}

/-- A request is answered 410 at once only if it is a `/start` of a marked job. -/
theorem takeRequest_gone {r : Request} (hs : takeRequest c s r = .ok s') (hl : s'.handlers = s.handlers ++ [.done (some .gone)]) :
    ∃ j rt, r = ⟨some c.secret, some (some j), .start rt⟩ ∧ j ∈ s.cancelledJobs := by
  have rep : ∀ x s0, s0.handlers = s.handlers → (reply x s0).handlers = s.handlers ++ [.done (some .gone)] → x = .gone := by
    intro x s0 h0 h
    simpa [reply, h0] using h
  unfold takeRequest at hs
  split at hs
  · simp only [Res.ok.injEq] at hs; subst hs; cases rep _ _ rfl hl
  · rename_i t ht
    split at hs
    · simp only [Res.ok.injEq] at hs; subst hs; cases rep _ _ rfl hl
    · split at hs
      · simp only [Res.ok.injEq] at hs; subst hs; cases rep _ _ rfl hl
      · rename_i hb0 hsec
        simp only [ne_eq, not_not] at hsec
        subst hsec
        split at hs
        · rename_i rt hb
          simp only [Res.ok.injEq] at hs; subst hs
          unfold startH at hl
          split at hl
          · rename_i j hj
            split at hl
            · rename_i hm
              refine ⟨j, rt, ?_, by simpa using hm⟩
              cases r
              simp_all
            · simp at hl
          · cases rep _ _ rfl hl
        · unfold begunH at hs
          repeat' split at hs
          · simp only [Res.ok.injEq] at hs; subst hs; cases rep _ _ rfl hl
          · obtain ⟨t, _, rfl⟩ := trk_ok.1 hs; cases rep _ _ (by rfl) hl
          · simp only [Res.ok.injEq] at hs; subst hs; cases rep _ _ rfl hl
        · simp only [Res.ok.injEq] at hs; subst hs
          unfold endH at hl
          split at hl
          · split at hl
            · cases rep _ _ rfl hl
            · split at hl
              · cases rep _ _ (by rfl) hl
              · simp at hl
          · cases rep _ _ rfl hl
        · unfold pingH at hs
          split at hs
          · simp only [Res.ok.injEq] at hs; subst hs; cases rep _ _ rfl hl
          · obtain ⟨_, _, hs⟩ := Res.bind_ok.1 hs
            simp only [Res.ok.injEq] at hs; subst hs; cases rep _ _ (by rfl) hl
        · simp only [Res.ok.injEq] at hs; subst hs; cases rep _ _ (by rfl) hl
        · cases hs

/-- No request is answered 429 at once. -/
theorem takeRequest_not_tooMany {r : Request} (hs : takeRequest c s r = .ok s') :
    s'.handlers ≠ s.handlers ++ [.done (some .tooMany)] := by
  intro hl
  have rep : ∀ x s0, s0.handlers = s.handlers → (reply x s0).handlers = s.handlers ++ [.done (some .tooMany)] → x = .tooMany := by
    intro x s0 h0 h
    simpa [reply, h0] using h
  unfold takeRequest at hs
  split at hs
  · simp only [Res.ok.injEq] at hs; subst hs; cases rep _ _ rfl hl
  · rename_i t ht
    split at hs
    · simp only [Res.ok.injEq] at hs; subst hs; cases rep _ _ rfl hl
    · split at hs
      · simp only [Res.ok.injEq] at hs; subst hs; cases rep _ _ rfl hl
      · rename_i hb0 hsec
        simp only [ne_eq, not_not] at hsec
        subst hsec
        split at hs
        · rename_i rt hb
          simp only [Res.ok.injEq] at hs; subst hs
          unfold startH at hl
          split at hl
          · rename_i j hj
            split at hl
            · cases rep _ _ rfl hl
            · simp at hl
          · cases rep _ _ rfl hl
        · unfold begunH at hs
          repeat' split at hs
          · simp only [Res.ok.injEq] at hs; subst hs; cases rep _ _ rfl hl
          · obtain ⟨t, _, rfl⟩ := trk_ok.1 hs; cases rep _ _ (by rfl) hl
          · simp only [Res.ok.injEq] at hs; subst hs; cases rep _ _ rfl hl
        · simp only [Res.ok.injEq] at hs; subst hs
          unfold endH at hl
          split at hl
          · split at hl
            · cases rep _ _ rfl hl
            · split at hl
              · cases rep _ _ (by rfl) hl
              · simp at hl
          · cases rep _ _ rfl hl
        · unfold pingH at hs
          split at hs
          · simp only [Res.ok.injEq] at hs; subst hs; cases rep _ _ rfl hl
          · obtain ⟨_, _, hs⟩ := Res.bind_ok.1 hs
            simp only [Res.ok.injEq] at hs; subst hs; cases rep _ _ (by rfl) hl
        · simp only [Res.ok.injEq] at hs; subst hs; cases rep _ _ (by rfl) hl
        · cases hs

/-- An action after which the `h`-th request has the answer `r`, that had not got it before: the request has just come in,
or this is a move of its handler. -/
theorem answered {a : Act} {h : Nat} {r : Reply} (hs : step c s a = .ok s') (h0 : s.handlers[h]? ≠ some (.done (some r)))
    (h1 : s'.handlers[h]? = some (.done (some r))) :
    (∃ q, a = .request q ∧ s'.handlers = s.handlers ++ [.done (some r)] ∧ takeRequest c s q = .ok s') ∨
    ∃ x, s.handlers[h]? = some x ∧ HMoves c s h a x (.done (some r)) := by
  rcases step_handlers hs with e | ⟨q, x, rfl, e, _⟩ | ⟨i, x, x', hx, e, hm⟩
  · rw [e] at h1; exact absurd h1 h0
  · left
    refine ⟨q, rfl, ?_, ?_⟩
    · rw [e] at h1
      rw [List.getElem?_append] at h1
      split at h1
      · exact absurd h1 h0
      · cases hk : h - s.handlers.length with
        | zero => rw [hk] at h1; simp at h1; rw [e, h1]
        | succ k => rw [hk] at h1; simp at h1
    · simp only [step] at hs
      split at hs
      · cases hs
      · exact hs
  · right
    rw [e, List.getElem?_set] at h1
    split at h1
    · rename_i hi
      subst hi
      split at h1
      · simp only [Option.some.injEq] at h1
        subst h1
        exact ⟨x, hx, hm⟩
      · cases h1
    · exact absurd h1 h0

theorem gone_cause {a : Act} {h : Nat} (hs : step c s a = .ok s') (h0 : s.handlers[h]? ≠ some (.done (some .gone)))
    (h1 : s'.handlers[h]? = some (.done (some .gone))) :
    (∃ j rt, a = .request ⟨some c.secret, some (some j), .start rt⟩ ∧ j ∈ s.cancelledJobs) ∨
    s.tr.readyOpen = false ∨ s.tr.token = some .hard := by
  rcases answered hs h0 h1 with ⟨q, rfl, e, ht⟩ | ⟨x, hx, hm⟩
  · obtain ⟨j, rt, rfl, hj⟩ := takeRequest_gone ht e
    exact .inl ⟨j, rt, rfl, hj⟩
  · right
    cases hm with
    | refused rt j _ _ =>
      left
      simp only [step, hx] at hs
      cases hc : recvCheck s.tr rt with
      | ok u =>
        rw [hc] at hs
        obtain ⟨t, _, rfl⟩ := trk_ok.1 hs
        have hlt := (List.getElem?_eq_some_iff.1 hx).1
        simp [setH, hlt] at h1
      | error e =>
        rw [hc] at hs
        cases e with
        | noSuchRunnerType =>
          simp only [Res.ok.injEq] at hs; subst hs
          have hlt := (List.getElem?_eq_some_iff.1 hx).1
          simp [setH, hlt] at h1
        | softShutdown =>
          unfold recvCheck at hc
          split at hc
          · cases hc
          · split at hc
            · assumption
            · cases hc
    | leave0 k rt t j _ _ =>
      simp only [step, hx] at hs
      split at hs
      · rename_i hcond
        simp only [Res.ok.injEq] at hs; subst hs
        have hlt := (List.getElem?_eq_some_iff.1 hx).1
        cases t with
        | true => simp [setH, hlt] at h1
        | false => exact .inr (hcond.resolve_left (by simp))
      · cases hs
    | leave k rt t j _ _ =>
      simp only [step, hx] at hs
      split at hs
      · rename_i hcond
        obtain ⟨tr, _, rfl⟩ := trk_ok.1 hs
        have hlt := (List.getElem?_eq_some_iff.1 hx).1
        cases t with
        | true => simp [setH, hlt] at h1
        | false =>
          rcases hcond.2 with h | h | h
          · cases h
          · exact .inr h
          · exact .inl h
      · cases hs

end Verif.Sys
