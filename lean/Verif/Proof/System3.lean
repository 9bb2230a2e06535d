import Verif.Proof.System2
import Verif.Proof.TrackerFizzle

/-! # Reports, postambles, the token and abandoned tasks along system runs (helper lemmas for `Verif.Props.System`) -/

namespace Verif.Tracker
open Verif
open scoped List

variable {c : Cfg} {lf : LogFile} {now : Int} {s s' : State}

/-- Finish reports sent in a run. -/
def finReport? : Act → Option (Nat × ExitStatus)
  | .sendFinished e => some (e.id, e.status)
  | _ => none

theorem step_sendFinished {e : Fin} (hs : step c s (.sendFinished e) = .ok s') :
    s.pc ≠ .done ∧ s'.held = s.held.erase e.id ∧ s'.obtained = s.obtained ∧ s'.pc = s.pc := by
  simp only [step] at hs
  split at hs
  · cases hs
  · rename_i hl
    simp only [Res.ok.injEq] at hs
    subst hs
    exact ⟨Sys.live_not_done hl, rfl, rfl, rfl⟩

/-- What an action that is not a report does to `held` and `obtained`, before the end. -/
theorem step_held {a : Act} (hs : step c s a = .ok s') (hp : s'.pc ≠ .done) :
    (∃ l, s'.obtained = s.obtained ++ l ∧ ∀ v ∈ s'.held, v ∈ s.held ∨ v ∈ l.map (·.2)) := by
  by_cases ha : Sys.serverAct a = true
  · have := Sys.server_calm ha hs
    exact ⟨[], by rw [this.obtained]; simp, fun v hv => .inl (this.held hp ▸ hv)⟩
  · cases a with
    | cancel k => simp only [step, Res.ok.injEq] at hs; subst hs; exact ⟨[], by simp, fun v hv => .inl hv⟩
    | account i =>
      simp only [step] at hs
      split at hs
      · cases hs
      · split at hs
        · cases hs
        · simp only [Res.ok.injEq] at hs; subst hs
          refine ⟨[_], rfl, fun v hv => ?_⟩
          rcases List.mem_append.1 hv with h | h
          · exact .inl h
          · exact .inr (by simpa using h)
    | sendFinished e =>
      obtain ⟨_, h1, h2, _⟩ := step_sendFinished hs
      exact ⟨[], by rw [h2]; simp, fun v hv => .inl (List.mem_of_mem_erase (h1 ▸ hv))⟩
    | lose v =>
      simp only [step] at hs
      split at hs
      · cases hs
      · simp only [Res.ok.injEq] at hs; subst hs
        exact ⟨[], by simp, fun v hv => .inl (List.mem_of_mem_erase hv)⟩
    | enter r =>
      have := Sys.enter_calm hs
      exact ⟨[], by rw [this.obtained]; simp, fun v hv => .inl (this.held hp ▸ hv)⟩
    | leave r =>
      have := Sys.leave_calm hs
      exact ⟨[], by rw [this.obtained]; simp, fun v hv => .inl (this.held hp ▸ hv)⟩
    | joinDone =>
      have := Sys.joinDone_calm hs
      exact ⟨[], by rw [this.obtained]; simp, fun v hv => .inl (this.held hp ▸ hv)⟩
    | sendStarted id host pid jobid =>
      simp only [step] at hs
      split at hs
      · cases hs
      · simp only [Res.ok.injEq] at hs; subst hs
        exact ⟨[], by simp, fun v hv => .inl hv⟩
    | _ => exact absurd rfl ha

theorem sends_nodup (hg : Good c) {as : List Act} (hr : Runs c (init c lf now) as s) :
    ((as.filterMap finReport?).map (·.1)).Nodup ∧ (s.pc ≠ .done → ∀ v ∈ (as.filterMap finReport?).map (·.1),
      v ∈ s.obtained.map (·.2) ∧ v ∉ s.held) := by
  refine Runs.snocInd (P := fun as s => ((as.filterMap finReport?).map (·.1)).Nodup ∧
    (s.pc ≠ .done → ∀ v ∈ (as.filterMap finReport?).map (·.1), v ∈ s.obtained.map (·.2) ∧ v ∉ s.held)) ?_ ?_ hr
  · simp
  · intro as s a s' hr ih hd hs
    obtain ⟨h1, h2⟩ := ih
    have hre : Reachable c lf now s := ⟨as, hr⟩
    have hre' : Reachable c lf now s' := ⟨_, hr.snoc hd hs⟩
    have hold : s'.pc ≠ .done → ∀ v ∈ (as.filterMap finReport?).map (·.1), v ∈ s'.obtained.map (·.2) ∧ v ∉ s'.held := by
      intro hp v hv
      have hps : s.pc ≠ .done := fun e => hp (done_stays hs e)
      obtain ⟨o1, o2⟩ := h2 hps v hv
      obtain ⟨l, e1, e2⟩ := step_held hs hp
      have hnd := hre'.obtained_nodup hg
      rw [e1, List.map_append] at hnd ⊢
      refine ⟨List.mem_append_left _ o1, fun hm => ?_⟩
      rcases e2 v hm with h | h
      · exact o2 h
      · exact (List.nodup_append.1 hnd).2.2 v o1 v h rfl
    rw [List.filterMap_append, List.map_append]
    cases hf : finReport? a with
    | none =>
      have : [a].filterMap finReport? = [] := by simp [hf]
      rw [this, List.map_nil, List.append_nil]
      exact ⟨h1, hold⟩
    | some x =>
      cases a with
      | sendFinished e =>
        simp only [finReport?, Option.some.injEq] at hf
        subst hf
        obtain ⟨hpc, e1, e2, e3⟩ := step_sendFinished hs
        simp only [disciplined, decide_eq_true_eq] at hd
        have hx : ([Act.sendFinished e].filterMap finReport?).map (·.1) = [e.id] := rfl
        rw [hx]
        refine ⟨?_, fun hp v hv => ?_⟩
        · rw [List.nodup_append]
          refine ⟨h1, by simp, ?_⟩
          intro v hv w hw e'
          rw [List.mem_singleton] at hw
          rw [e', hw] at hv
          exact (h2 hpc _ hv).2 hd
        · rcases List.mem_append.1 hv with h | h
          · exact hold hp v h
          · rw [List.mem_singleton] at h
            rw [h]
            obtain ⟨r, ho⟩ := (hre.obtained_iff hg).2 (List.mem_append_left _ (List.mem_append_left _ (List.mem_append_left _ hd)))
            rw [e1, e2]
            refine ⟨List.mem_map.2 ⟨_, ho, rfl⟩, ?_⟩
            obtain ⟨hi, _⟩ := hre.inv hg
            have := (hi.core.place hg).uniq
            rw [List.append_assoc, List.append_assoc, List.nodup_append] at this
            exact fun hm => (List.Nodup.mem_erase_iff this.1).1 hm |>.1 rfl
      | _ => simp [finReport?] at hf

/-! ### postambles -/

/-- The postambles that belong to processed finish reports. -/
def postOf (l : List (Nat × ExitStatus)) : List (Nat × Bool) := l.map (fun x => (x.1, x.2.isSuccess))

theorem drainLoop_post {t : SysTime} : ∀ {es : List Event} {infl : List (Nat × Int)} {s : State}
    {r : State × List (Nat × Int)}, drainLoop c t es infl s = .ok r →
    ∃ l, r.1.drained = s.drained ++ l ∧ r.1.postambles = s.postambles ++ postOf l := by
  intro es
  induction es with
  | nil =>
    intro infl s r h
    simp only [Tracker.drainLoop, Res.ok.injEq] at h
    subst h
    exact ⟨[], by simp, by simp [postOf]⟩
  | cons ev es ih =>
    intro infl s r h
    cases ev with
    | started id ho p j =>
      simp only [Tracker.drainLoop] at h
      obtain ⟨s1, h1, h⟩ := Res.bind_ok.1 h
      obtain ⟨_, _, rfl⟩ := writeLog_ok.1 h1
      split at h
      · cases h
      · obtain ⟨l, e1, e2⟩ := ih h
        exact ⟨l, e1, e2⟩
    | finished e =>
      simp only [Tracker.drainLoop] at h
      obtain ⟨s1, h1, h⟩ := Res.bind_ok.1 h
      obtain ⟨s2, h2, h⟩ := Res.bind_ok.1 h
      obtain ⟨s3, h3, h⟩ := Res.bind_ok.1 h
      obtain ⟨l, e1, e2⟩ := ih h
      obtain ⟨_, sn, _, _, rfl⟩ := book1_ok h1
      have h2' : s2.drained = s.drained ∧ s2.postambles = s.postambles ++ [(e.id, e.status.isSuccess)] := by
        split at h2
        · simp only [Res.ok.injEq] at h2; subst h2; exact ⟨rfl, rfl⟩
        · obtain ⟨_, _, rfl⟩ := writeLog_ok.1 h2; exact ⟨rfl, rfl⟩
      obtain ⟨_, _, rfl⟩ := writeLog_ok.1 h3
      simp only [h2'.1, h2'.2] at e1 e2
      refine ⟨(e.id, e.status) :: l, ?_, ?_⟩
      · rw [e1]; simp
      · rw [e2]; simp [postOf]

theorem drainRest_post {t : SysTime} : ∀ {vs : List Nat} {s s' : State}, drainRest c t vs s = .ok s' →
    ∃ l, s'.drained = s.drained ++ l ∧ s'.postambles = s.postambles ++ postOf l := by
  intro vs
  induction vs with
  | nil => intro s s' h; simp only [Tracker.drainRest, Res.ok.injEq] at h; subst h; exact ⟨[], by simp, by simp [postOf]⟩
  | cons v vs ih =>
    intro s s' h
    simp only [Tracker.drainRest] at h
    obtain ⟨s1, h1, h⟩ := Res.bind_ok.1 h
    obtain ⟨s2, h2, h⟩ := Res.bind_ok.1 h
    obtain ⟨l, e1, e2⟩ := ih h
    obtain ⟨_, sn, _, _, rfl⟩ := book1_ok h1
    obtain ⟨_, _, rfl⟩ := writeLog_ok.1 h2
    refine ⟨(v, .disconnected) :: l, ?_, ?_⟩
    · rw [e1]; simp [booked]
    · rw [e2]; simp [postOf, booked, ExitStatus.isSuccess]

theorem step_post {a : Act} (hs : step c s a = .ok s') :
    (s'.processed = s.processed ∧ ∃ l, s'.drained = s.drained ++ l ∧ s'.postambles = s.postambles ++ postOf l ∧
      (l ≠ [] → s.pc = .joined)) ∨
    (s.pc = .idle ∧ ∃ x, s'.processed = s.processed ++ [x] ∧ s'.drained = s.drained ∧ s'.postambles = s.postambles ++ postOf [x]) := by
  have same : s'.processed = s.processed → s'.drained = s.drained → s'.postambles = s.postambles →
      (s'.processed = s.processed ∧ ∃ l, s'.drained = s.drained ++ l ∧ s'.postambles = s.postambles ++ postOf l ∧
        (l ≠ [] → s.pc = .joined)) ∨
      (s.pc = .idle ∧ ∃ x, s'.processed = s.processed ++ [x] ∧ s'.drained = s.drained ∧
        s'.postambles = s.postambles ++ postOf [x]) := by
    intro h1 h2 h3
    exact .inl ⟨h1, [], by simp [h2], by simp [h3, postOf], fun h => absurd rfl h⟩
  have half : ∀ {t s1 s2 : State} {x : SysTime} {e : Fin}, finishHalf c x s1 e = .ok s2 → s2.processed = s1.processed ∧
      s2.drained = s1.drained ∧ s2.postambles = s1.postambles := by
    intro t s1 s2 x e h
    obtain ⟨lf, ⟨_, rfl⟩ | ⟨_, rfl⟩⟩ := finishHalf_cases h <;> rw [finLogged_eq] <;> exact ⟨rfl, rfl, rfl⟩
  cases a with
  | begin order x =>
    simp only [step] at hs
    split at hs
    · cases hs
    · split at hs
      · cases hs
      · split at hs
        · simp only [Res.ok.injEq] at hs; subst hs; exact same rfl rfl rfl
        · obtain ⟨_, _, _, _, rfl⟩ := addReady_ok hs; exact same rfl rfl rfl
  | sendDone x =>
    simp only [step] at hs
    split at hs
    · split at hs
      · simp only [Res.ok.injEq] at hs; subst hs; exact same rfl rfl rfl
      · obtain ⟨h1, h2, h3⟩ := half (t := s) hs; exact same h1 h2 h3
    · cases hs
  | recvStarted x =>
    simp only [step] at hs
    split at hs
    · cases hs
    · split at hs
      · obtain ⟨s1, h1, h2⟩ := Res.bind_ok.1 hs
        obtain ⟨lf, _, rfl⟩ := writeLog_ok.1 h1
        split at h2
        · cases h2
        · simp only [Res.ok.injEq] at h2; subst h2; exact same rfl rfl rfl
      · cases hs
  | recvFinished order x =>
    simp only [step] at hs
    split at hs
    · cases hs
    · rename_i hpc
      split at hs
      · rename_i e rest hch
        right
        refine ⟨by simpa using hpc, (e.id, e.status), ?_⟩
        obtain ⟨sn, um, po, _, h | ⟨vs, _, _, h⟩⟩ := handleFinished_cases hs
        · obtain ⟨h1, h2, h3⟩ := half (t := s) h
          exact ⟨h1, h2, h3⟩
        · obtain ⟨_, _, _, _, rfl⟩ := addReady_ok h
          exact ⟨rfl, rfl, rfl⟩
      · cases hs
  | drain order x =>
    simp only [step] at hs
    split at hs
    · cases hs
    · rename_i hpc
      obtain ⟨k, _⟩ := Kept.drain hs
      left
      refine ⟨k.processed, ?_⟩
      unfold drain at hs
      obtain ⟨r, h1, hs⟩ := Res.bind_ok.1 hs
      split at hs
      · cases hs
      · obtain ⟨s1, h2, hs⟩ := Res.bind_ok.1 hs
        simp only [Res.ok.injEq] at hs
        subst hs
        obtain ⟨l1, a1, a2⟩ := drainLoop_post h1
        obtain ⟨l2, b1, b2⟩ := drainRest_post h2
        refine ⟨l1 ++ l2, ?_, ?_, fun _ => by simpa using hpc⟩
        · show s1.drained = _
          rw [b1]; simp [a1]
        · show s1.postambles = _
          rw [b2]; simp [a2, postOf]
  | tick d => simp only [step, Res.ok.injEq] at hs; subst hs; exact same rfl rfl rfl
  | trigger => simp only [step, Res.ok.injEq] at hs; subst hs; exact same rfl rfl rfl
  | cancel k => simp only [step, Res.ok.injEq] at hs; subst hs; exact same rfl rfl rfl
  | _ =>
    simp only [step] at hs
    repeat' split at hs
    all_goals first
      | cases hs; done
      | (simp only [Res.ok.injEq] at hs; subst hs; exact same rfl rfl rfl)

theorem postambles_eq {as : List Act} (hr : Runs c (init c lf now) as s) : s.postambles = postOf (s.processed ++ s.drained) := by
  have := Runs.snocInd (P := fun _ s => s.postambles = postOf (s.processed ++ s.drained) ∧
    (s.pc ≠ .done → s.drained = [])) ?_ ?_ hr
  · exact this.1
  · simp [init, postOf]
  · intro as s a s' hr ih hd hs
    obtain ⟨h1, h2⟩ := ih
    rcases step_post hs with ⟨e1, l, e2, e3, e4⟩ | ⟨hpc, x, e1, e2, e3⟩
    · refine ⟨by rw [e1, e2, e3, h1]; simp [postOf], fun hp => ?_⟩
      rw [e2, h2 (fun e => hp (done_stays hs e)), List.nil_append]
      by_contra hl
      have hj := e4 hl
      cases a with
      | drain order x =>
        simp only [step, hj, ne_eq, not_true_eq_false, if_false] at hs
        exact hp (Kept.drain hs).2
      | _ =>
        have : s'.drained = s.drained := by
          simp only [step] at hs
          repeat' split at hs
          all_goals first
            | cases hs; done
            | (simp only [Res.ok.injEq] at hs; subst hs; rfl)
            | (simp_all; done)
        rw [this] at e2
        exact hl (by simpa using e2)
    · refine ⟨?_, fun hp => by rw [e2, h2 (by rw [hpc]; simp)]⟩
      have h0 : s.drained = [] := h2 (by rw [hpc]; simp)
      rw [e1, e2, e3, h1, h0]; simp [postOf]

/-! ### the token -/

theorem step_token {a : Act} (hs : step c s a = .ok s') (ha : ∀ k, a = .cancel k → k = .hard) :
    s'.token = s.token ∨ s'.token = some .hard ∨
    (s'.token = some (.afterTime (s.now - fizzledCutoff)) ∧ c.fizzlesAllowed ≤ s'.nFizzled ∧
      ((∃ order t, a = .recvFinished order t) ∨ ∃ t e, a = .sendDone t ∧ s.pc = .sending [] (some e)) ∧ s'.pc = .idle) := by
  have half : ∀ {s1 s2 : State} {x : SysTime} {e : Fin}, finishHalf c x s1 e = .ok s2 →
      s2.token = s1.token ∨ s2.token = some .hard ∨
      (s2.token = some (.afterTime (s1.now - fizzledCutoff)) ∧ c.fizzlesAllowed ≤ s2.nFizzled ∧ s2.pc = .idle) := by
    intro s1 s2 x e h
    obtain ⟨lf, ⟨_, rfl⟩ | ⟨_, rfl⟩⟩ := finishHalf_cases h
    · exact .inr (.inl rfl)
    · by_cases hf : s1.nFizzled ≥ c.fizzlesAllowed
      · have e1 : (finLogged c s1 e lf).token = tokenCancel s1.token (.afterTime (s1.now - fizzledCutoff)) := by
          unfold finLogged
          simp only
          rw [if_pos hf]
        have e2 : (finLogged c s1 e lf).nFizzled = s1.nFizzled := by rw [finLogged_eq]
        show (finLogged c s1 e lf).token = _ ∨ (finLogged c s1 e lf).token = _ ∨ ((finLogged c s1 e lf).token = _ ∧
          c.fizzlesAllowed ≤ (finLogged c s1 e lf).nFizzled ∧ _)
        rw [e1, e2]
        have hcut : tokenCancel s1.token (.afterTime (s1.now - fizzledCutoff)) = s1.token ∨
            tokenCancel s1.token (.afterTime (s1.now - fizzledCutoff)) = some (.afterTime (s1.now - fizzledCutoff)) := by
          unfold tokenCancel
          simp only
          cases s1.token with
          | none => exact .inr rfl
          | some k =>
            cases k with
            | hard => exact .inl rfl
            | afterTime t0 =>
              simp only
              split
              · exact .inl rfl
              · exact .inr rfl
        rcases hcut with h | h
        · exact .inl h
        · exact .inr (.inr ⟨h, hf, rfl⟩)
      · left
        show (finLogged c s1 e lf).token = _
        unfold finLogged
        simp only
        rw [if_neg hf]
  cases a with
  | begin order x =>
    simp only [step] at hs
    split at hs
    · cases hs
    · split at hs
      · cases hs
      · split at hs
        · simp only [Res.ok.injEq] at hs; subst hs; exact .inl rfl
        · obtain ⟨_, _, _, _, rfl⟩ := addReady_ok hs; exact .inl rfl
  | sendDone x =>
    simp only [step] at hs
    split at hs
    · rename_i fin hpc
      split at hs
      · simp only [Res.ok.injEq] at hs; subst hs; exact .inl rfl
      · rcases half hs with h | h | ⟨h, h', h''⟩
        · exact .inl h
        · exact .inr (.inl h)
        · exact .inr (.inr ⟨h, h', .inr ⟨x, _, rfl, hpc⟩, h''⟩)
    · cases hs
  | recvStarted x =>
    simp only [step] at hs
    split at hs
    · cases hs
    · split at hs
      · obtain ⟨s1, h1, h2⟩ := Res.bind_ok.1 hs
        obtain ⟨lf, _, rfl⟩ := writeLog_ok.1 h1
        split at h2
        · cases h2
        · simp only [Res.ok.injEq] at h2; subst h2; exact .inl rfl
      · cases hs
  | recvFinished order x =>
    simp only [step] at hs
    split at hs
    · cases hs
    · split at hs
      · obtain ⟨sn, um, po, _, h | ⟨vs, _, _, h⟩⟩ := handleFinished_cases hs
        · rcases half h with h | h | ⟨h, h', h''⟩
          · exact .inl h
          · exact .inr (.inl h)
          · exact .inr (.inr ⟨h, h', .inl ⟨order, x, rfl⟩, h''⟩)
        · obtain ⟨_, _, _, _, rfl⟩ := addReady_ok h
          exact .inl rfl
      · cases hs
  | drain order x =>
    simp only [step] at hs
    split at hs
    · cases hs
    · obtain ⟨k, hp⟩ := Kept.drain hs
      exact .inl k.token
  | cancel k =>
    simp only [step, Res.ok.injEq] at hs; subst hs
    rw [ha k rfl]
    exact .inr (.inl rfl)
  | tick d => simp only [step, Res.ok.injEq] at hs; subst hs; exact .inl rfl
  | trigger => simp only [step, Res.ok.injEq] at hs; subst hs; exact .inl rfl
  | _ =>
    simp only [step] at hs
    repeat' split at hs
    all_goals first
      | cases hs; done
      | (simp only [Res.ok.injEq] at hs; subst hs; first | exact .inl rfl | exact .inr (.inl rfl))

/-! ### tasks nobody reports -/

/-- Where the obtained tasks are, before the end. -/
theorem obtained_split (hg : Good c) {as : List Act} (hr : Runs c (init c lf now) as s) (hp : s.pc ≠ .done) :
    ∀ v ∈ s.obtained.map (·.2), v ∈ s.held ∨ v ∈ s.lost ∨ v ∈ (as.filterMap finReport?).map (·.1) := by
  revert hp
  refine Runs.snocInd (P := fun as s => s.pc ≠ .done → ∀ v ∈ s.obtained.map (·.2), v ∈ s.held ∨ v ∈ s.lost ∨
    v ∈ (as.filterMap finReport?).map (·.1)) ?_ ?_ hr
  · simp [init]
  · intro as s a s' hr ih hd hs hp v hv
    have ih := ih (fun e => hp (done_stays hs e))
    rw [List.filterMap_append, List.map_append]
    have calm : Sys.Calm s s' → v ∈ s'.held ∨ v ∈ s'.lost ∨
        v ∈ (as.filterMap finReport?).map (·.1) ++ ([a].filterMap finReport?).map (·.1) := by
      intro hc
      rw [hc.obtained] at hv
      rw [hc.held hp, hc.lost hp]
      rcases ih v hv with h | h | h
      · exact .inl h
      · exact .inr (.inl h)
      · exact .inr (.inr (List.mem_append_left _ h))
    by_cases ha : Sys.serverAct a = true
    · exact calm (Sys.server_calm ha hs)
    · cases a with
      | cancel k =>
        simp only [step, Res.ok.injEq] at hs; subst hs
        exact calm ⟨rfl, rfl, rfl, fun _ => rfl, fun _ => rfl⟩
      | account i =>
        simp only [step] at hs
        split at hs
        · cases hs
        · split at hs
          · cases hs
          · simp only [Res.ok.injEq] at hs; subst hs
            simp only [List.map_append, List.map_cons, List.map_nil, List.mem_append, List.mem_singleton] at hv ⊢
            rcases hv with h | h
            · rcases ih v h with h | h | h
              · exact .inl (.inl h)
              · exact .inr (.inl h)
              · exact .inr (.inr (.inl h))
            · exact .inl (.inr h)
      | sendFinished e =>
        simp only [step] at hs
        split at hs
        · cases hs
        · simp only [Res.ok.injEq] at hs; subst hs
          have hx : ([Act.sendFinished e].filterMap finReport?).map (·.1) = [e.id] := rfl
          rw [hx]
          by_cases hve : v = e.id
          · exact .inr (.inr (by simp [hve]))
          · rcases ih v hv with h | h | h
            · exact .inl ((List.mem_erase_of_ne hve).2 h)
            · exact .inr (.inl h)
            · exact .inr (.inr (List.mem_append_left _ h))
      | lose w =>
        simp only [step] at hs
        split at hs
        · cases hs
        · simp only [Res.ok.injEq] at hs; subst hs
          by_cases hve : v = w
          · exact .inr (.inl (by simp [hve]))
          · rcases ih v hv with h | h | h
            · exact .inl ((List.mem_erase_of_ne hve).2 h)
            · exact .inr (.inl (List.mem_append_left _ h))
            · exact .inr (.inr (List.mem_append_left _ h))
      | enter r => exact calm (Sys.enter_calm hs)
      | leave r => exact calm (Sys.leave_calm hs)
      | joinDone => exact calm (Sys.joinDone_calm hs)
      | sendStarted id host pid jobid =>
        simp only [step] at hs
        split at hs
        · cases hs
        · simp only [Res.ok.injEq] at hs; subst hs
          rcases ih v hv with h | h | h
          · exact .inl h
          · exact .inr (.inl h)
          · exact .inr (.inr (List.mem_append_left _ h))
      | _ => exact absurd rfl ha

/-- Only reported tasks are processed. -/
theorem processed_sent (hg : Good c) {as : List Act} (hr : Runs c (init c lf now) as s) :
    ∀ v ∈ s.processed.map (·.1), v ∈ (as.filterMap finReport?).map (·.1) := by
  refine Runs.snocInd (P := fun as s => ∀ v ∈ s.processed.map (·.1), v ∈ (as.filterMap finReport?).map (·.1)) ?_ ?_ hr
  · simp [init]
  · intro as s a s' hr ih hd hs v hv
    rcases step_post hs with ⟨e1, _⟩ | ⟨hpc, x, e1, _, _⟩
    · rw [List.filterMap_append, List.map_append]
      exact List.mem_append_left _ (ih v (e1 ▸ hv))
    · have hp' : s'.pc ≠ .done := by
        intro e
        have h1 : ended s.pc = false := by rw [hpc]; rfl
        have := (step_exit hs h1 (by rw [e]; rfl)).1
        rw [e] at this; cases this
      have hre' : Reachable c lf now s' := ⟨_, hr.snoc hd hs⟩
      have hcl : v ∈ (s'.processed ++ s'.drained).map (·.1) := by
        rw [List.map_append]; exact List.mem_append_left _ hv
      obtain ⟨r, ho⟩ := (hre'.obtained_iff hg).2 (List.mem_append_right _ hcl)
      obtain ⟨hi, _⟩ := hre'.inv hg
      have hu := (hi.core.place hg).uniq
      rw [List.nodup_append] at hu
      rcases obtained_split hg (hr.snoc hd hs) hp' v (List.mem_map.2 ⟨_, ho, rfl⟩) with h | h | h
      · exact absurd rfl (hu.2.2 v (by simp [h]) v hcl)
      · exact absurd rfl (hu.2.2 v (by simp [h]) v hcl)
      · exact h

/-- Serving does not end by itself before every obtained task was processed. -/
theorem over_all_processed (hg : Good c) {as : List Act} (hr : Runs c (init c lf now) as s) (hno : NoShutdown as)
    (hq : quickFailures c [] (init c lf now) as < c.fizzlesAllowed) (he : ended s.pc = true) {v : Nat}
    (hv : Obtained s v) : v ∈ s.processed.map (·.1) := by
  have hre : Reachable c lf now s := ⟨as, hr⟩
  have hsoft : s.soft = false := by
    by_contra h
    have h := ((soft_exact hg hr (fun h => (hno _ h).1 rfl)).1 (by simpa using h)).2
    omega
  obtain ⟨_, hall⟩ := ended_facts hg hr (fun a ha => (hno a ha).2) he
  have hlen : s.flags.length = s.processed.length := by
    rcases hall with h | h
    · exact h
    · rw [hsoft] at h; cases h
  have hnd : (s.processed.map (·.1)).Nodup := by
    have := hre.closed_nodup hg
    unfold closedTasks at this
    rw [List.map_append, List.nodup_append] at this
    exact this.1
  have hsub : ∀ w, w ∈ s.processed.map (·.1) → w ∈ owners s.flags := by
    intro w hw
    obtain ⟨x, hx, rfl⟩ := List.mem_map.1 hw
    exact hre.obtained_made hg (hre.closed_obtained hg (st := x.2) (List.mem_append_left _ hx))
  have hp := (List.subperm_of_subset hnd hsub).perm_of_length_le (by simp [owners, hlen])
  exact hp.mem_iff.2 (hre.obtained_made hg hv)

/-- A task inflight whose end is not processed keeps the server serving. -/
theorem inflight_stuck (hg : Good c) {as : List Act} (hr : Runs c (init c lf now) as s) {bs : List Act}
    (hr' : Runs c s bs s') (hno : ∀ a ∈ as ++ bs, a ≠ .seeHard ∧ a ≠ .ctrlC) {v : Nat} (hv : v ∈ s.inflight.map (·.1))
    (hn : v ∉ s'.processed.map (·.1)) : ended s'.pc = false := by
  have key : v ∉ s'.processed.map (·.1) → ended s'.pc = false ∧ ∃ times, TimesOk times s' ∧ (times.lookup v).isSome = true := by
    clear hn
    revert hno
    refine Runs.snocInd (P := fun bs s' => (∀ a ∈ as ++ bs, a ≠ .seeHard ∧ a ≠ .ctrlC) → v ∉ s'.processed.map (·.1) →
      ended s'.pc = false ∧ ∃ times, TimesOk times s' ∧ (times.lookup v).isSome = true) ?_ ?_ hr'
    · intro hno _
      refine ⟨?_, s.inflight, fun _ _ => rfl, by rw [lookup_isSome]; simpa using hv⟩
      by_contra he
      have := (ended_facts hg hr (fun a ha => hno a (by simpa using ha)) (by simpa using he)).1
      rw [this] at hv; cases hv
    · intro bs s1 a s2 hb ih hd hs hno hn
      have hn1 : v ∉ s1.processed.map (·.1) := by
        rcases step_post hs with ⟨e1, _⟩ | ⟨_, x, e1, _, _⟩
        · rwa [e1] at hn
        · rw [e1, List.map_append] at hn
          exact fun h => hn (List.mem_append_left _ h)
      obtain ⟨h1, times, h2, h3⟩ := ih (fun a ha => hno a (by
        rw [← List.append_assoc]; exact List.mem_append_left _ ha)) hn1
      have hpd : s2.pc ≠ .done := by
        intro e
        have := (step_exit hs h1 (by rw [e]; rfl)).1
        rw [e] at this; cases this
      have hre : Reachable c lf now s1 := Reachable.later ⟨as, hr⟩ hb
      obtain ⟨_, h4⟩ := fizz_step hg hre h2 hs hpd
      have h5 : ((timesAfter times s1 a).lookup v).isSome = true := by
        unfold timesAfter
        split
        · simp only [List.lookup_cons]
          split
          · rfl
          · exact h3
        · exact h3
      refine ⟨?_, _, h4, h5⟩
      by_contra he
      have := (ended_facts hg (hr.append (hb.snoc hd hs)) hno (by simpa using he)).1
      have h6 := h4 v hn
      rw [this] at h6
      rw [h6] at h5; simp at h5
  exact (key hn).1

end Verif.Tracker
