import Verif.Proof.System4

/-! # Soft cancellation, preambles and Slurm jobs along system runs (helper lemmas for `Verif.Props.System`) -/

namespace Verif.Sys
open Verif Verif.Tracker
open scoped List

variable {c : Cfg} {lf : LogFile} {now : Int} {s s' : State}

/-! ### soft cancellation -/

theorem TooManyFailuresAt.more {s0 : State} {as bs : List Act} {T : Int} (h : TooManyFailuresAt c s0 as T) :
    TooManyFailuresAt c s0 (as ++ bs) T := by
  obtain ⟨as1, a, as2, s1, e, h1, h2, h3, h4⟩ := h
  exact ⟨as1, a, as2 ++ bs, s1, by rw [e]; simp, h1, h2, h3, h4⟩

/-- What an action of the system does to the tracker. -/
theorem step_tr {a : Act} (hs : step c s a = .ok s') :
    (s'.tr = s.tr ∧ ∀ b, a ≠ .server b) ∨ ∃ b, trackerAct c s a = [b] ∧ Tracker.step c.tr s.tr b = .ok s'.tr ∧
      ((a = .server b ∧ serverAct b = true) ∨ ((∀ b', a ≠ .server b') ∧ serverAct b = false)) := by
  cases a with
  | server b =>
    right
    simp only [step] at hs
    split at hs
    · rename_i hb
      obtain ⟨t, ht, rfl⟩ := trk_ok.1 hs; exact ⟨b, rfl, ht, .inl ⟨rfl, hb⟩⟩
    · cases hs
  | request r =>
    simp only [step] at hs
    split at hs
    · cases hs
    · unfold takeRequest at hs
      split at hs
      · simp only [Res.ok.injEq] at hs; subst hs; exact .inl ⟨rfl, by simp⟩
      · rename_i t ht
        split at hs
        · simp only [Res.ok.injEq] at hs; subst hs; exact .inl ⟨rfl, by simp⟩
        · split at hs
          · simp only [Res.ok.injEq] at hs; subst hs; exact .inl ⟨rfl, by simp⟩
          · rename_i hsec
            simp only [ne_eq, not_not] at hsec
            split at hs
            · simp only [Res.ok.injEq] at hs; subst hs
              refine .inl ⟨?_, by simp⟩
              unfold startH; repeat' split
              all_goals rfl
            · rename_i _ txn host pid hb
              unfold begunH at hs
              split at hs
              · simp only [Res.ok.injEq] at hs; subst hs; exact .inl ⟨rfl, by simp⟩
              · rename_i conn hc
                split at hs
                · rename_i j hj
                  obtain ⟨t', ht', rfl⟩ := trk_ok.1 hs
                  refine .inr ⟨_, ?_, ht', .inr ⟨by simp, rfl⟩⟩
                  simp only [trackerAct, ht, hb, hj, hsec, if_true, hc]
                · simp only [Res.ok.injEq] at hs; subst hs; exact .inl ⟨rfl, by simp⟩
            · simp only [Res.ok.injEq] at hs; subst hs
              refine .inl ⟨?_, by simp⟩
              unfold endH; repeat' split
              all_goals rfl
            · unfold pingH at hs
              split at hs
              · simp only [Res.ok.injEq] at hs; subst hs; exact .inl ⟨rfl, by simp⟩
              · obtain ⟨_, _, hs⟩ := Res.bind_ok.1 hs
                simp only [Res.ok.injEq] at hs; subst hs; exact .inl ⟨rfl, by simp⟩
            · simp only [Res.ok.injEq] at hs; subst hs; exact .inl ⟨rfl, by simp⟩
            · cases hs
  | hTimer i txn =>
    simp only [step] at hs
    split at hs
    · obtain ⟨_, _, hs⟩ := Res.bind_ok.1 hs
      simp only [Res.ok.injEq] at hs; subst hs; exact .inl ⟨rfl, by simp⟩
    · cases hs
  | loopDie i =>
    simp only [step] at hs
    split at hs
    · simp only [Res.ok.injEq] at hs; subst hs
      refine .inl ⟨?_, by simp⟩
      simp only [setLoop]; split <;> rfl
    · cases hs
  | loopRecv i =>
    simp only [step] at hs
    split at hs
    · cases hx : recvCheck s.tr (loopType c i) with
      | ok u =>
        simp only [hx] at hs
        obtain ⟨t, ht, rfl⟩ := trk_ok.1 hs
        exact .inr ⟨_, by simp only [trackerAct, hx], ht, .inr ⟨by simp, rfl⟩⟩
      | error e =>
        simp only [hx, Res.ok.injEq] at hs
        subst hs; exact .inl ⟨rfl, by simp⟩
    · cases hs
  | hRecv h =>
    simp only [step] at hs
    split at hs
    · rename_i rt j hi
      cases hx : recvCheck s.tr rt with
      | ok u =>
        simp only [hx] at hs
        obtain ⟨t, ht, rfl⟩ := trk_ok.1 hs
        exact .inr ⟨_, by simp only [trackerAct, hi, hx], ht, .inr ⟨by simp, rfl⟩⟩
      | error e =>
        cases e <;> (simp only [hx, Res.ok.injEq] at hs; subst hs; exact .inl ⟨rfl, by simp⟩)
    · cases hs
  | _ =>
    simp only [step] at hs
    repeat' split at hs
    all_goals first
      | cases hs; done
      | (simp only [Res.ok.injEq] at hs; subst hs; exact .inl ⟨rfl, by simp⟩)
      | (obtain ⟨t, ht, rfl⟩ := trk_ok.1 hs
         refine .inr ⟨_, ?_, ht, .inr ⟨by simp, rfl⟩⟩
         simp_all only [trackerAct])

theorem token_moment (hg : Good c.tr) {as : List Act} (hr : Runs c (init c lf now) as s) :
    ∀ t, s.tr.token = some (.afterTime t) → ∃ T, TooManyFailuresAt c (init c lf now) as T ∧ t = T - 5000000000 := by
  refine Runs.snocInd (P := fun as s => ∀ t, s.tr.token = some (.afterTime t) →
    ∃ T, TooManyFailuresAt c (init c lf now) as T ∧ t = T - 5000000000) ?_ ?_ hr
  · simp [init, Tracker.init]
  · intro as s a s' hr ih hp hs t ht
    have old : s'.tr.token = s.tr.token → ∃ T, TooManyFailuresAt c (init c lf now) (as ++ [a]) T ∧ t = T - 5000000000 := by
      intro e
      obtain ⟨T, h1, h2⟩ := ih t (e ▸ ht)
      exact ⟨T, h1.more, h2⟩
    rcases step_tr hs with ⟨e, _⟩ | ⟨b, hb, hst, hx⟩
    · exact old (by rw [e])
    · have hk : ∀ k, b = .cancel k → k = .hard := by
        rintro k rfl
        rcases hx with ⟨_, h⟩ | ⟨_, h⟩
        · cases k <;> first | rfl | (simp [serverAct] at h)
        · cases k with
          | hard => rfl
          | afterTime t' =>
            exfalso
            cases a with
            | server b' => exact absurd rfl (‹∀ b', Act.server _ ≠ .server b'› b')
            | request r =>
              simp only [trackerAct] at hb
              repeat' split at hb
              all_goals simp at hb
            | _ =>
              simp only [trackerAct] at hb
              repeat' split at hb
              all_goals first | (simp at hb; done) | cases hb
      rcases step_token hst hk with e | e | ⟨e, h1, h2, h3⟩
      · exact old e
      · rw [e] at ht; cases ht
      · rw [e] at ht
        simp only [Option.some.injEq, Cancel.afterTime.injEq] at ht
        have hsa : a = .server b := by
          rcases hx with ⟨h, _⟩ | ⟨_, h⟩
          · exact h
          · rcases h2 with ⟨o, x, rfl⟩ | ⟨x, e', rfl, _⟩ <;> simp [serverAct] at h
        refine ⟨s.tr.now, ⟨as, a, [], s, rfl, hr, rfl, ?_, ?_⟩, ?_⟩
        · rw [hsa]
          rcases h2 with ⟨o, x, rfl⟩ | ⟨x, e', rfl, hpc⟩
          · rfl
          · simp [finishing, hpc]
        · have hrun := (hr.snoc hp hs).toInit hg
          have hd : s'.tr.pc ≠ .done := by rw [h3]; simp
          have := fizz_runs hg ⟨[], .nil _⟩ (times := []) (by intro v _; simp [Tracker.init]) hrun hd
          rw [this] at h1
          simpa [Tracker.init, init] using h1
        · rw [← ht]; rfl

theorem spawned_at {as : List Act} (hr : Runs c (init c lf now) as s) (i : Nat) :
    ∀ l v st, s.loops[i]? = some l → (l = .spawned v st ∨ l = .running v st) →
      (i, v, st) ∈ collect spawnTimes c (init c lf now) as := by
  refine Runs.snocInd (P := fun as s => ∀ l v st, s.loops[i]? = some l → (l = .spawned v st ∨ l = .running v st) →
      (i, v, st) ∈ collect spawnTimes c (init c lf now) as) ?_ ?_ hr
  · intro l v st hl h
    have hm := List.mem_of_getElem? hl
    simp only [init] at hm
    split at hm
    · simp at hm
    · rw [List.mem_replicate] at hm
      rcases h with rfl | rfl <;> cases hm.2
  · intro as s a s' hr ih hp hs l v st hl h
    rw [collect_snoc hr]
    rcases step_loops hs with ⟨e, _⟩ | ⟨j, l0, l', o, hj, e, hm, _⟩
    · rw [e] at hl
      exact List.mem_append_left _ (ih l v st hl h)
    · rw [e] at hl
      by_cases hij : j = i
      · subst hij
        rw [List.getElem?_set_self (List.getElem?_eq_some_iff.1 hj).1] at hl
        cases hl
        cases hm with
        | spawn w =>
          rcases h with h | h
          · cases h
            refine List.mem_append_right _ ?_
            simp [spawnTimes, hj]
          · cases h
        | started w st' host pid =>
          rcases h with h | h
          · cases h
          · cases h
            exact List.mem_append_left _ (ih _ v st hj (.inl rfl))
        | recv _ h' => rcases h' with rfl | rfl <;> rcases h with h | h <;> cases h
        | _ => rcases h with h | h <;> cases h
      · rw [List.getElem?_set_ne hij] at hl
        exact List.mem_append_left _ (ih l v st hl h)

theorem cancelled_at (hg : Good c.tr) {as : List Act} (hr : Runs c (init c lf now) as s) (i v : Nat) :
    (s.loops[i]? = some (.cancelled v) → ∃ st T, (i, v, st) ∈ collect spawnTimes c (init c lf now) as ∧
      TooManyFailuresAt c (init c lf now) as T ∧ st > T - 5000000000) ∧
    ((i, .finished v .cancelled) ∈ collect loopObs c (init c lf now) as →
      ∃ st T, (i, v, st) ∈ collect spawnTimes c (init c lf now) as ∧
        TooManyFailuresAt c (init c lf now) as T ∧ st > T - 5000000000) := by
  have more : ∀ {as bs : List Act} {s : State}, Runs c (init c lf now) as s → (∃ st T, (i, v, st) ∈ collect spawnTimes c (init c lf now) as ∧
      TooManyFailuresAt c (init c lf now) as T ∧ st > T - 5000000000) → ∃ st T, (i, v, st) ∈ collect spawnTimes c (init c lf now) (as ++ bs) ∧
      TooManyFailuresAt c (init c lf now) (as ++ bs) T ∧ st > T - 5000000000 := by
    rintro as bs s hr ⟨st, T, h1, h2, h3⟩
    exact ⟨st, T, by rw [collect_append hr]; exact List.mem_append_left _ h1, h2.more, h3⟩
  refine Runs.snocInd (P := fun as s => (s.loops[i]? = some (.cancelled v) → ∃ st T, (i, v, st) ∈ collect spawnTimes c (init c lf now) as ∧
      TooManyFailuresAt c (init c lf now) as T ∧ st > T - 5000000000) ∧
    ((i, .finished v .cancelled) ∈ collect loopObs c (init c lf now) as →
      ∃ st T, (i, v, st) ∈ collect spawnTimes c (init c lf now) as ∧
        TooManyFailuresAt c (init c lf now) as T ∧ st > T - 5000000000)) ?_ ?_ hr
  · refine ⟨fun h => ?_, fun h => by simp [collect] at h⟩
    have hm := List.mem_of_getElem? h
    simp only [init] at hm
    split at hm
    · simp at hm
    · rw [List.mem_replicate] at hm
      cases hm.2
  · intro as s a s' hr ih hp hs
    obtain ⟨h1, h2⟩ := ih
    refine ⟨fun hl => ?_, fun hm => ?_⟩
    · rcases step_loops hs with ⟨e, _⟩ | ⟨j, l0, l', o, hj, e, hm, _⟩
      · exact more hr (h1 (e ▸ hl))
      · rw [e] at hl
        by_cases hij : j = i
        · subst hij
          rw [List.getElem?_set_self (List.getElem?_eq_some_iff.1 hj).1] at hl
          cases hl
          cases hm with
          | soft w st t ht hgt =>
            obtain ⟨T, h3, rfl⟩ := token_moment hg hr t ht
            exact more hr ⟨st, T, spawned_at hr j _ v st hj (.inr rfl), h3, hgt⟩
          | recv _ h' => rcases h' with h | h <;> cases h
        · rw [List.getElem?_set_ne hij] at hl
          exact more hr (h1 hl)
    · rw [collect_snoc hr, List.mem_append] at hm
      rcases hm with hm | hm
      · exact more hr (h2 hm)
      · rcases step_loops hs with ⟨_, e⟩ | ⟨j, l0, l', o, hj, _, hmv, e⟩
        · rw [e] at hm; cases hm
        · rw [e, List.mem_map] at hm
          obtain ⟨x, hx, hx'⟩ := hm
          cases hx'
          cases hmv <;> simp at hx
          subst hx
          exact more hr (h1 hj)

/-! ### preambles -/

/-- The task of a loop that has obtained it, preamble not yet called. -/
def earlyL : Loop → List Nat | .got v => [v] | _ => []

/-- The same for a handler. -/
def earlyH : Handler → List Nat | .got v _ => [v] | _ => []

def early (s : State) (v : Nat) : Nat := (s.loops.flatMap earlyL).count v + (s.handlers.flatMap earlyH).count v

theorem obtained_same {tc : Tracker.Cfg} {t t' : Tracker.State} {b : Tracker.Act} (hs : Tracker.step tc t b = .ok t')
    (hb : ∀ k, b ≠ .account k) : t'.obtained = t.obtained := by
  by_cases ha : serverAct b = true
  · exact (server_calm ha hs).obtained
  · cases b with
    | account k => exact absurd rfl (hb k)
    | cancel k => simp only [Tracker.step, Res.ok.injEq] at hs; subst hs; rfl
    | enter r => exact (enter_calm hs).obtained
    | leave r => exact (leave_calm hs).obtained
    | joinDone => exact (joinDone_calm hs).obtained
    | sendStarted id host pid jobid =>
      simp only [Tracker.step] at hs
      split at hs
      · cases hs
      · simp only [Res.ok.injEq] at hs; subst hs; rfl
    | sendFinished e => exact (step_sendFinished hs).2.2.1
    | lose v =>
      simp only [Tracker.step] at hs
      split at hs
      · cases hs
      · simp only [Res.ok.injEq] at hs; subst hs; rfl
    | _ => exact absurd rfl ha

theorem account_obtained {tc : Tracker.Cfg} {t t' : Tracker.State} {k r : Nat} {it : Item} (hk : t.claimed[k]? = some (r, it))
    (hs : Tracker.step tc t (.account k) = .ok t') : t'.obtained = t.obtained ++ [(r, it.id)] := by
  simp only [Tracker.step, hk] at hs
  split at hs
  · cases hs
  · simp only [Res.ok.injEq] at hs; subst hs; rfl

/-- Balance of the runners' own preamble calls over one action. -/
def Bal (s s' : State) (v : Nat) : Prop :=
  s'.preCalls.count v + early s' v + (s.tr.obtained.map (·.2)).count v =
    s.preCalls.count v + early s v + (s'.tr.obtained.map (·.2)).count v

theorem bal_same {v : Nat} (h1 : s'.preCalls = s.preCalls) (h2 : s'.loops = s.loops) (h3 : s'.handlers = s.handlers)
    (h4 : s'.tr.obtained = s.tr.obtained) : Bal s s' v := by
  unfold Bal early; rw [h1, h2, h3, h4]

theorem bal_loop {v i : Nat} {l l' : Loop} {p o : List Nat} (hi : s.loops[i]? = some l) (h2 : s'.loops = s.loops.set i l')
    (h3 : s'.handlers = s.handlers) (h1 : s'.preCalls = s.preCalls ++ p)
    (h4 : s'.tr.obtained.map (·.2) = s.tr.obtained.map (·.2) ++ o)
    (h : p.count v + (earlyL l').count v = (earlyL l).count v + o.count v) : Bal s s' v := by
  unfold Bal early
  rw [h1, h2, h3, h4, List.count_append, List.count_append]
  have := count_set (f := earlyL) (v := v) (b := l') hi
  omega

theorem bal_handler {v i : Nat} {l l' : Handler} {p o : List Nat} (hi : s.handlers[i]? = some l)
    (h2 : s'.handlers = s.handlers.set i l')
    (h3 : s'.loops = s.loops) (h1 : s'.preCalls = s.preCalls ++ p)
    (h4 : s'.tr.obtained.map (·.2) = s.tr.obtained.map (·.2) ++ o)
    (h : p.count v + (earlyH l').count v = (earlyH l).count v + o.count v) : Bal s s' v := by
  unfold Bal early
  rw [h1, h2, h3, h4, List.count_append, List.count_append]
  have := count_set (f := earlyH) (v := v) (b := l') hi
  omega

theorem takeRequest_pre {r : Request} (hs : takeRequest c s r = .ok s') : s'.preCalls = s.preCalls := by
  unfold takeRequest at hs
  split at hs
  · simp only [Res.ok.injEq] at hs; subst hs; rfl
  · split at hs
    · simp only [Res.ok.injEq] at hs; subst hs; rfl
    · split at hs
      · simp only [Res.ok.injEq] at hs; subst hs; rfl
      · split at hs
        · simp only [Res.ok.injEq] at hs; subst hs
          unfold startH
          repeat' split
          all_goals rfl
        · unfold begunH at hs
          repeat' split at hs
          · simp only [Res.ok.injEq] at hs; subst hs; rfl
          · obtain ⟨t, _, rfl⟩ := trk_ok.1 hs; rfl
          · simp only [Res.ok.injEq] at hs; subst hs; rfl
        · simp only [Res.ok.injEq] at hs; subst hs
          unfold endH
          repeat' split
          all_goals rfl
        · unfold pingH at hs
          split at hs
          · simp only [Res.ok.injEq] at hs; subst hs; rfl
          · obtain ⟨_, _, hs⟩ := Res.bind_ok.1 hs
            simp only [Res.ok.injEq] at hs; subst hs; rfl
        · simp only [Res.ok.injEq] at hs; subst hs; rfl
        · cases hs

theorem bal_step {a : Act} (hs : step c s a = .ok s') (v : Nat) : Bal s s' v := by
  have hob : (∀ k, trackerAct c s a ≠ [.account k]) → s'.tr.obtained = s.tr.obtained := by
    intro h
    rcases step_tr hs with ⟨e, _⟩ | ⟨b, hb, hst, _⟩
    · rw [e]
    · exact obtained_same hst (fun k e => h k (by rw [hb, e]))
  cases a with
  | request r =>
    have ho : s'.tr.obtained = s.tr.obtained := hob (by
      intro k h
      simp only [trackerAct] at h
      repeat' split at h
      all_goals simp at h)
    simp only [step] at hs
    split at hs
    · cases hs
    · obtain ⟨x, hx, hadd⟩ := takeRequest_handlers hs
      unfold Bal early
      rw [takeRequest_pre hs, takeRequest_loops hs, hx, ho, List.flatMap_append, List.count_append]
      have : ([x].flatMap earlyH).count v = 0 := by cases hadd <;> simp [earlyH]
      omega
  | server b =>
    have ho : s'.tr.obtained = s.tr.obtained := hob (by
      intro k h
      simp only [trackerAct, List.cons.injEq, and_true] at h
      subst h
      simp [step, serverAct] at hs)
    simp only [step] at hs
    split at hs
    · obtain ⟨t, _, rfl⟩ := trk_ok.1 hs; exact bal_same rfl rfl rfl ho
    · cases hs
  | loopGot i k =>
    simp only [step] at hs
    split at hs
    · rename_i r it hi hk
      split at hs
      · obtain ⟨t, ht, rfl⟩ := trk_ok.1 hs
        have := account_obtained hk ht
        refine bal_loop (p := []) (o := [it.id]) hi rfl rfl (by simp [setLoop]) ?_ ?_
        · simp [setLoop, this]
        · simp [earlyL]
      · cases hs
    · cases hs
  | hGot i k =>
    simp only [step] at hs
    split at hs
    · rename_i r it hi hk
      split at hs
      · obtain ⟨t, ht, rfl⟩ := trk_ok.1 hs
        have := account_obtained hk ht
        refine bal_handler (p := []) hi rfl rfl (by simp [setH]) (by simp [setH, this]; rfl) ?_
        simp [earlyH]
      · cases hs
    · cases hs
  | loopSpawn i ok =>
    simp only [step] at hs
    split at hs
    · rename_i w hi
      split at hs
      · simp only [Res.ok.injEq] at hs; subst hs
        cases ok
        · exact bal_loop (p := [w]) (o := []) hi rfl rfl rfl (by simp [setLoop]) (by simp [earlyL])
        · exact bal_loop (p := [w]) (o := []) hi rfl rfl rfl (by simp [setLoop]) (by simp [earlyL])
      · cases hs
    · cases hs
  | loopDie i =>
    simp only [step] at hs
    split at hs
    · rename_i w hw
      obtain ⟨l, hi, hm⟩ := Option.bind_eq_some_iff.1 hw
      simp only [Res.ok.injEq] at hs; subst hs
      cases l <;> simp only [mayDie] at hm <;> try (cases hm; done)
      all_goals (split at hm <;> cases hm)
      · exact bal_loop (p := [w]) (o := []) (l' := .dead w) hi (by simp [setLoop, hi]) (by simp [setLoop, hi]) (by simp [setLoop, hi])
          (by simp [setLoop, hi]) (by simp [earlyL])
      · exact bal_loop (p := []) (o := []) (l' := .dead w) hi (by simp [setLoop, hi]) (by simp [setLoop, hi]) (by simp [setLoop, hi])
          (by simp [setLoop, hi]) (by simp [earlyL])
      · exact bal_loop (p := []) (o := []) (l' := .dead w) hi (by simp [setLoop, hi]) (by simp [setLoop, hi]) (by simp [setLoop, hi])
          (by simp [setLoop, hi]) (by simp [earlyL])
    · cases hs
  | hTimer i txn =>
    simp only [step] at hs
    split at hs
    · rename_i w j hi
      obtain ⟨_, _, hs⟩ := Res.bind_ok.1 hs
      simp only [Res.ok.injEq] at hs; subst hs
      exact bal_handler (p := [w]) (o := []) hi rfl rfl rfl (by simp [setH]) (by simp [earlyH])
    · cases hs
  | hDie i =>
    simp only [step] at hs
    split at hs
    · rename_i w j hi
      split at hs
      · simp only [Res.ok.injEq] at hs; subst hs
        exact bal_handler (p := [w]) (o := []) hi rfl rfl rfl (by simp [setH]) (by simp [earlyH])
      · cases hs
    · cases hs
  | hReport i =>
    have ho : s'.tr.obtained = s.tr.obtained := hob (by
      intro k h
      simp only [trackerAct] at h
      repeat' split at h
      all_goals simp at h)
    simp only [step] at hs
    split at hs
    · rename_i conn code values next hi
      obtain ⟨t, _, rfl⟩ := trk_ok.1 hs
      refine bal_handler (p := []) (o := []) hi rfl rfl (by simp [setH]) (by simp [ho]) ?_
      cases next <;> simp [earlyH]
    · cases hs
  | _ =>
    have ho : s'.tr.obtained = s.tr.obtained := hob (by
      intro k h
      simp only [trackerAct] at h
      repeat' split at h
      all_goals simp at h)
    simp only [step] at hs
    repeat' split at hs
    all_goals first
      | cases hs; done
      | (simp only [Res.ok.injEq] at hs; subst hs; first
          | exact bal_same rfl rfl rfl ho
          | (refine bal_loop (p := []) (o := []) (by assumption) rfl rfl (by simp [setLoop]) (by simp [ho]) (by simp [earlyL]); done)
          | (refine bal_handler (p := []) (o := []) (by assumption) rfl rfl (by simp [setH]) (by simp [ho]) (by simp [earlyH]); done))
      | (obtain ⟨t, _, rfl⟩ := trk_ok.1 hs; first
          | exact bal_same rfl rfl rfl ho
          | (refine bal_loop (p := []) (o := []) (by assumption) rfl rfl (by simp [setLoop]) (by simp [ho]) (by simp [earlyL]); done)
          | (refine bal_handler (p := []) (o := []) (by assumption) rfl rfl (by simp [setH]) (by simp [ho]) (by simp [earlyH]); done))

theorem preCalls_balance {as : List Act} (hr : Runs c (init c lf now) as s) (v : Nat) :
    s.preCalls.count v + early s v = (s.tr.obtained.map (·.2)).count v := by
  refine Runs.snocInd (P := fun _ s => s.preCalls.count v + early s v = (s.tr.obtained.map (·.2)).count v) ?_ ?_ hr
  · have : (init c lf now).loops.flatMap earlyL = [] := by
      simp only [init]
      split
      · rfl
      · simp [List.flatMap_replicate, earlyL]
    unfold early
    rw [this]
    simp [init, Tracker.init]
  · intro as s a s' hr ih hp hs
    have := bal_step hs v
    unfold Bal at this
    omega

theorem early_unstarted (s : State) (v : Nat) : early s v ≤ (unstarted s).count v := by
  rw [unstarted_count]
  have h1 : (s.loops.flatMap earlyL).count v ≤ (s.loops.flatMap unL).count v :=
    count_flatMap_le (fun l => by cases l <;> simp [earlyL, unL]) _
  have h2 : (s.handlers.flatMap earlyH).count v ≤ (s.handlers.flatMap unH).count v :=
    count_flatMap_le (fun l => by cases l <;> simp [earlyH, unH]) _
  unfold early
  omega

/-- Every start report goes with one preamble call and no task is reported as started twice. -/
theorem tracker_preambles {tc : Tracker.Cfg} {t : Tracker.State} {as : List Tracker.Act}
    (hr : Tracker.Runs tc (Tracker.init tc lf now) as t) : t.preambles = t.startedSent ∧ t.startedSent.Nodup := by
  refine Tracker.Runs.snocInd (P := fun _ t => t.preambles = t.startedSent ∧ t.startedSent.Nodup) ?_ ?_ hr
  · simp [Tracker.init]
  · intro as t a t' hr ih hd hs
    have calm : Calm t t' → t'.preambles = t'.startedSent ∧ t'.startedSent.Nodup := by
      intro h; rw [h.preambles, h.sent]; exact ih
    by_cases ha : serverAct a = true
    · exact calm (server_calm ha hs)
    · cases a with
      | cancel k => simp only [Tracker.step, Res.ok.injEq] at hs; subst hs; exact ih
      | enter r => exact calm (enter_calm hs)
      | leave r => exact calm (leave_calm hs)
      | joinDone => exact calm (joinDone_calm hs)
      | sendStarted id host pid jobid =>
        simp only [Tracker.step] at hs
        split at hs
        · cases hs
        · simp only [Res.ok.injEq] at hs; subst hs
          simp only [disciplined, Bool.and_eq_true, decide_eq_true_eq] at hd
          refine ⟨by simp only [ih.1], ?_⟩
          rw [List.nodup_append]
          exact ⟨ih.2, by simp, by
            intro x hx y hy e
            rw [List.mem_singleton] at hy
            rw [e, hy] at hx
            exact hd.2 hx⟩
      | sendFinished e =>
        simp only [Tracker.step] at hs
        split at hs
        · cases hs
        · simp only [Res.ok.injEq] at hs; subst hs; exact ih
      | account i =>
        simp only [Tracker.step] at hs
        split at hs
        · cases hs
        · split at hs
          · cases hs
          · simp only [Res.ok.injEq] at hs; subst hs; exact ih
      | lose v =>
        simp only [Tracker.step] at hs
        split at hs
        · cases hs
        · simp only [Res.ok.injEq] at hs; subst hs; exact ih
      | _ => exact absurd rfl ha

theorem preamble_calls (hg : Good c.tr) {as : List Act} (hr : Runs c (init c lf now) as s) (v : Nat) :
    (v ∈ s.tr.startedSent → (preambleCalls s).count v = 2) ∧ (v ∉ s.tr.startedSent → (preambleCalls s).count v ≤ 1) := by
  obtain ⟨h1, h2⟩ := tracker_preambles (hr.toInit hg)
  have hinv := Reachable.inv hg ⟨as, hr⟩
  have h3 := preCalls_balance hr v
  have h4 := early_unstarted s v
  have hnd := hinv.reach.obtained_nodup hg
  have h5 := List.nodup_iff_count.1 hnd v
  unfold preambleCalls
  rw [List.count_append, h1]
  refine ⟨fun hv => ?_, fun hv => ?_⟩
  · have h6 := List.nodup_iff_count.1 h2 v
    have h7 := List.count_pos_iff.2 hv
    have h8 : ¬ 0 < (unstarted s).count v := fun h => hinv.live.fresh v h hv
    have h9 : 0 < (s.tr.obtained.map (·.2)).count v := List.count_pos_iff.2 (hinv.live.sent v hv)
    omega
  · rw [List.count_eq_zero_of_not_mem hv]
    omega

/-! ### Slurm jobs -/

theorem mem_of_lookup {l : List (Nat × Conn)} {k : Nat} {x : Conn} (h : l.lookup k = some x) : (k, x) ∈ l := by
  induction l with
  | nil => simp at h
  | cons y l ih =>
    obtain ⟨k', y⟩ := y
    simp only [List.lookup_cons] at h
    split at h
    · rename_i hk
      have : k = k' := by simpa using hk
      cases h; subst this
      exact List.mem_cons_self
    · exact List.mem_cons_of_mem _ (ih h)

theorem takeRequest_jobs {r : Request} (hs : takeRequest c s r = .ok s') : (∃ l, s'.cancelledJobs = s.cancelledJobs ++ l) ∧
    ∀ x ∈ s'.conns, ∃ y ∈ s.conns, y.2.jobid = x.2.jobid := by
  have keep : ∀ {s1 : State}, s1.cancelledJobs = s.cancelledJobs → s1.conns = s.conns →
      (∃ l, s1.cancelledJobs = s.cancelledJobs ++ l) ∧ ∀ x ∈ s1.conns, ∃ y ∈ s.conns, y.2.jobid = x.2.jobid :=
    fun h1 h2 => ⟨⟨[], by simp [h1]⟩, fun x hx => ⟨x, h2 ▸ hx, rfl⟩⟩
  have mod : ∀ (txn : Nat) (f : Conn → Conn) (x : Nat × Conn), (∀ y, (f y).jobid = y.jobid) → x ∈ modifyKey txn f s.conns →
      ∃ y ∈ s.conns, y.2.jobid = x.2.jobid := by
    intro txn f x hf hx
    obtain ⟨y, hy, rfl⟩ := List.mem_map.1 hx
    refine ⟨y, hy, ?_⟩
    split
    · exact (hf _).symm
    · rfl
  unfold takeRequest at hs
  split at hs
  · simp only [Res.ok.injEq] at hs; subst hs; exact keep rfl rfl
  · split at hs
    · simp only [Res.ok.injEq] at hs; subst hs; exact keep rfl rfl
    · split at hs
      · simp only [Res.ok.injEq] at hs; subst hs; exact keep rfl rfl
      · split at hs
        · simp only [Res.ok.injEq] at hs; subst hs
          unfold startH
          repeat' split
          all_goals exact keep rfl rfl
        · unfold begunH at hs
          repeat' split at hs
          · simp only [Res.ok.injEq] at hs; subst hs; exact keep rfl rfl
          · obtain ⟨t, _, rfl⟩ := trk_ok.1 hs
            exact ⟨⟨[], by simp [reply]⟩, fun x hx => by
              simp only [reply] at hx
              refine mod _ _ x ?_ hx
              intros; rfl⟩
          · simp only [Res.ok.injEq] at hs; subst hs; exact keep rfl rfl
        · simp only [Res.ok.injEq] at hs; subst hs
          unfold endH
          repeat' split
          · exact keep rfl rfl
          · exact ⟨⟨[], by simp [reply]⟩, fun x hx => ⟨x, (List.mem_filter.1 hx).1, rfl⟩⟩
          · exact ⟨⟨[], by simp⟩, fun x hx => ⟨x, (List.mem_filter.1 hx).1, rfl⟩⟩
          · exact keep rfl rfl
        · unfold pingH at hs
          split at hs
          · simp only [Res.ok.injEq] at hs; subst hs; exact keep rfl rfl
          · obtain ⟨_, _, hs⟩ := Res.bind_ok.1 hs
            simp only [Res.ok.injEq] at hs; subst hs
            exact ⟨⟨[], by simp [reply]⟩, fun x hx => by
              simp only [reply] at hx
              refine mod _ _ x ?_ hx
              intros; rfl⟩
        · simp only [Res.ok.injEq] at hs; subst hs
          exact ⟨⟨_, rfl⟩, fun x hx => ⟨x, hx, rfl⟩⟩
        · cases hs

theorem step_jobs {a : Act} (hs : step c s a = .ok s') : (∃ l, s'.cancelledJobs = s.cancelledJobs ++ l) ∧
    ∀ x ∈ s'.conns, (∃ y ∈ s.conns, y.2.jobid = x.2.jobid) ∨ ∃ v txn tm, (Handler.timed v x.2.jobid txn tm) ∈ s.handlers := by
  have keep : ∀ {s1 : State}, s1.cancelledJobs = s.cancelledJobs → (∀ x ∈ s1.conns, x ∈ s.conns) →
      (∃ l, s1.cancelledJobs = s.cancelledJobs ++ l) ∧ ∀ x ∈ s1.conns, (∃ y ∈ s.conns, y.2.jobid = x.2.jobid) ∨
        ∃ v txn tm, (Handler.timed v x.2.jobid txn tm) ∈ s.handlers :=
    fun h1 h2 => ⟨⟨[], by simp [h1]⟩, fun x hx => .inl ⟨x, h2 x hx, rfl⟩⟩
  have dk : ∀ {txn : Nat} (x : Nat × Conn), x ∈ dropKey txn s.conns → x ∈ s.conns := fun x hx => (List.mem_filter.1 hx).1
  cases a with
  | request r =>
    simp only [step] at hs
    split at hs
    · cases hs
    · obtain ⟨h1, h2⟩ := takeRequest_jobs hs
      exact ⟨h1, fun x hx => .inl (h2 x hx)⟩
  | server a =>
    simp only [step] at hs
    split at hs
    · obtain ⟨t, _, rfl⟩ := trk_ok.1 hs; exact keep rfl (fun _ h => h)
    · cases hs
  | hTimer h txn =>
    simp only [step] at hs
    split at hs
    · obtain ⟨_, _, hs⟩ := Res.bind_ok.1 hs
      simp only [Res.ok.injEq] at hs; subst hs; exact keep rfl (fun _ h => h)
    · cases hs
  | hInsert h =>
    simp only [step] at hs
    split at hs
    · rename_i v j txn tm hi
      simp only [Res.ok.injEq] at hs; subst hs
      refine ⟨⟨[], by simp [setH]⟩, fun x hx => ?_⟩
      rcases List.mem_append.1 hx with h | h
      · exact .inl ⟨x, dk x h, rfl⟩
      · rw [List.mem_singleton] at h
        subst h
        exact .inr ⟨v, txn, tm, List.mem_of_getElem? hi⟩
    · cases hs
  | loopDie i =>
    simp only [step] at hs
    split at hs
    · simp only [Res.ok.injEq] at hs; subst hs
      refine keep ?_ ?_
      · simp only [setLoop]; split <;> rfl
      · simp only [setLoop]; split <;> exact fun _ h => h
    · cases hs
  | reapRemove =>
    simp only [step] at hs
    repeat' split at hs
    all_goals first
      | cases hs; done
      | (simp only [Res.ok.injEq] at hs; subst hs; exact keep rfl (fun _ h => h))
      | (simp only [Res.ok.injEq] at hs; subst hs; exact keep rfl dk)
  | _ =>
    simp only [step] at hs
    repeat' split at hs
    all_goals first
      | cases hs; done
      | (simp only [Res.ok.injEq] at hs; subst hs; exact keep rfl (fun _ h => h))
      | (obtain ⟨t, _, rfl⟩ := trk_ok.1 hs; exact keep rfl (fun _ h => h))

theorem worksFor_move {h : Nat} {a : Act} {x x' : Handler} (hm : HMoves c s h a x x') {j : String} (hx : worksFor j x = false) :
    worksFor j x' = false := by
  cases hm <;> first | rfl | exact hx

/-- Nothing is under way for job `j` and it is marked as cancelled. -/
structure JobOver (j : String) (s : State) : Prop where
  marked : j ∈ s.cancelledJobs
  noConn : ∀ x ∈ s.conns, x.2.jobid ≠ j
  noHandler : ∀ x ∈ s.handlers, worksFor j x = false

theorem JobOver.step {j : String} (h : JobOver j s) {a : Act} (hs : Sys.step c s a = .ok s') : JobOver j s' := by
  obtain ⟨⟨l, h1⟩, h2⟩ := step_jobs hs
  refine ⟨by rw [h1]; exact List.mem_append_left _ h.marked, ?_, ?_⟩
  · intro x hx e
    rcases h2 x hx with ⟨y, hy, hye⟩ | ⟨v, txn, tm, hy⟩
    · exact h.noConn y hy (hye.trans e)
    · have := h.noHandler _ hy
      simp [worksFor, e] at this
  · intro x hx
    rcases step_handlers hs with e | ⟨r, y, rfl, e, hadd⟩ | ⟨i, y, y', hi, e, hm⟩
    · exact h.noHandler x (e ▸ hx)
    · rw [e] at hx
      rcases List.mem_append.1 hx with hx | hx
      · exact h.noHandler x hx
      · rw [List.mem_singleton] at hx
        subst hx
        cases hadd with
        | done => rfl
        | start rt j' _ hn =>
          simp only [worksFor, beq_eq_false_iff_ne, ne_eq]
          rintro rfl
          exact hn h.marked
        | ending txn conn code values next _ hl =>
          simp only [worksFor, beq_eq_false_iff_ne, ne_eq]
          have := mem_of_lookup hl
          exact h.noConn _ this
    · rw [e] at hx
      rcases List.mem_or_eq_of_mem_set hx with hx | rfl
      · exact h.noHandler x hx
      · exact worksFor_move hm (h.noHandler y (List.mem_of_getElem? hi))

theorem JobOver.later {j : String} (h : JobOver j s) {as : List Act} (hr : Runs c s as s') : JobOver j s' := by
  induction hr with
  | nil => exact h
  | cons _ hs _ ih => exact ih (h.step hs)

/-- Then at least as many tasks have failed within 5 s in the whole run. -/
theorem TooManyFailuresAt.quick {as : List Act} (hr : Runs c (init c lf now) as s) {T : Int}
    (h : TooManyFailuresAt c (init c lf now) as T) :
    c.tr.fizzlesAllowed ≤ quickFailures c.tr [] (Tracker.init c.tr lf now) (toTracker c (init c lf now) as) := by
  obtain ⟨as1, a, as2, s1, e, h1, _, _, h4⟩ := h
  have hmono : ∀ {t : Tracker.State} {xs ys : List Tracker.Act} (times : List (Nat × Int)),
      quickFailures c.tr times t xs ≤ quickFailures c.tr times t (xs ++ ys) := by
    intro t xs
    induction xs generalizing t with
    | nil => intro ys times; exact Nat.zero_le _
    | cons x xs ih =>
      intro ys times
      simp only [quickFailures, List.cons_append]
      cases Tracker.step c.tr t x with
      | ok t1 => exact Nat.add_le_add_left (ih _) _
      | _ => exact Nat.le_refl _
  have hpre : ∃ ys, toTracker c (init c lf now) as = toTracker c (init c lf now) (as1 ++ [a]) ++ ys := by
    have e' : as = (as1 ++ [a]) ++ as2 := by rw [e]; simp
    have hr' := hr
    rw [e'] at hr'
    have split : ∀ {xs ys : List Act} {s0 s2 : State}, Runs c s0 (xs ++ ys) s2 → ∃ s1, Runs c s0 xs s1 := by
      intro xs
      induction xs with
      | nil => intro ys s0 s2 _; exact ⟨s0, .nil _⟩
      | cons x xs ih =>
        intro ys s0 s2 h
        cases h with
        | cons hp hs h =>
          obtain ⟨s1, h1⟩ := ih h
          exact ⟨s1, .cons hp hs h1⟩
    obtain ⟨s2, h2⟩ := split hr'
    exact ⟨_, by rw [e']; exact toTracker_append h2⟩
  obtain ⟨ys, hy⟩ := hpre
  rw [hy]
  have := hmono (t := Tracker.init c.tr lf now) (xs := toTracker c (init c lf now) (as1 ++ [a])) (ys := ys) []
  have h4' : c.tr.fizzlesAllowed ≤ quickFailures c.tr [] (Tracker.init c.tr lf now) (toTracker c (init c lf now) (as1 ++ [a])) := h4
  omega

end Verif.Sys
