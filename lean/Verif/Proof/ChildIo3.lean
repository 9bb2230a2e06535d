import Verif.Proof.ChildIo2

/-!
# Input and output of local tasks: the end of a task
-/

namespace Verif.ChildIo
open Verif Verif.Fd3

variable {P : Type} {c : Cfg P} {s s' : State P} {as : List Act} {a : Act}

/-! ### after all processes have ended -/

theorem procs_nil (hs : step c s a = .ok s') (h : s.procs = []) : s'.procs = [] := by
  cases hp : s'.procs with
  | nil => rfl
  | cons q l =>
    obtain ⟨p, hmem, _⟩ := procs_step hs q (by rw [hp]; exact List.mem_cons_self ..)
    rw [h] at hmem; cases hmem

theorem able_nil (h : s.procs = []) (ha : Able c s) : ∃ a s', parent a = true ∧ outside a = false ∧ step c s a = .ok s' := by
  obtain ⟨a, s', ho, hs⟩ := ha
  refine ⟨a, s', ?_, ho, hs⟩
  cases a with
  | run i => simp only [step, h] at hs; simp at hs
  | kill i sig => cases ho
  | _ => rfl

/-- The loop can go on to the end by itself when all processes have ended. -/
theorem comes_to_end (hcap : 1 ≤ c.cap) : ∀ n (as : List Act) (s : State P), todo s ≤ n → Runs c (init c) as s → s.procs = [] →
    ∃ bs s', Runs c s bs s' ∧ (∀ a ∈ bs, parent a = true ∧ outside a = false) ∧ over s'.stage = true := by
  intro n
  induction n with
  | zero =>
    intro as s hn hr hp
    cases ho : over s.stage with
    | true => exact ⟨[], s, .nil _, by simp, ho⟩
    | false =>
      have : Able c s := Classical.byContradiction fun hna => by
        have := ((stuck_iff hcap hr.inv ho).1 hna).2.1
        rw [hp] at this; cases this
      obtain ⟨a, s', h1, h2, hs⟩ := able_nil hp this
      have := todo_parent hs h1
      omega
  | succ n ih =>
    intro as s hn hr hp
    cases ho : over s.stage with
    | true => exact ⟨[], s, .nil _, by simp, ho⟩
    | false =>
      have : Able c s := Classical.byContradiction fun hna => by
        have := ((stuck_iff hcap hr.inv ho).1 hna).2.1
        rw [hp] at this; cases this
      obtain ⟨a, s', h1, h2, hs⟩ := able_nil hp this
      have := todo_parent hs h1
      obtain ⟨bs, s'', h3, h4, h5⟩ := ih _ s' (by omega) (hr.snoc hs) (procs_nil hs hp)
      refine ⟨a :: bs, s'', .cons hs h3, ?_, h5⟩
      intro b hb
      rcases List.mem_cons.1 hb with rfl | hb
      · exact ⟨h1, h2⟩
      · exact h4 b hb

/-! ### the child does not outlive the loop body -/

theorem over_status (hr : Runs c (init c) as s) (ho : over s.stage = true) : s.status.isSome = true := by
  refine Runs.snocInd (Q := fun _ s => over s.stage = true → s.status.isSome = true) ?_ ?_ hr ho
  · intro h
    cases hi : c.input <;> simp [init, hi, over] at h
  · intro as s a s' hr ih hs ho
    have h1 := hr.inv.one
    have hk : ∀ x, (killChild { s with stage := x }).status.isSome = true := by
      intro x
      unfold killChild
      split
      · rfl
      · rename_i hi
        have : s.procs.countP (·.child) = 0 := by
          rw [List.countP_eq_zero]
          rw [List.findIdx?_eq_none_iff] at hi
          intro p hp
          simp [hi p hp]
        rw [this] at h1
        simp only
        cases hst : s.status with
        | none => rw [hst] at h1; simp at h1
        | some st => rfl
    cases a with
    | feed =>
      simp only [step] at hs
      repeat' split at hs
      all_goals first
        | (cases hs; done)
        | (simp only [Res.ok.injEq] at hs; subst hs; first | (cases ho; done) | exact hk _)
    | cancel =>
      simp only [step] at hs
      split at hs
      · simp only [Res.ok.injEq] at hs; subst hs; exact hk _
      · cases hs
    | run i =>
      have e := (stage_run hs).1
      rw [e] at ho
      have hih := ih ho
      simp only [step] at hs
      split at hs
      · simp only [runProc] at hs
        repeat' split at hs
        all_goals first
          | (cases hs; done)
          | (simp only [Res.ok.injEq] at hs; subst hs; first | exact hih | (simp only [endProc]; split <;> first | rfl | exact hih))
      · cases hs
    | kill i sig =>
      simp only [step] at hs
      split at hs
      · simp only [Res.ok.injEq] at hs; subst hs
        simp only [endProc] at ho ⊢
        split
        · rfl
        · exact ih ho
      · cases hs
    | finish =>
      simp only [step] at hs
      split at hs
      · rename_i st _ hst
        split at hs
        · simp only [Res.ok.injEq] at hs; subst hs
          simp only [hst]; rfl
        · cases hs
      · cases hs
    | _ =>
      simp only [step] at hs
      repeat' split at hs
      all_goals first
        | (cases hs; done)
        | (simp only [Res.ok.injEq] at hs; subst hs; first | (cases ho; done) | exact ih ho)

theorem over_child (hr : Runs c (init c) as s) (ho : over s.stage = true) : ∀ p ∈ s.procs, p.child = false := by
  have h1 := hr.inv.one
  have h2 := over_status hr ho
  intro p hp
  cases hst : s.status with
  | none => rw [hst] at h2; cases h2
  | some st =>
    rw [hst] at h1
    simp only [Option.toList, List.length_cons, List.length_nil] at h1
    have h0 : s.procs.countP (·.child) = 0 := by omega
    rw [List.countP_eq_zero] at h0
    simpa using h0 p hp

/-! ### processes that keep an end of a pipe -/

/-- A step of another process does not change this one. -/
theorem other_stays {i j : Nat} {p : Proc P} (hs : step c s (.run j) = .ok s') (hij : j ≠ i) (hp : s.procs[i]? = some p) : p ∈ s'.procs := by
  have set : ∀ q, p ∈ s.procs.set j q := by
    intro q
    refine List.mem_of_getElem? (i := i) ?_
    rw [List.getElem?_set_ne hij]; exact hp
  have erase : p ∈ s.procs.eraseIdx j := List.mem_eraseIdx_iff_getElem?.2 ⟨i, fun e => hij e.symm, hp⟩
  simp only [step] at hs
  split at hs
  · simp only [runProc] at hs
    repeat' split at hs
    all_goals first
      | (cases hs; done)
      | (simp only [Res.ok.injEq] at hs; subst hs; first | exact set _ | exact erase | exact List.mem_append_left _ (set _))
  · cases hs

theorem set_mem {i : Nat} {p q : Proc P} (hp : s.procs[i]? = some p) : q ∈ s.procs.set i q := by
  obtain ⟨hi, _⟩ := List.getElem?_eq_some_iff.1 hp
  exact List.mem_of_getElem? (i := i) (by rw [List.getElem?_set_self hi])

/-- Steps of the parent that are not the end keep the processes. -/
theorem parent_procs (hs : step c s a = .ok s') (ha : parent a = true) (ho : reading s'.stage = true) : s'.procs = s.procs := by
  cases a with
  | run i => cases ha
  | kill i sig => cases ha
  | feed =>
    simp only [step] at hs
    repeat' split at hs
    all_goals first
      | (cases hs; done)
      | (simp only [Res.ok.injEq] at hs; subst hs; rfl)
      | (simp only [Res.ok.injEq] at hs
         have := (kill_stage { s with stage := .panicked }).1
         rw [hs] at this; rw [this] at ho; cases ho)
  | cancel =>
    simp only [step] at hs
    split at hs
    · simp only [Res.ok.injEq] at hs
      have := (kill_stage { s with stage := .cancelled }).1
      rw [hs] at this; rw [this] at ho; cases ho
    · cases hs
  | _ =>
    simp only [step] at hs
    repeat' split at hs
    all_goals first
      | (cases hs; done)
      | (simp only [Res.ok.injEq] at hs; subst hs; rfl)

/-- A process that keeps `o` open is still there as long as the parent reads. -/
theorem holder_stays {o : Out} {R : P → Prop} (hk : KeepsOpen c o R) (hpi : c.piped o = true) (hstart : R c.start)
    (hr : Runs c (init c) as s) (hno : ∀ a ∈ as, isKill a = false) :
    (∀ st bytes, s.stage ≠ .ended st bytes) ∧ (reading s.stage = true → ∃ p ∈ s.procs, R p.state ∧ p.holds o = true) := by
  refine Runs.snocInd (Q := fun as s => (∀ a ∈ as, isKill a = false) → (∀ st bytes, s.stage ≠ .ended st bytes) ∧
    (reading s.stage = true → ∃ p ∈ s.procs, R p.state ∧ p.holds o = true)) ?_ ?_ hr hno
  · intro _
    refine ⟨?_, fun _ => ⟨_, List.mem_singleton.2 rfl, hstart, hpi⟩⟩
    intro st bytes h
    cases hi : c.input <;> simp [init, hi] at h
  · intro as s a s' hr ih hs hno
    obtain ⟨ih1, ih2⟩ := ih (fun a h => hno a (List.mem_append_left _ h))
    have hna : isKill a = false := hno a (by simp)
    cases hpa : parent a with
    | true =>
      constructor
      · intro st bytes hst
        cases a with
        | finish =>
          simp only [step] at hs
          split at hs
          · rename_i st' hst' _
            split at hs
            · rename_i hc
              simp only [Bool.and_eq_true, List.all_eq_true] at hc
              have h1 := hc.2 o (by cases o <;> simp [outs])
              rw [hpi] at h1
              simp only [Bool.not_true, Bool.false_or] at h1
              obtain ⟨p, hp, _, hh⟩ := ih2 (by rw [hst']; rfl)
              rw [(hr.inv.eof o h1).2 p hp] at hh
              cases hh
            · cases hs
          · cases hs
        | run i => cases hpa
        | kill i sig => cases hpa
        | feed =>
          simp only [step] at hs
          repeat' split at hs
          all_goals first
            | (cases hs; done)
            | (simp only [Res.ok.injEq] at hs; subst hs; cases hst; done)
            | (simp only [Res.ok.injEq] at hs
               have := (kill_stage { s with stage := .panicked }).1
               rw [hs] at this; rw [this] at hst; cases hst)
        | cancel =>
          simp only [step] at hs
          split at hs
          · simp only [Res.ok.injEq] at hs
            have := (kill_stage { s with stage := .cancelled }).1
            rw [hs] at this; rw [this] at hst; cases hst
          · cases hs
        | _ =>
          simp only [step] at hs
          repeat' split at hs
          all_goals first
            | (cases hs; done)
            | (simp only [Res.ok.injEq] at hs; subst hs; first | (cases hst; done) | exact ih1 _ _ hst)
      · intro hre
        rw [parent_procs hs hpa hre]
        refine ih2 ?_
        cases h : reading s.stage with
        | true => rfl
        | false =>
          cases a <;> first
            | (cases hpa; done)
            | (simp only [step] at hs <;> (repeat' split at hs) <;> simp_all [reading])
    | false =>
      cases a with
      | kill i sig => cases hna
      | run j =>
        have e := (stage_run hs).1
        rw [e]
        refine ⟨ih1, fun hre => ?_⟩
        obtain ⟨p, hp, hR, hh⟩ := ih2 hre
        obtain ⟨i, hi⟩ := List.getElem?_of_mem hp
        by_cases hij : j = i
        · subst hij
          have hkp := hk _ hR
          simp only [step, hi, runProc] at hs
          split at hs <;> rename_i hop <;> rw [hop] at hkp <;> simp only at hkp
          · rw [hre] at hs
            simp only [if_true] at hs
            repeat' split at hs
            all_goals first
              | (cases hs; done)
              | (simp only [Res.ok.injEq] at hs; subst hs; exact ⟨_, set_mem hi, hkp, hh⟩)
          · repeat' split at hs
            all_goals first
              | (cases hs; done)
              | (simp only [Res.ok.injEq] at hs; subst hs; exact ⟨_, set_mem hi, hkp _, hh⟩)
          · simp only [Res.ok.injEq] at hs; subst hs
            exact ⟨_, set_mem hi, hkp.2, by simp only; rw [if_neg (fun e => hkp.1 e.symm)]; exact hh⟩
          · simp only [Res.ok.injEq] at hs; subst hs
            exact ⟨_, set_mem hi, hkp, hh⟩
          · simp only [Res.ok.injEq] at hs; subst hs
            rcases hkp with hkp | hkp
            · exact ⟨_, List.mem_append_left _ (set_mem hi), hkp, hh⟩
            · exact ⟨_, List.mem_append_right _ (List.mem_singleton.2 rfl), hkp, hh⟩
          · simp only [Res.ok.injEq] at hs; subst hs
            exact ⟨_, set_mem hi, hkp, hh⟩
        · exact ⟨p, other_stays hs hij hi, hR, hh⟩
      | _ => cases hpa

/-- A process that reads its input to the end is still there as long as the parent writes. -/
theorem reader_stays {R : P → Prop} (hk : ReadsAll c R) (hstart : R c.start)
    (hr : Runs c (init c) as s) (hno : ∀ a ∈ as, isKill a = false) :
    s.stage ≠ .panicked ∧ (writing s.stage = true → ∃ p ∈ s.procs, R p.state ∧ p.input = true) := by
  refine Runs.snocInd (Q := fun as s => (∀ a ∈ as, isKill a = false) → s.stage ≠ .panicked ∧
    (writing s.stage = true → ∃ p ∈ s.procs, R p.state ∧ p.input = true)) ?_ ?_ hr hno
  · intro _
    refine ⟨?_, fun hw => ⟨_, List.mem_singleton.2 rfl, hstart, ?_⟩⟩
    · intro h
      cases hi : c.input <;> simp [init, hi] at h
    · cases hi : c.input <;> simp [init, hi, writing] at hw ⊢
  · intro as s a s' hr ih hs hno
    obtain ⟨ih1, ih2⟩ := ih (fun a h => hno a (List.mem_append_left _ h))
    have hna : isKill a = false := hno a (by simp)
    cases hpa : parent a with
    | true =>
      constructor
      · intro hst
        cases a with
        | run i => cases hpa
        | kill i sig => cases hpa
        | feed =>
          simp only [step] at hs
          split at hs
          · rename_i hst'
            obtain ⟨p, hp, _, hin⟩ := ih2 (by rw [hst']; rfl)
            rw [if_pos (List.any_eq_true.2 ⟨p, hp, hin⟩)] at hs
            split at hs
            · simp only [Res.ok.injEq] at hs; subst hs; cases hst
            · cases hs
          · cases hs
        | cancel =>
          simp only [step] at hs
          split at hs
          · simp only [Res.ok.injEq] at hs
            have := (kill_stage { s with stage := .cancelled }).1
            rw [hs] at this; rw [this] at hst; cases hst
          · cases hs
        | _ =>
          simp only [step] at hs
          repeat' split at hs
          all_goals first
            | (cases hs; done)
            | (simp only [Res.ok.injEq] at hs; subst hs; first | (cases hst; done) | exact ih1 hst)
      · intro hre
        have hre' : reading s'.stage = true := by
          cases h : s'.stage <;> rw [h] at hre <;> first | rfl | cases hre
        rw [parent_procs hs hpa hre']
        refine ih2 ?_
        cases h : writing s.stage with
        | true => rfl
        | false =>
          exfalso
          have hk1 := (kill_stage { s with stage := .panicked }).1
          have hk2 := (kill_stage { s with stage := .cancelled }).1
          cases a <;> simp only [step] at hs <;> (repeat' split at hs) <;> first
            | (cases hs; done)
            | (cases hpa; done)
            | (simp only [Res.ok.injEq] at hs; subst hs; simp_all [writing])
    | false =>
      cases a with
      | kill i sig => cases hna
      | run j =>
        have e := (stage_run hs).1
        rw [e]
        refine ⟨ih1, fun hre => ?_⟩
        have hrd : reading s.stage = true := by
          cases h : s.stage <;> rw [h] at hre <;> first | rfl | cases hre
        obtain ⟨p, hp, hR, hh⟩ := ih2 hre
        obtain ⟨i, hi⟩ := List.getElem?_of_mem hp
        by_cases hij : j = i
        · subst hij
          have hkp := hk _ hR
          simp only [step, hi, runProc] at hs
          split at hs <;> rename_i hop <;> rw [hop] at hkp <;> simp only at hkp
          · rw [hrd] at hs
            simp only [if_true] at hs
            repeat' split at hs
            all_goals first
              | (cases hs; done)
              | (simp only [Res.ok.injEq] at hs; subst hs; exact ⟨_, set_mem hi, hkp, hh⟩)
          · rw [if_pos hh] at hs
            split at hs
            · simp only [Res.ok.injEq] at hs; subst hs; exact ⟨_, set_mem hi, hkp _, hh⟩
            · rw [if_pos hre] at hs; cases hs
          · simp only [Res.ok.injEq] at hs; subst hs
            exact ⟨_, set_mem hi, hkp, hh⟩
          · simp only [Res.ok.injEq] at hs; subst hs
            rcases hkp with hkp | hkp
            · exact ⟨_, List.mem_append_left _ (set_mem hi), hkp, hh⟩
            · exact ⟨_, List.mem_append_right _ (List.mem_singleton.2 rfl), hkp, hh⟩
          · simp only [Res.ok.injEq] at hs; subst hs
            exact ⟨_, set_mem hi, hkp, hh⟩
        · exact ⟨p, other_stays hs hij hi, hR, hh⟩
      | _ => cases hpa

end Verif.ChildIo
