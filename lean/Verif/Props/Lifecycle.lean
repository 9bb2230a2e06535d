import Verif.Proof.Lifecycle

/-!
# Beginning and end of the tasks behind `execute` (C125-C128)

`Runs (init t) as s`: an `execute` with a provisioner was begun at the moment `t`, and `as` has happened since then.
-/

namespace Verif.Props.Lifecycle
open Verif Verif.Lifecycle

variable {s s' : State} {as : List Act} {t : Nat}

/-! ### concrete case -/

/-- A session: a status request waits for more than the session takes; an administrator looks at the status; the provisioner is killed. -/
def session : List Act :=
  [.httpUp, .adminUp, .provSpawn true, .httpRequest (some 50), .httpRequest none, .adminRequest none, .tick 10, .answer 1, .mainEnd, .httpSeeHard,
    .adminSeeHard, .provCancel false, .adminAnswer 0, .adminDrained, .tick 40, .answer 0, .httpDrained, .httpDone, .joinDone]

example : replay (init 0) session = .ok ⟨50, true, .returned, .done, [], true, .done, [], false, .done, .killed⟩ := by decide

/-! ### what is left -/

/-- C125: when `execute` has returned, the servers have ended and have no request left, the socket file is gone, and the provisioner has exited
or was killed (or was never started). -/
theorem returned_clean (hr : Runs (init t) as s) (h : s.main = .returned) :
    s.proc ≠ .alive ∧ s.httpReqs = [] ∧ s.adminReqs = [] ∧ s.sock = false ∧ ended s.http = true ∧ ended s.admin = true ∧ s.hard = true := by
  have hi := hr.inv
  obtain ⟨h1, h2, h3⟩ := hi.returned h
  have ha : s.adminReqs = [] ∧ s.sock = false := by
    refine hi.adminReqs ?_ ?_ <;> intro e <;> rw [e] at h2 <;> cases h2
  refine ⟨?_, ?_, ha.1, ha.2, h1, h2, hi.main (by rw [h]; decide)⟩
  · intro e
    have := hi.proc e
    rw [this] at h3
    rcases h3 with h3 | h3 <;> cases h3
  · refine hi.httpReqs ?_ ?_ <;> intro e <;> rw [e] at h1 <;> cases h1

/-! ### the provisioner -/

/-- Number of times the provisioner is started in a run. -/
def starts (as : List Act) : Nat := as.countP (fun a => match a with | .provSpawn _ => true | _ => false)

/-- C126: the provisioner is started at most once, and only after the address of the server is known. -/
theorem started_once (hr : Runs (init t) as s) : starts as ≤ 1 ∧ (starts as = 1 → Act.httpUp ∈ as) := by
  have key : (starts as = if s.prov = .running ∨ s.prov = .done then 1 else 0) ∧ (s.addr = true → Act.httpUp ∈ as) ∧
      ((s.prov = .running ∨ s.prov = .done) → Act.httpUp ∈ as) := by
    refine Runs.snocInd (Q := fun as s => (starts as = if s.prov = .running ∨ s.prov = .done then 1 else 0) ∧
      (s.addr = true → Act.httpUp ∈ as) ∧ ((s.prov = .running ∨ s.prov = .done) → Act.httpUp ∈ as)) ?_ ?_ hr
    · simp [init, starts]
    · intro as s a s' _ ih hs
      obtain ⟨i1, i2, i3⟩ := ih
      unfold starts at i1 ⊢
      rw [List.countP_append, i1]
      have m : Act.httpUp ∈ as → Act.httpUp ∈ as ++ [a] := fun h => List.mem_append_left _ h
      have m' : a = .httpUp → Act.httpUp ∈ as ++ [a] := fun h => by rw [h]; simp
      cases a with
      | _ =>
        simp only [step] at hs
        repeat' split at hs
        all_goals first
          | (cases hs; done)
          | (simp only [Res.ok.injEq] at hs; subst hs; grind)
  refine ⟨?_, ?_⟩
  · rw [key.1]; split <;> omega
  · intro h
    rw [key.1] at h
    split at h
    · rename_i hp; exact key.2.2 hp
    · cases h

/-- C126: a session ends (the token is hard cancelled) only if the main loop is through, an administrator wants it, or the provisioner
cannot be started or has exited. -/
theorem cancelled_only_if (hr : Runs (init t) as s) (h : s.hard = true) : ∃ a ∈ as, reason a = true := (reason_of_hard hr).1 h

/-- C126: when the task of the provisioner is over (its process could not be started, has exited with whatever status, or was killed),
the session is cancelled; and when the process has exited, the task can notice it at once. -/
theorem provisioner_over (hr : Runs (init t) as s) : (s.prov = .done → s.hard = true) ∧
    (s.prov = .running → s.proc ≠ .alive → ∃ s', step s .provSeeExit = .ok s' ∧ s'.hard = true) := by
  refine ⟨hr.inv.prov, ?_⟩
  intro h1 h2
  have h3 := hr.inv.running h1
  have h4 : s.proc = .ended := by
    cases h : s.proc with
    | none => exact absurd h h3
    | alive => exact absurd h h2
    | ended => rfl
    | killed =>
      exfalso
      have : s.proc = .killed → s.prov = .done := by
        refine Runs.snocInd (Q := fun _ s => s.proc = .killed → s.prov = .done) ?_ ?_ hr
        · intro h; simp [init] at h
        · intro as s a s' hr ih hs
          have := hr.inv.awaiting
          cases a with
          | _ =>
            simp only [step] at hs
            repeat' split at hs
            all_goals first
              | (cases hs; done)
              | (simp only [Res.ok.injEq] at hs; subst hs; grind)
      rw [this h] at h1; cases h1
  exact ⟨_, by simp only [step, h1, h4, decide_true, Bool.and_self, if_true]; rfl, rfl⟩

/-- Non-trivial case: a provisioner that exits after ten seconds cancels a session with work to do. -/
example : replay (init 0) [.httpUp, .adminSkip, .provSpawn true, .tick 10, .procExit, .provSeeExit] =
    .ok ⟨10, true, .serving, .up, [], true, .skipped, [], false, .done, .ended⟩ := by decide

/-! ### a server that cannot be bound -/

/-- C127: if the HTTP server cannot be bound, no provisioner is ever started. -/
theorem no_server_no_provisioner (hr : Runs (init t) as s) (h : Act.httpBindFail ∈ as) : s.proc = .none ∧ starts as = 0 := by
  have key : s.http = .dead → s.proc = .none := by
    intro hd
    cases hp : s.proc with
    | none => rfl
    | _ => exact absurd hd (hr.inv.addr (hr.inv.started (by rw [hp]; decide))).2
  have hdead : s.http = .dead := by
    revert h
    refine Runs.snocInd (Q := fun as s => Act.httpBindFail ∈ as → s.http = .dead) ?_ ?_ hr
    · intro h; cases h
    · intro as s a s' _ ih hs h
      rcases List.mem_append.1 h with h | h
      · have hd := ih h
        cases a with
        | _ =>
          simp only [step] at hs
          repeat' split at hs
          all_goals first
            | (cases hs; done)
            | (simp only [Res.ok.injEq] at hs; subst hs; first | exact hd | rfl | (rename_i hx; simp [hd] at hx))
      · have e := List.mem_singleton.1 h
        subst e
        simp only [step] at hs
        split at hs
        · simp only [Res.ok.injEq] at hs; subst hs; rfl
        · cases hs
  refine ⟨key hdead, ?_⟩
  have h1 := started_once hr
  have h0 : ¬ starts as = 1 := by
    intro h1'
    have hu := h1.2 h1'
    have : Act.httpUp ∈ as → s.http ≠ .dead := by
      refine Runs.snocInd (Q := fun as s => Act.httpUp ∈ as → s.http ≠ .dead) ?_ ?_ hr
      · intro h; cases h
      · intro as s a s' hr ih hs h
        rcases List.mem_append.1 h with h | h
        · have hd := ih h
          have hst : s.http ≠ .starting := by
            have : Act.httpUp ∈ as → s.addr = true := by
              refine Runs.snocInd (Q := fun as s => Act.httpUp ∈ as → s.addr = true) ?_ ?_ hr
              · intro h; cases h
              · intro as s a s' _ ih hs h
                rcases List.mem_append.1 h with h | h
                · have hd := ih h
                  cases a with
                  | _ =>
                    simp only [step] at hs
                    repeat' split at hs
                    all_goals first
                      | (cases hs; done)
                      | (simp only [Res.ok.injEq] at hs; subst hs; first | exact hd | rfl)
                · have e := List.mem_singleton.1 h
                  subst e
                  simp only [step] at hs
                  split at hs
                  · simp only [Res.ok.injEq] at hs; subst hs; rfl
                  · cases hs
            exact (hr.inv.addr (this h)).1
          cases a with
          | _ =>
            simp only [step] at hs
            repeat' split at hs
            all_goals first
              | (cases hs; done)
              | (simp only [Res.ok.injEq] at hs; subst hs; first | exact hd | (intro e; cases e; done) | (rename_i hx; exact absurd hx hst))
        · have e := List.mem_singleton.1 h
          subst e
          simp only [step] at hs
          split at hs
          · simp only [Res.ok.injEq] at hs; subst hs; intro e; cases e
          · cases hs
    exact this hu hdead
  omega

/-- C127, the violation: nobody is told. If the HTTP server cannot be bound, the session goes on without server and provisioner, until the
main loop ends for another reason or an administrator shuts it down: nothing cancels it and `execute` does not return. -/
theorem bind_failure_violated : ∃ as s, Runs (init 0) as s ∧ Act.httpBindFail ∈ as ∧
    ∀ bs s', Runs s bs s' → (∀ a ∈ bs, a ≠ .mainEnd ∧ a ≠ .adminHard) → s'.hard = false ∧ s'.main = .serving ∧ s'.proc = .none := by
  refine ⟨[.httpBindFail, .provNoAddr], _, .cons rfl (.cons rfl (.nil _)), by simp, ?_⟩
  intro bs s' hr hno
  have : s'.hard = false ∧ s'.main = .serving ∧ s'.proc = .none ∧ s'.http = .dead ∧ s'.prov = .dead := by
    revert hno
    refine Runs.snocInd (Q := fun bs s' => (∀ a ∈ bs, a ≠ .mainEnd ∧ a ≠ .adminHard) →
      s'.hard = false ∧ s'.main = .serving ∧ s'.proc = .none ∧ s'.http = .dead ∧ s'.prov = .dead) ?_ ?_ hr
    · intro _; decide
    · intro as s a s' _ ih hs hno
      obtain ⟨i1, i2, i3, i4, i5⟩ := ih (fun a h => hno a (List.mem_append_left _ h))
      have hn := hno a (by simp)
      cases a with
      | mainEnd => exact absurd rfl hn.1
      | adminHard => exact absurd rfl hn.2
      | _ =>
        simp only [step] at hs
        repeat' split at hs
        all_goals first
          | (cases hs; done)
          | (simp only [Res.ok.injEq] at hs; subst hs; exact ⟨i1, i2, i3, i4, i5⟩)
          | (rename_i hx; simp [i1, i2, i3, i4, i5] at hx; done)
          | (rename_i hx _; simp [i1, i2, i3, i4, i5] at hx; done)
  exact ⟨this.1, this.2.1, this.2.2.1⟩

/-! ### how long the end takes -/

/-- C128: after the main loop, `execute` waits for nothing but the moments at which requests are due: when there is no request that is due
later, something can be done at once. -/
theorem waits_only_for_requests (hr : Runs (init t) as s) (hm : s.main = .joining)
    (hd : ∀ r ∈ s.httpReqs ++ s.adminReqs, ∀ d, r.due = some d → d ≤ s.now) : ∃ a s', inside a = true ∧ step s a = .ok s' :=
  can_go_on hr.inv hm hd

/-- C128: and there is not much to do: in any run no more than eleven inside actions and one for each request. -/
theorem steps_bounded (hr : Runs (init t) as s) : as.countP inside ≤ 11 + as.countP isRequest := by
  have := todo_runs hr
  have e : todo (init t) = 11 := rfl
  omega

/-- C128: so `execute` can return at the moment the last of the requests is due, without anybody's help. -/
theorem returns_in_time (hr : Runs (init t) as s) (hm : s.main = .joining) :
    ∃ d bs s', Runs s (.tick d :: bs) s' ∧ (∀ a ∈ bs, inside a = true) ∧ s'.main = .returned ∧
      s'.now = max s.now (latest (s.httpReqs ++ s.adminReqs)) := by
  have htick : step s (.tick (latest (s.httpReqs ++ s.adminReqs) - s.now)) =
      .ok { s with now := s.now + (latest (s.httpReqs ++ s.adminReqs) - s.now) } := rfl
  obtain ⟨bs, s', h1, h2, h3, h4⟩ := to_return _ { s with now := s.now + (latest (s.httpReqs ++ s.adminReqs) - s.now) } (Nat.le_refl _)
    (hr.inv.step htick) hm (fun r hr d hd => by
      have := latest_ge (l := s.httpReqs ++ s.adminReqs) hr hd
      show d ≤ s.now + _
      omega)
  exact ⟨_, bs, s', .cons htick h1, h2, h3, by rw [h4]; simp only; omega⟩

/-- Non-trivial case: `session` has 13 inside actions with three requests, and returns when the status request is due. -/
example : session.countP inside = 13 ∧ session.countP isRequest = 3 ∧ latest [⟨some 50⟩, ⟨none⟩] = 50 := by decide

/-- C128, the violation: status requests are not cut short. However late a moment `T` is, a client can keep `execute` from returning before `T`
with one status request: the session is over, and in every continuation in which the client does not hang up, `execute` does
not return before `T`. -/
theorem status_request_delays_violated (T : Nat) : ∃ as s, Runs (init 0) as s ∧ s.main = .joining ∧ s.now = 0 ∧
    ∀ bs s', Runs s bs s' → (∀ a ∈ bs, ∀ i, a ≠ .hangup i) → s'.main = .returned → T ≤ s'.now := by
  have h0 : Runs (init 0) [.httpUp, .httpRequest (some T), .mainEnd] ⟨0, true, .joining, .up, [⟨some T⟩], true, .starting, [], false, .awaiting, .none⟩ :=
    .cons rfl (.cons rfl (.cons rfl (.nil _)))
  refine ⟨_, _, h0, rfl, rfl, ?_⟩
  intro bs s' hr hno hm
  have key : s'.main ≠ .serving ∧ (s'.httpReqs = [] → T ≤ s'.now) ∧ (⟨some T⟩ ∈ s'.httpReqs ∨ T ≤ s'.now) := by
    revert hno
    clear hm
    refine Runs.snocInd (Q := fun bs s' => (∀ a ∈ bs, ∀ i, a ≠ .hangup i) →
      s'.main ≠ .serving ∧ (s'.httpReqs = [] → T ≤ s'.now) ∧ (⟨some T⟩ ∈ s'.httpReqs ∨ T ≤ s'.now)) ?_ ?_ hr
    · intro _; simp
    · intro as s a s' _ ih hs hno
      obtain ⟨i1, _, i3⟩ := ih (fun a h => hno a (List.mem_append_left _ h))
      have hn := hno a (by simp)
      have goal : s'.main ≠ .serving ∧ (⟨some T⟩ ∈ s'.httpReqs ∨ T ≤ s'.now) := by
        cases a with
        | hangup i => exact absurd rfl (hn i)
        | answer i =>
          simp only [step] at hs
          split at hs
          · rename_i r hri
            split at hs
            · rename_i hans
              simp only [Res.ok.injEq] at hs; subst hs
              refine ⟨i1, ?_⟩
              rcases i3 with i3 | i3
              · by_cases hr : r = ⟨some T⟩
                · subst hr
                  refine Or.inr ?_
                  simp only [answerable, Bool.or_eq_true, decide_eq_true_eq, beq_iff_eq] at hans
                  rcases hans with h | h
                  · exact h
                  · exact absurd h i1
                · refine Or.inl ?_
                  obtain ⟨j, hj⟩ := List.getElem?_of_mem i3
                  refine List.mem_eraseIdx_iff_getElem?.2 ⟨j, ?_, hj⟩
                  intro e
                  rw [e] at hj
                  rw [hj] at hri
                  exact hr (Option.some.inj hri).symm
              · exact Or.inr i3
            · cases hs
          · cases hs
        | tick d =>
          simp only [step, Res.ok.injEq] at hs; subst hs
          exact ⟨i1, i3.imp id (fun h => Nat.le_trans h (Nat.le_add_right ..))⟩
        | httpRequest due =>
          simp only [step] at hs
          split at hs
          · simp only [Res.ok.injEq] at hs; subst hs
            exact ⟨i1, i3.imp (fun h => List.mem_append_left _ h) id⟩
          · cases hs
        | _ =>
          simp only [step] at hs
          repeat' split at hs
          all_goals first
            | (cases hs; done)
            | (simp only [Res.ok.injEq] at hs; subst hs; first | exact ⟨i1, i3⟩ | exact ⟨by simp, i3⟩)
      refine ⟨goal.1, ?_, goal.2⟩
      intro he
      rcases goal.2 with h | h
      · rw [he] at h; cases h
      · exact h
  have hclean := returned_clean (h0.append hr) hm
  exact key.2.1 hclean.2.1

end Verif.Props.Lifecycle
