import Verif.Spec.Lock

/-!
# C45, C79: exclusive access to the log
-/

namespace Verif.Props.Lock
open Verif.Lock

/-- The invariant under the proviso. -/
structure Inv (s : State) : Prop where
  opened : ∀ p i, s.procs p = .opened i → s.path = some i
  held : ∀ p i pos buf, s.procs p = .holding i pos buf → s.path = some i ∧ s.lock i = some p ∧ pos = s.file.length
  dropped : ∀ p i pos buf, s.procs p = .dropping i pos buf → s.path = none ∧ s.lock i = some p ∧ pos = s.file.length
  excl : Exclusive s

theorem inv_init : Inv init := by
  refine ⟨?_, ?_, ?_, ?_⟩ <;> intros <;> simp_all [init, Exclusive, Proc.hasLog]

theorem upd_same {α : Type} {f : Nat → α} {i : Nat} {a : α} : upd f i a i = a := by simp [upd]
theorem upd_ne {α : Type} {f : Nat → α} {i j : Nat} {a : α} (h : j ≠ i) : upd f i a j = f j := by simp [upd, h]

theorem writeAt_end {file buf : List Nat} : writeAt file file.length buf = file ++ buf := by
  simp [writeAt]

/-- Replacing the state of one opener by one that has not the log keeps exclusion. -/
theorem excl_upd_out {procs : Nat → Proc} (h : ∀ p q, (procs p).hasLog = true → (procs q).hasLog = true → p = q) {p : Nat} {x : Proc}
    (hx : x.hasLog = true → (procs p).hasLog = true) :
    ∀ a b, (upd procs p x a).hasLog = true → (upd procs p x b).hasLog = true → a = b := by
  intro a b ha hb
  have k : ∀ a, (upd procs p x a).hasLog = true → (procs a).hasLog = true := by
    intro a ha
    by_cases hp : a = p
    · subst hp; rw [upd_same] at ha; exact hx ha
    · rwa [upd_ne hp] at ha
  exact h a b (k a ha) (k b hb)

theorem Inv.step {s : State} (h : Inv s) {a : Act} (hc : Calm s a) : Inv (Lock.step s a) ∧ s.file <+: (Lock.step s a).file := by
  obtain ⟨h1, h2, h3, h4⟩ := h
  have other : ∀ p q, (s.procs p).hasLog = true → q ≠ p → (s.procs q).hasLog = false := by
    intro p q hp hq
    cases hb : (s.procs q).hasLog with
    | false => rfl
    | true => exact absurd (h4 q p hb hp) hq
  cases a with
  | openLock p =>
    simp only [Lock.step]
    cases hp : s.procs p with
    | idle =>
      simp only
      cases hpath : s.path with
      | some i =>
        simp only
        refine ⟨⟨?_, ?_, ?_, excl_upd_out h4 (by simp [Proc.hasLog])⟩, List.prefix_refl _⟩
        · intro q j hq
          by_cases e : q = p
          · subst e; simp only [upd_same, Proc.opened.injEq] at hq; rw [← hq]
          · simp only [upd_ne e] at hq; exact hpath.symm.trans (h1 q j hq)
        · intro q j pos buf hq
          by_cases e : q = p
          · subst e; simp [upd_same] at hq
          · simp only [upd_ne e] at hq
            obtain ⟨k1, k2⟩ := h2 q j pos buf hq
            exact ⟨hpath.symm.trans k1, k2⟩
        · intro q j pos buf hq
          by_cases e : q = p
          · subst e; simp [upd_same] at hq
          · simp only [upd_ne e] at hq
            obtain ⟨k1, k2⟩ := h3 q j pos buf hq
            exact ⟨hpath.symm.trans k1, k2⟩
      | none =>
        simp only
        refine ⟨⟨?_, ?_, ?_, excl_upd_out h4 (by simp [Proc.hasLog])⟩, List.prefix_refl _⟩
        · intro q j hq
          by_cases e : q = p
          · subst e; simp only [upd_same, Proc.opened.injEq] at hq; rw [hq]
          · simp only [upd_ne e] at hq
            have := h1 q j hq
            rw [hpath] at this; cases this
        · intro q j pos buf hq
          by_cases e : q = p
          · subst e; simp [upd_same] at hq
          · simp only [upd_ne e] at hq
            have := (h2 q j pos buf hq).1
            rw [hpath] at this; cases this
        · intro q j pos buf hq
          by_cases e : q = p
          · subst e; simp [upd_same] at hq
          · simp only [upd_ne e] at hq
            have := hc q
            rw [hq] at this; cases this
    | _ => exact ⟨⟨h1, h2, h3, h4⟩, List.prefix_refl _⟩
  | tryLock p =>
    simp only [Lock.step]
    cases hp : s.procs p with
    | opened i =>
      simp only
      have hpi := h1 p i hp
      cases hl : s.lock i with
      | some q =>
        refine ⟨⟨?_, ?_, ?_, excl_upd_out h4 (by simp [Proc.hasLog])⟩, List.prefix_refl _⟩
        · intro q j hq
          by_cases e : q = p
          · subst e; simp [upd_same] at hq
          · simp only [upd_ne e] at hq; exact h1 q j hq
        · intro q j pos buf hq
          by_cases e : q = p
          · subst e; simp [upd_same] at hq
          · simp only [upd_ne e] at hq; exact h2 q j pos buf hq
        · intro q j pos buf hq
          by_cases e : q = p
          · subst e; simp [upd_same] at hq
          · simp only [upd_ne e] at hq; exact h3 q j pos buf hq
      | none =>
        simp only
        -- nobody else has the log
        have alone : ∀ q, (s.procs q).hasLog = false := by
          intro q
          cases hq : s.procs q with
          | holding j pos buf =>
            obtain ⟨k1, k2, _⟩ := h2 q j pos buf hq
            rw [hpi, Option.some.injEq] at k1
            rw [← k1, hl] at k2; cases k2
          | dropping j pos buf =>
            have := (h3 q j pos buf hq).1
            rw [hpi] at this; cases this
          | _ => rfl
        refine ⟨⟨?_, ?_, ?_, ?_⟩, List.prefix_refl _⟩
        · intro q j hq
          by_cases e : q = p
          · subst e; simp [upd_same] at hq
          · simp only [upd_ne e] at hq; exact h1 q j hq
        · intro q j pos buf hq
          by_cases e : q = p
          · subst e
            simp only [upd_same, Proc.holding.injEq] at hq
            obtain ⟨rfl, rfl, rfl⟩ := hq
            exact ⟨hpi, upd_same, rfl⟩
          · simp only [upd_ne e] at hq
            have := alone q
            rw [hq] at this; cases this
        · intro q j pos buf hq
          by_cases e : q = p
          · subst e; simp [upd_same] at hq
          · simp only [upd_ne e] at hq
            have := alone q
            rw [hq] at this; cases this
        · intro a b ha hb
          have k : ∀ a, (upd s.procs p (.holding i s.file.length []) a).hasLog = true → a = p := by
            intro a ha
            by_cases e : a = p
            · exact e
            · rw [upd_ne e, alone a] at ha; cases ha
          rw [k a ha, k b hb]
    | _ => exact ⟨⟨h1, h2, h3, h4⟩, List.prefix_refl _⟩
  | write p x =>
    simp only [Lock.step]
    cases hp : s.procs p with
    | holding i pos buf =>
      simp only
      refine ⟨⟨?_, ?_, ?_, excl_upd_out h4 (by simp [hp, Proc.hasLog])⟩, List.prefix_refl _⟩
      · intro q j hq
        by_cases e : q = p
        · subst e; simp [upd_same] at hq
        · simp only [upd_ne e] at hq; exact h1 q j hq
      · intro q j pos' buf' hq
        by_cases e : q = p
        · subst e
          simp only [upd_same, Proc.holding.injEq] at hq
          obtain ⟨rfl, rfl, rfl⟩ := hq
          exact h2 _ _ _ _ hp
        · simp only [upd_ne e] at hq; exact h2 q j pos' buf' hq
      · intro q j pos' buf' hq
        by_cases e : q = p
        · subst e; simp [upd_same] at hq
        · simp only [upd_ne e] at hq; exact h3 q j pos' buf' hq
    | _ => exact ⟨⟨h1, h2, h3, h4⟩, List.prefix_refl _⟩
  | flush p =>
    simp only [Lock.step]
    cases hp : s.procs p with
    | holding i pos buf =>
      simp only
      obtain ⟨k1, k2, k3⟩ := h2 _ _ _ _ hp
      subst k3
      rw [writeAt_end]
      have oth := other p
      rw [hp] at oth
      refine ⟨⟨?_, ?_, ?_, excl_upd_out h4 (by simp [hp, Proc.hasLog])⟩, List.prefix_append _ _⟩
      · intro q j hq
        by_cases e : q = p
        · subst e; simp [upd_same] at hq
        · simp only [upd_ne e] at hq; exact h1 q j hq
      · intro q j pos' buf' hq
        by_cases e : q = p
        · subst e
          simp only [upd_same, Proc.holding.injEq] at hq
          obtain ⟨rfl, rfl, rfl⟩ := hq
          exact ⟨k1, k2, by simp⟩
        · simp only [upd_ne e] at hq
          have := oth q rfl e
          rw [hq] at this; cases this
      · intro q j pos' buf' hq
        by_cases e : q = p
        · subst e; simp [upd_same] at hq
        · simp only [upd_ne e] at hq
          have := oth q rfl e
          rw [hq] at this; cases this
    | _ => exact ⟨⟨h1, h2, h3, h4⟩, List.prefix_refl _⟩
  | unlink p =>
    simp only [Lock.step]
    cases hp : s.procs p with
    | holding i pos buf =>
      simp only
      obtain ⟨k1, k2, k3⟩ := h2 _ _ _ _ hp
      have hq0 := hc (by rw [hp]; rfl)
      have oth := other p
      rw [hp] at oth
      refine ⟨⟨?_, ?_, ?_, excl_upd_out h4 (by simp [hp, Proc.hasLog])⟩, List.prefix_refl _⟩
      · intro q j hq
        by_cases e : q = p
        · subst e; simp [upd_same] at hq
        · simp only [upd_ne e] at hq
          have := hq0 q
          rw [hq] at this; cases this
      · intro q j pos' buf' hq
        by_cases e : q = p
        · subst e; simp [upd_same] at hq
        · simp only [upd_ne e] at hq
          have := oth q rfl e
          rw [hq] at this; cases this
      · intro q j pos' buf' hq
        by_cases e : q = p
        · subst e
          simp only [upd_same, Proc.dropping.injEq] at hq
          obtain ⟨rfl, rfl, rfl⟩ := hq
          exact ⟨rfl, k2, k3⟩
        · simp only [upd_ne e] at hq
          have := oth q rfl e
          rw [hq] at this; cases this
    | _ => exact ⟨⟨h1, h2, h3, h4⟩, List.prefix_refl _⟩
  | release p =>
    simp only [Lock.step]
    cases hp : s.procs p with
    | dropping i pos buf =>
      simp only
      obtain ⟨k1, k2, k3⟩ := h3 _ _ _ _ hp
      subst k3
      rw [writeAt_end]
      have oth := other p
      rw [hp] at oth
      refine ⟨⟨?_, ?_, ?_, excl_upd_out h4 (by simp [Proc.hasLog])⟩, List.prefix_append _ _⟩
      · intro q j hq
        by_cases e : q = p
        · subst e; simp [upd_same] at hq
        · simp only [upd_ne e] at hq; exact h1 q j hq
      · intro q j pos' buf' hq
        by_cases e : q = p
        · subst e; simp [upd_same] at hq
        · simp only [upd_ne e] at hq
          have := oth q rfl e
          rw [hq] at this; cases this
      · intro q j pos' buf' hq
        by_cases e : q = p
        · subst e; simp [upd_same] at hq
        · simp only [upd_ne e] at hq
          have := oth q rfl e
          rw [hq] at this; cases this
    | _ => exact ⟨⟨h1, h2, h3, h4⟩, List.prefix_refl _⟩
  | die p =>
    simp only [Lock.step]
    have gone : ∀ lock' : Nat → Option Nat, (∀ q j, q ≠ p → s.lock j = some q → lock' j = some q) →
        Inv { s with lock := lock', procs := upd s.procs p .idle } := by
      intro lock' hl
      refine ⟨?_, ?_, ?_, excl_upd_out h4 (by simp [Proc.hasLog])⟩
      · intro q j hq
        by_cases e : q = p
        · subst e; simp [upd_same] at hq
        · simp only [upd_ne e] at hq; exact h1 q j hq
      · intro q j pos' buf' hq
        by_cases e : q = p
        · subst e; simp [upd_same] at hq
        · simp only [upd_ne e] at hq
          obtain ⟨m1, m2, m3⟩ := h2 q j pos' buf' hq
          exact ⟨m1, hl q j e m2, m3⟩
      · intro q j pos' buf' hq
        by_cases e : q = p
        · subst e; simp [upd_same] at hq
        · simp only [upd_ne e] at hq
          obtain ⟨m1, m2, m3⟩ := h3 q j pos' buf' hq
          exact ⟨m1, hl q j e m2, m3⟩
    have rel : ∀ i, s.lock i = some p → ∀ q j, q ≠ p → s.lock j = some q → upd s.lock i none j = some q := by
      intro i hi q j hq hj
      by_cases e : j = i
      · subst e; rw [hi, Option.some.injEq] at hj; exact absurd hj.symm hq
      · rw [upd_ne e]; exact hj
    cases hp : s.procs p with
    | idle => exact ⟨⟨h1, h2, h3, h4⟩, List.prefix_refl _⟩
    | opened i => exact ⟨gone s.lock (fun _ _ _ h => h), List.prefix_refl _⟩
    | holding i pos buf => exact ⟨gone _ (rel i (h2 _ _ _ _ hp).2.1), List.prefix_refl _⟩
    | dropping i pos buf => exact ⟨gone _ (rel i (h3 _ _ _ _ hp).2.1), List.prefix_refl _⟩

theorem Inv.run {s s' : State} {as : List Act} (hr : CalmRuns s as s') (h : Inv s) : Inv s' ∧ s.file <+: s'.file := by
  induction hr with
  | nil => exact ⟨h, List.prefix_refl _⟩
  | cons hc _ ih =>
    obtain ⟨k1, k2⟩ := h.step hc
    obtain ⟨m1, m2⟩ := ih k1
    exact ⟨m1, k2.trans m2⟩

/-- **C45 (partial: under the proviso `Calm`, without which it is false, see `exclusive_violated`).** At most one session has
the log, whoever opens, exits or dies in whatever order. -/
theorem exclusive_partial {as : List Act} {s : State} (h : CalmRuns init as s) : Exclusive s := (inv_init.run h).1.excl

/-- Non-trivial case: two sessions one after the other, the first ending, with an opener refused during the first. -/
example : ∃ s, CalmRuns init [.openLock 0, .tryLock 0, .openLock 1, .tryLock 1, .write 0 7, .unlink 0, .release 0, .openLock 1, .tryLock 1,
    .write 1 8, .flush 1] s ∧ s.file = [7, 8] := by
  refine ⟨_, .cons ?_ (.cons ?_ (.cons ?_ (.cons ?_ (.cons ?_ (.cons ?_ (.cons ?_ (.cons ?_ (.cons ?_ (.cons ?_ (.cons ?_ (.nil _))))))))))), by decide⟩ <;>
    first
    | trivial
    | (intro _ r; match r with
        | 0 => rfl
        | 1 => rfl
        | n + 2 => rfl)
    | (intro r; match r with
        | 0 => rfl
        | 1 => rfl
        | n + 2 => rfl)

/-- **C45.** Who opens the lock file while a session holds the log does not get the log. -/
theorem second_opener_refused {as : List Act} {s : State} (h : CalmRuns init as s) {p q : Nat} (hp : (s.procs p).hasLog = true)
    (hq : (s.procs q).inBetween = true) : ((step s (.tryLock q)).procs q) = .idle := by
  obtain ⟨h1, h2, h3, _⟩ := (inv_init.run h).1
  cases hq' : s.procs q with
  | opened i =>
    have hi := h1 q i hq'
    cases hp' : s.procs p with
    | holding j pos buf =>
      obtain ⟨k1, k2, _⟩ := h2 p j pos buf hp'
      rw [hi, Option.some.injEq] at k1
      subst k1
      simp [step, hq', k2, upd]
    | dropping j pos buf =>
      have := (h3 p j pos buf hp').1
      rw [hi] at this; cases this
    | idle => simp [hp', Proc.hasLog] at hp
    | opened _ => simp [hp', Proc.hasLog] at hp
  | _ => simp [hq', Proc.inBetween] at hq

/-- **C45.** The log of a session that ended, or died, can be had by the next. -/
theorem next_opener_succeeds {as : List Act} {s : State} (h : CalmRuns init as s) (hn : ∀ p, s.procs p = .idle)
    (hl : ∀ i, s.lock i = none) (q : Nat) : ((run s [.openLock q, .tryLock q]).procs q).hasLog = true := by
  cases hpath : s.path <;> simp [run, step, hn q, hpath, upd, hl, Proc.hasLog]

/-- The inode of the lock file a session has locked. -/
def lockOf : Proc → Option Nat
  | .holding i _ _ | .dropping i _ _ => some i
  | _ => none

theorem lockOf_step {s : State} (h : ∀ p i, lockOf (s.procs p) = some i → s.lock i = some p) (a : Act) :
    ∀ p i, lockOf ((step s a).procs p) = some i → (step s a).lock i = some p := by
  -- an opener whose state changes without its lock
  have keep : ∀ (x : Proc) (p : Nat) (s' : State), s'.lock = s.lock → s'.procs = upd s.procs p x →
      (lockOf x = none ∨ lockOf x = lockOf (s.procs p)) → ∀ q i, lockOf (s'.procs q) = some i → s'.lock i = some q := by
    intro x p s' e1 e2 hx q i hq
    rw [e1]
    rw [e2] at hq
    by_cases e : q = p
    · subst e
      rw [upd_same] at hq
      rcases hx with hx | hx
      · rw [hx] at hq; cases hq
      · exact h q i (hx ▸ hq)
    · rw [upd_ne e] at hq; exact h q i hq
  -- a lock given back
  have rel : ∀ (p i : Nat) (s' : State), lockOf (s.procs p) = some i → s'.lock = upd s.lock i none → s'.procs = upd s.procs p .idle →
      ∀ q j, lockOf (s'.procs q) = some j → s'.lock j = some q := by
    intro p i s' hp e1 e2 q j hq
    rw [e1]
    rw [e2] at hq
    by_cases e : q = p
    · subst e; rw [upd_same] at hq; cases hq
    · rw [upd_ne e] at hq
      have := h q j hq
      by_cases e' : j = i
      · subst e'
        rw [h p j hp, Option.some.injEq] at this
        exact absurd this.symm e
      · rw [upd_ne e']; exact this
  cases a with
  | openLock p =>
    simp only [step]
    cases hp : s.procs p with
    | idle =>
      cases hpath : s.path with
      | some i => exact keep (.opened i) p _ rfl rfl (.inl rfl)
      | none => exact keep (.opened s.next) p _ rfl rfl (.inl rfl)
    | _ => exact h
  | tryLock p =>
    simp only [step]
    cases hp : s.procs p with
    | opened i =>
      simp only
      cases hl : s.lock i with
      | some o => exact keep .idle p _ rfl rfl (.inl rfl)
      | none =>
        intro q j hq
        simp only at hq ⊢
        by_cases e : q = p
        · subst e
          rw [upd_same] at hq
          simp only [lockOf, Option.some.injEq] at hq
          rw [hq, upd_same]
        · rw [upd_ne e] at hq
          have := h q j hq
          by_cases e' : j = i
          · subst e'; rw [hl] at this; cases this
          · rw [upd_ne e']; exact this
    | _ => exact h
  | write p x =>
    simp only [step]
    cases hp : s.procs p with
    | holding i pos buf => exact keep _ p _ rfl rfl (.inr (by rw [hp]; rfl))
    | _ => exact h
  | flush p =>
    simp only [step]
    cases hp : s.procs p with
    | holding i pos buf => exact keep _ p _ rfl rfl (.inr (by rw [hp]; rfl))
    | _ => exact h
  | unlink p =>
    simp only [step]
    cases hp : s.procs p with
    | holding i pos buf => exact keep (.dropping i pos buf) p _ rfl rfl (.inr (by rw [hp]; rfl))
    | _ => exact h
  | release p =>
    simp only [step]
    cases hp : s.procs p with
    | dropping i pos buf => exact rel p i _ (by rw [hp]; rfl) rfl rfl
    | _ => exact h
  | die p =>
    simp only [step]
    cases hp : s.procs p with
    | idle => exact h
    | opened i => exact keep .idle p _ rfl rfl (.inl rfl)
    | holding i pos buf => exact rel p i _ (by rw [hp]; rfl) rfl rfl
    | dropping i pos buf => exact rel p i _ (by rw [hp]; rfl) rfl rfl

/-- **C45.** On any schedule at all, no two sessions have the log with the same lock file: exclusion fails only by its
removal. -/
theorem one_session_per_lock_file (as : List Act) {p q i : Nat} (hp : lockOf ((run init as).procs p) = some i)
    (hq : lockOf ((run init as).procs q) = some i) : p = q := by
  have key : ∀ (as : List Act) (s : State), (∀ p i, lockOf (s.procs p) = some i → s.lock i = some p) →
      ∀ p i, lockOf ((run s as).procs p) = some i → (run s as).lock i = some p := by
    intro as
    induction as with
    | nil => intro s h; exact h
    | cons a as ih => intro s h; exact ih _ (lockOf_step h a)
  have h0 : ∀ p i, lockOf (init.procs p) = some i → init.lock i = some p := by intro p i h; cases h
  have h1 := key as init h0 p i hp
  rw [key as init h0 q i hq, Option.some.injEq] at h1
  exact h1.symm

/-- Non-trivial case: the situation of `exclusive_violated`; the two sessions have locked different files. -/
example : lockOf ((run init [.openLock 0, .tryLock 0, .openLock 1, .unlink 0, .release 0, .tryLock 1, .openLock 2, .tryLock 2]).procs 1) = some 0 ∧
    lockOf ((run init [.openLock 0, .tryLock 0, .openLock 1, .unlink 0, .release 0, .tryLock 1, .openLock 2, .tryLock 2]).procs 2) = some 1 := by
  decide

/-- **C45.** If the lock file is never removed, exclusion holds on every schedule. -/
theorem exclusive_without_removal {as : List Act} (hn : NoUnlink as) : Exclusive (run init as) := by
  refine exclusive_partial (as := as) ?_
  have key : ∀ (as : List Act) (s : State), NoUnlink as → (∀ q, (s.procs q).inDrop = false) → CalmRuns s as (run s as) := by
    intro as
    induction as with
    | nil => intro s _ _; exact .nil s
    | cons a as ih =>
      intro s hn hd
      refine .cons ?_ (ih _ (fun p h => hn p (List.mem_cons_of_mem _ h)) ?_)
      · cases a with
        | unlink p => exact absurd (List.mem_cons_self ..) (hn p)
        | openLock p => exact hd
        | _ => trivial
      · intro q
        have hu : ∀ p x, x.inDrop = false → (upd s.procs p x q).inDrop = false := by
          intro p x hx
          by_cases e : q = p
          · subst e; rwa [upd_same]
          · rw [upd_ne e]; exact hd q
        cases a with
        | unlink p => exact absurd (List.mem_cons_self ..) (hn p)
        | openLock p =>
          simp only [step]
          cases s.procs p with
          | idle => cases s.path <;> exact hu _ _ rfl
          | _ => exact hd q
        | tryLock p =>
          simp only [step]
          cases s.procs p with
          | opened i => simp only; cases s.lock i <;> exact hu _ _ rfl
          | _ => exact hd q
        | write p x => simp only [step]; cases s.procs p <;> first | exact hd q | exact hu _ _ rfl
        | flush p => simp only [step]; cases s.procs p <;> first | exact hd q | exact hu _ _ rfl
        | release p => simp only [step]; cases s.procs p <;> first | exact hd q | exact hu _ _ rfl
        | die p => simp only [step]; cases s.procs p <;> first | exact hd q | exact hu _ _ rfl
  exact key as init hn (fun _ => rfl)

/-- **C45 (violated).** Without the proviso: 1 opens the lock file while 0 has it; 0 exits and removes it; 1 locks the
removed file, 2 creates and locks a new one: both have the log. -/
theorem exclusive_violated : ∃ as, ¬ Exclusive (run init as) :=
  ⟨[.openLock 0, .tryLock 0, .openLock 1, .unlink 0, .release 0, .tryLock 1, .openLock 2, .tryLock 2],
    fun h => absurd (h 1 2 (by decide) (by decide)) (by decide)⟩

/-- **C45 (violated).** Even if nobody is waiting when the session ends: the lock file is removed before the buffer is
written, so a session can begin in between. -/
theorem exclusive_in_drop_violated : ∃ as p q, (∀ r, ((run init as).procs r).inBetween = false) ∧
    ¬ Exclusive (run init (as ++ [.unlink p, .openLock q, .tryLock q])) := by
  refine ⟨[.openLock 0, .tryLock 0], 0, 1, ?_, fun h => absurd (h 0 1 (by decide) (by decide)) (by decide)⟩
  intro r
  match r with
  | 0 => rfl
  | n + 1 => rfl

/-- **C79 (partial: under the proviso).** What is in the log file stays there: sessions only append. -/
theorem file_only_grows_partial {as bs : List Act} {s s' : State} (h : CalmRuns init as s) (h' : CalmRuns s bs s') :
    s.file <+: s'.file := (((inv_init.run h).1).run h').2

/-- **C79 (violated).** 0 has record 7 in its buffer when it exits; 1 begins after the removal of the lock file and before
the buffer is written; what 1 then writes goes over the record of 0, which was in the file. -/
theorem file_overwritten_violated : ∃ as bs, (run init as).file = [7] ∧ (run init (as ++ bs)).file = [8] :=
  ⟨[.openLock 0, .tryLock 0, .write 0 7, .unlink 0, .openLock 1, .tryLock 1, .release 0], [.write 1 8, .flush 1], by decide, by decide⟩

end Verif.Props.Lock
