import Verif.Model.Token

/-!
# C60: cancellation only grows; nobody waits for a cancellation that has happened

The spec is `Covers`: what a requested cancellation is meant to cover.
-/

namespace Verif.Props.Token
open Verif.Tracker (Cancel tokenCancel)
open Verif.Token

/-- Does the request `c` cover work of this kind? A soft request with cutoff `t0` covers work started after `t0`; a hard
one covers everything. -/
def Covers : Cancel → Kind → Prop
  | .hard, _ => True
  | .afterTime t0, .soft t => t0 < t
  | .afterTime _, .hard => False

theorem fires_iff (k : Kind) (v : Cancel) : fires k (some v) = true ↔ Covers v k := by
  cases k <;> cases v <;> simp [fires, Covers]

theorem fires_none (k : Kind) : fires k none = false := by cases k <;> rfl

/-! ## Sequential calls -/

/-- One call: covered afterwards iff covered before or by the new request. -/
theorem cancel_covers (old : Option Cancel) (c : Cancel) (k : Kind) :
    (∃ v, tokenCancel old c = some v ∧ Covers v k) ↔ (∃ v, old = some v ∧ Covers v k) ∨ Covers c k := by
  cases c with
  | hard => cases old <;> simp [tokenCancel, Covers]
  | afterTime t =>
    cases old with
    | none => simp [tokenCancel]
    | some o =>
      cases o with
      | hard => simp [tokenCancel, Covers]
      | afterTime t0 =>
        by_cases h : t > t0
        · cases k <;> simp [tokenCancel, h, Covers]; omega
        · cases k <;> simp [tokenCancel, h, Covers]; omega

/-- **C60 (sequential).** After any sequence of `cancel` calls exactly the work covered by at least one of them is
cancelled. -/
theorem cancels_cover (cs : List Cancel) (k : Kind) :
    (∃ v, cs.foldl tokenCancel none = some v ∧ Covers v k) ↔ ∃ c ∈ cs, Covers c k := by
  suffices h : ∀ old : Option Cancel, (∃ v, cs.foldl tokenCancel old = some v ∧ Covers v k) ↔
      (∃ v, old = some v ∧ Covers v k) ∨ ∃ c ∈ cs, Covers c k by
    simpa using h none
  induction cs with
  | nil => intro old; simp
  | cons c cs ih =>
    intro old
    rw [List.foldl_cons, ih, cancel_covers]
    simp only [List.mem_cons, exists_eq_or_imp, or_assoc]

example : [Cancel.afterTime 7, .afterTime 3, .afterTime 5].foldl tokenCancel none = some (.afterTime 3) := by decide
example : [Cancel.afterTime 7, .hard, .afterTime 3].foldl tokenCancel none = some .hard := by decide

/-- A whole `cancel` call of the interleaving model, with nothing in between, is the atomic `tokenCancel` used in
`Verif.Model.Tracker`. -/
theorem cancel_atomic (s : State) (i : Nat) (c : Cancel) (hi : s.callers i = .idle) :
    (run s [.check i c, .send i]).value = tokenCancel s.value c := by
  simp only [run, List.foldl_cons, List.foldl_nil, step, hi]
  cases c with
  | hard => simp [mayProceed, upd, tokenCancel]
  | afterTime t =>
    cases hv : s.value with
    | none => simp [mayProceed, upd, tokenCancel]
    | some o =>
      cases o with
      | hard => simp [mayProceed, tokenCancel, hi, hv]
      | afterTime t0 =>
        by_cases h : t > t0
        · simp [mayProceed, tokenCancel, h, hi, hv]
        · simp [mayProceed, tokenCancel, h, upd]

/-! ## Interleavings -/

/-- No thread is inside `cancel`. -/
def Quiet (s : State) : Prop := ∀ i, s.callers i = .idle

/-- Calls of `cancel` do not overlap: a call starts only when no thread is inside `cancel`. -/
def Exclusive : State → List Act → Prop
  | _, [] => True
  | s, .check i c :: r => Quiet s ∧ Exclusive (step s (.check i c)) r
  | s, a :: r => Exclusive (step s a) r

/-- At most one thread is past its check, and what it is about to store covers no less than the present value. -/
def Ok (s : State) : Prop :=
  (∀ i j c d, s.callers i = .passed c → s.callers j = .passed d → i = j) ∧
  ∀ i c, s.callers i = .passed c → ∀ v, s.value = some v → ∀ k, Covers v k → Covers c k

theorem Ok.init : Ok init := ⟨by simp [Token.init], by simp [Token.init]⟩

theorem mayProceed_covers {o : Option Cancel} {c v : Cancel} {k : Kind} (h : mayProceed o c = true) (ho : o = some v)
    (hc : Covers v k) : Covers c k := by
  subst ho
  cases c with
  | hard => trivial
  | afterTime t =>
    cases v with
    | hard => simp [mayProceed] at h
    | afterTime t0 =>
      simp only [mayProceed, Bool.not_eq_true', decide_eq_false_iff_not] at h
      cases k with
      | hard => exact hc
      | soft u => simp only [Covers] at hc ⊢; omega

theorem Ok.step {s : State} {a : Act} (h : Ok s) (hx : ∀ i c, a = .check i c → Quiet s) : Ok (step s a) := by
  obtain ⟨h1, h2⟩ := h
  cases a with
  | check i c =>
    have q := hx i c rfl
    simp only [Token.step, q i]
    split
    · rename_i hp
      refine ⟨?_, ?_⟩
      · intro a b x y ha hb
        simp only [upd] at ha hb
        split at ha
        · split at hb
          · omega
          · rw [q b] at hb; cases hb
        · rw [q a] at ha; cases ha
      · intro a x ha v hv k hk
        simp only [upd] at ha
        split at ha
        · cases ha; exact mayProceed_covers hp hv hk
        · rw [q a] at ha; cases ha
    · exact ⟨h1, h2⟩
  | send i =>
    simp only [Token.step]
    cases hi : s.callers i with
    | idle => exact ⟨h1, h2⟩
    | passed c =>
      refine ⟨?_, ?_⟩
      · intro a b x y ha hb
        simp only [upd] at ha hb
        split at ha
        · cases ha
        · split at hb
          · cases hb
          · exact h1 a b x y ha hb
      · intro a x ha v hv k hk
        simp only [upd] at ha
        split at ha
        · cases ha
        · rename_i hne; exact absurd (h1 a i x c ha hi) hne
  | wait j k => simp only [Token.step]; split <;> exact ⟨h1, h2⟩
  | look j => simp only [Token.step]; split <;> (try split) <;> exact ⟨h1, h2⟩
  | wake j => simp only [Token.step]; split <;> (try split) <;> exact ⟨h1, h2⟩

theorem grow_step {s : State} {a : Act} (h : Ok s) {v : Cancel} {k : Kind} (hv : s.value = some v) (hc : Covers v k) :
    ∃ v', (step s a).value = some v' ∧ Covers v' k := by
  cases a with
  | check i c => simp only [step]; split <;> (try split) <;> exact ⟨v, hv, hc⟩
  | send i =>
    simp only [step]
    cases hi : s.callers i with
    | idle => exact ⟨v, hv, hc⟩
    | passed c => exact ⟨c, rfl, h.2 i c hi v hv k hc⟩
  | wait j k => simp only [step]; split <;> exact ⟨v, hv, hc⟩
  | look j => simp only [step]; split <;> (try split) <;> exact ⟨v, hv, hc⟩
  | wake j => simp only [step]; split <;> (try split) <;> exact ⟨v, hv, hc⟩

theorem Exclusive.cons {s : State} {a : Act} {r : List Act} (h : Exclusive s (a :: r)) :
    (∀ i c, a = .check i c → Quiet s) ∧ Exclusive (step s a) r := by
  cases a <;> simp_all [Exclusive]

theorem grow_run {acts : List Act} : ∀ {s : State}, Ok s → Exclusive s acts → ∀ {v : Cancel} {k : Kind},
    s.value = some v → Covers v k → ∃ v', (run s acts).value = some v' ∧ Covers v' k := by
  induction acts with
  | nil => intro s _ _ v k hv hc; exact ⟨v, hv, hc⟩
  | cons a r ih =>
    intro s ho hx v k hv hc
    obtain ⟨hq, hr⟩ := hx.cons
    obtain ⟨v', hv', hc'⟩ := grow_step (a := a) ho hv hc
    exact ih (ho.step hq) hr hv' hc'

theorem Ok.run {acts : List Act} : ∀ {s : State}, Ok s → Exclusive s acts → Ok (Token.run s acts) := by
  induction acts with
  | nil => intro s h _; exact h
  | cons a r ih => intro s ho hx; exact ih (ho.step hx.cons.1) hx.cons.2

theorem Exclusive.split {acts₁ acts₂ : List Act} : ∀ {s : State}, Exclusive s (acts₁ ++ acts₂) →
    Exclusive s acts₁ ∧ Exclusive (Token.run s acts₁) acts₂ := by
  induction acts₁ with
  | nil => intro s h; exact ⟨trivial, h⟩
  | cons a r ih =>
    intro s h
    have hc : Exclusive s (a :: (r ++ acts₂)) := h
    obtain ⟨h1, h2⟩ := ih hc.cons.2
    refine ⟨?_, h2⟩
    cases a <;> simp_all [Exclusive]

/-- **C60 (partial: calls that do not overlap).** If at some point of a schedule work of kind `k` is cancelled, it is at
every later point. Missing: overlapping calls, for which it is false (`cancellation_grows_violated`). -/
theorem cancellation_grows_partial (before after : List Act) (hx : Exclusive init (before ++ after)) (k : Kind)
    (h : ∃ v, (run init before).value = some v ∧ Covers v k) :
    ∃ v, (run init (before ++ after)).value = some v ∧ Covers v k := by
  obtain ⟨v, hv, hc⟩ := h
  have hs := hx.split
  have := grow_run (Ok.init.run hs.1) hs.2 hv hc
  simpa [run, List.foldl_append] using this

example : Exclusive init [.check 0 (.afterTime 7), .send 0, .check 1 (.afterTime 3), .wait 0 (.soft 5), .look 0, .send 1,
    .wake 0, .look 0] := by
  simp [Exclusive, Quiet, step, init, upd, mayProceed]
example : (run init [.check 0 (.afterTime 7), .send 0, .check 1 (.afterTime 3), .wait 0 (.soft 5), .look 0, .send 1,
    .wake 0, .look 0]).waiters 0 = .returned (.soft 5) (.afterTime 3) := by decide

/-- **C60 (violated for overlapping calls).** Thread 0 wants a soft cancel and finishes its check; thread 1 then hard
cancels, completely; thread 0 stores its soft state: the hard cancellation is gone, and a future waiting for it which had
not yet looked sleeps on. Two soft cancels can lose the earlier cutoff in the same way. -/
theorem cancellation_grows_violated :
    (∃ before after : List Act, (run init before).value = some .hard ∧
      (run init (before ++ after)).value = some (.afterTime 100) ∧
      (run init (before ++ after)).waiters 9 = .parked .hard (run init (before ++ after)).version) ∧
    ∃ before after : List Act, (run init before).value = some (.afterTime 3) ∧
      (run init (before ++ after)).value = some (.afterTime 7) :=
  ⟨⟨[.wait 9 .hard, .check 0 (.afterTime 100), .check 1 .hard, .send 1], [.send 0, .look 9], by decide, by decide,
    by decide⟩,
   ⟨[.check 0 (.afterTime 7), .check 1 (.afterTime 3), .send 1], [.send 0], by decide, by decide⟩⟩

/-- Whatever the interleaving, a value once there never becomes "not cancelled", and is always one that was asked for. -/
theorem value_was_requested (acts : List Act) (v : Cancel) (h : (run init acts).value = some v) :
    ∃ i, Act.check i v ∈ acts := by
  have key : ∀ (acts : List Act) (s : State),
      (∀ i c, (run s acts).callers i = .passed c → s.callers i = .passed c ∨ Act.check i c ∈ acts) ∧
      ∀ v, (run s acts).value = some v → s.value = some v ∨ (∃ i, s.callers i = .passed v) ∨ ∃ i, Act.check i v ∈ acts := by
    intro acts
    induction acts with
    | nil => intro s; exact ⟨fun i c h => .inl h, fun v h => .inl h⟩
    | cons a r ih =>
      intro s
      have hcs : ∀ i c, (step s a).callers i = .passed c → s.callers i = .passed c ∨ a = .check i c := by
        intro i c h
        cases a with
        | check i' c' =>
          simp only [step] at h
          split at h <;> (try split at h) <;> try exact .inl h
          simp only [upd] at h
          split at h
          · cases h; subst_vars; exact .inr rfl
          · exact .inl h
        | send i' =>
          simp only [step] at h
          split at h <;> try exact .inl h
          simp only [upd] at h
          split at h
          · cases h
          · exact .inl h
        | wait j k => simp only [step] at h; split at h <;> exact .inl h
        | look j => simp only [step] at h; split at h <;> (try split at h) <;> exact .inl h
        | wake j => simp only [step] at h; split at h <;> (try split at h) <;> exact .inl h
      have hvs : ∀ v, (step s a).value = some v → s.value = some v ∨ ∃ i, s.callers i = .passed v := by
        intro v h
        cases a with
        | check i' c' => simp only [step] at h; split at h <;> (try split at h) <;> exact .inl h
        | send i' =>
          simp only [step] at h
          cases hi : s.callers i' with
          | idle => simp only [hi] at h; exact .inl h
          | passed c => simp only [hi, Option.some.injEq] at h; subst h; exact .inr ⟨i', hi⟩
        | wait j k => simp only [step] at h; split at h <;> exact .inl h
        | look j => simp only [step] at h; split at h <;> (try split at h) <;> exact .inl h
        | wake j => simp only [step] at h; split at h <;> (try split at h) <;> exact .inl h
      obtain ⟨i1, i2⟩ := ih (step s a)
      refine ⟨?_, ?_⟩
      · intro i c h
        rcases i1 i c h with h | h
        · rcases hcs i c h with h | h
          · exact .inl h
          · exact .inr (by simp [h])
        · exact .inr (List.mem_cons_of_mem _ h)
      · intro v h
        rcases i2 v h with h | ⟨i, h⟩ | ⟨i, h⟩
        · rcases hvs v h with h | h
          · exact .inl h
          · exact .inr (.inl h)
        · rcases hcs i v h with h | h
          · exact .inr (.inl ⟨i, h⟩)
          · exact .inr (.inr ⟨i, by simp [h]⟩)
        · exact .inr (.inr ⟨i, List.mem_cons_of_mem _ h⟩)
  rcases (key acts init).2 v h with h | ⟨i, h⟩ | h
  · cases h
  · cases h
  · exact h

example : (run init [.check 0 (.afterTime 7), .send 0]).value = some (.afterTime 7) := by decide

/-! ## Waiting futures -/

/-- What a parked future saw did not fire, and is not newer than the channel; what a returned one returned did fire. -/
def WaiterOk (value : Option Cancel) (version : Nat) : Waiter → Prop
  | .parked k seen => seen ≤ version ∧ (seen = version → fires k value = false)
  | .returned k v => fires k (some v) = true
  | _ => True

/-- All futures are as `WaiterOk` says. -/
def WaitOk (s : State) : Prop := ∀ j, WaiterOk s.value s.version (s.waiters j)

theorem WaitOk.upd {s : State} (h : WaitOk s) (i : Nat) {w : Waiter} (hw : WaiterOk s.value s.version w) :
    WaitOk { s with waiters := upd s.waiters i w } := by
  intro j
  simp only [Token.upd]
  split
  · exact hw
  · exact h j

theorem WaitOk.step {s : State} {a : Act} (h : WaitOk s) : WaitOk (step s a) := by
  cases a with
  | check i c => simp only [Token.step]; split <;> (try split) <;> exact h
  | send i =>
    simp only [Token.step]
    cases hi : s.callers i with
    | idle => exact h
    | passed c =>
      intro j
      have hj := h j
      simp only
      cases hw : s.waiters j with
      | parked k seen => rw [hw] at hj; simp only [WaiterOk] at hj ⊢; exact ⟨by omega, by omega⟩
      | returned k v => rw [hw] at hj; exact hj
      | idle => trivial
      | looking k => trivial
  | wait i k =>
    simp only [Token.step]
    split <;> try exact h
    exact h.upd i (w := .looking k) trivial
  | look i =>
    simp only [Token.step]
    split
    · rename_i hv
      split
      · rename_i hf; exact h.upd i hf
      · rename_i hf; exact h.upd i ⟨Nat.le_refl _, fun _ => by rw [hv]; simpa using hf⟩
    · rename_i hv
      exact h.upd i ⟨Nat.le_refl _, fun _ => by rw [hv]; exact fires_none _⟩
    · exact h
  | wake i =>
    simp only [Token.step]
    split <;> (try split) <;> try exact h
    exact h.upd i trivial

theorem WaitOk.run (acts : List Act) : WaitOk (run init acts) := by
  suffices h : ∀ s, WaitOk s → WaitOk (Token.run s acts) from h _ (fun _ => trivial)
  induction acts with
  | nil => intro s h; exact h
  | cons a r ih => intro s h; exact ih _ h.step

/-- **C60 (no lost cancellation).** In every interleaving: a future sleeping while the present state covers it is woken
and returns that state; it needs nothing but to be scheduled. -/
theorem cancelled_future_returns (acts : List Act) (j : Nat) (k : Kind) (seen : Nat) (v : Cancel)
    (hw : (run init acts).waiters j = .parked k seen) (hv : (run init acts).value = some v) (hc : Covers v k) :
    (run init (acts ++ [.wake j, .look j])).waiters j = .returned k v := by
  have h := WaitOk.run acts j
  rw [hw] at h
  have hf := (fires_iff k v).2 hc
  have hne : seen ≠ (run init acts).version := by
    intro e; have := h.2 e; rw [hv, hf] at this; cases this
  have e : run init (acts ++ [.wake j, .look j]) = step (step (run init acts) (.wake j)) (.look j) := by
    simp [run, List.foldl_append]
  rw [e]
  simp [step, hw, hne, hv, upd, hf]

example : let acts : List Act := [.wait 0 (.soft 5), .look 0, .check 1 (.afterTime 3), .send 1]
    (run init acts).waiters 0 = .parked (.soft 5) 0 ∧ (run init acts).value = some (.afterTime 3) ∧
      Covers (.afterTime 3) (.soft 5) := ⟨by decide, by decide, by simp [Covers]⟩

/-- **C60 / C48.** A future returns only if a request was made that covers it: `soft_cancelled(t)` returns only if
somebody asked for a hard cancellation or a soft one with a cutoff before `t`; `hard_cancelled()` only if somebody asked
for a hard one. -/
theorem future_returns_only_if_covered (acts : List Act) (j : Nat) (k : Kind) (v : Cancel)
    (hw : (run init acts).waiters j = .returned k v) : Covers v k ∧ ∃ i, Act.check i v ∈ acts := by
  have h := WaitOk.run acts j
  rw [hw] at h
  refine ⟨(fires_iff k v).1 h, ?_⟩
  -- the returned value was the value of the channel at an earlier point
  have key : ∀ n, n ≤ acts.length → (run init (acts.take n)).waiters j = .returned k v →
      ∃ m, m ≤ n ∧ (run init (acts.take m)).value = some v := by
    intro n
    induction n with
    | zero => intro _ h; simp [run, init] at h
    | succ n ih =>
      intro hn h
      obtain ⟨a, ha⟩ : ∃ a, acts.take (n + 1) = acts.take n ++ [a] :=
        ⟨acts[n], by rw [List.take_succ_eq_append_getElem (by omega)]⟩
      have e : run init (acts.take (n + 1)) = step (run init (acts.take n)) a := by
        rw [ha]; simp [run, List.foldl_append]
      by_cases hp : (run init (acts.take n)).waiters j = .returned k v
      · obtain ⟨m, hm, hv⟩ := ih (by omega) hp
        exact ⟨m, by omega, hv⟩
      · refine ⟨n, by omega, ?_⟩
        rw [e] at h
        generalize run init (acts.take n) = s at h hp
        cases a with
        | check i c => exfalso; simp only [step] at h; split at h <;> (try split at h) <;> exact hp h
        | send i => exfalso; simp only [step] at h; split at h <;> exact hp h
        | wait i c =>
          exfalso; simp only [step] at h; split at h <;> try exact hp h
          simp only [upd] at h; split at h
          · cases h
          · exact hp h
        | wake i =>
          exfalso; simp only [step] at h; split at h <;> (try split at h) <;> try exact hp h
          simp only [upd] at h; split at h
          · cases h
          · exact hp h
        | look i =>
          simp only [step] at h
          cases hwi : s.waiters i with
          | looking k' =>
            cases hv : s.value with
            | none =>
              simp only [hwi, hv, upd] at h; split at h
              · cases h
              · exact absurd h hp
            | some v' =>
              simp only [hwi, hv] at h
              split at h <;> simp only [upd] at h <;> split at h
              · cases h; rfl
              · exact absurd h hp
              · cases h
              · exact absurd h hp
          | idle => simp only [hwi] at h; exact absurd h hp
          | parked _ _ => simp only [hwi] at h; exact absurd h hp
          | returned _ _ => simp only [hwi] at h; exact absurd h hp
  obtain ⟨m, _, hv⟩ := key acts.length (Nat.le_refl _) (by simpa using hw)
  obtain ⟨i, hi⟩ := value_was_requested _ v hv
  exact ⟨i, List.mem_of_mem_take hi⟩

example : (run init [.wait 0 (.soft 5), .look 0, .check 1 (.afterTime 3), .send 1, .wake 0, .look 0]).waiters 0
    = .returned (.soft 5) (.afterTime 3) := by decide

end Verif.Props.Token
