import Verif.Model.AsyncFlag

/-!
# C61: no lost wake-ups on `AsyncFlag` and `AsyncCounter`
-/

namespace Verif.Props.AsyncFlag
open Verif.AsyncFlag

variable {V P Op : Type} {K : Kind V P Op}

/-- A future sleeping without a notification while its condition holds implies that an updater is about to notify; a
returned value satisfies the condition. -/
def Ok (K : Kind V P Op) (s : State V P) : Prop :=
  (∀ j p, s.waiters j = .sleeping p false → K.ready p s.value = true → ∃ i, s.updaters i = .stored) ∧
  ∀ j p v, s.waiters j = .done p v → K.ready p v = true

theorem Ok.init (v : V) : Ok K (init v) := ⟨by simp [AsyncFlag.init], by simp [AsyncFlag.init]⟩

theorem notify_not_asleep {w : Waiter V P} {p : P} : AsyncFlag.notify w ≠ .sleeping p false := by
  cases w <;> simp [AsyncFlag.notify]

theorem notify_done {w : Waiter V P} {p : P} {v : V} (h : AsyncFlag.notify w = .done p v) : w = .done p v := by
  cases w <;> simp_all [AsyncFlag.notify]

theorem Ok.step {s : State V P} {a : Act P Op} (h : Ok K s) : Ok K (step K s a) := by
  obtain ⟨h1, h2⟩ := h
  cases a with
  | store i op =>
    simp only [AsyncFlag.step]
    split
    · exact ⟨fun j p _ _ => ⟨i, by simp [upd]⟩, h2⟩
    · exact ⟨h1, h2⟩
  | notify i =>
    simp only [AsyncFlag.step]
    split
    · exact ⟨fun j p hj _ => absurd hj notify_not_asleep, fun j p v hj => h2 j p v (notify_done hj)⟩
    · exact ⟨h1, h2⟩
  | wait i q =>
    simp only [AsyncFlag.step]
    split
    · refine ⟨fun j p hj hr => ?_, fun j p v hj => ?_⟩ <;> simp only [upd] at hj <;> split at hj
      · cases hj
      · exact h1 j p hj hr
      · cases hj
      · exact h2 j p v hj
    · exact ⟨h1, h2⟩
  | go i =>
    simp only [AsyncFlag.step]
    refine ⟨fun j p hj hr => ?_, fun j p v hj => ?_⟩ <;> simp only [upd] at hj <;> split at hj
    · simp only at hr
      cases hw : s.waiters i with
      | idle => simp [hw, advance] at hj
      | check1 q => simp only [hw, advance] at hj; split at hj <;> cases hj
      | listen q => simp [hw, advance] at hj
      | check2 q n =>
        simp only [hw, advance] at hj
        split at hj
        · cases hj
        · rename_i hn; cases hj; exact absurd hr hn
      | sleeping q n =>
        cases n with
        | true => simp [hw, advance] at hj
        | false => simp only [hw, advance] at hj; cases hj; exact h1 i _ hw hr
      | done q v => simp [hw, advance] at hj
    · exact h1 j p hj hr
    · cases hw : s.waiters i with
      | idle => simp [hw, advance] at hj
      | check1 q =>
        simp only [hw, advance] at hj; split at hj <;> cases hj
        assumption
      | listen q => simp [hw, advance] at hj
      | check2 q n =>
        simp only [hw, advance] at hj; split at hj <;> cases hj
        assumption
      | sleeping q n => cases n <;> simp [hw, advance] at hj
      | done q v => simp only [hw, advance] at hj; cases hj; exact h2 i _ _ hw
    · exact h2 j p v hj
  | drop i =>
    simp only [AsyncFlag.step]
    refine ⟨fun j p hj hr => ?_, fun j p v hj => ?_⟩ <;> simp only [upd] at hj <;> split at hj
    · cases hj
    · exact h1 j p hj hr
    · cases hj
    · exact h2 j p v hj

theorem Ok.run (v : V) (acts : List (Act P Op)) : Ok K (AsyncFlag.run K (AsyncFlag.init v) acts) := by
  suffices h : ∀ s, Ok K s → Ok K (AsyncFlag.run K s acts) from h _ (Ok.init v)
  induction acts with
  | nil => intro s h; exact h
  | cons a r ih => intro s h; exact ih _ h.step

theorem run_append (s : State V P) (a b : List (Act P Op)) : run K s (a ++ b) = run K (run K s a) b := by
  simp [run, List.foldl_append]

theorem returns_of_notified {s : State V P} {j : Nat} {p : P} (hw : s.waiters j = .sleeping p true)
    (hr : K.ready p s.value = true) : (run K s [.go j, .go j]).waiters j = .done p s.value := by
  simp [run, step, upd, hw, advance, hr]

/-- General form: whoever sleeps while its condition holds is already notified, or some updater is between its store and
its notification. -/
theorem sleeper_notified_or_pending (v : V) (acts : List (Act P Op)) (j : Nat) (p : P) (n : Bool)
    (hw : (run K (init v) acts).waiters j = .sleeping p n) (hr : K.ready p (run K (init v) acts).value = true) :
    (run K (init v) acts).waiters j = .sleeping p true ∨ ∃ i, (run K (init v) acts).updaters i = .stored := by
  cases n with
  | true => exact .inl hw
  | false => exact .inr ((Ok.run v acts).1 j p hw hr)

/-- A future anywhere inside `wait`, in a state where its condition holds and no updater is between store and
notification, returns after at most three steps of its own, if nothing else happens. -/
theorem waiter_returns (v : V) (acts : List (Act P Op)) (j : Nat) (p : P)
    (hq : ∀ i, (run K (init v) acts).updaters i = .idle)
    (hw : (run K (init v) acts).waiters j = .check1 p ∨ (run K (init v) acts).waiters j = .listen p ∨
      (∃ n, (run K (init v) acts).waiters j = .check2 p n) ∨ ∃ n, (run K (init v) acts).waiters j = .sleeping p n)
    (hr : K.ready p (run K (init v) acts).value = true) :
    (run K (init v) (acts ++ [.go j, .go j, .go j])).waiters j = .done p (run K (init v) acts).value := by
  have ho := Ok.run (K := K) v acts
  rw [run_append]
  generalize run K (init v) acts = s at *
  rcases hw with hw | hw | ⟨n, hw⟩ | ⟨n, hw⟩
  · simp [run, step, upd, hw, advance, hr]
  · simp [run, step, upd, hw, advance, hr]
  · simp [run, step, upd, hw, advance, hr]
  · cases n with
    | true => simp [run, step, upd, hw, advance, hr]
    | false =>
      obtain ⟨i, hi⟩ := ho.1 j p hw hr
      rw [hq i] at hi; cases hi

/-! ## The flag -/

/-- The `set` and `unset` calls that have done their store, in order (a store of somebody inside a call is none). -/
def stores : List (Act Unit FlagOp) → State Bool Unit → List FlagOp
  | [], _ => []
  | a :: r, s =>
    (match a with
      | .store i op => if s.updaters i = .idle then [op] else []
      | _ => []) ++ stores r (step flag s a)

/-- **C61 (flag).** The flag shows the last `set` or `unset`; without any it keeps its value. -/
theorem flag_shows_last (acts : List (Act Unit FlagOp)) : ∀ s : State Bool Unit,
    (run flag s acts).value = match (stores acts s).getLast? with | some .set => true | some .unset => false | none => s.value := by
  induction acts with
  | nil => intro s; rfl
  | cons a r ih =>
    intro s
    have hrun : run flag s (a :: r) = run flag (step flag s a) r := rfl
    rw [hrun, ih]
    cases a with
    | store i op =>
      simp only [stores, step]
      cases hi : s.updaters i with
      | idle =>
        simp only [if_true]
        generalize stores r _ = l
        cases h : l.getLast? with
        | none =>
          obtain rfl := List.getLast?_eq_none_iff.1 h
          cases op <;> rfl
        | some x => rw [List.getLast?_append, h]; cases x <;> rfl
      | stored => simp only [reduceCtorEq, if_false, List.nil_append]
    | notify i => simp only [stores, List.nil_append, step]; cases s.updaters i <;> rfl
    | wait i p => simp only [stores, List.nil_append, step]; cases s.waiters i <;> rfl
    | go i => simp only [stores, List.nil_append, step]
    | drop i => simp only [stores, List.nil_append, step]

/-- **C61 (flag).** Whatever the interleaving of any number of `set`, `unset` and `wait` calls: when all `set`/`unset`
calls have returned and the last of them was a `set`, every future inside `wait` returns by itself (three of its own steps suffice). -/
theorem flag_no_lost_wakeup (acts : List (Act Unit FlagOp)) (j : Nat)
    (hq : ∀ i, (run flag (init false) acts).updaters i = .idle)
    (hw : (run flag (init false) acts).waiters j = .check1 () ∨ (run flag (init false) acts).waiters j = .listen () ∨
      (∃ n, (run flag (init false) acts).waiters j = .check2 () n) ∨
      ∃ n, (run flag (init false) acts).waiters j = .sleeping () n)
    (hset : (stores acts (init false)).getLast? = some .set) :
    (run flag (init false) (acts ++ [.go j, .go j, .go j])).waiters j = .done () true := by
  have hv : (run flag (init false) acts).value = true := by rw [flag_shows_last, hset]
  have := waiter_returns false acts j () hq hw hv
  rw [this, hv]

/-- A schedule where the store comes between the second check and the sleep, and an `unset`/`set` pair follows. -/
def flagDemo : List (Act Unit FlagOp) :=
  [.wait 0 (), .go 0, .go 0, .store 1 .set, .notify 1, .store 2 .unset, .go 0, .store 3 .set, .notify 2, .notify 3]

example : stores flagDemo (init false) = [.set, .unset, .set] ∧ (run flag (init false) flagDemo).value = true ∧
    (run flag (init false) flagDemo).waiters 0 = .sleeping () true := by decide
example : ∀ i, (run flag (init false) flagDemo).updaters i = .idle := by
  intro i; rcases i with _ | _ | _ | _ | i <;> rfl

/-- **C61 (flag).** `wait` returns only after the flag has been set. -/
theorem flag_wait_means_set (acts : List (Act Unit FlagOp)) (j : Nat) (v : Bool)
    (hw : (run flag (init false) acts).waiters j = .done () v) : ∃ i, Act.store i FlagOp.set ∈ acts := by
  have hv : v = true := (Ok.run (K := flag) false acts).2 j () v hw
  subst hv
  have key : ∀ (acts : List (Act Unit FlagOp)) (s : State Bool Unit), (∀ i, Act.store i FlagOp.set ∉ acts) →
      s.value = false → (∀ j, s.waiters j ≠ .done () true) → ∀ j, (run flag s acts).waiters j ≠ .done () true := by
    intro acts
    induction acts with
    | nil => intro s _ _ h; exact h
    | cons a r ih =>
      intro s hn hv hd
      refine ih _ (fun i hi => hn i (List.mem_cons_of_mem _ hi)) ?_ ?_
      · cases a with
        | store i op =>
          cases op with
          | set => exact absurd (List.mem_cons_self) (hn i)
          | unset => simp only [step]; split <;> simp [flag, hv]
        | notify i => simp only [step]; split <;> exact hv
        | wait i p => simp only [step]; split <;> exact hv
        | go i => exact hv
        | drop i => exact hv
      · intro j
        cases a with
        | store i op => simp only [step]; split <;> exact hd j
        | notify i =>
          simp only [step]; split
          · intro h; exact hd j (notify_done h)
          · exact hd j
        | wait i p =>
          simp only [step]; split
          · simp only [upd]; split
            · simp
            · exact hd j
          · exact hd j
        | go i =>
          simp only [step, upd]; split
          · intro h
            cases hw : s.waiters i with
            | idle => simp [hw, advance] at h
            | check1 q => simp [hw, advance, flag, hv] at h
            | listen q => simp [hw, advance] at h
            | check2 q n => simp [hw, advance, flag, hv] at h
            | sleeping q n => cases n <;> simp [hw, advance] at h
            | done q w => simp only [hw, advance] at h; exact hd i (hw.trans h)
          · exact hd j
        | drop i =>
          simp only [step, upd]; split
          · simp
          · exact hd j
  apply Classical.byContradiction
  intro hno
  exact key acts (init false) (fun i hi => hno ⟨i, hi⟩) rfl (by intro j; simp [init]) j hw

example : (run flag (init false) (flagDemo ++ [.go 0, .go 0, .go 0])).waiters 0 = .done () true := by decide

/-! ## The counter -/

/-- **C61 (counter).** When all `incr` calls have returned and the counter exceeds `from`, every future inside
`wait(from)` returns by itself with the present value. -/
theorem counter_no_lost_wakeup (acts : List (Act Nat Unit)) (j src : Nat)
    (hq : ∀ i, (run counter (init 0) acts).updaters i = .idle)
    (hw : (run counter (init 0) acts).waiters j = .check1 src ∨ (run counter (init 0) acts).waiters j = .listen src ∨
      (∃ n, (run counter (init 0) acts).waiters j = .check2 src n) ∨
      ∃ n, (run counter (init 0) acts).waiters j = .sleeping src n)
    (hgt : src < (run counter (init 0) acts).value) :
    (run counter (init 0) (acts ++ [.go j, .go j, .go j])).waiters j = .done src (run counter (init 0) acts).value :=
  waiter_returns 0 acts j src hq hw (by simpa [counter] using hgt)

/-- A schedule in which `incr` runs entirely between the first check and `listen`. -/
def counterDemo : List (Act Nat Unit) :=
  [.store 1 (), .notify 1, .wait 0 1, .go 0, .store 1 (), .notify 1, .go 0]

example : (run counter (init 0) counterDemo).value = 2 ∧
    (run counter (init 0) counterDemo).waiters 0 = .check2 1 false := by decide
example : ∀ i, (run counter (init 0) counterDemo).updaters i = .idle := by
  intro i; rcases i with _ | _ | _ | _ | i <;> rfl

/-- Number of `incr` calls that have done their `fetch_add`. -/
def increments : List (Act Nat Unit) → State Nat Nat → Nat
  | [], _ => 0
  | a :: r, s =>
    (match a with
      | .store i _ => if s.updaters i = .idle then 1 else 0
      | _ => 0) + increments r (step counter s a)

theorem increments_value (acts : List (Act Nat Unit)) : ∀ s : State Nat Nat, s.value < 2 ^ 64 →
    (run counter s acts).value = (s.value + increments acts s) % 2 ^ 64 := by
  induction acts with
  | nil => intro s h; simp [run, increments, Nat.mod_eq_of_lt h]
  | cons a r ih =>
    intro s h
    have hrun : run counter s (a :: r) = run counter (step counter s a) r := rfl
    rw [hrun]
    cases a with
    | store i op =>
      simp only [increments, step]
      cases hi : s.updaters i with
      | idle =>
        simp only [if_true]
        rw [ih _ (by simp only [counter]; omega)]
        simp only [counter]; omega
      | stored => simp only [reduceCtorEq, if_false, Nat.zero_add]; exact ih _ h
    | notify i =>
      simp only [increments, Nat.zero_add, step]; split
      · rw [ih]; exact h
      · exact ih _ h
    | wait i p =>
      simp only [increments, Nat.zero_add, step]; split
      · rw [ih]; exact h
      · exact ih _ h
    | go i => simp only [increments, Nat.zero_add, step]; rw [ih]; exact h
    | drop i => simp only [increments, Nat.zero_add, step]; rw [ih]; exact h

/-- The counter shows the number of `incr` calls (up to wrap-around at 2^64): none is lost. -/
theorem counter_counts (acts : List (Act Nat Unit)) (h : increments acts (init 0) < 2 ^ 64) :
    (run counter (init 0) acts).value = increments acts (init 0) := by
  rw [increments_value acts (init 0) (by simp [init])]
  simp only [init, Nat.zero_add]
  exact Nat.mod_eq_of_lt h

example : increments counterDemo (init 0) = 2 := by decide

/-- **C61 (counter).** `wait(from)` returns only values greater than `from`. -/
theorem counter_wait_exceeds (acts : List (Act Nat Unit)) (j src v : Nat)
    (hw : (run counter (init 0) acts).waiters j = .done src v) : src < v := by
  simpa [counter] using (Ok.run (K := counter) 0 acts).2 j src v hw

example : (run counter (init 0) (counterDemo ++ [.go 0])).waiters 0 = .done 1 2 := by decide

end Verif.Props.AsyncFlag
