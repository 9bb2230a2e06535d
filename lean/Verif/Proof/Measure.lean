import Verif.Proof.TrackerHist
import Verif.Proof.TrackerFacts
import Verif.Proof.TrackerEntries

/-!
# A potential for the ready tracker: what is left to do
-/

namespace Verif.Tracker
open Verif

variable {c : Cfg} {s s' : State}

theorem sum_update (f : Nat → Nat) (r x : Nat) : ∀ L : List Nat,
    (L.map (fun q => if q = r then x else f q)).sum + L.count r * f r = (L.map f).sum + L.count r * x
  | [] => by simp
  | q :: L => by
    have ih := sum_update f r x L
    simp only [List.map_cons, List.sum_cons, List.count_cons]
    by_cases h : q = r
    · subst h
      simp only [if_true, beq_self_eq_true, Nat.add_mul, Nat.one_mul]
      omega
    · have : (q == r) = false := by simpa using h
      simp only [if_neg h, this, Bool.false_eq_true, if_false, Nat.add_zero]
      omega

/-- Number of items in the queues. -/
def queued (queues : Nat → List Item) : Nat := ((List.range 64).map (fun r => (queues r).length)).sum

theorem queued_update (queues : Nat → List Item) (r : Nat) (l : List Item) :
    queued (fun q => if q = r then l else queues q) + (List.range 64).count r * (queues r).length =
      queued queues + (List.range 64).count r * l.length := by
  have h := sum_update (fun q => (queues q).length) r l.length (List.range 64)
  have e : (fun r_1 => ((fun q => if q = r then l else queues q) r_1).length) = (fun q => if q = r then l.length else (queues q).length) := by
    funext q; dsimp only; split <;> rfl
  unfold queued
  rw [e]
  exact h

theorem count_range (r : Nat) : (List.range 64).count r = if r < 64 then 1 else 0 := by
  split
  · rename_i h
    have h1 := (List.nodup_range (n := 64)).count (a := r)
    rw [h1, if_pos (List.mem_range.2 h)]
  · rename_i h
    exact List.count_eq_zero.2 (fun hm => h (List.mem_range.1 hm))

/-- What a batch still to be sent costs. -/
def batchCost (b : Nat × List Item) : Nat := 1 + 2 * b.2.length

theorem sum_map_le {α : Type} (f : α → Nat) (k : Nat) : ∀ l : List α, (∀ x ∈ l, f x ≤ k) → (l.map f).sum ≤ l.length * k
  | [], _ => by simp
  | x :: l, h => by
    have := sum_map_le f k l (fun y hy => h y (List.mem_cons_of_mem _ hy))
    have := h x (List.mem_cons_self ..)
    simp only [List.map_cons, List.sum_cons, List.length_cons, Nat.add_mul, Nat.one_mul]
    omega

theorem itemsFor_length (g : DiGraph Cmd) : ∀ (vs : List Nat) (base : Nat), (itemsFor g base vs).length = vs.length
  | [], _ => rfl
  | _ :: vs, base => by simp [itemsFor, itemsFor_length g vs]

theorem batches_cost (g : DiGraph Cmd) (items : List Item) : ((batches g items).map batchCost).sum ≤ 64 + 128 * items.length := by
  have h1 := sum_map_le batchCost (1 + 2 * items.length) (batches g items) (by
    intro b hb
    unfold batches at hb
    obtain ⟨i, _, rfl⟩ := List.mem_map.1 (List.mem_filter.1 hb).1
    have := List.length_filter_le (fun it => (cmdOf g it.id).affinity.getLsbD i) items
    simp only [batchCost]
    omega)
  have h2 : (batches g items).length ≤ 64 := by
    unfold batches
    refine Nat.le_trans (List.length_filter_le _ _) ?_
    simp
  have := Nat.mul_le_mul_right (1 + 2 * items.length) h2
  omega

/-- What an event in the channel costs. -/
def eventCost : Event → Nat
  | .started .. => 1
  | .finished _ => 2

/-- What the server task has still to do by itself. -/
def pcCost : Pc → Nat
  | .new => 5
  | .sending todo _ => 4 + (todo.map batchCost).sum
  | .idle => 3
  | .joining => 2
  | .joined => 1
  | .done => 0

/-- Number of tasks nobody has claimed. -/
def unclaimed (flags : List Flag) : Nat := flags.countP (fun f => !f.taken)

/-- What is left to do. -/
def pot (c : Cfg) (s : State) : Nat :=
  201 * (c.g.n - s.flags.length) + 9 * unclaimed s.flags + 2 * queued s.queues + s.popped.length + 9 * s.claimed.length +
    (s.chan.map eventCost).sum + pcCost s.pc + s.trigger.toNat

/-- What an action adds at most. -/
def adds : Act → Nat
  | .sendStarted .. => 1
  | .sendFinished _ => 2
  | .trigger => 1
  | _ => 0

/-- What an action does at least. -/
def pays : Act → Nat
  | .tick _ | .enter _ | .leave _ | .sendStarted .. | .sendFinished _ | .lose _ | .trigger | .cancel _ => 0
  | .account _ => 9
  | _ => 1

theorem pot_addReady {t : SysTime} {vs : List Nat} {fin : Option Fin} (h : addReady c t s vs fin = .ok s') (hvs : vs ≠ [])
    (hle : s'.flags.length ≤ c.g.n) : pot c s' + pcCost s.pc ≤ pot c s + 4 := by
  obtain ⟨_, _, _, _, e⟩ := addReady_ok h
  have hb := batches_cost c.g (itemsFor c.g s.flags.length vs)
  rw [itemsFor_length] at hb
  have hpos : 1 ≤ vs.length := by
    cases vs with
    | nil => exact absurd rfl hvs
    | cons => simp
  rw [e] at hle ⊢
  simp only [List.length_append, List.length_map] at hle
  have hu : unclaimed (s.flags ++ vs.map (fun v => ⟨v, false⟩)) = unclaimed s.flags + vs.length := by
    simp only [unclaimed, List.countP_append]
    congr 1
    rw [List.countP_map]
    have : ((fun f : Flag => !f.taken) ∘ fun v => (⟨v, false⟩ : Flag)) = fun _ => true := by funext v; rfl
    rw [this]
    simp
  simp only [pot, pcCost, hu, List.length_append, List.length_map]
  omega

theorem pot_finishHalf {t : SysTime} {e : Fin} (h : finishHalf c t s e = .ok s') : pot c s' + pcCost s.pc ≤ pot c s + 3 := by
  have hfin : ∀ lf, (finLogged c s e lf).flags = s.flags ∧ (finLogged c s e lf).queues = s.queues ∧
      (finLogged c s e lf).popped = s.popped ∧ (finLogged c s e lf).claimed = s.claimed ∧ (finLogged c s e lf).chan = s.chan ∧
      (finLogged c s e lf).trigger = s.trigger := by
    intro lf
    unfold finLogged
    simp only
    split <;> exact ⟨rfl, rfl, rfl, rfl, rfl, rfl⟩
  obtain ⟨lf, ⟨_, rfl⟩ | ⟨_, rfl⟩⟩ := finishHalf_cases h
  all_goals
    obtain ⟨h1, h2, h3, h4, h5, h6⟩ := hfin lf
    simp only [pot, leaveLoop, zeroReady, pcCost, h1, h2, h3, h4, h5, h6]
    omega

theorem unclaimed_set {flags : List Flag} {k : Nat} {f : Flag} (h : flags[k]? = some f) (hf : f.taken = false) :
    unclaimed (flags.set k { f with taken := true }) + 1 = unclaimed flags := by
  unfold unclaimed
  induction flags generalizing k with
  | nil => simp at h
  | cons x xs ih =>
    cases k with
    | zero =>
      simp only [List.getElem?_cons_zero, Option.some.injEq] at h
      subst h
      simp [List.countP_cons, hf]
    | succ k =>
      simp only [List.getElem?_cons_succ] at h
      have := ih h
      simp only [List.set_cons_succ, List.countP_cons]
      omega

theorem runs_snoc {s0 : State} {as : List Act} {a : Act} (h : Runs c s0 as s) (hd : disciplined s a = true) (hs : step c s a = .ok s') :
    Runs c s0 (as ++ [a]) s' := by
  induction h with
  | nil s => exact .cons hd hs (.nil _)
  | cons h1 h2 _ ih => exact .cons h1 h2 (ih hd hs)

/-- Every action does its part. -/
theorem pot_step (hg : Good c) {lf : LogFile} {now : Int} (hr : Reachable c lf now s) {a : Act} (hd : disciplined s a = true)
    (hs : step c s a = .ok s') : pot c s' + pays a ≤ pot c s + adds a := by
  have hle : s'.flags.length ≤ c.g.n := by
    obtain ⟨as, has⟩ := hr
    have hr' : Reachable c lf now s' := ⟨as ++ [a], runs_snoc has hd hs⟩
    have hi := (hr'.inv hg).1
    have := hi.core.deps.nodup.length_le_of_subset (l₂ := List.range c.g.n) (fun v hv => List.mem_range.2 (hi.core.deps.lt v hv))
    simpa [owners] using this
  have hi := (hr.inv hg).1
  cases a with
  | tick d =>
    simp only [step, Res.ok.injEq] at hs; subst hs
    exact Nat.le_refl _
  | begin order t =>
    simp only [step] at hs
    split at hs
    · cases hs
    · rename_i hpc
      have hpc : s.pc = .new := by simpa using hpc
      split at hs
      · cases hs
      · split at hs
        · simp only [Res.ok.injEq] at hs; subst hs
          simp only [pot, pays, adds, hpc, pcCost]
          omega
        · rename_i hne
          have := pot_addReady hs (by simpa using hne) hle
          have e : pot c { s with nUnready := c.g.n } = pot c s := rfl
          rw [e] at this
          simp only [hpc, pcCost] at this
          simp only [pays, adds]
          omega
  | sendNext =>
    simp only [step] at hs
    split at hs
    · rename_i i items todo fin hpc
      simp only [Res.ok.injEq] at hs; subst hs
      have hq := queued_update s.queues i (s.queues i ++ items)
      have e : (fun q => if q = i then s.queues q ++ items else s.queues q) = (fun q => if q = i then s.queues i ++ items else s.queues q) := by
        funext q; split
        · rename_i h; rw [h]
        · rfl
      simp only [pot, pays, adds, hpc, pcCost, List.map_cons, List.sum_cons, batchCost, e]
      rw [List.length_append, Nat.mul_add] at hq
      have : (List.range 64).count i * items.length ≤ 1 * items.length := by
        refine Nat.mul_le_mul_right _ ?_
        rw [count_range]; split <;> omega
      omega
    · cases hs
  | sendDone t =>
    simp only [step] at hs
    split at hs
    · rename_i fin hpc
      split at hs
      · simp only [Res.ok.injEq] at hs; subst hs
        simp only [pot, pays, adds, hpc, pcCost, List.map_nil, List.sum_nil]
        omega
      · have := pot_finishHalf hs
        have e : pot c { s with counter := s.counter + 1 } = pot c s := rfl
        rw [e] at this
        simp only [hpc, pcCost, List.map_nil, List.sum_nil] at this
        simp only [pays, adds]
        omega
    · cases hs
  | recvStarted t =>
    simp only [step] at hs
    split at hs
    · cases hs
    · split at hs
      · rename_i id host pid jobid rest hch
        obtain ⟨s1, h1, h2⟩ := Res.bind_ok.1 hs
        obtain ⟨lf, _, rfl⟩ := writeLog_ok.1 h1
        split at h2
        · cases h2
        · simp only [Res.ok.injEq] at h2; subst h2
          simp only [pot, pays, adds, hch, List.map_cons, List.sum_cons, eventCost]
          omega
      · cases hs
  | recvFinished order t =>
    simp only [step] at hs
    split at hs
    · cases hs
    · rename_i hpc
      have hpc : s.pc = .idle := by simpa using hpc
      split at hs
      · rename_i e rest hch
        obtain ⟨sn, um, po, _, h1 | ⟨vs, hvs, _, h1⟩⟩ := handleFinished_cases hs
        · have := pot_finishHalf h1
          simp only [pot, booked, hpc, pcCost] at this
          simp only [pot, pays, adds, hch, hpc, pcCost, List.map_cons, List.sum_cons, eventCost]
          omega
        · have := pot_addReady h1 hvs hle
          simp only [pot, booked, hpc, pcCost] at this
          simp only [pot, pays, adds, hch, hpc, pcCost, List.map_cons, List.sum_cons, eventCost]
          omega
      · cases hs
  | seeTrigger =>
    simp only [step] at hs
    split at hs
    · cases hs
    · split at hs
      · cases hs
      · rename_i h
        simp only [Res.ok.injEq] at hs; subst hs
        simp only [Bool.not_eq_false] at h
        simp [pot, pays, adds, zeroReady, h]
  | seeHard =>
    simp only [step] at hs
    split at hs
    · cases hs
    · rename_i hpc
      have hpc : s.pc = .idle := by simpa using hpc
      split at hs
      · cases hs
      · simp only [Res.ok.injEq] at hs; subst hs
        simp only [pot, pays, adds, leaveLoop, zeroReady, hpc, pcCost]
        omega
  | ctrlC =>
    simp only [step] at hs
    split at hs
    · cases hs
    · rename_i hpc
      have hpc : s.pc = .idle := by simpa using hpc
      simp only [Res.ok.injEq] at hs; subst hs
      simp only [pot, pays, adds, leaveLoop, zeroReady, hpc, pcCost]
      omega
  | joinDone =>
    simp only [step] at hs
    split at hs
    · cases hs
    · rename_i hpc
      have hpc : s.pc = .joining := by simpa using hpc
      split at hs
      · simp only [Res.ok.injEq] at hs; subst hs
        simp only [pot, pays, adds, hpc, pcCost]
        omega
      · cases hs
  | drain order t =>
    simp only [step] at hs
    split at hs
    · cases hs
    · rename_i hpc
      have hpc : s.pc = .joined := by simpa using hpc
      have hch : s'.chan = [] := by
        unfold drain at hs
        obtain ⟨r, h1, h2⟩ := Res.bind_ok.1 hs
        have hc1 : r.1.chan = [] := (Adds.drainLoop (Q := fun _ => True) (T := fun _ => True) (D := True) True (fun _ _ _ _ _ => trivial)
          trivial h1 (fun _ _ => trivial) (fun _ _ => trivial)).2.2.1
        split at h2
        · cases h2
        · obtain ⟨s2, h3, h4⟩ := Res.bind_ok.1 h2
          simp only [Res.ok.injEq] at h4
          subst h4
          have : ∀ {vs : List Nat} {s s' : State}, drainRest c t vs s = .ok s' → s'.chan = s.chan := by
            intro vs
            induction vs with
            | nil => intro s s' h; simp only [drainRest, Res.ok.injEq] at h; subst h; rfl
            | cons v vs ih =>
              intro s s' h
              simp only [drainRest] at h
              obtain ⟨s1, h1, h⟩ := Res.bind_ok.1 h
              obtain ⟨s2, h2, h⟩ := Res.bind_ok.1 h
              obtain ⟨_, sn, _, _, rfl⟩ := book1_ok h1
              obtain ⟨lf, _, rfl⟩ := writeLog_ok.1 h2
              rw [ih h]
              rfl
          exact (this h3).trans hc1
      obtain ⟨k, hpc'⟩ := Kept.drain hs
      simp only [pot, pays, adds, hpc, hpc', pcCost, k.flags, k.queues, k.popped, k.claimed, k.trigger, hch, List.map_nil, List.sum_nil]
      omega
  | enter r =>
    simp only [step] at hs
    split at hs
    · cases hs
    · split at hs
      · simp only [Res.ok.injEq] at hs; subst hs; exact Nat.le_refl _
      · cases hs
  | leave i =>
    simp only [step] at hs
    split at hs
    · simp only [Res.ok.injEq] at hs; subst hs; exact Nat.le_refl _
    · cases hs
  | pop i j =>
    simp only [step] at hs
    split at hs
    · cases hs
    · rename_i r _
      split at hs
      · cases hs
      · rename_i it hit
        split at hs
        · simp only [Res.ok.injEq] at hs; subst hs
          have hr64 : r < 64 := by
            have := (hi.core.items.queueOk r it (List.mem_of_getElem? hit)).bit
            exact BitVec.lt_of_getLsbD this
          have hq := queued_update s.queues r ((s.queues r).eraseIdx j)
          have hlt := (List.getElem?_eq_some_iff.1 hit).1
          rw [count_range, if_pos hr64, List.length_eraseIdx_of_lt hlt] at hq
          simp only [pot, pays, adds, List.length_append, List.length_cons, List.length_nil]
          omega
        · cases hs
  | claim i =>
    simp only [step] at hs
    split at hs
    · cases hs
    · rename_i r it hp
      have hlt := (List.getElem?_eq_some_iff.1 hp).1
      split at hs
      · cases hs
      · rename_i f hf
        split at hs
        · simp only [Res.ok.injEq] at hs; subst hs
          simp only [pot, pays, adds, List.length_eraseIdx_of_lt hlt]
          omega
        · rename_i ht
          simp only [Res.ok.injEq] at hs; subst hs
          have := unclaimed_set hf (by simpa using ht)
          simp only [pot, pays, adds, List.length_eraseIdx_of_lt hlt, List.length_append, List.length_cons, List.length_nil, List.length_set]
          omega
  | account i =>
    simp only [step] at hs
    split at hs
    · cases hs
    · rename_i r it hp
      have hlt := (List.getElem?_eq_some_iff.1 hp).1
      split at hs
      · cases hs
      · simp only [Res.ok.injEq] at hs; subst hs
        simp only [pot, pays, adds, List.length_eraseIdx_of_lt hlt]
        omega
  | sendStarted id host pid jobid =>
    simp only [step] at hs
    split at hs
    · cases hs
    · simp only [Res.ok.injEq] at hs; subst hs
      simp only [pot, pays, adds, List.map_append, List.sum_append, List.map_cons, List.map_nil, List.sum_cons, List.sum_nil, eventCost]
      omega
  | sendFinished e =>
    simp only [step] at hs
    split at hs
    · cases hs
    · simp only [Res.ok.injEq] at hs; subst hs
      simp only [pot, pays, adds, List.map_append, List.sum_append, List.map_cons, List.map_nil, List.sum_cons, List.sum_nil, eventCost]
      omega
  | lose id =>
    simp only [step] at hs
    split at hs
    · cases hs
    · simp only [Res.ok.injEq] at hs; subst hs; exact Nat.le_refl _
  | trigger =>
    simp only [step, Res.ok.injEq] at hs; subst hs
    simp only [pot, pays, adds, Bool.toNat_true]
    omega
  | cancel k =>
    simp only [step, Res.ok.injEq] at hs; subst hs; exact Nat.le_refl _

theorem pot_init (c : Cfg) (lf : LogFile) (now : Int) : pot c (init c lf now) = 201 * c.g.n + 5 := by
  have : queued (fun _ => []) = 0 := by decide
  simp [pot, init, unclaimed, pcCost, this]

end Verif.Tracker
