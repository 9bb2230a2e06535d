import Verif.Proof.Terminate2
import Verif.Spec.Greedy

/-!
# Lemmas about how long an `execute` takes
-/

namespace Verif.Sys
open Verif Verif.Tracker

variable {c : Cfg} {lf : LogFile} {now : Int} {s s' s0 : State}

/-! ### time -/

theorem timeIn_snoc (p : State → Bool) {as : List Act} (hr : Runs c s0 as s) {a : Act} (hs : step c s a = .ok s') :
    timeIn c p s0 (as ++ [a]) = timeIn c p s0 as + if p s then ticks a else 0 := by
  induction hr with
  | nil => simp [timeIn, hs]
  | cons hd h1 _ ih =>
    have := ih hs
    simp only [List.cons_append, timeIn, h1, this]
    omega

theorem elapsed_snoc (as : List Act) (a : Act) : elapsed (as ++ [a]) = elapsed as + ticks a := by
  simp [elapsed]

theorem swift_snoc {as : List Act} (hr : Runs c s0 as s) {a : Act} (hp : Swift c s0 (as ++ [a])) :
    Swift c s0 as ∧ (0 < ticks a → Resting c s) := by
  induction hr with
  | nil => exact ⟨trivial, hp.1⟩
  | cons hd h1 _ ih =>
    obtain ⟨k1, k2⟩ := ih (hp.2 _ h1)
    refine ⟨⟨hp.1, fun t ht => ?_⟩, k2⟩
    rw [h1] at ht
    cases ht
    exact k1

theorem runsTask_iff {v : Nat} : runsTask v s = true ↔ ∃ st, Loop.running v st ∈ s.loops := by
  simp only [runsTask, List.any_eq_true]
  constructor
  · rintro ⟨l, hl, h⟩
    cases l with
    | running w st => simp only [beq_iff_eq] at h; subst h; exact ⟨st, hl⟩
    | _ => cases h
  · rintro ⟨st, hl⟩
    exact ⟨_, hl, by simp⟩

theorem sum_add_sum {α : Type} (f g : α → Nat) (l : List α) : (l.map (fun x => f x + g x)).sum = (l.map f).sum + (l.map g).sum := by
  induction l with
  | nil => rfl
  | cons a l ih => simp only [List.map_cons, List.sum_cons, ih]; omega

theorem timeOf_snoc {as : List Act} (hr : Runs c s0 as s) {a : Act} (hs : step c s a = .ok s') (l : List Nat) :
    timeOf c s0 (as ++ [a]) l = timeOf c s0 as l + l.countP (runsTask · s) * ticks a := by
  unfold timeOf ran
  simp only [timeIn_snoc _ hr hs, sum_add_sum]
  congr 1
  induction l with
  | nil => simp
  | cons v l ih =>
    simp only [List.map_cons, List.sum_cons, ih, List.countP_cons]
    split <;> simp [Nat.add_mul] <;> omega

theorem work_eq (as : List Act) : work c s0 as = timeOf c s0 as (List.range c.tr.g.n) := rfl

/-! ### a state in which execgraph has nothing left to do -/

theorem running_held (h : Calmly c lf now s) (hpc : s.tr.pc ≠ .done) {v : Nat} {st : Int} (hv : Loop.running v st ∈ s.loops) : v ∈ s.tr.held := by
  have ho : v ∈ owned s := by
    unfold owned
    simp only [List.mem_append]
    exact .inl (.inl (.inl (.inl (List.mem_flatMap.2 ⟨_, hv, by simp [ownL]⟩))))
  have := h.inv.live.own hpc v
  rw [← List.count_pos_iff] at ho ⊢
  omega

section
variable (hg : Good c.tr) (hdisp : Displayable c.tr) (hrun : LocallyRunnable c) (hord : Ordered c.tr)
  (hne : c.tr.g.n ≠ 0) (hpar : c.numParallel ≠ 0)
include hg hdisp hrun hord hne hpar

/-- The server is waiting and no receiver is in the middle of something. -/
theorem rest_idle (h : Calmly c lf now s) (hpc : s.tr.pc ≠ .done) (hrest : Resting c s) :
    s.tr.pc = .idle ∧ s.tr.token ≠ some .hard ∧ s.tr.chan = [] ∧ s.tr.popped = [] ∧ s.tr.claimed = [] := by
  have hna : ¬ Able c s := hrest
  obtain ⟨hti, hth⟩ := h.inv.reach.inv hg
  have serve : ¬ (s.tr.pc = .new ∨ (∃ todo fin, s.tr.pc = .sending todo fin) ∨ (s.tr.pc = .idle ∧ s.tr.chan ≠ []) ∨ s.tr.pc = .joined) := by
    intro hx
    obtain ⟨a, t, ha, ht, h1, h2, h3, h4⟩ := can_serve hg hdisp h.inv.reach hx
    exact hna (able_server ha ht h1 h2 h3 h4)
  have hpop : s.tr.popped = [] := by
    by_contra hx; exact hna (popped_can hg hdisp h hx)
  have hcl : s.tr.claimed = [] := by
    by_contra hx; exact hna (claimed_can hg hdisp h hx)
  cases hp : s.tr.pc with
  | new => exact absurd (.inl hp) serve
  | sending todo fin => exact absurd (.inr (.inl ⟨_, _, hp⟩)) serve
  | joined => exact absurd (.inr (.inr (.inr hp))) serve
  | done => exact absurd hp hpc
  | idle =>
    refine ⟨rfl, ?_, ?_, hpop, hcl⟩
    · intro htok
      refine hna (able_server (a := .seeHard) (t := leaveLoop s.tr) rfl ?_ (by simp) (by simp) (by simp) (by simp))
      simp [Tracker.step, hp, htok]
    · by_contra hx; exact serve (.inr (.inr (.inl ⟨hp, hx⟩)))
  | joining =>
    exfalso
    rcases Calmly.able hg hdisp hrun hord hne hpar h hpc with h1 | h1
    · exact hna h1
    · exact h1.1 (h.quiet.hard (by rw [hp]; rfl))

/-- A process is running. -/
theorem rest_running (h : Calmly c lf now s) (hpc : s.tr.pc ≠ .done) (hrest : Resting c s) : ProcessRunning s := by
  rcases Calmly.able hg hdisp hrun hord hne hpar h hpc with h1 | h1
  · exact absurd h1 hrest
  · exact h1.2

/-- Every loop has a process running or waits for a task or has returned. -/
theorem rest_loops (h : Calmly c lf now s) (hpc : s.tr.pc ≠ .done) (hrest : Resting c s) {i : Nat} {l : Loop} (hl : s.loops[i]? = some l) :
    (∃ v st, l = .running v st) ∨ (l = .inRecv ∧ s.tr.readyOpen = true ∧ ∃ k : Nat, s.tr.waiting[k]? = some (loopType c i)) ∨
      (l = .exited ∧ s.tr.readyOpen = false) := by
  obtain ⟨hp, htok, hch, hpop, hcl⟩ := rest_idle hg hdisp hrun hord hne hpar h hpc hrest
  have hlive : live s.tr = true := by simp [live, hp]
  have hm := List.mem_of_getElem? hl
  by_cases hin : l = .inRecv
  · subst hin
    have hk : ∃ k : Nat, s.tr.waiting[k]? = some (loopType c i) := by
      have h1 : 0 < receivers c (loopType c i) s.loops := receivers_pos.2 ⟨i, hl, rfl⟩
      have hrc := h.loops.recv (loopType c i)
      rw [h.noServer.handlers, inside_count, hpop, hcl] at hrc
      simp only [List.flatMap_nil, List.count_nil, Nat.add_zero] at hrc
      rw [hrc] at h1
      simp only [List.map_nil, List.count_nil, Nat.add_zero] at h1
      exact List.getElem?_of_mem (List.count_pos_iff.1 h1)
    obtain ⟨k, hk⟩ := hk
    refine .inr (.inl ⟨rfl, ?_, k, hk⟩)
    cases hclosed : s.tr.readyOpen with
    | true => rfl
    | false =>
      exfalso
      have hlt := (List.getElem?_eq_some_iff.1 hk).1
      have : ∃ t, Tracker.step c.tr s.tr (.leave k) = .ok t := ⟨_, by simp only [Tracker.step, hlt, if_true]; rfl⟩
      obtain ⟨t, ht⟩ := this
      refine hrest ⟨.loopClosed i k, setLoop i .exited { s with tr := t }, rfl, ?_⟩
      simp only [step, hl]
      rw [if_pos ⟨hclosed, hk⟩]
      exact trk_can ht _
  · by_cases hex : l = .exited
    · exact .inr (.inr ⟨hex, h.loops.out _ hm (.inl hex)⟩)
    · rcases loop_able hg hrun h hlive hl hin hex (by rintro w rfl; exact htok (h.loops.killed w hm))
        (by rintro w rfl; exact h.loops.alive w hm) with h1 | h1
      · exact absurd h1 hrest
      · exact .inl h1.2

/-- The process of a task that a loop is responsible for is running. -/
theorem rest_held (h : Calmly c lf now s) (hpc : s.tr.pc ≠ .done) (hrest : Resting c s) {v : Nat} (hv : v ∈ s.tr.held) : runsTask v s = true := by
  have ho : v ∈ owned s := by
    have := h.inv.live.own hpc v
    rw [← List.count_pos_iff] at hv ⊢
    omega
  obtain ⟨n1, n2, n3, n4⟩ := h.noServer
  simp only [owned, n1, n2, n3, n4, ownR, List.flatMap_nil, List.map_nil, List.append_nil] at ho
  obtain ⟨l, hl, hvl⟩ := List.mem_flatMap.1 ho
  obtain ⟨i, hi⟩ := List.getElem?_of_mem hl
  rcases rest_loops hg hdisp hrun hord hne hpar h hpc hrest hi with ⟨w, st, rfl⟩ | ⟨rfl, _⟩ | ⟨rfl, _⟩
  · simp only [ownL, List.mem_singleton] at hvl
    subst hvl
    exact runsTask_iff.2 ⟨st, hl⟩
  · simp [ownL] at hvl
  · simp [ownL] at hvl

/-- Once the queues are closed, nobody is inside `recv`. -/
theorem rest_inside (h : Calmly c lf now s) (hpc : s.tr.pc ≠ .done) (hrest : Resting c s) (hclosed : s.tr.readyOpen = false) :
    insideRecv s.tr = 0 := by
  obtain ⟨hp, htok, hch, hpop, hcl⟩ := rest_idle hg hdisp hrun hord hne hpar h hpc hrest
  have hw : s.tr.waiting = [] := by
    by_contra hw
    obtain ⟨r, hr⟩ := List.exists_mem_of_ne_nil _ hw
    have h1 : 0 < receivers c r s.loops := by
      have hrc := h.loops.recv r
      rw [h.noServer.handlers, inside_count] at hrc
      simp only [List.flatMap_nil, List.count_nil, Nat.add_zero] at hrc
      have := List.count_pos_iff.2 hr
      omega
    obtain ⟨i, hi, _⟩ := receivers_pos.1 h1
    rcases rest_loops hg hdisp hrun hord hne hpar h hpc hrest hi with ⟨w, st, hx⟩ | ⟨_, hx, _⟩ | ⟨hx, _⟩
    · cases hx
    · rw [hclosed] at hx; cases hx
    · cases hx
  simp [insideRecv, hw, hpop, hcl]

/-- A task that was made ready and is not finished runs, unless all loops are busy. -/
theorem rest_made (haff : AnyLoop c) (h : Calmly c lf now s) (hpc : s.tr.pc ≠ .done) (hrest : Resting c s) (hopen : s.tr.readyOpen = true)
    (hfree : allBusy c s = false) {v : Nat} (hv : v ∈ owners s.tr.flags) (hnp : v ∉ s.tr.processed.map (·.1)) : runsTask v s = true := by
  obtain ⟨hp, htok, hch, hpop, hcl⟩ := rest_idle hg hdisp hrun hord hne hpar h hpc hrest
  obtain ⟨hti, hth⟩ := h.inv.reach.inv hg
  have hlost := h.inv.live.lost hpc
  rcases List.mem_append.1 ((owners_perm s.tr.flags).mem_iff.1 hv) with ht | hu
  · have h1 := (hti.core.acct.perm.mem_iff).1 ht
    rw [hcl, hlost, hch, hth.undrained hpc] at h1
    simp only [itemIds, finIds_nil, List.append_nil, List.map_nil, List.nil_append, List.mem_append] at h1
    rcases h1 with h1 | h1
    · exact rest_held hg hdisp hrun hord hne hpar h hpc hrest h1
    · exact absurd h1 hnp
  · exfalso
    obtain ⟨f, hf, hfv⟩ := List.mem_map.1 hu
    obtain ⟨hf, hft⟩ := List.mem_filter.1 hf
    simp only [Bool.not_eq_true'] at hft
    obtain ⟨k, hk⟩ := List.getElem?_of_mem hf
    have hk' : s.tr.flags[k]? = some ⟨v, false⟩ := by rw [hk, ← hfv, ← hft]
    have hb := haff _ (List.mem_of_getElem? (node_of_lt (hti.core.deps.lt v hv)))
    simp only [allBusy, List.all_eq_false, List.mem_range] at hfree
    obtain ⟨i, hi, hbusy⟩ := hfree
    have hlen := h.loops.len
    rw [if_neg hpar] at hlen
    have hl : s.loops[i]? = some s.loops[i] := by simp
    have hty : loopType c i = 0 := by unfold loopType; rw [if_pos hi]
    rcases rest_loops hg hdisp hrun hord hne hpar h hpc hrest hl with ⟨w, st, hx⟩ | ⟨_, _, w, hw⟩ | ⟨_, hx⟩
    · rw [hl, hx] at hbusy; exact hbusy rfl
    · rw [hty] at hw
      rcases hti.core.items.avail k v hk' 0 hb with ⟨x, hx, hxk⟩ | ⟨p, hpp, _, hpk⟩ | ⟨b, hbm, _⟩
      · obtain ⟨j, t, ht⟩ := Tracker.can_pop (c := c.tr) hw (List.ne_nil_of_mem hx)
        exact hrest (able_server rfl ht (by simp) (by simp) (by simp) (by simp))
      · rw [hpop] at hpp; cases hpp
      · rw [hp] at hbm; simp [todoOf] at hbm
    · rw [hopen] at hx; cases hx

/-- **Work conserving**: a task whose dependencies have all succeeded and that is not finished runs, unless all loops are busy. -/
theorem rest_ready (haff : AnyLoop c) (h : Calmly c lf now s) (hpc : s.tr.pc ≠ .done) (hrest : Resting c s) (hopen : s.tr.readyOpen = true)
    (hfree : allBusy c s = false) {v : Nat} (hv : v < c.tr.g.n) (hdep : ∀ u, c.tr.g.Dep u v → u ∈ okIds s.tr.processed)
    (hnp : v ∉ s.tr.processed.map (·.1)) : runsTask v s = true := by
  obtain ⟨hp, _⟩ := rest_idle hg hdisp hrun hord hne hpar h hpc hrest
  obtain ⟨hti, hth⟩ := h.inv.reach.inv hg
  refine rest_made hg hdisp hrun hord hne hpar haff h hpc hrest hopen hfree (hti.core.deps.ready ?_ (by rw [hp]; rfl) v hv hdep) hnp
  cases hs : s.tr.soft with
  | false => rfl
  | true => rw [hti.shape.softClosed hs] at hopen; cases hopen

end
end Verif.Sys
