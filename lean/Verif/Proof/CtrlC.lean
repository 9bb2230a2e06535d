import Verif.Proof.Fairly
import Verif.Spec.CtrlC

/-!
# After a hard cancellation `execute` returns, whatever has panicked before (proof)
-/

namespace Verif.Sys
open Verif Verif.Tracker

variable {c : Cfg} {s s' : State} {lf : LogFile} {now : Int} {σ : Nat → State} {α : Nat → Act}

theorem Runs.det {as : List Act} {s1 s2 : State} (h1 : Runs c s as s1) (h2 : Runs c s as s2) : s1 = s2 := by
  induction h1 with
  | nil => cases h2; rfl
  | cons _ hs _ ih =>
    cases h2 with
    | cons _ hs' h2 =>
      rw [hs, Res.ok.injEq] at hs'
      subst hs'
      exact ih h2

theorem CanWork.works (h : CanWork c s) : ∃ a s', byItself a = true ∧ working s a = true ∧ step c s a = .ok s' := by
  obtain ⟨a, s', h1, h2, h3⟩ := h
  exact ⟨a, s', by simp [byItself, h1], h2, h3⟩

/-- A handler that waits for its report to be handled, or is about to ask for a task, can go on. -/
theorem handler_moves_hard (hl : live s.tr = true) (htok : s.tr.token = some .hard) {i : Nat} {x : Handler}
    (hi : s.handlers[i]? = some x) (hw : (∃ rt j, x = .toRecv rt j) ∨ ∃ f rt j, x = .waiting f rt j) :
    ∃ a s', ofHandler i a = true ∧ step c s a = .ok s' := by
  rcases hw with ⟨rt, j, rfl⟩ | ⟨f, rt, j, rfl⟩
  · cases hc : recvCheck s.tr rt with
    | ok u =>
      have : ∃ t, Tracker.step c.tr s.tr (.enter rt) = .ok t := ⟨_, by simp only [Tracker.step, hl, hc]; rfl⟩
      obtain ⟨t, ht⟩ := this
      exact ⟨.hRecv i, _, by simp [ofHandler], by simp only [step, hi, hc]; exact trk_can ht _⟩
    | error e => cases e <;> exact ⟨.hRecv i, _, by simp [ofHandler], by simp only [step, hi, hc]; rfl⟩
  · refine ⟨.hFlag i, setH i (.toRecv rt j) s, by simp [ofHandler], ?_⟩
    simp only [step, hi]
    rw [if_pos (.inr htok)]

variable (hg : Good c.tr) (hdisp : Displayable c.tr)
include hg hdisp

/-- If after a hard cancellation nothing can bring the tasks forward, and `execute` has not returned, it waits for the HTTP server. -/
theorem Sound.closing (h : Sound c lf now s) (htok : s.tr.token = some .hard) (hpc : s.tr.pc ≠ .done)
    (hno : ¬ ∃ a s', byItself a = true ∧ working s a = true ∧ step c s a = .ok s') : Closing s := by
  obtain ⟨hti, hth⟩ := h.inv.reach.inv hg
  have hno' : ¬ CanWork c s := fun hx => hno hx.works
  have serve : ¬ (s.tr.pc = .new ∨ (∃ todo fin, s.tr.pc = .sending todo fin) ∨ (s.tr.pc = .idle ∧ s.tr.chan ≠ []) ∨ s.tr.pc = .joined) := by
    intro hx
    obtain ⟨a, t, ha, ht, h1, h2, h3, h4⟩ := can_serve hg hdisp h.inv.reach hx
    exact hno' (canWork_server ha ht h1 h2 h3 h4)
  have hpop : s.tr.popped = [] := by
    by_contra hpop
    exact hno' (popped_works hg hdisp h hpop)
  have hcl : s.tr.claimed = [] := by
    by_contra hcl
    exact hno' (claimed_works hg hdisp h hcl)
  cases hp : s.tr.pc with
  | new => exact absurd (.inl hp) serve
  | sending todo fin => exact absurd (.inr (.inl ⟨_, _, hp⟩)) serve
  | joined => exact absurd (.inr (.inr (.inr hp))) serve
  | done => exact absurd hp hpc
  | idle =>
    refine absurd (canWork_server (a := .seeHard) (t := leaveLoop s.tr) rfl ?_ (by simp) (by simp) (by simp) (by simp)) hno'
    simp [Tracker.step, hp, htok]
  | joining =>
    have hlive : live s.tr = true := by simp [live, hp]
    have hclosed := hti.shape.endClosed (by rw [hp]; rfl)
    have hhand : ∀ x ∈ s.handlers, onTheWay x = false := by
      intro x hx
      obtain ⟨i, hi⟩ := List.getElem?_of_mem hx
      by_contra ho
      exact hno' (handler_works h hlive hi (by simpa using ho))
    have hall : allExited s.loops = true := by
      unfold allExited
      rw [List.all_eq_true]
      intro l hl
      obtain ⟨i, hi⟩ := List.getElem?_of_mem hl
      by_cases hin : l = .inRecv
      · subst hin
        exfalso
        obtain ⟨k, hk⟩ := inside_waiting h hpop hcl (.inl ⟨i, hi, rfl⟩)
        have hlt := (List.getElem?_eq_some_iff.1 hk).1
        have : ∃ t, Tracker.step c.tr s.tr (.leave k) = .ok t := ⟨_, by simp only [Tracker.step, hlt, if_true]; rfl⟩
        obtain ⟨t, ht⟩ := this
        refine hno ⟨.loopClosed i k, setLoop i .exited { s with tr := t }, rfl, rfl, ?_⟩
        simp only [step, hi]
        rw [if_pos ⟨hclosed, hk⟩]
        exact trk_can ht _
      · by_contra hx
        have spawn : ∀ v, l = .got v → spawnable (cmdOf c.tr.g v) = true := by
          rintro v rfl
          by_contra hsp
          have hm : mayDie c.tr.g (.got v) = some v := by simp [mayDie, hsp]
          have : ∃ s', step c s (.loopDie i) = .ok s' := ⟨_, by simp only [step, hi, Option.bind_some, hm]; rfl⟩
          obtain ⟨s', hs⟩ := this
          exact hno ⟨.loopDie i, s', rfl, rfl, hs⟩
        rcases loop_works hlive hi spawn hin (by rintro rfl; exact hx rfl) (by rintro v rfl; exact hx rfl)
          (by rintro v rfl; exact hx rfl) with h1 | h1
        · exact hno' h1
        · exact h1.1 htok
    refine ⟨hp, htok, hclosed, hhand, hall, hpop, hcl, ?_⟩
    rintro ⟨h1, h2⟩
    rcases h2 with h2 | h2
    · have hw : s.tr.waiting = [] := by
        by_contra hw
        obtain ⟨r, hr⟩ := List.exists_mem_of_ne_nil _ hw
        rcases waiting_somebody h hr with ⟨i, hi, _⟩ | ⟨j, hj⟩
        · have := List.all_eq_true.1 hall _ (List.mem_of_getElem? hi)
          cases this
        · have := List.all_eq_true.1 h1 _ hj
          cases this
      have : ∃ t, Tracker.step c.tr s.tr .joinDone = .ok t :=
        ⟨_, by simp only [Tracker.step, hp, hw, hpop, hcl]; rfl⟩
      obtain ⟨t, ht⟩ := this
      refine hno ⟨.joinDone, { s with tr := t }, rfl, rfl, ?_⟩
      simp only [step]
      rw [if_pos (by rw [hall, h1, h2]; rfl)]
      exact trk_can ht id
    · refine hno ⟨.reapStop, { s with reaper := .stopped }, rfl, rfl, ?_⟩
      simp only [step]
      rw [if_pos ⟨h2, htok, h1⟩]

/-- After a hard cancellation execgraph never gets stuck before `execute` has returned: some part of it can go on by itself. -/
theorem Sound.moves (h : Sound c lf now s) (htok : s.tr.token = some .hard) (hpc : s.tr.pc ≠ .done) :
    ∃ a s', byItself a = true ∧ (working s a = true ∨ waitAct a = true ∨ reapAct a = true) ∧ step c s a = .ok s' := by
  by_contra hno
  have hc := h.closing hg hdisp htok hpc (fun ⟨a, s', h1, h2, h3⟩ => hno ⟨a, s', h1, .inl h2, h3⟩)
  have hl : live s.tr = true := by simp [live, hc.joining]
  have byH : ∀ i, ¬ ∃ a s', ofHandler i a = true ∧ step c s a = .ok s' := fun i ⟨a, s', h1, h2⟩ =>
    hno ⟨a, s', by simp [byItself, self_of_handler h1], .inr (.inl (wait_of_handler h1)), h2⟩
  have hdone : allDone s.handlers = true := by
    unfold allDone
    rw [List.all_eq_true]
    intro x hx
    obtain ⟨i, hi⟩ := List.getElem?_of_mem hx
    have hon := hc.handlers x hx
    cases x with
    | done r => rfl
    | dead v => rfl
    | inRecv rt j => exact absurd (handler_leaves h hc.closed hc.popped hc.claimed hi) (byH i)
    | toRecv rt j => exact absurd (handler_moves_hard hl htok hi (.inl ⟨_, _, rfl⟩)) (byH i)
    | waiting f rt j => exact absurd (handler_moves_hard hl htok hi (.inr ⟨_, _, _, rfl⟩)) (byH i)
    | _ => simp [onTheWay] at hon
  have hwhy := hc.why
  obtain ⟨a, s', h1, h2⟩ := reaper_moves (c := c) hl (fun e => hwhy ⟨hdone, .inr e⟩)
    (fun e => hwhy ⟨hdone, .inl (by rw [e]; rfl)⟩) (fun x e => hwhy ⟨hdone, .inl (by rw [e]; rfl)⟩)
  exact hno ⟨a, s', by simp [byItself, self_of_reap h1], .inr (.inr h1), h2⟩

theorem polite_itself {a : Act} (h : byItself a = true) : polite c s a = true ∧ isRequest a = false ∧ isTrigger a = false := by
  cases a with
  | request r => simp [byItself, selfAct, ownAct, internal, isDie] at h
  | server x => refine ⟨rfl, rfl, ?_⟩; cases x <;> first | rfl | simp [byItself, selfAct, ownAct, internal, isDie] at h
  | _ => exact ⟨rfl, rfl, rfl⟩

/-- So there is a way to the end. -/
theorem way_out {as : List Act} (hr : Runs c (init c lf now) as s) (htok : s.tr.token = some .hard) :
    ∃ bs s', Runs c s bs s' ∧ s'.tr.pc = .done ∧ ∀ a ∈ bs, byItself a = true := by
  have key : ∀ x y z : Nat, ∀ s as, Runs c (init c lf now) as s → s.tr.token = some .hard → togo c s = x → churn s = y → roundRank s = z →
      ∃ bs s', Runs c s bs s' ∧ s'.tr.pc = .done ∧ ∀ a ∈ bs, byItself a = true := by
    intro x
    induction x using Nat.strongRecOn with
    | ind x ihx =>
    intro y
    induction y using Nat.strongRecOn with
    | ind y ihy =>
    intro z
    induction z using Nat.strongRecOn with
    | ind z ihz =>
    intro s as hr htok e1 e2 e3
    by_cases hpc : s.tr.pc = .done
    · exact ⟨[], s, .nil _, hpc, by simp⟩
    have hsnd : Sound c lf now s := .of_runs hg hr
    obtain ⟨a, s1, h1, h2, h3⟩ := hsnd.moves hg hdisp htok hpc
    obtain ⟨p1, p2, p3⟩ := polite_itself (c := c) (s := s) hg hdisp h1
    have hr1 : Runs c (init c lf now) (as ++ [a]) s1 := hr.append (.cons p1 h3 (.nil _))
    have htok1 := hard_lasts hg hsnd.inv p1 h3 htok
    have t1 := togo_step hg hsnd.inv p1 h3
    have t2 := churn_step h3
    rw [p3] at t1
    rw [p2] at t2
    simp only [Bool.toNat_false, Nat.mul_zero, Nat.add_zero] at t1 t2
    have fin : (∃ bs s', Runs c s1 bs s' ∧ s'.tr.pc = .done ∧ ∀ a ∈ bs, byItself a = true) →
        ∃ bs s', Runs c s bs s' ∧ s'.tr.pc = .done ∧ ∀ a ∈ bs, byItself a = true := by
      rintro ⟨bs, s', k1, k2, k3⟩
      exact ⟨a :: bs, s', .cons p1 h3 k1, k2, by simpa [h1] using k3⟩
    refine fin ?_
    by_cases hw : working s a = true
    · rw [hw] at t1
      simp only [Bool.toNat_true] at t1
      exact ihx (togo c s1) (by omega) _ _ s1 _ hr1 htok1 rfl rfl rfl
    by_cases hx : togo c s1 < x
    · exact ihx (togo c s1) hx _ _ s1 _ hr1 htok1 rfl rfl rfl
    by_cases hwt : waitAct a = true
    · rw [hwt] at t2
      simp only [Bool.toNat_true] at t2
      exact ihy (churn s1) (by omega) _ s1 _ hr1 htok1 (by omega) rfl rfl
    by_cases hy : churn s1 < y
    · exact ihy (churn s1) hy _ s1 _ hr1 htok1 (by omega) rfl rfl
    have hra : reapAct a = true := by
      rcases h2 with h2 | h2 | h2
      · exact absurd h2 hw
      · exact absurd h2 hwt
      · exact h2
    have t3 := (idle_step h3 (by simpa using hw)).2.2.2.1 hra
    exact ihz (roundRank s1) (by omega) s1 _ hr1 htok1 (by omega) (by omega) rfl
  exact key _ _ _ s as hr htok rfl rfl rfl

/-- **The end.** -/
theorem hard_ends (h : InfRun c lf now σ α) (hj : Relentless c σ α) (hhard : ∃ k, (σ k).tr.token = some .hard)
    (hcease : ∃ k, ∀ j, k ≤ j → isRequest (α j) = false ∧ isTrigger (α j) = false) : ∃ k, (σ k).tr.pc = .done := by
  by_contra hno
  have hno : ∀ k, (σ k).tr.pc ≠ .done := fun k hk => hno ⟨k, hk⟩
  have snd : ∀ k, Sound c lf now (σ k) := fun k => .of_runs hg (h.prefix k)
  have hstep := fun k => (h.next k).2
  have hpol := fun k => (h.next k).1
  obtain ⟨k1, hk1⟩ := hhard
  obtain ⟨k2, hk2⟩ := hcease
  have htok : ∀ d, (σ (k1 + d)).tr.token = some .hard := by
    intro d
    induction d with
    | zero => exact hk1
    | succ d ih => exact hard_lasts hg (snd _).inv (hpol (k1 + d)) (hstep (k1 + d)) ih
  have htok : ∀ j, k1 ≤ j → (σ j).tr.token = some .hard := fun j hj => by
    have := htok (j - k1)
    rwa [show k1 + (j - k1) = j by omega] at this
  -- nothing brings the tasks forward any more
  obtain ⟨K0, hK2, hK0⟩ := ceases (fun k => togo c (σ k)) (fun k => working (σ k) (α k) = true) _ k2 rfl
    (fun k hk => by
      have := togo_step hg (snd k).inv (hpol k) (hstep k)
      rw [(hk2 k hk).2] at this
      simp only [Bool.toNat_false] at this
      omega)
    (fun k hk hw => by
      have := togo_step hg (snd k).inv (hpol k) (hstep k)
      rw [(hk2 k hk).2, hw] at this
      simp only [Bool.toNat_false, Bool.toNat_true] at this
      omega)
  have hcan : ∃ K1, ∀ j, K1 ≤ j → ¬ ∃ a s', working (σ j) a = true ∧ step c (σ j) a = .ok s' := by
    by_contra hx
    push Not at hx
    obtain ⟨j, h1, h2⟩ := hj.work (fun k => hx k) K0
    exact hK0 j h1 h2
  obtain ⟨K1, hK1⟩ := hcan
  obtain ⟨M, hMa, hMb, hMc⟩ : ∃ M, K0 ≤ M ∧ K1 ≤ M ∧ k1 ≤ M :=
    ⟨max K0 (max K1 k1), Nat.le_max_left _ _, Nat.le_trans (Nat.le_max_left _ _) (Nat.le_max_right _ _),
      Nat.le_trans (Nat.le_max_right _ _) (Nat.le_max_right _ _)⟩
  have hw : ∀ j, M ≤ j → working (σ j) (α j) = false := fun j hj => by simpa using hK0 j (by omega)
  have hc : ∀ j, M ≤ j → Closing (σ j) := fun j hj =>
    (snd j).closing hg hdisp (htok j (by omega)) (hno j) (fun ⟨a, s', _, h2, h3⟩ => hK1 j (by omega) ⟨a, s', h2, h3⟩)
  have hlive : ∀ j, M ≤ j → live (σ j).tr = true := fun j hj => by simp [live, (hc j hj).joining]
  have hnr : ∀ j, M ≤ j → isRequest (α j) = false := fun j hj => (hk2 j (by omega)).1
  -- the handlers come to an end
  obtain ⟨M1, hM1, hM2⟩ := ceases (fun k => churn (σ k)) (fun k => waitAct (α k) = true) _ M rfl
    (fun k hk => by have := churn_step (hstep k); rw [hnr k hk] at this; simp only [Bool.toNat_false] at this; omega)
    (fun k hk hwt => by
      have := churn_step (hstep k)
      rw [hnr k hk, hwt] at this
      simp only [Bool.toNat_false, Bool.toNat_true] at this
      omega)
  have hconst : ∀ d, (σ (M1 + d)).handlers = (σ M1).handlers := by
    intro d
    induction d with
    | zero => rfl
    | succ d ih =>
      rw [← ih]
      exact idle_handlers (hstep (M1 + d)) (hw _ (by omega)) (hnr _ (by omega)) (by simpa using hM2 (M1 + d) (by omega))
  have hconst : ∀ j, M1 ≤ j → (σ j).handlers = (σ M1).handlers := fun j hj => by
    have := hconst (j - M1)
    rwa [show M1 + (j - M1) = j by omega] at this
  have hdone : allDone (σ M1).handlers = true := by
    unfold allDone
    rw [List.all_eq_true]
    intro x hx
    obtain ⟨i, hi⟩ := List.getElem?_of_mem hx
    have hno : ¬ ∀ k, ∃ j, k ≤ j ∧ ∃ a s', ofHandler i a = true ∧ step c (σ j) a = .ok s' := by
      intro hall
      obtain ⟨j, h1, h2⟩ := hj.handler i hall M1
      exact hM2 j h1 (wait_of_handler h2)
    have hno : ¬ ∀ j, M1 ≤ j → ∃ a s', ofHandler i a = true ∧ step c (σ j) a = .ok s' := fun hx =>
      hno (fun k => ⟨max k M1, Nat.le_max_left _ _, hx _ (Nat.le_max_right _ _)⟩)
    have hon := (hc M1 hM1).handlers x hx
    cases x with
    | done r => rfl
    | dead v => rfl
    | inRecv rt j =>
      exact absurd (fun k hk => handler_leaves (snd k) (hc k (by omega)).closed (hc k (by omega)).popped
        (hc k (by omega)).claimed (by rw [hconst k hk]; exact hi)) hno
    | toRecv rt j =>
      exact absurd (fun k hk => handler_moves_hard (hlive k (by omega)) (hc k (by omega)).token
        (by rw [hconst k hk]; exact hi) (.inl ⟨_, _, rfl⟩)) hno
    | waiting f rt j =>
      exact absurd (fun k hk => handler_moves_hard (hlive k (by omega)) (hc k (by omega)).token
        (by rw [hconst k hk]; exact hi) (.inr ⟨_, _, _, rfl⟩)) hno
    | _ => simp [onTheWay] at hon
  -- the reaper does not stay in a round
  have hwhy : ∀ j, M1 ≤ j → reaperEnded (σ j).reaper = false ∧ (σ j).reaper ≠ .idle := by
    intro j hj
    have := (hc j (by omega)).why
    rw [hconst j hj] at this
    exact ⟨by cases hr : reaperEnded (σ j).reaper with | false => rfl | true => exact absurd ⟨hdone, .inl hr⟩ this,
      fun e => this ⟨hdone, .inr e⟩⟩
  have hnt : ∀ j, M1 ≤ j → α j ≠ .reapTick := by
    intro j hj he
    have hs := hstep j
    rw [he] at hs
    simp only [step] at hs
    split at hs
    · rename_i hr; exact (hwhy j hj).2 hr
    · cases hs
  obtain ⟨M', h1, h2⟩ := ceases (fun k => roundRank (σ k)) (fun k => reapAct (α k) = true) _ M1 rfl
    (fun k hk => (idle_step (hstep k) (hw k (by omega))).2.2.1 (hnt k hk))
    (fun k hk hr => (idle_step (hstep k) (hw k (by omega))).2.2.2.1 hr)
  obtain ⟨j, h3, h4⟩ := hj.reaper (fun k => by
    refine ⟨max k M1, Nat.le_max_left _ _, ?_⟩
    have hm := Nat.le_max_right k M1
    have hy := hwhy _ hm
    refine reaper_moves (hlive _ (by omega)) hy.2 (fun e => ?_) (fun x e => ?_)
    · rw [e] at hy; cases hy.1
    · rw [e] at hy; cases hy.1) M'
  exact h2 j h3 h4

end Verif.Sys
