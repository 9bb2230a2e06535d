import Verif.Proof.Churn
import Verif.Proof.Terminate2

/-!
# Fair runs with remote runners
-/

namespace Verif.Sys
open Verif Verif.Tracker

variable {c : Cfg} {lf : LogFile} {now : Int} {s s' : State} {σ : Nat → State} {α : Nat → Act}

/-- What makes a number smaller ceases. -/
theorem ceases (f : Nat → Nat) (P : Nat → Prop) : ∀ (n K : Nat), f K = n → (∀ k, K ≤ k → f (k + 1) ≤ f k) →
    (∀ k, K ≤ k → P k → f (k + 1) < f k) → ∃ K', K ≤ K' ∧ ∀ j, K' ≤ j → ¬ P j := by
  intro n
  induction n using Nat.strongRecOn with
  | ind n ih =>
    intro K hK h1 h2
    by_cases hP : ∃ j, K ≤ j ∧ P j
    · obtain ⟨j, hj, hp⟩ := hP
      have mono : ∀ d, f (K + d) ≤ f K := by
        intro d
        induction d with
        | zero => exact Nat.le_refl _
        | succ d ihd => exact Nat.le_trans (h1 (K + d) (by omega)) ihd
      have h3 := mono (j - K)
      rw [show K + (j - K) = j by omega] at h3
      have h4 := h2 j hj hp
      obtain ⟨K', h5, h6⟩ := ih (f (j + 1)) (by omega) (j + 1) rfl (fun k hk => h1 k (by omega)) (fun k hk => h2 k (by omega))
      exact ⟨K', by omega, h6⟩
    · exact ⟨K, Nat.le_refl _, fun j hj hp => hP ⟨j, hj, hp⟩⟩

/-- The task of a connection that is gone is with somebody else. -/
def Moved (s s' : State) : Prop :=
  ∀ txn ∈ s.conns.map (·.1), txn ∈ s'.conns.map (·.1) ∨ (∃ x ∈ s'.handlers, onTheWay x = true) ∨ s'.forgotten ≠ [] ∨ ownR s'.reaper ≠ []

theorem Moved.same (h : s'.conns.map (·.1) = s.conns.map (·.1)) : Moved s s' := fun txn ht => .inl (by rw [h]; exact ht)

theorem keep_drop {l : List (Nat × Conn)} {txn t : Nat} (h : t ∈ l.map (·.1)) (hne : t ≠ txn) : t ∈ (dropKey txn l).map (·.1) := by
  obtain ⟨x, hx, rfl⟩ := List.mem_map.1 h
  exact List.mem_map.2 ⟨x, List.mem_filter.2 ⟨hx, by simpa using hne⟩, rfl⟩

theorem lookup_some_of_mem {l : List (Nat × Conn)} {t : Nat} (h : t ∈ l.map (·.1)) : ∃ x, l.lookup t = some x := by
  cases hl : l.lookup t with
  | some x => exact ⟨x, rfl⟩
  | none =>
    have := lookup_none_drop hl
    have h2 := not_mem_drop l t
    rw [this] at h2
    exact absurd h h2

theorem request_conns {r : Request} (hs : takeRequest c s r = .ok s') :
    s'.conns.length ≤ s.conns.length ∧ Moved s s' := by
  have rep : ∀ x : Reply, (reply x s).conns.length ≤ s.conns.length ∧ Moved s (reply x s) := fun x => ⟨Nat.le_refl _, .same rfl⟩
  unfold takeRequest at hs
  split at hs
  · simp only [Res.ok.injEq] at hs; subst hs; exact rep _
  · split at hs
    · simp only [Res.ok.injEq] at hs; subst hs; exact rep _
    · split at hs
      · simp only [Res.ok.injEq] at hs; subst hs; exact rep _
      · split at hs
        · simp only [Res.ok.injEq] at hs; subst hs
          unfold startH
          repeat' split
          all_goals first
            | exact rep _
            | exact ⟨Nat.le_refl _, .same rfl⟩
        · unfold begunH at hs
          split at hs
          · simp only [Res.ok.injEq] at hs; subst hs; exact rep _
          · split at hs
            · obtain ⟨t, _, rfl⟩ := trk_ok.1 hs
              exact ⟨by simp [reply, modifyKey], .same (by simp only [reply]; exact keys_modify _ _ _)⟩
            · simp only [Res.ok.injEq] at hs; subst hs; exact rep _
        · simp only [Res.ok.injEq] at hs; subst hs
          unfold endH
          split
          · split
            · exact rep _
            · split
              · refine ⟨List.length_filter_le _ _, fun t ht => .inr (.inr (.inl (by simp [reply])))⟩
              · refine ⟨List.length_filter_le _ _, fun t ht => .inr (.inl ⟨_, List.mem_append_right _ (List.mem_singleton.2 rfl), rfl⟩)⟩
          · exact rep _
        · unfold pingH at hs
          split at hs
          · simp only [Res.ok.injEq] at hs; subst hs; exact rep _
          · obtain ⟨x, _, h2⟩ := Res.bind_ok.1 hs
            simp only [Res.ok.injEq] at h2; subst h2
            exact ⟨by simp [reply, modifyKey], .same (by simp only [reply]; exact keys_modify _ _ _)⟩
        · simp only [Res.ok.injEq] at hs; subst hs
          exact ⟨Nat.le_refl _, .same rfl⟩
        · cases hs

theorem request_of_step {r : Request} (hs : step c s (.request r) = .ok s') : takeRequest c s r = .ok s' := by
  simp only [step] at hs
  split at hs
  · cases hs
  · exact hs

/-- How much the reaper has to do before it sleeps. -/
def roundRank (s : State) : Nat :=
  match s.reaper with
  | .removing l _ => l.length + s.conns.length + 3
  | .softRemoving l _ => l.length + 2
  | .sending _ => 1
  | _ => 0

/-- What happens to connections and reaper while the tasks are not brought forward. -/
theorem idle_step {a : Act} (hs : step c s a = .ok s') (hw : working s a = false) :
    s'.conns.length ≤ s.conns.length ∧ Moved s s' ∧ (a ≠ .reapTick → roundRank s' ≤ roundRank s) ∧
    (reapAct a = true → roundRank s' < roundRank s) ∧ (ownR s.reaper ≠ [] → ownR s'.reaper ≠ []) ∧
    (reapAct a = false → a ≠ .reapTick → s'.reaper = s.reaper) := by
  have key : s'.conns = s.conns → s'.reaper = s.reaper → reapAct a = false →
      s'.conns.length ≤ s.conns.length ∧ Moved s s' ∧ (a ≠ .reapTick → roundRank s' ≤ roundRank s) ∧
      (reapAct a = true → roundRank s' < roundRank s) ∧ (ownR s.reaper ≠ [] → ownR s'.reaper ≠ []) ∧
      (reapAct a = false → a ≠ .reapTick → s'.reaper = s.reaper) := by
    intro h1 h2 h3
    refine ⟨by rw [h1]; exact Nat.le_refl _, .same (by rw [h1]), fun _ => by unfold roundRank; rw [h1, h2]; exact Nat.le_refl _,
      fun h => (by rw [h3] at h; cases h), fun h => (by rw [h2]; exact h), fun _ _ => h2⟩
  cases a with
  | request r =>
    have h := request_of_step hs
    obtain ⟨h1, h2⟩ := request_conns h
    obtain ⟨h3, _⟩ := takeRequest_rest h
    refine ⟨h1, h2, fun _ => ?_, fun h => (by cases h), fun h => (by rw [h3]; exact h), fun _ _ => h3⟩
    unfold roundRank
    rw [h3]
    split <;> omega
  | server x =>
    simp only [step] at hs
    split at hs
    · obtain ⟨t, _, rfl⟩ := trk_ok.1 hs
      exact key rfl rfl rfl
    · cases hs
  | hRecv h =>
    simp only [step] at hs
    repeat' split at hs
    all_goals first
      | (cases hs; done)
      | (obtain ⟨t, _, rfl⟩ := trk_ok.1 hs; exact key rfl rfl rfl)
      | (simp only [Res.ok.injEq] at hs; subst hs; exact key rfl rfl rfl)
  | hLeave h k t =>
    simp only [step] at hs
    repeat' split at hs
    all_goals first
      | (cases hs; done)
      | (obtain ⟨t, _, rfl⟩ := trk_ok.1 hs; exact key rfl rfl rfl)
      | (simp only [Res.ok.injEq] at hs; subst hs; exact key rfl rfl rfl)
  | hDrop h k =>
    simp only [step] at hs
    repeat' split at hs
    all_goals first
      | (cases hs; done)
      | (obtain ⟨t, _, rfl⟩ := trk_ok.1 hs; exact key rfl rfl rfl)
      | (simp only [Res.ok.injEq] at hs; subst hs; exact key rfl rfl rfl)
  | hFlag h =>
    simp only [step] at hs
    repeat' split at hs
    all_goals first
      | (cases hs; done)
      | (simp only [Res.ok.injEq] at hs; subst hs; exact key rfl rfl rfl)
  | reapTick =>
    simp only [step] at hs
    split at hs
    · rename_i hr
      simp only [Res.ok.injEq] at hs; subst hs
      exact ⟨Nat.le_refl _, .same rfl, fun h => absurd rfl h, fun h => (by cases h), fun h => by rw [hr] at h; exact absurd rfl h,
        fun _ h => absurd rfl h⟩
    · cases hs
  | reapRemove =>
    simp only [step] at hs
    split at hs
    · rename_i txn txns e hr
      simp only [Res.ok.injEq] at hs; subst hs
      have hl : (dropKey txn s.conns).length ≤ s.conns.length := List.length_filter_le _ _
      refine ⟨hl, ?_, ?_, ?_, ?_, fun h => by cases h⟩
      · intro t ht
        by_cases he : t = txn
        · subst he
          obtain ⟨x, hx⟩ := lookup_some_of_mem ht
          right; right; right
          simp [hx, ownR]
        · exact .inl (keep_drop ht he)
      · intro _; simp only [roundRank, hr, List.length_cons]; omega
      · intro _; simp only [roundRank, hr, List.length_cons]; omega
      · intro h; rw [hr] at h; simp only [ownR] at h ⊢; simp [h]
    · rename_i txn txns e hr
      split at hs
      · rename_i conn hc
        simp only [Res.ok.injEq] at hs; subst hs
        have hl : (dropKey txn s.conns).length ≤ s.conns.length := List.length_filter_le _ _
        refine ⟨hl, ?_, ?_, ?_, ?_, fun h => by cases h⟩
        · intro t ht
          right; right; right
          simp [ownR]
        · intro _; simp only [roundRank, hr, List.length_cons]; omega
        · intro _; simp only [roundRank, hr, List.length_cons]; omega
        · intro h; simp [ownR]
      · simp only [Res.ok.injEq] at hs; subst hs
        refine ⟨Nat.le_refl _, .same rfl, ?_, ?_, ?_, fun h => by cases h⟩
        · intro _; simp only [roundRank]; omega
        · intro _; simp only [roundRank, hr]; omega
        · intro h; rw [hr] at h; exact h
    · rename_i e hr
      simp only [Res.ok.injEq] at hs; subst hs
      refine ⟨Nat.le_refl _, .same rfl, ?_, ?_, ?_, fun h => by cases h⟩
      · intro _; simp only [roundRank, hr]; omega
      · intro _; simp only [roundRank, hr]; omega
      · intro h; rw [hr] at h; exact h
    · cases hs
  | reapCheck o =>
    simp only [step] at hs
    split at hs
    · rename_i e hr
      split at hs
      · rename_i t ht
        split at hs
        · rename_i hp
          simp only [Res.ok.injEq] at hs; subst hs
          have hl : o.length ≤ s.conns.length := by
            rw [(List.isPerm_iff.1 hp).length_eq, List.length_map]
            exact List.length_filter_le _ _
          refine ⟨Nat.le_refl _, .same rfl, ?_, ?_, ?_, fun h => by cases h⟩
          · intro _; simp only [roundRank, hr, List.length_nil]; omega
          · intro _; simp only [roundRank, hr, List.length_nil]; omega
          · intro h; rw [hr] at h; exact h
        · cases hs
      · simp only [Res.ok.injEq] at hs; subst hs
        refine ⟨Nat.le_refl _, .same rfl, ?_, ?_, ?_, fun h => by cases h⟩
        · intro _; simp only [roundRank, hr, List.length_nil]; omega
        · intro _; simp only [roundRank, hr, List.length_nil]; omega
        · intro h; rw [hr] at h; exact h
    · cases hs
  | reapSend =>
    simp only [step] at hs
    split at hs
    · rename_i hr
      simp [working, hr] at hw
    · rename_i hr
      simp only [Res.ok.injEq] at hs; subst hs
      refine ⟨Nat.le_refl _, .same rfl, ?_, ?_, ?_, fun h => by cases h⟩
      · intro _; simp only [roundRank, hr]; omega
      · intro _; simp only [roundRank, hr]; omega
      · intro h; rw [hr] at h; exact absurd rfl h
    · cases hs
  | _ => simp [working] at hw

theorem hard_lasts (hg : Good c.tr) (hi : Inv c lf now s) {a : Act} (hp : polite c s a = true) (hs : step c s a = .ok s')
    (h : s.tr.token = some .hard) : s'.tr.token = some .hard := by
  have hr := (hi.step hg hp hs).1
  clear hs hp
  revert h
  generalize trackerAct c s a = as at hr
  generalize s.tr = t at hr
  generalize s'.tr = t' at hr
  induction hr with
  | nil t => exact id
  | cons hp hs _ ih => exact fun h => ih (Tracker.hard_stays hs h)

theorem begun_queues {jobid : Option (Option String)} {txn pid : Nat} {host : String} (hs : begunH c s jobid txn host pid = .ok s') :
    s'.tr.queues = s.tr.queues := by
  unfold begunH at hs
  split at hs
  · simp only [Res.ok.injEq] at hs; subst hs; rfl
  · split at hs
    · obtain ⟨t, ht, rfl⟩ := trk_ok.1 hs
      simp only [Tracker.step] at ht
      split at ht
      · cases ht
      · simp only [Res.ok.injEq] at ht; subst ht; rfl
    · simp only [Res.ok.injEq] at hs; subst hs; rfl

theorem request_queues {r : Request} (hs : takeRequest c s r = .ok s') : s'.tr.queues = s.tr.queues := by
  unfold takeRequest at hs
  split at hs
  · simp only [Res.ok.injEq] at hs; subst hs; rfl
  · split at hs
    · simp only [Res.ok.injEq] at hs; subst hs; rfl
    · split at hs
      · simp only [Res.ok.injEq] at hs; subst hs; rfl
      · split at hs
        · simp only [Res.ok.injEq] at hs; subst hs
          unfold startH
          repeat' split
          all_goals rfl
        · exact begun_queues hs
        · simp only [Res.ok.injEq] at hs; subst hs
          unfold endH
          repeat' split
          all_goals rfl
        · unfold pingH at hs
          split at hs
          · simp only [Res.ok.injEq] at hs; subst hs; rfl
          · obtain ⟨x, _, h2⟩ := Res.bind_ok.1 hs
            simp only [Res.ok.injEq] at h2; subst h2; rfl
        · simp only [Res.ok.injEq] at hs; subst hs; rfl
        · cases hs

theorem idle_queues {a : Act} (hs : step c s a = .ok s') (hw : working s a = false) : s'.tr.queues = s.tr.queues := by
  cases a with
  | request r => exact request_queues (request_of_step hs)
  | server x =>
    simp only [step] at hs
    split at hs
    · obtain ⟨t, ht, rfl⟩ := trk_ok.1 hs
      simp only [id]
      cases x <;> simp only [working, Bool.true_eq_false, reduceCtorEq] at hw
      all_goals
        simp only [Tracker.step] at ht
        repeat' split at ht
        all_goals first
          | (cases ht; done)
          | (simp only [Res.ok.injEq] at ht; subst ht; rfl)
    · cases hs
  | reapSend =>
    simp only [step] at hs
    split at hs
    · rename_i hr; simp [working, hr] at hw
    · simp only [Res.ok.injEq] at hs; subst hs; rfl
    · cases hs
  | _ =>
    first
      | (simp [working] at hw; done)
      | (simp only [step] at hs
         repeat' split at hs
         all_goals first
          | (cases hs; done)
          | (simp only [Res.ok.injEq] at hs; subst hs; rfl)
          | (obtain ⟨t, ht, rfl⟩ := trk_ok.1 hs
             simp only [Tracker.step] at ht
             repeat' split at ht
             all_goals first
              | (cases ht; done)
              | (simp only [Res.ok.injEq] at ht; subst ht; rfl)))

/-- Waiting handlers do not change when nobody starts or ceases to wait. -/
theorem idle_handlers {a : Act} (hs : step c s a = .ok s') (hw : working s a = false) (hr : isRequest a = false)
    (h : waitAct a = false) : s'.handlers = s.handlers := by
  rcases step_handlers hs with h1 | ⟨r, x, rfl, h1, h2⟩ | ⟨i, x, x', h1, h2, h3⟩
  · exact h1
  · cases hr
  · cases h3 <;> first | (simp [waitAct] at h; done) | (simp [working] at hw; done)

theorem wait_of_handler {i : Nat} {a : Act} (h : ofHandler i a = true) : waitAct a = true := by
  cases a with
  | hLeave x y z => rfl
  | _ => first | rfl | simp [ofHandler] at h

theorem not_panics {a : Act} (h : selfAct a = true) : panics a = false := by
  cases a <;> simp_all [selfAct, ownAct, panics]

variable (hg : Good c.tr) (hdisp : Displayable c.tr) (hst : Startable c)
include hg hdisp hst

theorem just_core (hord : Ordered c.tr) (hne : c.tr.g.n ≠ 0) (h : InfRun c lf now σ α) (hj : Justly c σ α)
    (hco : Cooperative c σ α) (ha : ∀ k, isTrigger (α k) = false ∧ isDie (α k) = false) (hin : ∀ k, Intact (σ k))
    (hends : ∀ K txn, (∀ j, K ≤ j → working (σ j) (α j) = false ∧ (σ j).tr.token ≠ some .hard ∧ txn ∈ (σ j).conns.map (·.1)) →
      (∀ M, ∃ j, M ≤ j ∧ ((σ j).reaper = .idle ∨ (σ j).reaper = .stopped)) → False) :
    ∃ k, (σ k).tr.pc = .done := by
  by_contra hno
  have hno : ∀ k, (σ k).tr.pc ≠ .done := fun k hk => hno ⟨k, hk⟩
  have srv : ∀ k, Served c lf now (σ k) := by
    intro k
    refine Served.of_runs hg (h.prefix k) ?_
    intro a hm
    obtain ⟨i, _, rfl⟩ := List.mem_map.1 hm
    exact ha i
  have hstep := fun k => (h.next k).2
  have hpol := fun k => (h.next k).1
  -- nothing brings the tasks forward any more
  obtain ⟨K0, _, hK0⟩ := ceases (fun k => togo c (σ k)) (fun k => working (σ k) (α k) = true) _ 0 rfl
    (fun k _ => by have := togo_step hg (srv k).inv (hpol k) (hstep k); rw [(ha k).1] at this; simp only [Bool.toNat_false] at this; omega)
    (fun k _ hw => by
      have := togo_step hg (srv k).inv (hpol k) (hstep k)
      rw [(ha k).1, hw] at this
      simp only [Bool.toNat_false, Bool.toNat_true] at this
      omega)
  have hcan : ∃ K1, ∀ j, K1 ≤ j → ¬ ∃ a s', (working (σ j) a && !panics a) = true ∧ step c (σ j) a = .ok s' := by
    by_contra hx
    push Not at hx
    obtain ⟨j, h1, h2⟩ := hj.work (fun k => hx k) K0
    simp only [Bool.and_eq_true] at h2
    exact hK0 j h1 h2.1
  obtain ⟨K1, hK1⟩ := hcan
  obtain ⟨K, hKa, hKb⟩ : ∃ K, K0 ≤ K ∧ K1 ≤ K := ⟨max K0 K1, Nat.le_max_left _ _, Nat.le_max_right _ _⟩
  have hw : ∀ j, K ≤ j → working (σ j) (α j) = false := fun j hj => by simpa using hK0 j (by omega)
  have hncw : ∀ j, K ≤ j → ¬ CanWork c (σ j) := by
    rintro j hj ⟨a, s', h1, h2, h3⟩
    exact hK1 j (by omega) ⟨a, s', by simp [h2, not_panics h1], h3⟩
  have hproc : ∀ j, K ≤ j → ¬ ProcessRunning (σ j) := by
    rintro j hj ⟨v, st, hm⟩
    obtain ⟨i, hi⟩ := List.getElem?_of_mem hm
    exact hK1 j (by omega) ⟨.loopOutput i 0 [], _, rfl, by simp only [step, hi]; rfl⟩
  have still : ∀ j, K ≤ j → Halted c (σ j) ∨ Closing (σ j) := fun j hj =>
    (srv j).standstill hg hdisp hst hord hne (hin j) (hno j) (hncw j hj)
  have hlive : ∀ j, K ≤ j → live (σ j).tr = true := by
    intro j hj
    rcases still j hj with hh | hh
    · simp [live, hh.idle]
    · simp [live, hh.joining]
  -- the reaper does not stay in a round
  have hreap : ∀ M, K ≤ M → ¬ ∀ j, M ≤ j → (σ j).reaper ≠ .idle ∧ (σ j).reaper ≠ .stopped := by
    intro M hM hx
    have hnt : ∀ j, M ≤ j → α j ≠ .reapTick := by
      intro j hj he
      have hs := hstep j
      rw [he] at hs
      simp only [step] at hs
      split at hs
      · rename_i hr; exact (hx j hj).1 hr
      · cases hs
    obtain ⟨M', h1, h2⟩ := ceases (fun k => roundRank (σ k)) (fun k => reapAct (α k) = true) _ M rfl
      (fun k hk => (idle_step (hstep k) (hw k (by omega))).2.2.1 (hnt k hk))
      (fun k hk hr => (idle_step (hstep k) (hw k (by omega))).2.2.2.1 hr)
    obtain ⟨j, h3, h4⟩ := hj.reaper (fun k => by
      refine ⟨max k M, Nat.le_max_left _ _, ?_⟩
      have hm := Nat.le_max_right k M
      exact reaper_moves (hlive _ (by omega)) (hx _ hm).1 (hx _ hm).2 (hin _).reaper) M'
    exact h2 j h3 h4
  by_cases hcl : ∃ j0, K ≤ j0 ∧ Closing (σ j0)
  · obtain ⟨j0, hj0, hc0⟩ := hcl
    have hc : ∀ d, Closing (σ (j0 + d)) := by
      intro d
      induction d with
      | zero => exact hc0
      | succ d ih =>
        rcases still (j0 + (d + 1)) (by omega) with hh | hh
        · exact absurd (hard_lasts hg (srv _).inv (hpol (j0 + d)) (hstep (j0 + d)) ih.token) hh.token
        · exact hh
    obtain ⟨k0, hk0⟩ := hco.cease
    obtain ⟨M, hMa, hMb⟩ : ∃ M, j0 ≤ M ∧ k0 ≤ M := ⟨max j0 k0, Nat.le_max_left _ _, Nat.le_max_right _ _⟩
    have hc' : ∀ j, M ≤ j → Closing (σ j) := fun j hj => by
      have := hc (j - j0)
      rwa [show j0 + (j - j0) = j by omega] at this
    have hnr : ∀ j, M ≤ j → isRequest (α j) = false := fun j hj => hk0 j (by omega) (hc' j hj).token
    obtain ⟨M1, hM1, hM2⟩ := ceases (fun k => churn (σ k)) (fun k => waitAct (α k) = true) _ M rfl
      (fun k hk => by have := churn_step (hstep k); rw [hnr k hk] at this; simp only [Bool.toNat_false] at this; omega)
      (fun k hk hwt => by
        have := churn_step (hstep k)
        rw [hnr k hk, hwt] at this
        simp only [Bool.toNat_false, Bool.toNat_true] at this
        omega)
    have hconst : ∀ d, (σ (M1 + d)).handlers = (σ M1).handlers := by
      intro d
      induction d with
      | zero => rfl
      | succ d ih =>
        rw [← ih]
        exact idle_handlers (hstep (M1 + d)) (hw _ (by omega)) (hnr _ (by omega)) (by simpa using hM2 (M1 + d) (by omega))
    have hconst : ∀ j, M1 ≤ j → (σ j).handlers = (σ M1).handlers := fun j hj => by
      have := hconst (j - M1)
      rwa [show M1 + (j - M1) = j by omega] at this
    have hdone : allDone (σ M1).handlers = true := by
      unfold allDone
      rw [List.all_eq_true]
      intro x hx
      obtain ⟨i, hi⟩ := List.getElem?_of_mem hx
      have hno : ¬ ∀ k, ∃ j, k ≤ j ∧ ∃ a s', ofHandler i a = true ∧ step c (σ j) a = .ok s' := by
        intro hall
        obtain ⟨j, h1, h2⟩ := hj.handler i hall M1
        exact hM2 j h1 (wait_of_handler h2)
      have hno : ¬ ∀ j, M1 ≤ j → ∃ a s', ofHandler i a = true ∧ step c (σ j) a = .ok s' := fun hx =>
        hno (fun k => ⟨max k M1, Nat.le_max_left _ _, hx _ (Nat.le_max_right _ _)⟩)
      have hon := (hc' M1 hM1).handlers x hx
      cases x with
      | done r => rfl
      | dead v => rfl
      | inRecv rt j =>
        exact absurd (fun k hk => handler_leaves (srv k).sound (hc' k (by omega)).closed (hc' k (by omega)).popped
          (hc' k (by omega)).claimed (by rw [hconst k hk]; exact hi)) hno
      | toRecv rt j =>
        exact absurd (fun k hk => handler_moves (srv k) (hlive k (by omega)) (.inr (hc' k (by omega)).token)
          (by rw [hconst k hk]; exact hi) (.inl ⟨_, _, rfl⟩)) hno
      | waiting f rt j =>
        exact absurd (fun k hk => handler_moves (srv k) (hlive k (by omega)) (.inr (hc' k (by omega)).token)
          (by rw [hconst k hk]; exact hi) (.inr ⟨_, _, _, rfl⟩)) hno
      | _ => simp [onTheWay] at hon
    refine hreap M1 (by omega) (fun j hj => ?_)
    have := (hc' j (by omega)).why
    rw [hconst j hj] at this
    constructor
    · intro e; exact this ⟨hdone, .inr e⟩
    · intro e; exact this ⟨hdone, .inl (by rw [e]; rfl)⟩
  · have hh : ∀ j, K ≤ j → Halted c (σ j) := fun j hj => (still j hj).resolve_right (fun hx => hcl ⟨j, hj, hx⟩)
    have hown : ∀ j, K ≤ j → ownR (σ j).reaper = [] := by
      intro j0 hj0
      by_contra hx
      have hall : ∀ d, ownR (σ (j0 + d)).reaper ≠ [] := by
        intro d
        induction d with
        | zero => exact hx
        | succ d ih => exact (idle_step (hstep (j0 + d)) (hw _ (by omega))).2.2.2.2.1 ih
      refine hreap j0 hj0 (fun j hj => ?_)
      have := hall (j - j0)
      rw [show j0 + (j - j0) = j by omega] at this
      exact ⟨fun e => by rw [e] at this; exact this rfl, fun e => by rw [e] at this; exact this rfl⟩
    have hconns : ∀ j, K ≤ j → (σ j).conns = [] := by
      intro j0 hj0
      by_contra hx
      obtain ⟨y, hy⟩ := List.exists_mem_of_ne_nil _ hx
      have hall : ∀ d, y.1 ∈ (σ (j0 + d)).conns.map (·.1) := by
        intro d
        induction d with
        | zero => exact List.mem_map.2 ⟨y, hy, rfl⟩
        | succ d ih =>
          rcases (idle_step (hstep (j0 + d)) (hw _ (by omega))).2.1 _ ih with h1 | ⟨x, h1, h2⟩ | h1 | h1
          · exact h1
          · rw [(hh (j0 + d + 1) (by omega)).handlers x h1] at h2; cases h2
          · exact absurd (hin _).conns h1
          · exact absurd (hown _ (by omega)) h1
      refine hends j0 y.1 (fun j hj => ⟨hw j (by omega), (hh j (by omega)).token, ?_⟩) (fun M => ?_)
      · have := hall (j - j0)
        rwa [show j0 + (j - j0) = j by omega] at this
      · by_contra hx
        refine hreap (max M K) (Nat.le_max_right _ _) (fun j hj => ?_)
        have hM := Nat.le_max_left M K
        exact ⟨fun e => hx ⟨j, by omega, .inl e⟩, fun e => hx ⟨j, by omega, .inr e⟩⟩
    have hmiss : ∀ j, K ≤ j → ∃ v, RunnerMissing c (σ j) v := by
      intro j hj
      rcases (hh j hj).why with h1 | h1 | h1 | h1
      · exact absurd h1 (hproc j hj)
      · exact absurd (hconns j hj) h1
      · exact absurd (hown j hj) h1
      · exact h1
    have hopen : ∀ j, K ≤ j → (σ j).tr.readyOpen = true := fun j hj => by
      obtain ⟨v, hv⟩ := hmiss j hj
      exact hv.2.1
    obtain ⟨v, hv⟩ := hmiss K (Nat.le_refl _)
    have hq : ∀ d, (σ (K + d)).tr.queues = (σ K).tr.queues := by
      intro d
      induction d with
      | zero => rfl
      | succ d ih => rw [← ih]; exact idle_queues (hstep (K + d)) (hw _ (by omega))
    have waits : ∀ j r, K ≤ j → (cmdOf c.tr.g v).affinity.getLsbD r = true → ¬ Waits c (σ j) r := by
      intro j r h1 hr hwt
      obtain ⟨⟨it, hit, _⟩, _⟩ := hv.2.2.2 r hr
      have hq := hq (j - K)
      rw [show K + (j - K) = j by omega] at hq
      have hpop : (σ j).tr.popped = [] := by
        by_contra hpop
        exact hncw j h1 (popped_works hg hdisp (srv j).sound hpop)
      have hcl : (σ j).tr.claimed = [] := by
        by_contra hcl
        exact hncw j h1 (claimed_works hg hdisp (srv j).sound hcl)
      obtain ⟨w, hw⟩ := inside_waiting (srv j).sound hpop hcl hwt
      obtain ⟨i, t, ht⟩ := Tracker.can_pop (c := c.tr) hw (by rw [hq]; exact List.ne_nil_of_mem hit)
      exact hncw j h1 (canWork_server rfl ht (by simp) (by simp) (by simp) (by simp))
    obtain ⟨j, h1, h2⟩ := hco.asks K v hv
    rcases h2 with ⟨r, hr, hwt | ⟨job, e1, e2, e3, e4⟩⟩ | h2
    · exact waits j r h1 hr hwt
    · have hr64 : r < 64 := by
        by_contra hx
        rw [BitVec.getLsbD_of_ge _ _ (by omega)] at hr
        cases hr
      have hrc : ∀ i, K ≤ i → recvCheck (σ i).tr r = .ok () := by
        intro i hi
        simp [recvCheck, hopen i hi, show ¬ 64 ≤ r by omega]
      have hat : (σ (j + 1)).handlers[(σ j).handlers.length]? = some (.toRecv r job) := by
        have hs := hstep j
        rw [e1] at hs
        have hs := request_of_step hs
        simp only [takeRequest, startH] at hs
        simp at hs
        rw [← hs]
        simp [e2]
      have htop : ∀ d, (σ (j + 1 + d)).handlers[(σ j).handlers.length]? = some (.toRecv r job) := by
        intro d
        induction d with
        | zero => exact hat
        | succ d ih =>
          rcases step_handlers (hstep (j + 1 + d)) with h3 | ⟨rq, x, _, h3, _⟩ | ⟨i, x, x', h3, h4, h5⟩
          · show (σ (j + 1 + d + 1)).handlers[_]? = _
            rw [h3]; exact ih
          · show (σ (j + 1 + d + 1)).handlers[_]? = _
            rw [h3, List.getElem?_append_left (List.getElem?_eq_some_iff.1 ih).1]; exact ih
          · show (σ (j + 1 + d + 1)).handlers[_]? = _
            by_cases hi : i = (σ j).handlers.length
            · exfalso
              subst hi
              rw [ih] at h3
              simp only [Option.some.injEq] at h3
              subst h3
              generalize hea : α (j + 1 + d) = a at h5
              cases h5 with
              | recv =>
                refine waits (j + 1 + d + 1) r (by omega) hr (.inr ⟨job, ?_⟩)
                rw [h4]
                exact List.mem_of_getElem? (List.getElem?_set_self (List.getElem?_eq_some_iff.1 ih).1)
              | refused =>
                have hs := hstep (j + 1 + d)
                rw [hea] at hs
                simp only [step, ih, hrc _ (show K ≤ j + 1 + d by omega)] at hs
                obtain ⟨t, _, hs⟩ := trk_ok.1 hs
                refine waits (j + 1 + d + 1) r (by omega) hr (.inr ⟨job, ?_⟩)
                rw [hs]
                exact List.mem_of_getElem? (List.getElem?_set_self (List.getElem?_eq_some_iff.1 ih).1)
              | leave0 k rt t =>
                cases t with
                | true => exact e4 _ k _ _ (by omega) ih hea
                | false =>
                  have hs := hstep (j + 1 + d)
                  rw [hea] at hs
                  simp only [step, ih] at hs
                  rw [if_neg (by simpa using (hh _ (show K ≤ j + 1 + d by omega)).token)] at hs
                  cases hs
              | drop0 k => exact e3 _ k (by omega) hea
            · rw [h4, List.getElem?_set_ne hi]; exact ih
      have htop : ∀ i, j + 1 ≤ i → (σ i).handlers[(σ j).handlers.length]? = some (.toRecv r job) := fun i hi => by
        have := htop (i - (j + 1))
        rwa [show j + 1 + (i - (j + 1)) = i by omega] at this
      obtain ⟨i, h3, h4⟩ := hj.handler (σ j).handlers.length (fun k => ⟨max k (j + 1), Nat.le_max_left _ _,
        handler_moves (srv _) (hlive _ (by omega)) (.inl ⟨(hh _ (by omega)).chan, (hh _ (by omega)).idle⟩)
          (htop _ (Nat.le_max_right _ _)) (.inl ⟨_, _, rfl⟩)⟩) (j + 1)
      have hs := hstep i
      generalize α i = a at h4 hs
      cases a with
      | hRecv x =>
        simp only [ofHandler, beq_iff_eq] at h4
        subst h4
        simp only [step, htop i h3, hrc i (by omega)] at hs
        obtain ⟨t, _, hs⟩ := trk_ok.1 hs
        refine waits (i + 1) r (by omega) hr (.inr ⟨job, ?_⟩)
        rw [hs]
        exact List.mem_of_getElem? (List.getElem?_set_self (List.getElem?_eq_some_iff.1 (htop i h3)).1)
      | hFlag x =>
        simp only [ofHandler, beq_iff_eq] at h4
        subst h4
        simp [step, htop i h3] at hs
      | hLeave x y z =>
        cases z with
        | true => cases h4
        | false =>
          simp only [ofHandler, beq_iff_eq] at h4
          subst h4
          simp only [step, htop i h3] at hs
          rw [if_neg (by simpa using (hh _ (show K ≤ i by omega)).token)] at hs
          cases hs
      | _ => cases h4
    · exact (hh j h1).token h2

/-- **The end.** -/
theorem just_ends (hord : Ordered c.tr) (hne : c.tr.g.n ≠ 0) (h : InfRun c lf now σ α) (hj : Justly c σ α)
    (hco : Cooperative c σ α) (ha : ∀ k, isTrigger (α k) = false ∧ isDie (α k) = false) (hin : ∀ k, Intact (σ k))
    (hends : ConnsEnd σ) : ∃ k, (σ k).tr.pc = .done := by
  refine just_core hg hdisp hst hord hne h hj hco ha hin (fun K txn hall _ => ?_)
  obtain ⟨j, h1, h2⟩ := hends K txn (hall K (Nat.le_refl _)).2.2
  rcases h2 with h2 | h2
  · exact h2 (hall j h1).2.2
  · exact (hall j h1).2.1 h2

omit hdisp hst in
/-- The reaper stops only after a hard cancellation. -/
theorem stopped_why {as : List Act} (hr : Runs c (init c lf now) as s) (hs : s.reaper = .stopped) :
    c.remote = false ∨ s.tr.token = some .hard := by
  revert hs
  refine Runs.snocInd (P := fun as s => s.reaper = .stopped → c.remote = false ∨ s.tr.token = some .hard) ?_ ?_ hr
  · intro h
    simp only [init] at h
    split at h
    · cases h
    · rename_i hx; left; simpa using hx
  · intro as s a s' hr ih hp hs h
    by_cases h0 : s.reaper = .stopped
    · rcases ih h0 with h1 | h1
      · exact .inl h1
      · exact .inr (hard_lasts hg (Reachable.inv hg ⟨as, hr⟩) hp hs h1)
    · right
      by_cases ha : a = .reapStop
      · subst ha
        simp only [step] at hs
        split at hs
        · rename_i hx
          simp only [Res.ok.injEq] at hs; subst hs
          exact hx.2.1
        · cases hs
      · exfalso
        cases a with
        | request r =>
          have := (takeRequest_rest (request_of_step hs)).1
          exact h0 (by rw [← this]; exact h)
        | reapStop => exact ha rfl
        | _ =>
          simp only [step] at hs
          repeat' split at hs
          all_goals first
            | (cases hs; done)
            | (obtain ⟨t, ht, rfl⟩ := trk_ok.1 hs; exact h0 h)
            | (simp only [Res.ok.injEq] at hs; subst hs; first | exact h0 h | (cases h; done))
            | (obtain ⟨x, _, h2⟩ := Res.bind_ok.1 hs; simp only [Res.ok.injEq] at h2; subst h2; exact h0 h)
            | (obtain ⟨t, ht, rfl⟩ := trk_ok.1 hs; cases h)

end Verif.Sys
