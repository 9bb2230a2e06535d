import Verif.Proof.System3

/-! # Reports, abandoned tasks and moves of the handlers along system runs (helper lemmas for `Verif.Props.System`) -/

namespace Verif.Sys
open Verif Verif.Tracker
open scoped List

variable {c : Cfg} {lf : LogFile} {now : Int} {s s' : State}

/-! ### reports -/

theorem reportObs_eq (s : State) (a : Act) (hs : step c s a = .ok s') :
    reportObs s a = (trackerAct c s a).filterMap finReport? := by
  cases a with
  | server a =>
    simp only [step] at hs
    split at hs
    · rename_i ha
      cases a <;> first | rfl | (exact absurd ha (by simp [serverAct]))
    · cases hs
  | loopReport i =>
    simp only [reportObs, trackerAct]
    cases h : s.loops[i]? with
    | none => rfl
    | some l => cases l <;> rfl
  | loopStarted i host pid =>
    simp only [reportObs, trackerAct]
    cases h : s.loops[i]? with
    | none => rfl
    | some l => cases l <;> rfl
  | loopRecv i =>
    simp only [reportObs, trackerAct]
    cases recvCheck s.tr (loopType c i) <;> rfl
  | hReport h =>
    simp only [reportObs, trackerAct]
    cases h : s.handlers[h]? with
    | none => rfl
    | some l => cases l <;> rfl
  | hRecv h =>
    simp only [reportObs, trackerAct]
    cases h : s.handlers[h]? with
    | none => rfl
    | some l =>
      cases l with
      | toRecv rt j => simp only; cases recvCheck s.tr rt <;> rfl
      | _ => rfl
  | hDrop h k | hLeave h k _ =>
    simp only [reportObs, trackerAct]
    cases h : s.handlers[h]? with
    | none => rfl
    | some l => cases l <;> rfl
  | reapSend =>
    simp only [reportObs, trackerAct]
    cases s.reaper with
    | sending vs => cases vs <;> rfl
    | _ => rfl
  | request r =>
    simp only [reportObs, trackerAct]
    repeat' split
    all_goals rfl
  | _ => rfl

theorem reports_eq {as : List Act} (hr : Runs c s as s') :
    collect reportObs c s as = (toTracker c s as).filterMap finReport? := by
  unfold toTracker
  induction hr with
  | nil => rfl
  | cons hp hs _ ih =>
    simp only [collect, hs, List.filterMap_append, ih, reportObs_eq _ _ hs]

theorem Runs.toInit (hg : Good c.tr) {as : List Act} (hr : Runs c (init c lf now) as s) :
    Tracker.Runs c.tr (Tracker.init c.tr lf now) (toTracker c (init c lf now) as) s.tr :=
  (Runs.inv hg (Inv.init c lf now) hr).2

theorem reports_nodup (hg : Good c.tr) {as : List Act} (hr : Runs c (init c lf now) as s) :
    ((collect reportObs c (init c lf now) as).map (·.1)).Nodup := by
  rw [reports_eq hr]
  exact (sends_nodup hg (hr.toInit hg)).1

theorem owned_held (hg : Good c.tr) (hr : Reachable c lf now s) (hp : s.tr.pc ≠ .done) {v : Nat} :
    v ∈ owned s ↔ v ∈ s.tr.held := by
  rw [← List.count_pos_iff, ← List.count_pos_iff, (hr.inv hg).live.own hp v]

theorem owned_not_reported (hg : Good c.tr) {as : List Act} (hr : Runs c (init c lf now) as s) (hp : s.tr.pc ≠ .done) {v : Nat}
    (hv : v ∈ owned s) : v ∉ (collect reportObs c (init c lf now) as).map (·.1) := by
  rw [reports_eq hr]
  intro h
  exact ((sends_nodup hg (hr.toInit hg)).2 hp v h).2 ((owned_held hg ⟨as, hr⟩ hp).1 hv)

theorem owned_count_le (hg : Good c.tr) (hr : Reachable c lf now s) (hp : s.tr.pc ≠ .done) (v : Nat) :
    (owned s).count v ≤ 1 := by
  rw [← (hr.inv hg).live.own hp v]
  exact List.nodup_iff_count.1 (Live.held_nodup hg (hr.inv hg).reach) v

/-! ### moves of the handlers -/

/-- The moves of a handler. -/
inductive HMoves (c : Cfg) (s : State) (h : Nat) : Act → Handler → Handler → Prop
  | recv (rt : Nat) (j : String) : HMoves c s h (.hRecv h) (.toRecv rt j) (.inRecv rt j)
  | refused (rt : Nat) (j : String) (r : Reply) : r = .notFound ∨ r = .gone →
      HMoves c s h (.hRecv h) (.toRecv rt j) (.done (some r))
  | leave0 (k rt : Nat) (t : Bool) (j : String) (r : Reply) : r = .tooMany ∨ r = .gone →
      HMoves c s h (.hLeave h k t) (.toRecv rt j) (.done (some r))
  | leave (k rt : Nat) (t : Bool) (j : String) (r : Reply) : r = .tooMany ∨ r = .gone →
      HMoves c s h (.hLeave h k t) (.inRecv rt j) (.done (some r))
  | drop0 (k rt : Nat) (j : String) : HMoves c s h (.hDrop h k) (.toRecv rt j) (.done none)
  | drop1 (k rt : Nat) (j : String) : HMoves c s h (.hDrop h k) (.inRecv rt j) (.done none)
  | drop2 (k f rt : Nat) (j : String) : HMoves c s h (.hDrop h k) (.waiting f rt j) (.done none)
  | got (k rt : Nat) (j : String) (it : Item) : s.tr.claimed[k]? = some (rt, it) →
      HMoves c s h (.hGot h k) (.inRecv rt j) (.got it.id j)
  | timer (v txn : Nat) (j : String) (tm : TimeWheel.TimerID) : HMoves c s h (.hTimer h txn) (.got v j) (.timed v j txn tm)
  | die (v : Nat) (j : String) : HMoves c s h (.hDie h) (.got v j) (.dead v)
  | insert (v txn : Nat) (j : String) (tm : TimeWheel.TimerID) :
      HMoves c s h (.hInsert h) (.timed v j txn tm) (.done (some (.task txn v)))
  | cancel (conn : Conn) (code : Int) (values : List (List (String × String))) (next : Option Nat) :
      HMoves c s h (.hCancel h) (.ending conn code values next) (.reporting conn code values next)
  | reportNext (conn : Conn) (code : Int) (values : List (List (String × String))) (rt : Nat) :
      HMoves c s h (.hReport h) (.reporting conn code values (some rt)) (.waiting s.nextFlag rt conn.jobid)
  | report (conn : Conn) (code : Int) (values : List (List (String × String))) :
      HMoves c s h (.hReport h) (.reporting conn code values none) (.done (some .ended))
  | flag (f rt : Nat) (j : String) : HMoves c s h (.hFlag h) (.waiting f rt j) (.toRecv rt j)

/-- What a request adds to the handlers. -/
inductive Adds (c : Cfg) (s : State) (r : Request) : Handler → Prop
  | done (x : Reply) : (∀ txn v, x ≠ .task txn v) → Adds c s r (.done (some x))
  | start (rt : Nat) (j : String) : r.auth = some c.secret → j ∉ s.cancelledJobs → r.jobid = some (some j) → r.body = .start rt →
      Adds c s r (.toRecv rt j)
  | ending (txn : Nat) (conn : Conn) (code : Int) (values : List (List (String × String))) (next : Option Nat) :
      r.auth = some c.secret → s.conns.lookup txn = some conn → r.jobid = some (some conn.jobid) →
      r.body = .finish txn code values next → Adds c s r (.ending conn code values next)

theorem takeRequest_handlers {r : Request} (hs : takeRequest c s r = .ok s') :
    ∃ x, s'.handlers = s.handlers ++ [x] ∧ Adds c s r x := by
  have rep : ∀ x, (∀ txn v, x ≠ .task txn v) → ∀ s0 : State, s0.handlers = s.handlers → ∃ y, (reply x s0).handlers = s.handlers ++ [y] ∧ Adds c s r y :=
    fun x hx s0 h0 => ⟨_, by simp [reply, h0], .done x hx⟩
  unfold takeRequest at hs
  split at hs
  · simp only [Res.ok.injEq] at hs; subst hs; exact rep _ (by simp) _ rfl
  · rename_i t ht
    split at hs
    · simp only [Res.ok.injEq] at hs; subst hs; exact rep _ (by simp) _ rfl
    · split at hs
      · simp only [Res.ok.injEq] at hs; subst hs; exact rep _ (by simp) _ rfl
      · rename_i hb0 hsec
        simp only [ne_eq, not_not] at hsec
        subst hsec
        split at hs
        · rename_i rt hb
          simp only [Res.ok.injEq] at hs; subst hs
          unfold startH
          split
          · rename_i j hj
            split
            · exact rep _ (by simp) _ rfl
            · rename_i hm
              exact ⟨_, rfl, .start _ j ht (by simpa using hm) hj (by assumption)⟩
          · exact rep _ (by simp) _ rfl
        · unfold begunH at hs
          repeat' split at hs
          · simp only [Res.ok.injEq] at hs; subst hs; exact rep _ (by simp) _ rfl
          · obtain ⟨t, _, rfl⟩ := trk_ok.1 hs; exact rep _ (by simp) _ rfl
          · simp only [Res.ok.injEq] at hs; subst hs; exact rep _ (by simp) _ rfl
        · simp only [Res.ok.injEq] at hs; subst hs
          unfold endH
          split
          · rename_i j hj
            split
            · exact rep _ (by simp) _ rfl
            · rename_i conn hc
              split
              · exact rep _ (by simp) _ rfl
              · rename_i he
                simp only [ne_eq, not_not] at he
                subst he
                exact ⟨_, rfl, .ending _ conn _ _ _ ht hc hj (by assumption)⟩
          · exact rep _ (by simp) _ rfl
        · unfold pingH at hs
          split at hs
          · simp only [Res.ok.injEq] at hs; subst hs; exact rep _ (by simp) _ rfl
          · obtain ⟨_, _, hs⟩ := Res.bind_ok.1 hs
            simp only [Res.ok.injEq] at hs; subst hs; exact rep _ (by simp) _ rfl
        · simp only [Res.ok.injEq] at hs; subst hs; exact rep _ (by simp) _ rfl
        · cases hs

theorem step_handlers {a : Act} (hs : step c s a = .ok s') :
    s'.handlers = s.handlers ∨
    (∃ r x, a = .request r ∧ s'.handlers = s.handlers ++ [x] ∧ Adds c s r x) ∨
    ∃ h x x', s.handlers[h]? = some x ∧ s'.handlers = s.handlers.set h x' ∧ HMoves c s h a x x' := by
  cases a with
  | request r =>
    right; left
    simp only [step] at hs
    split at hs
    · cases hs
    · obtain ⟨x, h1, h2⟩ := takeRequest_handlers hs
      exact ⟨r, x, rfl, h1, h2⟩
  | server a =>
    left
    simp only [step] at hs
    split at hs
    · obtain ⟨t, _, rfl⟩ := trk_ok.1 hs; rfl
    · cases hs
  | hRecv h =>
    right; right
    simp only [step] at hs
    split at hs
    · rename_i rt j hi
      split at hs
      · obtain ⟨t, _, rfl⟩ := trk_ok.1 hs; exact ⟨h, _, _, hi, rfl, .recv _ _⟩
      · simp only [Res.ok.injEq] at hs; subst hs; exact ⟨h, _, _, hi, rfl, .refused _ _ _ (.inl rfl)⟩
      · simp only [Res.ok.injEq] at hs; subst hs; exact ⟨h, _, _, hi, rfl, .refused _ _ _ (.inr rfl)⟩
    · cases hs
  | hLeave h k t =>
    right; right
    simp only [step] at hs
    split at hs
    · rename_i rt j hi
      split at hs
      · simp only [Res.ok.injEq] at hs; subst hs
        cases t
        · exact ⟨h, _, _, hi, rfl, .leave0 k _ _ _ _ (.inr rfl)⟩
        · exact ⟨h, _, _, hi, rfl, .leave0 k _ _ _ _ (.inl rfl)⟩
      · cases hs
    · rename_i rt j hi
      split at hs
      · obtain ⟨t', _, rfl⟩ := trk_ok.1 hs
        cases t
        · exact ⟨h, _, _, hi, rfl, .leave k _ _ _ _ (.inr rfl)⟩
        · exact ⟨h, _, _, hi, rfl, .leave k _ _ _ _ (.inl rfl)⟩
      · cases hs
    · cases hs
  | hDrop h k =>
    right; right
    simp only [step] at hs
    split at hs
    · rename_i hi
      simp only [Res.ok.injEq] at hs; subst hs; exact ⟨h, _, _, hi, rfl, .drop0 _ _ _⟩
    · rename_i hi
      split at hs
      · obtain ⟨t, _, rfl⟩ := trk_ok.1 hs; exact ⟨h, _, _, hi, rfl, .drop1 _ _ _⟩
      · cases hs
    · rename_i hi
      simp only [Res.ok.injEq] at hs; subst hs; exact ⟨h, _, _, hi, rfl, .drop2 _ _ _ _⟩
    · cases hs
  | hGot h k =>
    right; right
    simp only [step] at hs
    split at hs
    · rename_i rt j r it hi hk
      split at hs
      · rename_i hr
        subst hr
        obtain ⟨t, _, rfl⟩ := trk_ok.1 hs; exact ⟨h, _, _, hi, rfl, .got k _ _ it hk⟩
      · cases hs
    · cases hs
  | hTimer h txn =>
    right; right
    simp only [step] at hs
    split at hs
    · rename_i hi
      obtain ⟨r, _, hs⟩ := Res.bind_ok.1 hs
      simp only [Res.ok.injEq] at hs; subst hs; exact ⟨h, _, _, hi, rfl, .timer _ _ _ _⟩
    · cases hs
  | hDie h =>
    right; right
    simp only [step] at hs
    split at hs
    · rename_i hi
      split at hs
      · simp only [Res.ok.injEq] at hs; subst hs; exact ⟨h, _, _, hi, rfl, .die _ _⟩
      · cases hs
    · cases hs
  | hInsert h =>
    right; right
    simp only [step] at hs
    split at hs
    · rename_i hi
      simp only [Res.ok.injEq] at hs; subst hs; exact ⟨h, _, _, hi, rfl, .insert _ _ _ _⟩
    · cases hs
  | hCancel h =>
    right; right
    simp only [step] at hs
    split at hs
    · rename_i hi
      simp only [Res.ok.injEq] at hs; subst hs; exact ⟨h, _, _, hi, rfl, .cancel _ _ _ _⟩
    · cases hs
  | hReport h =>
    right; right
    simp only [step] at hs
    split at hs
    · rename_i conn code values next hi
      obtain ⟨t, _, rfl⟩ := trk_ok.1 hs
      cases next with
      | none => exact ⟨h, _, _, hi, rfl, .report _ _ _⟩
      | some rt => exact ⟨h, _, _, hi, rfl, .reportNext _ _ _ _⟩
    · cases hs
  | hFlag h =>
    right; right
    simp only [step] at hs
    split at hs
    · rename_i hi
      split at hs
      · simp only [Res.ok.injEq] at hs; subst hs; exact ⟨h, _, _, hi, rfl, .flag _ _ _⟩
      · cases hs
    · cases hs
  | loopDie i =>
    left
    simp only [step] at hs
    split at hs
    · simp only [Res.ok.injEq] at hs; subst hs
      simp only [setLoop]; split <;> rfl
    · cases hs
  | _ =>
    left
    simp only [step] at hs
    repeat' split at hs
    all_goals first
      | cases hs; done
      | (simp only [Res.ok.injEq] at hs; subst hs; rfl)
      | (obtain ⟨t, _, rfl⟩ := trk_ok.1 hs; rfl)

/-! ### abandoned tasks -/

theorem takeRequest_rest {r : Request} (hs : takeRequest c s r = .ok s') :
    s'.reaper = s.reaper ∧ ∃ l, s'.forgotten = s.forgotten ++ l := by
  unfold takeRequest at hs
  split at hs
  · simp only [Res.ok.injEq] at hs; subst hs; exact ⟨rfl, [], by simp [reply]⟩
  · split at hs
    · simp only [Res.ok.injEq] at hs; subst hs; exact ⟨rfl, [], by simp [reply]⟩
    · split at hs
      · simp only [Res.ok.injEq] at hs; subst hs; exact ⟨rfl, [], by simp [reply]⟩
      · split at hs
        · simp only [Res.ok.injEq] at hs; subst hs
          unfold startH
          repeat' split
          all_goals exact ⟨rfl, [], by simp [reply]⟩
        · unfold begunH at hs
          repeat' split at hs
          · simp only [Res.ok.injEq] at hs; subst hs; exact ⟨rfl, [], by simp [reply]⟩
          · obtain ⟨t, _, rfl⟩ := trk_ok.1 hs; exact ⟨rfl, [], by simp [reply]⟩
          · simp only [Res.ok.injEq] at hs; subst hs; exact ⟨rfl, [], by simp [reply]⟩
        · simp only [Res.ok.injEq] at hs; subst hs
          unfold endH
          repeat' split
          · exact ⟨rfl, [], by simp [reply]⟩
          · rename_i conn _ _; exact ⟨rfl, [conn.node], by simp [reply]⟩
          · exact ⟨rfl, [], by simp⟩
          · exact ⟨rfl, [], by simp [reply]⟩
        · unfold pingH at hs
          split at hs
          · simp only [Res.ok.injEq] at hs; subst hs; exact ⟨rfl, [], by simp [reply]⟩
          · obtain ⟨_, _, hs⟩ := Res.bind_ok.1 hs
            simp only [Res.ok.injEq] at hs; subst hs; exact ⟨rfl, [], by simp [reply]⟩
        · simp only [Res.ok.injEq] at hs; subst hs; exact ⟨rfl, [], by simp [reply, markH]⟩
        · cases hs

theorem step_forgotten {a : Act} (hs : step c s a = .ok s') : ∃ l, s'.forgotten = s.forgotten ++ l := by
  cases a with
  | request r =>
    simp only [step] at hs
    split at hs
    · cases hs
    · exact (takeRequest_rest hs).2
  | server a =>
    simp only [step] at hs
    split at hs
    · obtain ⟨t, _, rfl⟩ := trk_ok.1 hs; exact ⟨[], by simp⟩
    · cases hs
  | hTimer h txn =>
    simp only [step] at hs
    split at hs
    · obtain ⟨_, _, hs⟩ := Res.bind_ok.1 hs
      simp only [Res.ok.injEq] at hs; subst hs; exact ⟨[], by simp [setH]⟩
    · cases hs
  | hInsert h =>
    simp only [step] at hs
    split at hs
    · simp only [Res.ok.injEq] at hs; subst hs; exact ⟨_, rfl⟩
    · cases hs
  | loopDie i =>
    simp only [step] at hs
    split at hs
    · simp only [Res.ok.injEq] at hs; subst hs
      refine ⟨[], ?_⟩
      simp only [setLoop, List.append_nil]; split <;> rfl
    · cases hs
  | _ =>
    simp only [step] at hs
    repeat' split at hs
    all_goals first
      | cases hs; done
      | (simp only [Res.ok.injEq] at hs; subst hs; exact ⟨[], by simp [setH, setLoop]⟩)
      | (obtain ⟨t, _, rfl⟩ := trk_ok.1 hs; exact ⟨[], by simp [setH, setLoop]⟩)

theorem step_reaper_dead {a : Act} (hs : step c s a = .ok s') {e : List Nat} (h : s.reaper = .dead e) : s'.reaper = .dead e := by
  cases a with
  | request r =>
    simp only [step] at hs
    split at hs
    · cases hs
    · rw [(takeRequest_rest hs).1, h]
  | server a =>
    simp only [step] at hs
    split at hs
    · obtain ⟨t, _, rfl⟩ := trk_ok.1 hs; exact h
    · cases hs
  | hTimer i txn =>
    simp only [step] at hs
    split at hs
    · obtain ⟨_, _, hs⟩ := Res.bind_ok.1 hs
      simp only [Res.ok.injEq] at hs; subst hs; exact h
    · cases hs
  | loopDie i =>
    simp only [step] at hs
    split at hs
    · simp only [Res.ok.injEq] at hs; subst hs
      simp only [setLoop]; split <;> exact h
    · cases hs
  | reapTick => simp [step, h] at hs
  | reapRemove => simp [step, h] at hs
  | reapCheck o => simp [step, h] at hs
  | reapSend => simp [step, h] at hs
  | reapStop => simp [step, h] at hs
  | _ =>
    simp only [step] at hs
    repeat' split at hs
    all_goals first
      | cases hs; done
      | (simp only [Res.ok.injEq] at hs; subst hs; exact h)
      | (obtain ⟨t, _, rfl⟩ := trk_ok.1 hs; exact h)

theorem mem_flatMap_set {α : Type} {f : α → List Nat} {l : List α} {i : Nat} {a b : α} (h : l[i]? = some a) (hf : f a = [])
    {v : Nat} (hv : v ∈ l.flatMap f) : v ∈ (l.set i b).flatMap f := by
  rw [← List.count_pos_iff] at hv ⊢
  have := count_set (f := f) (v := v) (b := b) h
  rw [hf] at this
  simp only [List.count_nil] at this
  omega

theorem abandoned_stays {a : Act} (hs : step c s a = .ok s') {v : Nat} (hv : v ∈ abandoned s) : v ∈ abandoned s' := by
  unfold abandoned at hv ⊢
  simp only [List.mem_append] at hv ⊢
  rcases hv with ((h | h) | h) | h
  · left; left; left
    rcases step_loops hs with ⟨e, _⟩ | ⟨i, l, l', o, hi, e, hm, _⟩
    · rwa [e]
    · rw [e]
      refine mem_flatMap_set hi ?_ h
      cases hm <;> rfl
  · left; left; right
    rcases step_handlers hs with e | ⟨r, x, _, e, _⟩ | ⟨i, x, x', hi, e, hm⟩
    · rwa [e]
    · rw [e, List.flatMap_append]; exact List.mem_append_left _ h
    · rw [e]
      refine mem_flatMap_set hi ?_ h
      cases hm <;> rfl
  · left; right
    cases hr : s.reaper with
    | dead e => rw [step_reaper_dead hs hr]; rw [hr] at h; exact h
    | _ => rw [hr] at h; cases h
  · right
    obtain ⟨l, e⟩ := step_forgotten hs
    rw [e]; exact List.mem_append_left _ h

theorem abandoned_later {as : List Act} (hr : Runs c s as s') {v : Nat} (hv : v ∈ abandoned s) : v ∈ abandoned s' := by
  induction hr with
  | nil => exact hv
  | cons hp hs _ ih => exact ih (abandoned_stays hs hv)

theorem abandoned_owned {v : Nat} (hv : v ∈ abandoned s) : v ∈ owned s := by
  unfold abandoned at hv
  unfold owned
  simp only [List.mem_append, List.mem_flatMap] at hv ⊢
  rcases hv with ((⟨l, hl, h⟩ | ⟨l, hl, h⟩) | h) | h
  · refine .inl (.inl (.inl (.inl ⟨l, hl, ?_⟩)))
    cases l <;> first | exact h | cases h
  · refine .inl (.inl (.inl (.inr ⟨l, hl, ?_⟩)))
    cases l <;> first | exact h | cases h
  · left; right
    cases hr : s.reaper with
    | dead e => rw [hr] at h; exact h
    | _ => rw [hr] at h; cases h
  · exact .inr h

/-- A report is sent before the end, and does not end anything. -/
theorem report_pc {a : Act} (hs : step c s a = .ok s') (ha : reportObs s a ≠ []) : s.tr.pc ≠ .done ∧ s'.tr.pc = s.tr.pc := by
  cases a with
  | loopReport i =>
    simp only [step] at hs
    repeat' split at hs
    all_goals first
      | cases hs; done
      | (obtain ⟨t, ht, rfl⟩ := trk_ok.1 hs
         obtain ⟨h1, _, _, h2⟩ := step_sendFinished ht
         exact ⟨h1, h2⟩)
  | hReport i =>
    simp only [step] at hs
    split at hs
    · obtain ⟨t, ht, rfl⟩ := trk_ok.1 hs
      obtain ⟨h1, _, _, h2⟩ := step_sendFinished ht
      exact ⟨h1, h2⟩
    · cases hs
  | reapSend =>
    simp only [step] at hs
    split at hs
    · obtain ⟨t, ht, rfl⟩ := trk_ok.1 hs
      obtain ⟨h1, _, _, h2⟩ := step_sendFinished ht
      exact ⟨h1, h2⟩
    · rename_i h
      simp only [reportObs, h, ne_eq, not_true_eq_false] at ha
    · cases hs
  | _ => exact absurd rfl ha

theorem abandoned_never_reported (hg : Good c.tr) {as bs : List Act} (hr : Runs c (init c lf now) as s) {v : Nat}
    (hp : s.tr.pc ≠ .done) (hv : v ∈ abandoned s) (hb : Runs c s bs s') :
    v ∉ (collect reportObs c (init c lf now) (as ++ bs)).map (·.1) := by
  refine Runs.snocInd (P := fun bs _ => v ∉ (collect reportObs c (init c lf now) (as ++ bs)).map (·.1)) ?_ ?_ hb
  · rw [List.append_nil]
    exact owned_not_reported hg hr hp (abandoned_owned hv)
  · intro bs s1 a s2 hb ih hpo hs
    by_cases h2 : s2.tr.pc = .done
    · have : reportObs s1 a = [] := by
        by_contra hne
        obtain ⟨h3, h4⟩ := report_pc hs hne
        exact h3 (h4 ▸ h2)
      rw [← List.append_assoc, collect_snoc (hr.append hb), this, List.append_nil]
      exact ih
    · exact owned_not_reported hg (hr.append (hb.snoc hpo hs)) h2 (abandoned_owned (abandoned_later (hb.snoc hpo hs) hv))

theorem owned_obtained (hg : Good c.tr) (hr : Reachable c lf now s) (hp : s.tr.pc ≠ .done) {v : Nat}
    (hv : v ∈ owned s) : Obtained s.tr v :=
  ((hr.inv hg).reach.obtained_iff hg).2 (List.mem_append_left _ (List.mem_append_left _ (List.mem_append_left _
    ((owned_held hg hr hp).1 hv))))

theorem toTracker_append {as bs : List Act} (hr : Runs c s as s') :
    toTracker c s (as ++ bs) = toTracker c s as ++ toTracker c s' bs := collect_append hr

theorem obtained_later {tc : Tracker.Cfg} {t t' : Tracker.State} {as : List Tracker.Act} (hr : Tracker.Runs tc t as t') :
    ∀ x ∈ t.obtained, x ∈ t'.obtained := by
  induction hr with
  | nil => exact fun _ h => h
  | @cons t t1 t' a as hd hs _ ih =>
    intro x hx
    apply ih
    by_cases hp : t1.pc = .done
    · by_cases ha : serverAct a = true
      · rw [(server_calm ha hs).obtained]; exact hx
      · simp only [Tracker.step] at hs
        revert ha
        cases a with
        | _ =>
          intro ha
          simp only at hs
          repeat' split at hs
          all_goals first
            | cases hs; done
            | (simp only [Res.ok.injEq] at hs; subst hs; first | exact hx | exact List.mem_append_left _ hx)
            | exact absurd rfl ha
    · obtain ⟨l, e, _⟩ := step_held hs hp
      rw [e]; exact List.mem_append_left _ hx

theorem abandoned_hang (hg : Good c.tr) {as bs : List Act} (hr : Runs c (init c lf now) as s) {v : Nat}
    (hp : s.tr.pc ≠ .done) (hv : v ∈ abandoned s) (hb : Runs c s bs s')
    (hno : NoShutdown (toTracker c (init c lf now) (as ++ bs)))
    (hq : quickFailures c.tr [] (Tracker.init c.tr lf now) (toTracker c (init c lf now) (as ++ bs)) < c.tr.fizzlesAllowed) :
    ended s'.tr.pc = false := by
  by_contra he
  have hrun := (hr.append hb).toInit hg
  have h1 := over_all_processed hg hrun hno hq (v := v) (by simpa using he) (by
    obtain ⟨r, ho⟩ := owned_obtained hg ⟨as, hr⟩ hp (abandoned_owned hv)
    have hb' := (Runs.inv hg (Reachable.inv hg ⟨as, hr⟩) hb).2
    exact ⟨r, obtained_later hb' _ ho⟩)
  have h2 := processed_sent hg hrun v h1
  rw [← reports_eq (hr.append hb)] at h2
  exact abandoned_never_reported hg hr hp hv hb h2

theorem abandoned_started_hang (hg : Good c.tr) {as bs : List Act} (hr : Runs c (init c lf now) as s) {v : Nat}
    (hp : s.tr.pc ≠ .done) (hv : v ∈ abandoned s) (hi : v ∈ s.tr.inflight.map (·.1)) (hb : Runs c s bs s')
    (hno : ∀ a ∈ toTracker c (init c lf now) (as ++ bs), a ≠ .seeHard ∧ a ≠ .ctrlC) : ended s'.tr.pc = false := by
  have hb' := (Runs.inv hg (Reachable.inv hg ⟨as, hr⟩) hb).2
  rw [toTracker_append hr] at hno
  refine inflight_stuck hg (hr.toInit hg) hb' hno hi ?_
  intro h
  have h2 := processed_sent hg ((hr.append hb).toInit hg) v h
  rw [← reports_eq (hr.append hb)] at h2
  exact abandoned_never_reported hg hr hp hv hb h2

end Verif.Sys
