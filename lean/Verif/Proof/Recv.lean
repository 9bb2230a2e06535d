import Verif.Proof.Stuck2

/-!
# Who is in `recv` (proof)

The receivers in the tracker are the loops and handlers that are in `recv`, in every run: also after panics and requests for a soft
shutdown.
-/

namespace Verif.Sys
open Verif Verif.Tracker

variable {c : Cfg} {s s' : State} {lf : LogFile} {now : Int}

/-- The receivers in the tracker are the loops and handlers in `recv`. -/
def RecvOk (c : Cfg) (s : State) : Prop :=
  ∀ r, receivers c r s.loops + (s.handlers.flatMap hTypes).count r = (inside s.tr).count r

theorem RecvOk.set (h : RecvOk c s) {i : Nat} {l l' : Loop} (hl : s.loops[i]? = some l) (hs : s'.loops = s.loops.set i l')
    (hh : s'.handlers = s.handlers)
    (hin : ∀ r, (inside s'.tr).count r + ind c r i (some l) = (inside s.tr).count r + ind c r i (some l')) : RecvOk c s' := by
  intro r
  rw [hs, hh]
  have e1 := receivers_set (c := c) r (l' := l') hl
  have e2 := h r
  have e3 := hin r
  omega

theorem RecvOk.same (h : RecvOk c s) (hs : s'.loops = s.loops)
    (hh : ∀ r, (s'.handlers.flatMap hTypes).count r = (s.handlers.flatMap hTypes).count r)
    (hin : ∀ r, (inside s'.tr).count r = (inside s.tr).count r) : RecvOk c s' := by
  intro r; rw [hs, hin, hh]; exact h r

theorem RecvOk.move (h : RecvOk c s) (hs : s'.loops = s.loops) {i : Nat} {x y : Handler} (hx : s.handlers[i]? = some x)
    (hh : s'.handlers = s.handlers.set i y)
    (hin : ∀ r, (inside s'.tr).count r + (hTypes x).count r = (inside s.tr).count r + (hTypes y).count r) : RecvOk c s' := by
  intro r
  rw [hs, hh]
  have h1 := count_set (f := hTypes) (v := r) (b := y) hx
  have h2 := h r
  have h3 := hin r
  omega

theorem RecvOk.step (h : RecvOk c s) {a : Act} (hs : Sys.step c s a = .ok s') : RecvOk c s' := by
  have ins : ∀ {e t}, Tracker.step c.tr s.tr (.sendFinished e) = .ok t → inside t = inside s.tr := by
    intro e t ht
    simp only [Tracker.step] at ht
    split at ht
    · cases ht
    · simp only [Res.ok.injEq] at ht; subst ht; rfl
  have insL : ∀ {k q t}, Tracker.step c.tr s.tr (.leave k) = .ok t → s.tr.waiting[k]? = some q → ∀ r,
      (inside t).count r + [q].count r = (inside s.tr).count r := by
    intro k q t ht hk r
    simp only [Tracker.step] at ht
    split at ht
    · simp only [Res.ok.injEq] at ht; subst ht
      have := count_eraseIdx_id r hk
      simp only [inside_count]
      omega
    · cases ht
  cases a with
  | server a =>
    simp only [Sys.step] at hs
    split at hs
    · rename_i hsa
      obtain ⟨t, ht, rfl⟩ := trk_ok.1 hs
      exact h.same rfl (fun _ => rfl) (server_inside hsa ht)
    · cases hs
  | joinDone =>
    simp only [Sys.step] at hs
    split at hs
    · obtain ⟨t, ht, rfl⟩ := trk_ok.1 hs
      refine h.same rfl (fun _ => rfl) (fun r => ?_)
      simp only [Tracker.step] at ht
      repeat' split at ht
      all_goals first | (cases ht; done) | (simp only [Res.ok.injEq] at ht; subst ht; rfl)
    · cases hs
  | loopRecv i =>
    simp only [Sys.step] at hs
    split at hs
    · rename_i hli
      split at hs
      · obtain ⟨t, ht, rfl⟩ := trk_ok.1 hs
        refine h.set hli rfl rfl (fun r => ?_)
        rw [ind_other (by simp), ind_inRecv]
        simp only [Tracker.step] at ht
        split at ht
        · cases ht
        · split at ht
          · simp only [Res.ok.injEq] at ht; subst ht
            simp only [setLoop, inside_count, List.count_append]
            omega
          · cases ht
      · rename_i e he
        simp only [Res.ok.injEq] at hs; subst hs
        refine h.set hli rfl rfl (fun r => ?_)
        rw [ind_other (by simp), ind_other (by simp)]; rfl
    · cases hs
  | loopClosed i k =>
    simp only [Sys.step] at hs
    split at hs
    · rename_i hli
      split at hs
      · rename_i hk
        obtain ⟨t, ht, rfl⟩ := trk_ok.1 hs
        refine h.set hli rfl rfl (fun r => ?_)
        rw [ind_inRecv, ind_other (by simp)]
        simp only [Tracker.step] at ht
        split at ht
        · simp only [Res.ok.injEq] at ht; subst ht
          have := count_eraseIdx_id r hk.2
          simp only [setLoop, inside_count]
          omega
        · cases ht
      · cases hs
    · cases hs
  | loopGot i k =>
    simp only [Sys.step] at hs
    split at hs
    · rename_i r it hli hk
      split at hs
      · rename_i hr
        obtain ⟨t, ht, rfl⟩ := trk_ok.1 hs
        refine h.set hli rfl rfl (fun r => ?_)
        rw [ind_inRecv, ind_other (by simp)]
        simp only [Tracker.step, hk] at ht
        split at ht
        · cases ht
        · simp only [Res.ok.injEq] at ht; subst ht
          have := count_eraseIdx (fun x : Nat × Item => x.1) r hk
          simp only [hr] at this
          simp only [setLoop, inside_count]
          omega
      · cases hs
    · cases hs
  | loopSpawn i ok =>
    simp only [Sys.step] at hs
    split at hs
    · rename_i v hli
      split at hs
      · simp only [Res.ok.injEq] at hs; subst hs
        refine h.set hli rfl rfl (fun r => ?_)
        rw [ind_other (by simp), ind_other (by split <;> simp)]; rfl
      · cases hs
    · cases hs
  | loopDie i =>
    simp only [Sys.step] at hs
    split at hs
    · rename_i v hv
      obtain ⟨l, hli, hd⟩ := Option.bind_eq_some_iff.1 hv
      simp only [Res.ok.injEq] at hs; subst hs
      refine h.set (l' := .dead v) hli ?_ ?_ (fun r => ?_)
      · simp only [setLoop]; split <;> rfl
      · simp only [setLoop]; split <;> rfl
      · rw [ind_other (by rintro rfl; cases hd), ind_other (by simp)]
        simp only [setLoop]; split <;> rfl
    · cases hs
  | loopStarted i host pid =>
    have ins : ∀ {v host pid j t}, Tracker.step c.tr s.tr (.sendStarted v host pid j) = .ok t → inside t = inside s.tr := by
      intro v host pid j t ht
      simp only [Tracker.step] at ht
      split at ht
      · cases ht
      · simp only [Res.ok.injEq] at ht; subst ht; rfl
    simp only [Sys.step] at hs
    split at hs
    · rename_i v st hli
      obtain ⟨t, ht, rfl⟩ := trk_ok.1 hs
      refine h.set hli rfl rfl (fun r => ?_)
      rw [ind_other (by simp), ind_other (by simp)]
      simp only [setLoop, ins ht]
    · rename_i v hli
      obtain ⟨t, ht, rfl⟩ := trk_ok.1 hs
      refine h.set hli rfl rfl (fun r => ?_)
      rw [ind_other (by simp), ind_other (by simp)]
      simp only [setLoop, ins ht]
    · cases hs
  | loopSoft i =>
    simp only [Sys.step] at hs
    split at hs
    · rename_i v st t hli htok
      split at hs
      · simp only [Res.ok.injEq] at hs; subst hs
        refine h.set hli rfl rfl (fun r => ?_)
        rw [ind_other (by simp), ind_other (by simp)]; rfl
      · cases hs
    · cases hs
  | loopHard i =>
    simp only [Sys.step] at hs
    split at hs
    · rename_i v st hli htok
      simp only [Res.ok.injEq] at hs; subst hs
      refine h.set hli rfl rfl (fun r => ?_)
      rw [ind_other (by simp), ind_other (by simp)]; rfl
    · cases hs
  | loopOutput i code values =>
    simp only [Sys.step] at hs
    split at hs
    · rename_i v st hli
      simp only [Res.ok.injEq] at hs; subst hs
      refine h.set hli rfl rfl (fun r => ?_)
      rw [ind_other (by simp), ind_other (by simp)]; rfl
    · cases hs
  | loopReport i =>
    have ins : ∀ {e t}, Tracker.step c.tr s.tr (.sendFinished e) = .ok t → inside t = inside s.tr := by
      intro e t ht
      simp only [Tracker.step] at ht
      split at ht
      · cases ht
      · simp only [Res.ok.injEq] at ht; subst ht; rfl
    simp only [Sys.step] at hs
    split at hs
    · rename_i v hli
      obtain ⟨t, ht, rfl⟩ := trk_ok.1 hs
      refine h.set hli rfl rfl (fun r => ?_)
      rw [ind_other (by simp), ind_other (by simp)]
      simp only [setLoop, ins ht]
    · rename_i v hli
      obtain ⟨t, ht, rfl⟩ := trk_ok.1 hs
      refine h.set hli rfl rfl (fun r => ?_)
      rw [ind_other (by simp), ind_other (by simp)]
      simp only [setLoop, ins ht]
    · rename_i v code values hli
      obtain ⟨t, ht, rfl⟩ := trk_ok.1 hs
      refine h.set hli rfl rfl (fun r => ?_)
      rw [ind_other (by simp), ind_other (by simp)]
      simp only [setLoop, ins ht]
    · cases hs
  | request r =>
    simp only [Sys.step] at hs
    split at hs
    · cases hs
    have same : s'.loops = s.loops := takeRequest_loops hs
    obtain ⟨x, hx, hadd⟩ := takeRequest_handlers hs
    have ht : hTypes x = [] := by cases hadd <;> rfl
    obtain ⟨h1, _, _⟩ := takeRequest_inside hs
    refine h.same same (fun r => ?_) (fun r => by rw [h1])
    rw [hx]; simp [ht]
  | hRecv i =>
    simp only [Sys.step] at hs
    split at hs
    · rename_i rt j hx
      split at hs
      · obtain ⟨t, ht, rfl⟩ := trk_ok.1 hs
        refine h.move rfl hx rfl (fun r => ?_)
        simp only [Tracker.step] at ht
        split at ht
        · cases ht
        · split at ht
          · simp only [Res.ok.injEq] at ht; subst ht
            simp only [setH, inside_count, List.count_append, hTypes, List.count_nil]
            omega
          · cases ht
      all_goals
        simp only [Res.ok.injEq] at hs; subst hs
        exact h.move rfl hx rfl (fun r => rfl)
    · cases hs
  | hLeave i k tm =>
    simp only [Sys.step] at hs
    split at hs
    · rename_i rt j hx
      split at hs
      · simp only [Res.ok.injEq] at hs; subst hs
        exact h.move rfl hx rfl (fun r => rfl)
      · cases hs
    · rename_i rt j hx
      split at hs
      · rename_i hk
        obtain ⟨t, ht, rfl⟩ := trk_ok.1 hs
        exact h.move rfl hx rfl (insL ht hk.1)
      · cases hs
    · cases hs
  | hDrop i k =>
    simp only [Sys.step] at hs
    split at hs
    · rename_i rt j hx
      simp only [Res.ok.injEq] at hs; subst hs
      exact h.move rfl hx rfl (fun r => rfl)
    · rename_i rt j hx
      split at hs
      · rename_i hk
        obtain ⟨t, ht, rfl⟩ := trk_ok.1 hs
        exact h.move rfl hx rfl (insL ht hk)
      · cases hs
    · rename_i f rt j hx
      simp only [Res.ok.injEq] at hs; subst hs
      exact h.move rfl hx rfl (fun r => rfl)
    · cases hs
  | hGot i k =>
    simp only [Sys.step] at hs
    split at hs
    · rename_i rt j r it hx hk
      split at hs
      · rename_i hr
        obtain ⟨t, ht, rfl⟩ := trk_ok.1 hs
        refine h.move rfl hx rfl (fun r => ?_)
        simp only [Tracker.step, hk] at ht
        split at ht
        · cases ht
        · simp only [Res.ok.injEq] at ht; subst ht
          have := count_eraseIdx (fun x : Nat × Item => x.1) r hk
          simp only [hr] at this
          simp only [setH, inside_count, hTypes, List.count_nil]
          omega
      · cases hs
    · cases hs
  | hTimer i txn =>
    simp only [Sys.step] at hs
    split at hs
    · rename_i v j hx
      obtain ⟨q, _, hs⟩ := Res.bind_ok.1 hs
      simp only [Res.ok.injEq] at hs; subst hs
      exact h.move rfl hx rfl (fun r => rfl)
    · cases hs
  | hDie i =>
    simp only [Sys.step] at hs
    split at hs
    · rename_i v j hx
      split at hs
      · simp only [Res.ok.injEq] at hs; subst hs
        exact h.move rfl hx rfl (fun r => rfl)
      · cases hs
    · cases hs
  | hInsert i =>
    simp only [Sys.step] at hs
    split at hs
    · rename_i v j txn tm hx
      simp only [Res.ok.injEq] at hs; subst hs
      exact h.move rfl hx rfl (fun r => rfl)
    · cases hs
  | hCancel i =>
    simp only [Sys.step] at hs
    split at hs
    · rename_i cn cd vs nx hx
      simp only [Res.ok.injEq] at hs; subst hs
      exact h.move rfl hx rfl (fun r => rfl)
    · cases hs
  | hReport i =>
    simp only [Sys.step] at hs
    split at hs
    · rename_i cn cd vs nx hx
      obtain ⟨t, ht, rfl⟩ := trk_ok.1 hs
      refine h.move rfl hx rfl (fun r => ?_)
      have e : hTypes (match nx with | some rt => .waiting s.nextFlag rt cn.jobid | none => .done (some .ended)) = [] := by
        cases nx <;> rfl
      cases nx <;> simp only [setH, ins ht, hTypes]
    · cases hs
  | hFlag i =>
    simp only [Sys.step] at hs
    split at hs
    · rename_i f rt j hx
      split at hs
      · simp only [Res.ok.injEq] at hs; subst hs
        exact h.move rfl hx rfl (fun r => rfl)
      · cases hs
    · cases hs
  | reapSend =>
    simp only [Sys.step] at hs
    split at hs
    · obtain ⟨t, ht, rfl⟩ := trk_ok.1 hs
      exact h.same rfl (fun _ => rfl) (fun r => by simp only [ins ht])
    · simp only [Res.ok.injEq] at hs; subst hs
      exact h.same rfl (fun _ => rfl) (fun r => rfl)
    · cases hs
  | reapTick | reapRemove | reapCheck | reapStop =>
    simp only [Sys.step] at hs
    repeat' split at hs
    all_goals first
      | (cases hs; done)
      | (simp only [Res.ok.injEq] at hs; subst hs
         exact h.same rfl (fun _ => rfl) (fun r => rfl))


theorem RecvOk.of_runs {as : List Act} (hr : Runs c (init c lf now) as s) : RecvOk c s :=
  Runs.snocInd (P := fun _ s => RecvOk c s) (LoopsOk.init c lf now).recv (fun _ _ _ _ _ ih _ hs => ih.step hs) hr

end Verif.Sys
