import Verif.Proof.TrackerHist

/-!
# No action of a well-behaved run panics
-/

namespace Verif.Tracker
open Verif
open scoped List

variable {c : Cfg} {rc0 : StrMap RuncountStatus} {s : State}

theorem Displayable.of_lt (hd : Displayable c) {v : Nat} (hv : v < c.g.n) : ((cmdOf c.g v).displayText).isSome :=
  hd _ (List.mem_of_getElem? (node_of_lt hv))

theorem finishHalf_safe (hg : Good c) {e : Fin} (h : Mid c rc0 s e) (t : SysTime) :
    ∃ s', finishHalf c t s e = .ok s' := by
  obtain ⟨lf, hw, _⟩ := logged hg (h.core.place hg) h.tr (List.mem_append_left _ h.proc) t
  exact finishHalf_total ⟨lf, hw⟩

theorem count_le_unmet {unmet : Nat → Nat} {poisoned : Nat → Bool} {made : List Nat} {processed : List (Nat × ExitStatus)}
    (hd : Deps c.g made processed unmet poisoned false true) {u : Nat} (hu : u ∉ processed.map (·.1)) {order : List Nat}
    (ho : order ~ c.g.succs u) (v : Nat) (hp : poisoned v = false) : order.count v ≤ unmet v := by
  rw [hd.unmetEq rfl v hp, ho.count_eq, succs_count, ← preds_count]
  have hnot : u ∉ okIds processed := by
    intro h1
    obtain ⟨st, h2, _⟩ := mem_okIds.1 h1
    exact hu (List.mem_map.2 ⟨_, h2, rfl⟩)
  calc (c.g.preds v).count u = ((c.g.preds v).filter (fun x => decide (x ∉ okIds processed))).count u := by
        rw [List.count_filter (by simpa using hnot)]
    _ ≤ _ := List.count_le_length

theorem handleFinished_safe (hg : Good c) (hdisp : Displayable c) (h : Inv c rc0 s) (hpc : s.pc = .idle) {e : Fin}
    {rest : List Event} (hch : s.chan = .finished e :: rest) (t : SysTime) (order : List Nat) (m : String) :
    handleFinished c t order { s with chan := rest } e ≠ .panic m := by
  have hcore : Core c s true [] := by have := h.core; rw [hpc] at this; exact this
  have htr : TrS c rc0 s (s.inflight.map (·.1)) none := by have := h.tr; rw [hpc] at this; exact this
  have hshape := h.shape
  rw [hpc] at hshape
  have hb : e.id ∈ s.held ++ s.lost ++ finIds s.chan := by rw [hch]; simp
  obtain ⟨sn, hq, hne⟩ := hcore.qs.busy_pos hb
  have hlt : e.id < c.g.n := hcore.deps.lt _ (hcore.qs.sub _ (List.mem_append_right _ hb))
  obtain ⟨p1, p2, p3, p4, p5, _⟩ := booked_parts hg hcore htr hch hq false rfl rfl
  simp only [Bool.false_eq_true, if_false] at p1 p2 p3 p4
  unfold handleFinished
  rw [book1_total hlt (by exact hq) hne]
  simp only [Res.bind]
  generalize hs1 : booked c.g _ e sn = s1 at p1 p2 p3 p4
  have es1 := hs1.symm
  have hproc : (e.id, e.status) ∈ s1.processed := by rw [es1]; simp [booked]
  have hinf : s1.inflight = s.inflight := by rw [es1]; rfl
  have hsoft1 : s1.soft = s.soft := by rw [es1]; rfl
  have hro1 : s1.readyOpen = s.readyOpen := by rw [es1]; rfl
  have hsr : s1.soft = true ↔ s1.readyOpen = false := by
    rw [hsoft1, hro1]
    exact ⟨hshape.softClosed, fun h1 => (hshape.closedIf h1).resolve_right (by simp [ended])⟩
  rw [← hinf] at p4
  have hitems : Items c.g s1.flags s1.queues s1.popped s1.claimed [] := by rw [es1]; exact hcore.items
  have hfl : s1.flags = s.flags := by rw [es1]; rfl
  have hpr : s1.processed = s.processed ++ [(e.id, e.status)] := by rw [es1]; rfl
  have hum : s1.unmet = s.unmet := by rw [es1]; rfl
  have hpo : s1.poisoned = s.poisoned := by rw [es1]; rfl
  have hdeps := hcore.deps
  by_cases hsf : s1.soft = true
  · rw [if_pos hsf]
    rw [if_neg (by simp [hsr.1 hsf])]
    obtain ⟨s', hs⟩ := finishHalf_safe (t := t) (e := e) (rc0 := rc0) hg ⟨⟨p1, hitems, (by
      rw [hfl, hpr, hum, hpo, hsf]
      rw [hsoft1] at hsf
      rw [hsf] at hdeps
      exact hdeps.finSoft rfl _), p2, p3⟩, p4, hproc, hsr⟩
    rw [hs]; simp
  · simp only [Bool.not_eq_true] at hsf
    rw [if_neg (by simp [hsf])]
    have hsf' : s.soft = false := by rw [← hsoft1]; exact hsf
    rw [hsf'] at hdeps
    by_cases hperm : order.isPerm (c.g.succs e.id) = false
    · rw [if_pos hperm]; simp
    · rw [if_neg hperm]
      simp only [Bool.not_eq_false] at hperm
      have hperm := List.isPerm_iff.1 hperm
      have hndp : (s.processed.map (·.1)).Nodup := by
        have := hcore.all_nodup
        rw [List.nodup_append, List.nodup_append] at this
        exact this.1.2.1
      have hex : ∃ r, statusLoop e.status.isSuccess (s1.unmet, s1.poisoned, []) order = .ok r := by
        cases hst : e.status.isSuccess with
        | true =>
          refine statusLoop_total (fun v hp => ?_)
          rw [hum]
          rw [hpo] at hp
          exact count_le_unmet hdeps p5 hperm v hp
        | false =>
          obtain ⟨p, h1, _⟩ := statusLoop_fail (o := order) (unmet := s1.unmet) (poisoned := s1.poisoned) (ready := [])
          exact ⟨_, h1⟩
      obtain ⟨r, hr⟩ := hex
      rw [hr]
      simp only
      have hdeps' : Deps c.g (owners s.flags ++ r.2.2) (s.processed ++ [(e.id, e.status)]) r.1 r.2.1 false true ∧
          ∀ v ∈ r.2.2, v < c.g.n ∧ v ∉ owners s.flags := by
        rw [hum, hpo] at hr
        cases hst : e.status.isSuccess with
        | true =>
          rw [hst] at hr
          exact hdeps.finOk hg.wf hst p5 hndp hperm hr
        | false =>
          rw [hst] at hr
          obtain ⟨p, h1, h2⟩ := statusLoop_fail (o := order) (unmet := s.unmet) (poisoned := s.poisoned) (ready := [])
          rw [h1] at hr
          simp only [Res.ok.injEq] at hr
          subst hr
          simp only [List.append_nil, List.not_mem_nil, false_implies, implies_true, and_true]
          refine hdeps.finFail hst (fun v => ?_)
          rw [h2 v]; congr 1; rw [decide_eq_decide]; exact hperm.mem_iff
      obtain ⟨hd1, hd2⟩ := hdeps'
      by_cases hemp : r.2.2.isEmpty = true
      · rw [if_pos hemp]
        have hemp' : r.2.2 = [] := by simpa using hemp
        obtain ⟨s', hs⟩ := finishHalf_safe (t := t) (e := e) (rc0 := rc0) (s := { s1 with unmet := r.1, poisoned := r.2.1 }) hg
          ⟨⟨p1, hitems, (by
            rw [hemp', List.append_nil] at hd1
            simp only [hfl, hpr, hsf]
            exact hd1), p2, p3⟩, p4, hproc, hsr⟩
        rw [hs]; simp
      · rw [if_neg hemp]
        have hlen : s.flags.length + r.2.2.length ≤ c.g.n := by
          have h1 : (owners s.flags ++ r.2.2).length ≤ (List.range c.g.n).length :=
            hd1.nodup.length_le_of_subset (fun v hv => List.mem_range.2 (hd1.lt v hv))
          simpa [owners] using h1
        have hroi := p3.roi
        have hunr := p3.unready rfl
        have hsm := hg.small
        have hfl2 : s1.flags.length = s.flags.length := by rw [hfl]
        obtain ⟨s', hs⟩ := addReady_panic (c := c) (t := t) (s := { s1 with unmet := r.1, poisoned := r.2.1 })
          (vs := r.2.2) (fin := some e)
          (fun v hv => ⟨(hd2 v hv).1, hdisp.of_lt (hd2 v hv).1⟩) (by simp only; omega) (by simp only; omega)
          (by
            simp only
            cases hr : s1.readyOpen with
            | true => rfl
            | false => have := hsr.2 hr; rw [hsf] at this; cases this)
        rw [hs]; simp

theorem Inv.no_panic (hg : Good c) (hdisp : Displayable c) (h : Inv c rc0 s) (a : Act) (m : String) :
    Tracker.step c s a ≠ .panic m := by
  cases a with
  | tick d => simp [Tracker.step]
  | begin order t =>
    simp only [Tracker.step]
    by_cases hpc : s.pc = .new
    · rw [if_neg (by simp [hpc])]
      by_cases hperm : order.isPerm ((List.range c.g.n).filter (fun v => s.unmet v == 0)) = false
      · rw [if_pos hperm]; simp
      · rw [if_neg hperm]
        simp only [Bool.not_eq_false] at hperm
        have hperm := List.isPerm_iff.1 hperm
        have hd := begin_deps h hpc hperm
        obtain ⟨h1, h2, h3, h4, h5, h6, h7⟩ := h.atNew hpc
        split
        · simp
        · have hlen : order.length ≤ c.g.n := by
            have h1 : order.length ≤ (List.range c.g.n).length :=
              hd.nodup.length_le_of_subset (fun v hv => List.mem_range.2 (hd.lt v hv))
            simpa using h1
          have hsm := hg.small
          obtain ⟨s', hs⟩ := addReady_panic (c := c) (t := t) (s := { s with nUnready := c.g.n }) (vs := order)
            (fin := none) (fun v hv => ⟨hd.lt v hv, hdisp.of_lt (hd.lt v hv)⟩) (by simp only; omega) (by simp only; omega) h5
          rw [hs]; simp
    · rw [if_pos hpc]; simp
  | sendNext => simp only [Tracker.step]; split <;> simp
  | sendDone t =>
    simp only [Tracker.step]
    split
    · rename_i fin hpc
      have hc := h.core
      rw [hpc] at hc
      have ht := h.tr
      rw [hpc] at ht
      have ho := h.shape.sendingOpen _ _ hpc
      have hsf : s.soft = false := by
        by_contra hx
        simp only [Bool.not_eq_false] at hx
        have := h.shape.softClosed hx
        rw [ho] at this; cases this
      cases fin with
      | none => simp
      | some e =>
        simp only
        obtain ⟨s', hs⟩ := finishHalf_safe (s := { s with counter := s.counter + 1 }) (e := e) (rc0 := rc0) hg
          ⟨⟨hc.acct, hc.items, hc.deps, hc.qs, hc.cnt⟩, ht, h.shape.curProc _ _ hpc, by simp [ho, hsf]⟩ t
        rw [hs]; simp
    · simp
  | recvStarted t =>
    by_cases hpc : s.pc = .idle
    · cases hch : s.chan with
      | nil => simp [Tracker.step, hpc, hch]
      | cons ev rest =>
        cases ev with
        | started id ho p j =>
          obtain ⟨s1, h1, h2⟩ := inv_recvStarted hg h hpc hch t
          rw [h1]; simp
        | finished e => simp [Tracker.step, hpc, hch]
    · simp only [Tracker.step]
      rw [if_pos hpc]; simp
  | recvFinished order t =>
    by_cases hpc : s.pc = .idle
    · cases hch : s.chan with
      | nil => simp [Tracker.step, hpc, hch]
      | cons ev rest =>
        cases ev with
        | started id ho p j => simp [Tracker.step, hpc, hch]
        | finished e =>
          simp only [Tracker.step]
          rw [if_neg (by simp [hpc]), hch]
          simp only
          exact handleFinished_safe hg hdisp h hpc hch t order m
    · simp only [Tracker.step]
      rw [if_pos hpc]; simp
  | seeTrigger => simp only [Tracker.step]; split <;> [simp; (split <;> simp)]
  | seeHard => simp only [Tracker.step]; split <;> [simp; (split <;> simp)]
  | ctrlC => simp only [Tracker.step]; split <;> simp
  | joinDone => simp only [Tracker.step]; split <;> [simp; (split <;> simp)]
  | drain order t =>
    simp only [Tracker.step]
    by_cases hpc : s.pc = .joined
    · rw [if_neg (by simp [hpc])]
      exact (inv_drain hg h hpc order t).1 m
    · rw [if_pos hpc]; simp
  | enter r => simp only [Tracker.step]; split <;> [simp; (split <;> simp)]
  | leave i => simp only [Tracker.step]; split <;> simp
  | pop i j =>
    simp only [Tracker.step]
    split
    · simp
    · split
      · simp
      · split <;> simp
  | claim i =>
    simp only [Tracker.step]
    split
    · simp
    · split
      · simp
      · split <;> simp
  | account i =>
    simp only [Tracker.step]
    split
    · simp
    · rename_i r it hi
      split
      · rename_i hq
        have hm : it.id ∈ untakenIds s.flags ++ itemIds s.claimed :=
          List.mem_append_right _ (List.mem_map.2 ⟨_, List.mem_of_getElem? hi, rfl⟩)
        have := h.core.qs.isSome it.id (h.core.qs.sub _ (List.mem_append_left _ hm))
        rw [hq] at this; simp at this
      · simp
  | sendStarted id ho p j => simp only [Tracker.step]; split <;> simp
  | sendFinished e => simp only [Tracker.step]; split <;> simp
  | lose id => simp only [Tracker.step]; split <;> simp
  | trigger => simp [Tracker.step]
  | cancel k => simp [Tracker.step]

end Verif.Tracker
