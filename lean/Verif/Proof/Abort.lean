import Verif.Proof.World
import Verif.Spec.Abort

/-!
# Lemmas about histories with panicking `execute` calls
-/

namespace Verif.Abort
open Verif Verif.World Verif.Props Spec

/-- The log left behind: between what there was and what the action would have written. -/
theorem cutStep_spec {r : Running} {lf0 : LogFile} (hg : Tracker.Good r.cfg) (hr : Tracker.Reachable r.cfg lf0 r.now0 r.st) {a : Option (Tracker.Act × Nat)}
    {lf : LogFile} (h : cutStep r a = .ok lf) :
    ∃ st new rest, Tracker.Reachable r.cfg lf0 r.now0 st ∧ lf0.writeAll new = .ok lf ∧ lf.entries = lf0.entries ++ new ∧
      st.lf.entries = lf.entries ++ rest ∧ r.st.lf.entries <+: lf.entries := by
  obtain ⟨b1, b2, _⟩ := appended hg hr
  cases a with
  | none =>
    simp only [cutStep, Res.ok.injEq] at h
    subst h
    exact ⟨r.st, _, [], hr, b1, b2, by simp, List.prefix_refl _⟩
  | some x =>
    obtain ⟨a, k⟩ := x
    simp only [cutStep] at h
    split at h
    · cases h
    · rename_i hd
      split at h
      · rename_i st hst
        split at h
        · rename_i lf' hw
          simp only [Res.ok.injEq] at h
          subst h
          have hr' := runs_snoc hr (by simpa using hd) hst
          obtain ⟨new, hn⟩ := Tracker.step_entries hst
          have hdrop : st.lf.entries.drop r.st.lf.entries.length = new := by rw [hn]; simp
          rw [hdrop] at hw
          have hent : lf'.entries = r.st.lf.entries ++ new.take k := (Log.writeAll_entries _ _ _ hw).1
          refine ⟨st, Tracker.newEntries lf0 r.st ++ new.take k, new.drop k, hr', Tracker.writeAll_trans b1 hw, ?_, ?_, ?_⟩
          · rw [hent, b2, List.append_assoc]
          · rw [hn, hent, List.append_assoc, List.take_append_drop]
          · rw [hent]; exact List.prefix_append _ _
        · cases h
      · cases h

theorem winv_panics {w w' : World} (h : WInv w) {a : Option (Tracker.Act × Nat)} (hs : step w (.panics a) = .ok w') : WInv w' := by
  unfold step at hs
  cases hse : w.sess with
  | none => simp [hse] at hs
  | some s =>
    have hI := h.sess s hse
    simp only [hse] at hs
    cases hrun : s.run with
    | none => simp [hrun] at hs
    | some r =>
      have hR := hI.run r hrun
      simp only [hrun] at hs
      cases hc : cutStep r a with
      | err e => simp [hc, Res.bind] at hs
      | panic e => simp [hc, Res.bind] at hs
      | ok lf =>
        simp only [hc, Res.bind, Res.ok.injEq] at hs
        subst hs
        obtain ⟨st, new, rest, c1, c2, c3, c4, c5⟩ := cutStep_spec hR.good hR.reach hc
        have hR' : RunInv s w.multi { r with st := st } :=
          ⟨hR.good, hR.ordered, hR.nonempty, c1, hR.executed, hR.src, hR.relog, hR.fresh, hR.rc, hR.first, hR.deps⟩
        obtain ⟨l1, l2, l3⟩ := RunInv.log hI hR'
        simp only [c4] at l2
        refine ⟨h.file, ?_⟩
        intro s' hs'
        simp only [Option.some.injEq] at hs'
        subst hs'
        have hpre : s.g.logfile.entries <+: lf.entries := by rw [c3]; exact List.prefix_append _ _
        refine ⟨hR.relog _ _, hI.small, hI.cons.writeAll c2, l2.prefix, ?_, Nat.le_trans hI.flushed hpre.length_le, hI.once, ?_, ?_, by simp⟩
        · simp only
          obtain ⟨x, hx⟩ := hpre
          rw [← hx, List.take_append_of_le_length hI.flushed]
          exact hI.onDisk
        · intro he; exact absurd he hR.executed
        · intro he; exact absurd he hR.executed

/-- A failing last flush leaves what `execute` would have left, apart from what is on disk and what the caller knows. -/
theorem unflushed_cases {w w' : World} {k : Nat} (hs : step w (.unflushed k) = .ok w') :
    ∃ s r w1 s1, w.sess = some s ∧ s.run = some r ∧ World.step w .finish = .ok w1 ∧ w1.sess = some s1 ∧ s.flushed ≤ k ∧
      k ≤ r.st.lf.entries.length ∧ s1.g.logfile = r.st.lf ∧ s1.run = none ∧ w1.file = w.file ∧ w1.multi = w.multi ∧
      w' = { w1 with sess := some { s1 with flushed := k, result := s.result } } := by
  unfold step at hs
  cases hse : w.sess with
  | none => simp [hse] at hs
  | some s =>
    simp only [hse] at hs
    cases hrun : s.run with
    | none => simp [hrun] at hs
    | some r =>
      simp only [hrun] at hs
      split at hs
      · cases hs
      · rename_i hk
        simp only [not_or, Decidable.not_not, Nat.not_lt] at hk
        simp only [Res.ok.injEq] at hs
        subst hs
        refine ⟨s, r, endExec w s r, _, rfl, hrun, ?_, rfl, hk.2.1, hk.2.2, rfl, rfl, rfl, rfl, rfl⟩
        simp [World.step, hse, hrun, hk.1]

theorem winv_unflushed {w w' : World} (h : WInv w) {k : Nat} (hs : step w (.unflushed k) = .ok w') : WInv w' := by
  obtain ⟨s, r, w1, s1, e1, e2, e3, e4, e5, e6, e7, e8, e9, e10, rfl⟩ := unflushed_cases hs
  have hI := h.sess s e1
  have h1 := World.winv_step h e3
  have hI1 := h1.sess s1 e4
  refine ⟨h1.file, ?_⟩
  intro s' hs'
  simp only [Option.some.injEq] at hs'
  subst hs'
  obtain ⟨_, _, l3⟩ := RunInv.log hI (hI.run r e2)
  refine ⟨hI1.reach, hI1.small, hI1.cons, hI1.log, ?_, by rw [e7]; exact e6, hI1.once, hI1.rc, hI1.first, ?_⟩
  · simp only [e7, e9]
    refine hI.onDisk.trans ?_
    obtain ⟨x, hx⟩ := l3
    rw [← hx, List.take_append]
    exact (List.take_prefix_take_left e5).trans (List.prefix_append _ _)
  · intro r' hr'
    simp [e8] at hr'

theorem winv_step {w w' : World} (h : WInv w) {a : Act} (hs : step w a = .ok w') : WInv w' := by
  cases a with
  | world a => exact World.winv_step h hs
  | panics a => exact winv_panics h hs
  | unflushed k => exact winv_unflushed h hs

theorem winv_runs {w w' : World} {as : List Act} (hr : Runs w as w') (h : WInv w) : WInv w' := by
  induction hr with
  | nil => exact h
  | cons hs _ ih => exact ih (winv_step h hs)

theorem Reachable.inv {w : World} (h : Reachable w) : WInv w := by
  obtain ⟨as, hr⟩ := h
  exact winv_runs hr winv_init

theorem panics_cases {w w' : World} (h : WInv w) {a : Option (Tracker.Act × Nat)} (hs : step w (.panics a) = .ok w') :
    ∃ s r lf, w.sess = some s ∧ s.run = some r ∧ w' = { w with sess := some { s with g := { s.g with logfile := lf }, run := none } } ∧
      w.log <+: lf.entries := by
  unfold step at hs
  cases hse : w.sess with
  | none => simp [hse] at hs
  | some s =>
    have hI := h.sess s hse
    simp only [hse] at hs
    cases hrun : s.run with
    | none => simp [hrun] at hs
    | some r =>
      have hR := hI.run r hrun
      simp only [hrun] at hs
      cases hc : cutStep r a with
      | err e => simp [hc, Res.bind] at hs
      | panic e => simp [hc, Res.bind] at hs
      | ok lf =>
        simp only [hc, Res.bind, Res.ok.injEq] at hs
        subst hs
        obtain ⟨st, new, rest, c1, c2, c3, c4, c5⟩ := cutStep_spec hR.good hR.reach hc
        exact ⟨s, r, lf, rfl, hrun, rfl, by simpa only [World.log, hse, hrun] using c5⟩

theorem step_grows {w w' : World} (h : WInv w) {a : Act} (hs : step w a = .ok w') :
    (a.isStop = false → w.log <+: w'.log) ∧ w.durable <+: w'.durable := by
  cases a with
  | world a => exact World.step_grows h hs
  | panics a =>
    obtain ⟨s, r, lf, e1, e2, rfl, e4⟩ := panics_cases h hs
    refine ⟨fun _ => e4, ?_⟩
    simp only [World.durable, e1]
    have : World.log { w with sess := some { s with g := { s.g with logfile := lf }, run := none } } = lf.entries := rfl
    rw [this]
    obtain ⟨x, hx⟩ := e4
    rw [← hx, List.take_append]
    exact List.prefix_append _ _
  | unflushed k =>
    obtain ⟨s, r, w1, s1, e1, e2, e3, e4, e5, e6, e7, e8, e9, e10, rfl⟩ := unflushed_cases hs
    have hl : w.log = r.st.lf.entries := by simp [World.log, e1, e2]
    have hl' : World.log { w1 with sess := some { s1 with flushed := k, result := s.result } } = r.st.lf.entries := by simp [World.log, e8, e7]
    refine ⟨fun _ => by rw [hl, hl']; exact List.prefix_refl _, ?_⟩
    simp only [World.durable, e1, hl, hl']
    exact List.take_prefix_take_left e5

theorem runs_grow {w w' : World} {as : List Act} (hr : Runs w as w') (h : WInv w) :
    ((∀ a ∈ as, a.isStop = false) → w.log <+: w'.log) ∧ w.durable <+: w'.durable := by
  induction hr with
  | nil => exact ⟨fun _ => List.prefix_refl _, List.prefix_refl _⟩
  | cons hs _ ih =>
    obtain ⟨g1, g2⟩ := step_grows h hs
    obtain ⟨i1, i2⟩ := ih (winv_step h hs)
    refine ⟨fun ha => (g1 (ha _ (by simp))).trans (i1 (fun a m => ha a (List.mem_cons_of_mem _ m))), g2.trans i2⟩

end Verif.Abort
