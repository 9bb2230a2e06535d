import Verif.Spec.Complete
import Verif.Proof.Outcome

/-!
# What the result of `execute` says (proofs)
-/

namespace Verif.Tracker
open Verif Verif.Props.Tracker

variable {c : Cfg} {lf : LogFile} {now : Int} {s : State} {as : List Act}

/-- Number of failures among reports. -/
def failures (p : List (Nat × ExitStatus)) : Nat := p.countP (fun x => decide (x.2 ≠ .code 0))

theorem quick_le_failures (hr : Runs c (init c lf now) as s) : quickFailures c [] (init c lf now) as ≤ failures s.processed := by
  have key : ∀ (as : List Act) (s0 s : State) (times : List (Nat × Int)), Runs c s0 as s →
      quickFailures c times s0 as + failures s0.processed ≤ failures s.processed := by
    intro as s0 s times hr
    induction hr generalizing times with
    | nil => simp [quickFailures]
    | @cons s0 s1 s2 a as _ hs _ ih =>
      have h1 := ih (timesAfter times s0 a)
      have h2 := (step_ghosts hs).2
      simp only [quickFailures, hs]
      have h3 : (quickAt times s0 a).toNat ≤ failures ((obsOf s0 a).filterMap Obs.report?) := by
        cases a with
        | recvFinished o t =>
          simp only [quickAt, obsOf]
          cases hch : s0.chan with
          | nil => simp
          | cons ev rest =>
            cases ev with
            | started v h p j => simp
            | finished e =>
              simp only [Obs.report?, List.filterMap_cons, List.filterMap_nil]
              cases List.lookup e.id times
              · simp
              · by_cases hz : e.status = .code 0
                · simp [hz]
                · simp only [failures, List.countP_singleton]
                  rw [if_pos (by simpa using hz)]
                  exact Bool.toNat_le _
        | _ => simp [quickAt]
      have h4 : failures s1.processed = failures s0.processed + failures ((obsOf s0 a).filterMap Obs.report?) := by
        rw [h2, failures, List.countP_append]; rfl
      omega
  have h1 := key as _ _ [] hr
  omega

end Verif.Tracker

namespace Verif.World
open Verif Verif.Props

/-- The scheduler and the runners change only their own state, as the tracker does. -/
theorem runs_trk_run {w w' : World} {tas : List Tracker.Act} (hr : Runs w (tas.map .trk) w') {s : Sess} {r : Running}
    (hs : w.sess = some s) (hrun : s.run = some r) :
    ∃ st, Tracker.Runs r.cfg r.st tas st ∧ w' = { w with sess := some { s with run := some { r with st := st } } } := by
  induction tas generalizing w s r with
  | nil =>
    obtain rfl : w = w' := by cases hr; rfl
    refine ⟨r.st, .nil _, ?_⟩
    obtain ⟨f, ss, m⟩ := w
    simp only at hs
    subst hs
    obtain ⟨a, b, c, d, e⟩ := s
    simp only at hrun
    subst hrun
    rfl
  | cons b tas ih =>
    simp only [List.map_cons] at hr
    cases hr with
    | cons hst hr =>
      unfold step at hst
      simp only [hs, hrun] at hst
      split at hst
      · cases hst
      · rename_i hd
        cases hb : Tracker.step r.cfg r.st b with
        | err e => rw [hb] at hst; cases hst
        | panic e => rw [hb] at hst; cases hst
        | ok st =>
          rw [hb] at hst
          simp only [Res.bind, Res.ok.injEq] at hst
          subst hst
          obtain ⟨st', h1, h2⟩ := ih hr (s := { s with run := some { r with st := st } }) (r := { r with st := st }) rfl rfl
          exact ⟨st', .cons (by simpa using hd) hb h1, h2⟩


/-- The start of `execute`, with what it selects. -/
theorem exec_full {w w1 : World} (h : WInv w) {target : Option Nat} {rerun : Bool} {fizzles : Nat} {ch : Choices} {now : Int}
    (hs : step w (.exec target rerun fizzles ch now) = .ok w1) :
    ∃ s s1 sub ids lf', w.sess = some s ∧ s.run = none ∧ w.log = s.g.logfile.entries ∧ w1.sess = some s1 ∧
      sub.SubOf (Selection.prioritised s.g ch) ids ∧
      (∀ i, i ∈ ids ↔ Spec.Selected (Selection.prioritised s.g ch) s.g.completed s.g.logfile.mem target rerun i) ∧
      s1.g.logfile = lf' ∧ lf'.entries = s.g.logfile.entries ++ ch.reuseOrder.map (fun k => LogEntry.backref ⟨k⟩) ∧
      (sub.nodes = [] ∧ s1.run = none ∧ s1.result = some (0, []) ∨
        s1.run = some ⟨⟨sub, fizzles⟩, now, s.g.completed, Tracker.init ⟨sub, fizzles⟩ lf' now⟩) := by
  cases hse : w.sess with
  | none => simp [step, hse] at hs
  | some s =>
    have hI := h.sess s hse
    simp only [step, hse] at hs
    split at hs
    · cases hs
    rename_i hc
    simp only [Bool.or_eq_true, Bool.not_eq_true', not_or, Bool.not_eq_false] at hc
    obtain ⟨hc1, hc2⟩ := hc
    have hrun : s.run = none := by
      cases hr : s.run with
      | none => rfl
      | some r => simp [hr] at hc1
    have hleg := (Bridge.legal_iff hI.reach).1 hc2
    obtain ⟨lf', c', h1, h2, h3, h4, h5⟩ := Selection.getSubgraph_ok s.g target rerun ch
    obtain ⟨sub, g', h6, ids, h7, h8, _⟩ := Selection.selection_exact hI.reach target rerun ch hleg
    have h9 := h1.symm.trans h6
    simp only [Res.ok.injEq, Prod.mk.injEq] at h9
    obtain ⟨h9, h10⟩ := h9
    subst h10
    have hl : w.log = s.g.logfile.entries := by unfold World.log; simp [hse, hrun]
    unfold startExec at hs
    simp only [h1] at hs
    rw [h9] at hs
    split at hs
    · rename_i hemp
      simp only [Res.ok.injEq] at hs
      subst hs
      exact ⟨s, _, sub, ids, lf', rfl, hrun, hl, rfl, h7, h8, rfl, h4, .inl ⟨by simpa using hemp, hrun, rfl⟩⟩
    · simp only [Res.ok.injEq] at hs
      subst hs
      exact ⟨s, _, sub, ids, lf', rfl, hrun, hl, rfl, h7, h8, rfl, h4, .inr rfl⟩

theorem executed_of_try {w w' : World} {target : Option Nat} {rerun : Bool} {fizzles : Nat} {ch : Choices} {now : Int}
    {tas : List Tracker.Act} (h : tryExec w target rerun fizzles ch now tas = .ok w') :
    Executed w target rerun fizzles tas w' := by
  unfold tryExec at h
  obtain ⟨w1, h1, h⟩ := Res.bind_ok.1 h
  obtain ⟨w2, h2, h⟩ := Res.bind_ok.1 h
  exact ⟨ch, now, w1, h1, .inr ⟨w2, runs_of_replay h2, h⟩⟩

/-- A whole `execute`. -/
theorem executed_cases {w w' : World} (h : WInv w) {target : Option Nat} {rerun : Bool} {fizzles : Nat} {tas : List Tracker.Act}
    (hx : Executed w target rerun fizzles tas w') :
    ∃ s sub ids lf' ch, w.sess = some s ∧ w.log = s.g.logfile.entries ∧
      sub.SubOf (Selection.prioritised s.g ch) ids ∧
      (∀ i, i ∈ ids ↔ Spec.Selected (Selection.prioritised s.g ch) s.g.completed s.g.logfile.mem target rerun i) ∧
      lf'.entries = w.log ++ ch.reuseOrder.map (fun k => LogEntry.backref ⟨k⟩) ∧
      (sub.nodes = [] ∧ w'.log = lf'.entries ∧ w'.result = some (0, []) ∨
        ∃ now st keys, Tracker.Good ⟨sub, fizzles⟩ ∧ Tracker.Ordered ⟨sub, fizzles⟩ ∧
          Tracker.Runs ⟨sub, fizzles⟩ (Tracker.init ⟨sub, fizzles⟩ lf' now) tas st ∧ st.pc = .done ∧
          w'.log = st.lf.entries ∧ w'.result = some (st.nFailed, keys)) := by
  obtain ⟨ch, now, w1, he, hx⟩ := hx
  obtain ⟨s, s1, sub, ids, lf', e1, e2, e3, e4, e5, e6, e7, e8, e9⟩ := exec_full h he
  refine ⟨s, sub, ids, lf', ch, e1, e3, e5, e6, by rw [e3]; exact e8, ?_⟩
  have hw1 := winv_step h he
  rcases e9 with ⟨e9, e10, e11⟩ | e9
  · left
    rcases hx with ⟨_, _, rfl⟩ | ⟨w2, hr, hf⟩
    · refine ⟨e9, ?_, by simp [World.result, e4, e11]⟩
      simp [World.log, e4, e10, e7]
    · exfalso
      cases tas with
      | nil => cases hr; simp [step, e4, e10] at hf
      | cons b tas =>
        simp only [List.map_cons] at hr
        cases hr with
        | cons hst _ => simp [step, e4, e10] at hst
  · right
    rcases hx with ⟨_, hn, _⟩ | ⟨w2, hr, hf⟩
    · simp [World.running, e4, e9] at hn
    · have hw2 := winv_runs hr hw1
      obtain ⟨st, hrun, rfl⟩ := runs_trk_run hr e4 e9
      have hR := (hw2.sess _ rfl).run _ rfl
      simp only [step] at hf
      split at hf
      · cases hf
      rename_i hpc
      simp only [Res.ok.injEq] at hf
      subst hf
      exact ⟨now, st, _, hR.good, hR.ordered, hrun, by simpa using hpc, rfl, rfl⟩

theorem considered_prio {g : ExecGraph} {ch : Choices} {target : Option Nat} {i : Nat} :
    Spec.Considered (Selection.prioritised g ch) target i ↔ Spec.Considered g.deps target i := by
  unfold Spec.Considered
  rw [Selection.prioritised_n]
  have : ∀ t, (Selection.prioritised g ch).Reach i t ↔ g.deps.Reach i t := fun t =>
    ⟨Tracker.reach_same (g := Selection.prioritised g ch) (g' := g.deps) rfl,
      Tracker.reach_same (g := g.deps) (g' := Selection.prioritised g ch) rfl⟩
  simp only [this]

theorem prio_node {g : ExecGraph} {ch : Choices} {i : Nat} {x : Cmd} (hx : g.deps.nodes[i]? = some x) :
    ∃ y, (Selection.prioritised g ch).nodes[i]? = some y ∧ y.key = x.key := by
  simp only [withPriorities, List.getElem?_mapIdx, hx, Option.map_some, Option.some.injEq]
  exact ⟨_, rfl, rfl⟩

theorem SuccessLogged.mono {es es' : List LogEntry} {k : String} (h : SuccessLogged es k) (hs : ∀ e ∈ es, e ∈ es') :
    SuccessLogged es' k := by
  obtain ⟨f, h1, h2⟩ := h
  exact ⟨f, hs _ h1, h2⟩

/-! ### where the results come from -/

/-- The entry shows a report, or was made up by `drain`. -/
def Reported (rs : List (String × Tracker.ExitStatus × List (List (String × String)))) (f : FinishedEntry) : Prop :=
  (∃ st, (f.key, st, f.values) ∈ rs ∧ f.status = st.asI32) ∨ f.status = -1 ∧ f.values = []

theorem Reported.mono {rs rs' : List (String × Tracker.ExitStatus × List (List (String × String)))} {f : FinishedEntry}
    (h : Reported rs f) (hs : ∀ x ∈ rs, x ∈ rs') : Reported rs' f := by
  rcases h with ⟨st, h1, h2⟩ | h
  · exact .inl ⟨st, hs _ h1, h2⟩
  · exact .inr h

/-- Invariant: every Finished entry of the file and of the log shows a report. -/
structure RepInv (rs : List (String × Tracker.ExitStatus × List (List (String × String)))) (w : World) : Prop where
  file : ∀ f, LogEntry.finished f ∈ w.file → Reported rs f
  sess : ∀ s, w.sess = some s → ∀ f, LogEntry.finished f ∈ s.g.logfile.entries → Reported rs f
  run : ∀ s r, w.sess = some s → s.run = some r → ∃ tas, Tracker.Runs r.cfg (Tracker.init r.cfg s.g.logfile r.now0) tas r.st ∧
    ∀ e, Tracker.Act.sendFinished e ∈ tas → (Tracker.keyOf r.cfg e.id, e.status, e.values) ∈ rs

variable {rs rs' : List (String × Tracker.ExitStatus × List (List (String × String)))} {w w' : World}

theorem RepInv.mono (h : RepInv rs w) (hs : ∀ x ∈ rs, x ∈ rs') : RepInv rs' w := by
  refine ⟨fun f hf => (h.file f hf).mono hs, fun s h1 f hf => (h.sess s h1 f hf).mono hs, fun s r h1 h2 => ?_⟩
  obtain ⟨tas, h3, h4⟩ := h.run s r h1 h2
  exact ⟨tas, h3, fun e he => hs _ (h4 e he)⟩

theorem RepInv.ofRun {lf : LogFile} {c : Tracker.Cfg} {now : Int} {st : Tracker.State} {tas : List Tracker.Act}
    (h1 : ∀ f, LogEntry.finished f ∈ lf.entries → Reported rs f) (h2 : Tracker.Runs c (Tracker.init c lf now) tas st)
    (h3 : ∀ e, Tracker.Act.sendFinished e ∈ tas → (Tracker.keyOf c e.id, e.status, e.values) ∈ rs) :
    ∀ f, LogEntry.finished f ∈ st.lf.entries → Reported rs f := by
  intro f hf
  obtain ⟨new, e1, e2⟩ := (Tracker.rinv h2).entries
  rw [e1] at hf
  rcases List.mem_append.1 hf with hf | hf
  · exact h1 f hf
  · rcases e2 _ hf with ⟨e, g1, g2, g3, g4⟩ | ⟨_, v, _, _, g1, g2⟩
    · refine .inl ⟨e.status, ?_, g3⟩
      rw [g2, g4]
      exact h3 e g1
    · exact .inr ⟨g1, g2⟩

theorem RepInv.log (h : RepInv rs w) : ∀ f, LogEntry.finished f ∈ w.log → Reported rs f := by
  unfold World.log
  cases hs : w.sess with
  | none => exact h.file
  | some s =>
    simp only
    cases hr : s.run with
    | none => exact h.sess s hs
    | some r =>
      obtain ⟨tas, h1, h2⟩ := h.run s r hs hr
      exact RepInv.ofRun (h.sess s hs) h1 h2

theorem RepInv.step {a : Act} (hw : WInv w) (h : RepInv rs w) (hs : step w a = .ok w') : RepInv (rs ++ reports w [a]) w' := by
  have sub : ∀ x ∈ rs, x ∈ rs ++ reports w [a] := fun x hx => List.mem_append_left _ hx
  cases a with
  | «open» dir roots newKey info =>
    refine RepInv.mono ?_ sub
    unfold World.step at hs
    cases hse : w.sess with
    | some s => simp [hse] at hs
    | none =>
      simp only [hse] at hs
      cases hp : pyNew w.file dir roots newKey info with
      | err e => rw [hp] at hs; cases hs
      | panic m => rw [hp] at hs; cases hs
      | ok g =>
        rw [hp] at hs
        simp only [Res.ok.injEq] at hs
        subst hs
        refine ⟨h.file, ?_, ?_⟩
        · intro s hs f hf
          simp only [Option.some.injEq] at hs
          subst hs
          obtain ⟨lf, hd, h1, h2, _⟩ := Log.new_appends_header hp
          have he : g.logfile.entries = w.file ++ [.header hd] := by
            rw [(Log.writeAll_entries _ _ _ h2).1, (open_ok_iff.1 h1).2.1]
          simp only [he, List.mem_append, List.mem_singleton, reduceCtorEq, or_false] at hf
          exact h.file f hf
        · intro s r hs hr
          simp only [Option.some.injEq] at hs
          subst hs
          cases hr
  | add cmd deps =>
    refine RepInv.mono ?_ sub
    unfold World.step at hs
    cases hse : w.sess with
    | none => simp [hse] at hs
    | some s =>
      simp only [hse] at hs
      split at hs
      · cases hs
      rename_i hrun
      split at hs
      · cases hs
      split at hs
      · rename_i r hp
        simp only [Res.ok.injEq] at hs
        subst hs
        have hlf : r.2.logfile = s.g.logfile := by
          unfold pyAddTask at hp
          obtain ⟨x, _, hp⟩ := Res.bind_ok.1 hp
          simp only [Res.ok.injEq] at hp
          subst hp
          exact (addTask_facts (hw.sess s hse).reach _ _).1
        refine ⟨h.file, ?_, ?_⟩
        · intro s' hs' f hf
          simp only [Option.some.injEq] at hs'
          subst hs'
          exact h.sess s hse f (by rw [← hlf]; exact hf)
        · intro s' r' hs' hr'
          simp only [Option.some.injEq] at hs'
          subst hs'
          simp only at hr'
          rw [hr'] at hrun
          simp at hrun
      · cases hs
      · cases hs
  | exec target rerun fizzles ch now =>
    refine RepInv.mono ?_ sub
    obtain ⟨s, s1, lf', c', e1, e2, e3, e4, e5, e6, e7, e8, e9, e10, e11⟩ := exec_cases hs
    have hlf : s1.g.logfile = lf' := by rw [e8]
    have hent : ∀ f, LogEntry.finished f ∈ lf'.entries → Reported rs f := by
      intro f hf
      rw [e7] at hf
      rcases List.mem_append.1 hf with hf | hf
      · exact h.sess s e1 f hf
      · obtain ⟨x, _, hx⟩ := List.mem_map.1 hf
        cases hx
    refine ⟨by rw [e4]; exact h.file, ?_, ?_⟩
    · intro s' hs' f hf
      rw [e3] at hs'
      cases hs'
      rw [hlf] at hf
      exact hent f hf
    · intro s' r hs' hr
      rw [e3] at hs'
      cases hs'
      rcases e11 with ⟨e11, _⟩ | ⟨c, e11, _⟩
      · rw [e11] at hr; cases hr
      · rw [e11] at hr
        cases hr
        rw [hlf]
        exact ⟨[], .nil _, by simp⟩
  | trk b =>
    unfold World.step at hs
    cases hse : w.sess with
    | none => simp [hse] at hs
    | some s =>
      simp only [hse] at hs
      cases hrun : s.run with
      | none => simp [hrun] at hs
      | some r =>
        simp only [hrun] at hs
        split at hs
        · cases hs
        rename_i hd
        obtain ⟨st, hb, hs⟩ := Res.bind_ok.1 hs
        simp only [Res.ok.injEq] at hs
        subst hs
        obtain ⟨tas, h1, h2⟩ := h.run s r hse hrun
        have h' := h.mono sub
        refine ⟨h'.file, ?_, ?_⟩
        · intro s' hs' f hf
          simp only [Option.some.injEq] at hs'
          subst hs'
          exact h'.sess s hse f hf
        · intro s' r' hs' hr'
          simp only [Option.some.injEq] at hs'
          subst hs'
          simp only [Option.some.injEq] at hr'
          subst hr'
          refine ⟨tas ++ [b], h1.append (.cons (by simpa using hd) hb (.nil _)), fun e he => ?_⟩
          rcases List.mem_append.1 he with he | he
          · exact sub _ (h2 e he)
          · simp only [List.mem_singleton] at he
            subst he
            apply List.mem_append_right
            have : w.running = some r := by simp [World.running, hse, hrun]
            simp [reports, this]
  | finish =>
    refine RepInv.mono ?_ sub
    have hl := h.log
    unfold World.step at hs
    cases hse : w.sess with
    | none => simp [hse] at hs
    | some s =>
      simp only [hse] at hs
      cases hrun : s.run with
      | none => simp [hrun] at hs
      | some r =>
        simp only [hrun] at hs
        split at hs
        · cases hs
        simp only [Res.ok.injEq] at hs
        subst hs
        have hlog : w.log = r.st.lf.entries := by simp [World.log, hse, hrun]
        refine ⟨h.file, ?_, ?_⟩
        · intro s' hs' f hf
          simp only [endExec, Option.some.injEq] at hs'
          subst hs'
          exact hl f (by rw [hlog]; exact hf)
        · intro s' r' hs' hr'
          simp only [endExec, Option.some.injEq] at hs'
          subst hs'
          cases hr'
  | stop keep =>
    refine RepInv.mono ?_ sub
    have hl := h.log
    unfold World.step at hs
    cases hse : w.sess with
    | none => simp [hse] at hs
    | some s =>
      simp only [hse] at hs
      split at hs
      · simp only [Res.ok.injEq] at hs
        subst hs
        exact ⟨fun f hf => hl f (List.mem_of_mem_take hf), by simp, by simp⟩
      · cases hs

theorem RepInv.runs {as : List Act} (hw : WInv w) (h : RepInv rs w) (hr : Runs w as w') : RepInv (rs ++ reports w as) w' := by
  induction hr generalizing rs with
  | nil => simpa [reports] using h
  | @cons w w1 w' a as hs _ ih =>
    have := ih (winv_step hw hs) (h.step hw hs)
    have e : reports w (a :: as) = reports w [a] ++ reports w1 as := by
      simp only [reports, hs, List.append_nil]
    rw [e, ← List.append_assoc]
    exact this

theorem repInv_init : RepInv [] init := ⟨by simp [init], by simp [init], by simp [init]⟩

/-- At most one result of a key, if all successes of it have the same values. -/
theorem results_unique {es : List LogEntry} {k : String} {x : List (List (String × String))} (hn : NoRerun es)
    (hval : ∀ v ∈ results k es, v = x) :
    (results k es = [] ∨ results k es = [x]) ∧ (SuccessLogged es k ↔ results k es = [x]) := by
  have hcase : results k es = [] ∨ results k es = [x] := by
    cases hl : results k es with
    | nil => exact .inl rfl
    | cons a l =>
      right
      have ha := hval a (by rw [hl]; simp)
      cases hl2 : l with
      | nil => rw [ha]
      | cons b l2 =>
        exfalso
        obtain ⟨pre, y, post, h1, _, h3, h4⟩ := List.filterMap_eq_cons_iff.1 hl
        cases y with
        | finished f =>
          simp only [Option.ite_none_right_eq_some, Option.some.injEq] at h3
          have hno := hn pre f post h1 h3.1.2
          have : results k post = [] := by
            apply List.filterMap_eq_nil_iff.2
            intro e he
            have := hno e he
            rw [h3.1.1] at this
            cases e with
            | finished f' =>
              simp only [Spec.about, beq_eq_false_iff_ne] at this
              simp [this]
            | _ => rfl
          unfold results at this
          rw [this, hl2] at h4
          cases h4
        | _ => simp at h3
  refine ⟨hcase, ?_, ?_⟩
  · rintro ⟨f, h1, h2, h3⟩
    rcases hcase with h | h
    · have : f.values ∈ results k es := List.mem_filterMap.2 ⟨_, h1, by simp [h2, h3]⟩
      rw [h] at this; cases this
    · exact h
  · intro h
    have : x ∈ results k es := by rw [h]; simp
    obtain ⟨e, he, hk⟩ := List.mem_filterMap.1 this
    cases e with
    | finished f =>
      simp only [Option.ite_none_right_eq_some, Option.some.injEq] at hk
      exact ⟨f, he, hk.1.1, hk.1.2⟩
    | _ => simp at hk

end Verif.World
