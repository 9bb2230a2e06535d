import Verif.Spec.Roots
import Verif.Props.World
import Verif.Proof.TrackerEntries

/-!
# Storage roots over histories
-/

namespace Verif.World
open Verif Spec Props

theorem writeAll_header : ∀ {es : List LogEntry} {lf lf' : LogFile}, lf.writeAll es = .ok lf' →
    lf.mem.header = lastHeader lf.entries → lf'.mem.header = lastHeader lf'.entries := by
  intro es
  induction es with
  | nil => intro lf lf' h hh; simp only [LogFile.writeAll, Res.ok.injEq] at h; subst h; exact hh
  | cons e es ih =>
    intro lf lf' h hh
    simp only [LogFile.writeAll, LogFile.write] at h
    cases hm : lf.mem.write e with
    | err x => rw [hm] at h; cases h
    | panic x => rw [hm] at h; cases h
    | ok m =>
      rw [hm] at h
      refine ih h ?_
      simp only
      rw [lastHeader_snoc]
      cases e with
      | header x => simp only [LogMem.write, Res.ok.injEq] at hm; subst hm; rfl
      | ready x => simp only [LogMem.write, Res.ok.injEq] at hm; subst hm; exact hh
      | backref x => simp only [LogMem.write, Res.ok.injEq] at hm; subst hm; exact hh
      | started x =>
        simp only [LogMem.write] at hm
        split at hm
        · cases hm
        · simp only [Res.ok.injEq] at hm; subst hm; exact hh
        · cases hm
      | finished x =>
        simp only [LogMem.write] at hm
        split at hm
        · cases hm
        · simp only [Res.ok.injEq] at hm; subst hm; exact hh
        · cases hm

theorem lastHeader_append_backrefs (es : List LogEntry) : ∀ (ks : List String),
    lastHeader (es ++ ks.map (fun k => LogEntry.backref ⟨k⟩)) = lastHeader es := by
  intro ks
  induction ks using snocInd with
  | nil => simp
  | append_singleton ks k ih => rw [List.map_append, ← List.append_assoc, List.map_singleton, lastHeader_snoc]; exact ih

/-- What is asked of an entry. -/
def goodEntry (p q : Nat → Prop) : LogEntry → Prop
  | .ready r => p r.storageRoot
  | .header h => q h.storageRoots.length
  | _ => True

/-- The invariant: `p` of the roots given to tasks, `q` of the numbers of roots. -/
structure RootInv (p q : Nat → Prop) (w : World) : Prop where
  file : ∀ e ∈ w.file, goodEntry p q e
  log : ∀ e ∈ w.log, goodEntry p q e
  tasks : ∀ s, w.sess = some s → ∀ x ∈ s.g.deps.nodes, p x.storageRoot
  head : ∀ s, w.sess = some s → s.g.logfile.mem.header = lastHeader s.g.logfile.entries
  some : ∀ s, w.sess = some s → ∃ h, LogEntry.header h ∈ s.g.logfile.entries

/-- An action gives a task a root as wanted. -/
def gives (p q : Nat → Prop) : Act → Prop
  | .open _ roots _ _ => q roots.length
  | .add cmd _ => p cmd.storageRoot
  | _ => True

theorem rootInv_step {p q : Nat → Prop} {w w' : World} (hw : WInv w) (h : RootInv p q w) {a : Act} (ha : gives p q a)
    (hs : step w a = .ok w') : RootInv p q w' := by
  cases a with
  | «open» dir roots newKey info =>
    unfold step at hs
    cases hse : w.sess with
    | some s => simp [hse] at hs
    | none =>
      simp only [hse] at hs
      cases hp : pyNew w.file dir roots newKey info with
      | err e => simp [hp] at hs
      | panic m => simp [hp] at hs
      | ok g =>
        simp only [hp, Res.ok.injEq] at hs
        subst hs
        obtain ⟨lf, hd, h1, h2, h3, h4, h5, h6⟩ := Log.new_appends_header hp
        have he : g.logfile.entries = w.file ++ [.header hd] := by
          rw [(Log.writeAll_entries _ _ _ h2).1, (open_ok_iff.1 h1).2.1]
        refine ⟨h.file, ?_, ?_, ?_, ?_⟩
        · intro r hr
          simp only [World.log] at hr
          rw [he] at hr
          rcases List.mem_append.1 hr with hr | hr
          · exact h.file r hr
          · rw [List.mem_singleton.1 hr]
            show q hd.storageRoots.length
            rw [h6, List.length_map]; exact ha
        · intro s hs x hx
          simp only [Option.some.injEq] at hs
          subst hs
          simp only at hx
          rw [h3] at hx; simp [ExecGraph.new, DiGraph.empty] at hx
        · intro s hs
          simp only [Option.some.injEq] at hs
          subst hs
          obtain ⟨_, k2, k3⟩ := Log.reopen_reads_file h1
          exact writeAll_header h2 (by rw [k2, k3])
        · intro s hs
          simp only [Option.some.injEq] at hs
          subst hs
          exact ⟨hd, by simp only; rw [he]; simp⟩
  | add cmd deps =>
    unfold step at hs
    cases hse : w.sess with
    | none => simp [hse] at hs
    | some s =>
      simp only [hse] at hs
      cases hrun : s.run with
      | some r => simp [hrun] at hs
      | none =>
        simp only [hrun, Option.isSome_none, Bool.false_eq_true, if_false] at hs
        split at hs
        · cases hs
        · unfold pyAddTask at hs
          cases hl : logfileRuncount s.g.logfile cmd.key with
          | err e => simp [hl, Res.bind] at hs
          | panic m => simp [hl, Res.bind] at hs
          | ok x =>
            simp only [hl, Res.bind, Res.ok.injEq] at hs
            subst hs
            obtain ⟨f1, _, f3⟩ := addTask_facts (hw.sess s hse).reach { cmd with runcount := x.1, priority := 0 } deps
            refine ⟨h.file, ?_, ?_, ?_, ?_⟩
            · intro r hr
              refine h.log r ?_
              simpa only [World.log, hse, hrun, f1] using hr
            · intro s' hs' y hy
              simp only [Option.some.injEq] at hs'
              subst hs'
              simp only at hy
              rcases f3 with f3 | ⟨f3, _⟩
              · rw [f3] at hy; exact h.tasks s hse y hy
              · rw [f3] at hy
                rcases List.mem_append.1 hy with hy | hy
                · exact h.tasks s hse y hy
                · rw [List.mem_singleton.1 hy]; exact ha
            · intro s' hs'
              simp only [Option.some.injEq] at hs'
              subst hs'
              simp only [f1]
              exact h.head s hse
            · intro s' hs'
              simp only [Option.some.injEq] at hs'
              subst hs'
              simp only [f1]
              exact h.some s hse
  | exec target rerun fizzles ch now =>
    obtain ⟨s, s1, lf', c', e1, e2, e3, e4, e5, e6, e7, e8, e9, e10, e11⟩ := exec_cases hs
    refine ⟨by rw [e4]; exact h.file, ?_, ?_, ?_, ?_⟩
    · intro r hr
      have hm : r ∈ s.g.logfile.entries ++ ch.reuseOrder.map (fun k => LogEntry.backref ⟨k⟩) := by
        unfold World.log at hr
        simp only [e3] at hr
        rcases e11 with ⟨e11, _⟩ | ⟨c, e11, _⟩
        · simpa only [e11, e8, e7] using hr
        · simpa only [e11, Tracker.init, e7] using hr
      rcases List.mem_append.1 hm with hm | hm
      · exact h.log r (by rw [e5]; exact hm)
      · obtain ⟨k, _, rfl⟩ := List.mem_map.1 hm
        trivial
    · intro s' hs' x hx
      rw [e3] at hs'
      simp only [Option.some.injEq] at hs'
      subst hs'
      rw [e8] at hx
      simp only [Selection.prioritised, withPriorities] at hx
      obtain ⟨i, hi, rfl⟩ := List.mem_mapIdx.1 hx
      exact h.tasks s e1 s.g.deps.nodes[i] (List.getElem_mem hi)
    · intro s' hs'
      rw [e3] at hs'
      simp only [Option.some.injEq] at hs'
      subst hs'
      rw [e8]
      simp only
      rw [e6, e7, lastHeader_append_backrefs]
      exact h.head s e1
    · intro s' hs'
      rw [e3] at hs'
      simp only [Option.some.injEq] at hs'
      subst hs'
      obtain ⟨x, hx⟩ := h.some s e1
      exact ⟨x, by rw [e8]; simp only; rw [e7]; exact List.mem_append_left _ hx⟩
  | trk b =>
    have hw' := winv_step hw hs
    unfold step at hs
    cases hse : w.sess with
    | none => simp [hse] at hs
    | some s =>
      simp only [hse] at hs
      cases hrun : s.run with
      | none => simp [hrun] at hs
      | some r =>
        simp only [hrun] at hs
        split at hs
        · cases hs
        · cases hb : Tracker.step r.cfg r.st b with
          | err e => rw [hb] at hs; cases hs
          | panic e => rw [hb] at hs; cases hs
          | ok st =>
            rw [hb] at hs
            simp only [Res.bind, Res.ok.injEq] at hs
            subst hs
            have hR := (hw'.sess _ rfl).run _ rfl
            obtain ⟨as, hr⟩ := hR.reach
            obtain ⟨new, n1, n2⟩ := ((Tracker.rinv_init (c := r.cfg) s.g.logfile r.now0).run hr).entries
            have hlog0 : ∀ x ∈ s.g.logfile.entries, goodEntry p q x := by
              intro x hx
              refine h.log x ?_
              simp only [World.log, hse, hrun]
              exact (RunInv.log (hw.sess s hse) ((hw.sess s hse).run r hrun)).2.2.subset hx
            refine ⟨h.file, ?_, ?_, ?_, ?_⟩
            · intro x hx
              simp only [World.log] at hx
              simp only at n1
              rw [n1] at hx
              rcases List.mem_append.1 hx with hx | hx
              · exact hlog0 x hx
              · have ho := n2 _ hx
                cases x with
                | ready x =>
                  obtain ⟨v, cmd, o1, _, _, o4, _⟩ := ho
                  show p x.storageRoot
                  rw [o4]
                  exact h.tasks s hse cmd (hR.src cmd (List.mem_of_getElem? o1))
                | header x => exact absurd ho id
                | _ => trivial
            · intro s' hs' x hx
              simp only [Option.some.injEq] at hs'
              subst hs'
              exact h.tasks s hse x hx
            · intro s' hs'
              simp only [Option.some.injEq] at hs'
              subst hs'
              exact h.head s hse
            · intro s' hs'
              simp only [Option.some.injEq] at hs'
              subst hs'
              exact h.some s hse
  | finish =>
    unfold step at hs
    cases hse : w.sess with
    | none => simp [hse] at hs
    | some s =>
      simp only [hse] at hs
      cases hrun : s.run with
      | none => simp [hrun] at hs
      | some r =>
        simp only [hrun] at hs
        split at hs
        · cases hs
        · simp only [Res.ok.injEq] at hs
          subst hs
          have hR := (hw.sess s hse).run r hrun
          refine ⟨h.file, ?_, ?_, ?_, ?_⟩
          · intro x hx
            refine h.log x ?_
            simpa only [World.log, hse, hrun, endExec] using hx
          · intro s' hs' x hx
            simp only [endExec, Option.some.injEq] at hs'
            subst hs'
            exact h.tasks s hse x hx
          · intro s' hs'
            simp only [endExec, Option.some.injEq] at hs'
            subst hs'
            exact writeAll_header (appended hR.good hR.reach).1 (h.head s hse)
          · intro s' hs'
            simp only [endExec, Option.some.injEq] at hs'
            subst hs'
            obtain ⟨x, hx⟩ := h.some s hse
            exact ⟨x, (RunInv.log (hw.sess s hse) hR).2.2.subset hx⟩
  | stop keep =>
    unfold step at hs
    cases hse : w.sess with
    | none => simp [hse] at hs
    | some s =>
      simp only [hse] at hs
      split at hs
      · simp only [Res.ok.injEq] at hs
        subst hs
        have : ∀ r ∈ w.log.take keep, goodEntry p q r := fun r hr => h.log r (List.mem_of_mem_take hr)
        exact ⟨this, by simpa only [World.log] using this, by simp, by simp, by simp⟩
      · cases hs

theorem rootInv_runs {p q : Nat → Prop} {w w' : World} {as : List Act} (hr : Runs w as w') (hw : WInv w) (h : RootInv p q w)
    (ha : ∀ a ∈ as, gives p q a) : RootInv p q w' := by
  induction hr with
  | nil => exact h
  | cons hs _ ih =>
    exact ih (winv_step hw hs) (rootInv_step hw h (ha _ (by simp)) hs) (fun a h => ha a (by simp [h]))

theorem rootInv_init (p q : Nat → Prop) : RootInv p q init := ⟨by simp [init], by simp [init, World.log], by simp [init], by simp [init], by simp [init]⟩

/-- The specification of "succeeded under root number `i`" agrees with the status of the key. -/
theorem succeededUnder_iff {es : List LogEntry} (hp : Protocol es) (hn : NoRerun es) (k : String) (i : Nat) :
    SucceededUnder es k i ↔ ∃ c, statusOf k es = some (.finished c i true) := by
  constructor
  · rintro ⟨pre, r, post, f, rfl, hk, hi, hlast, hf, hfk, hf0⟩
    have hlr : lastReady (history k (pre ++ .ready r :: post)) = some r := by
      unfold lastReady history
      rw [List.filter_append, List.filter_cons]
      simp only [about, hk, beq_self_eq_true, if_true, List.filterMap_append, List.filterMap_cons, ready?]
      have hnil : (post.filter (about k)).filterMap ready? = [] := by
        rw [List.filterMap_eq_nil_iff]
        intro e he
        obtain ⟨he1, he2⟩ := List.mem_filter.1 he
        cases e with
        | ready r' => exact absurd (by simpa [about] using he2) (hlast r' he1)
        | _ => rfl
      rw [hnil]; simp
    obtain ⟨p1, p2, rfl⟩ := List.append_of_mem hf
    have hlast' : (history k (pre ++ .ready r :: (p1 ++ .finished f :: p2))).getLast? = some (.finished f) := by
      have e : pre ++ .ready r :: (p1 ++ .finished f :: p2) = (pre ++ .ready r :: p1) ++ .finished f :: p2 := by simp
      have hno := hn _ f p2 e hf0
      rw [hfk] at hno
      rw [e]
      unfold history
      rw [List.filter_append, List.filter_cons]
      simp only [about, hfk, beq_self_eq_true, if_true]
      have : p2.filter (about k) = [] := by
        rw [List.filter_eq_nil_iff]
        intro x hx; rw [hno x hx]; simp
      rw [this]; simp
    rcases status_cases (k := k) hp with ⟨h1, h2⟩ | ⟨x, h1, h2⟩ | ⟨x, r', h1, h3, h2⟩ | ⟨x, r', h1, h3, h2⟩
    · rw [h1] at hlast'; cases hlast'
    · rw [h1] at hlast'; cases hlast'
    · rw [h1] at hlast'; cases hlast'
    · rw [h1] at hlast'
      rw [hlr] at h3
      simp only [Option.some.injEq, LogEntry.finished.injEq] at hlast' h3
      subst hlast' h3
      exact ⟨r.runcount, by rw [h2, hi, hf0]; rfl⟩
  · rintro ⟨c, hc⟩
    rcases status_cases (k := k) hp with ⟨h1, h2⟩ | ⟨x, h1, h2⟩ | ⟨x, r', h1, h3, h2⟩ | ⟨x, r', h1, h3, h2⟩
    · rw [h2] at hc; cases hc
    · rw [h2] at hc; cases hc
    · rw [h2] at hc; cases hc
    · rw [h2] at hc
      simp only [Option.some.injEq, RuncountStatus.finished.injEq, decide_eq_true_eq] at hc
      obtain ⟨_, rfl, hx0⟩ := hc
      have hxm : LogEntry.finished x ∈ history k es := List.mem_of_getLast? h1
      obtain ⟨hxe, hxk⟩ := List.mem_filter.1 hxm
      have hxk : x.key = k := by simpa [about] using hxk
      unfold lastReady at h3
      obtain ⟨l, hl⟩ := List.getLast?_eq_some_iff.1 h3
      have key : ∀ (es : List LogEntry) (l : List ReadyEntry), (history k es).filterMap ready? = l ++ [r'] →
          ∃ pre post, es = pre ++ .ready r' :: post ∧ r'.key = k ∧ ∀ r2, LogEntry.ready r2 ∈ post → r2.key ≠ k := by
        intro es
        induction es using snocInd with
        | nil => intro l h; simp [history] at h
        | append_singleton es e ih =>
          intro l h
          rw [history_snoc] at h
          by_cases hr : about k e = true ∧ isReady e = true
          · cases e with
            | ready r2 =>
              rw [if_pos hr.1, List.filterMap_append] at h
              simp only [List.filterMap_cons, ready?, List.filterMap_nil] at h
              have := (List.append_inj' h rfl).2
              simp only [List.cons.injEq, and_true] at this
              subst this
              exact ⟨es, [], rfl, by simpa [about] using hr.1, by simp⟩
            | _ => simp [isReady] at hr
          · have h' : (history k es).filterMap ready? = l ++ [r'] := by
              split at h
              · rename_i ha
                rw [List.filterMap_append] at h
                cases e with
                | ready r2 => exact absurd ⟨ha, rfl⟩ hr
                | _ => simp only [List.filterMap_cons, ready?, List.filterMap_nil, List.append_nil] at h; exact h
              · exact h
            obtain ⟨pre, post, e1, e2, e3⟩ := ih l h'
            refine ⟨pre, post ++ [e], by rw [e1]; simp, e2, ?_⟩
            intro r2 h2
            rcases List.mem_append.1 h2 with h2 | h2
            · exact e3 r2 h2
            · simp only [List.mem_singleton] at h2
              subst h2
              intro hk
              exact hr ⟨by simp [about, hk], rfl⟩
      obtain ⟨pre, post, e1, e2, e3⟩ := key es l hl
      refine ⟨pre, r', post, x, e1, e2, rfl, e3, ?_, hxk, hx0⟩
      rw [e1] at hxe
      rcases List.mem_append.1 hxe with hm | hm
      · exfalso
        obtain ⟨p1, p2, hp12⟩ := List.append_of_mem hm
        have := hn p1 x (p2 ++ .ready r' :: post) (by rw [e1, hp12]; simp) hx0 (.ready r') (by simp)
        rw [hxk] at this
        simp [about, e2] at this
      · rcases List.mem_cons.1 hm with hm | hm
        · cases hm
        · exact hm

/-- When `logfile_runcount` panics. -/
theorem logfileRuncount_panics {lf : LogFile} (hc : Consistent lf) (hn : NoRerun lf.entries) (hh : lf.mem.header = lastHeader lf.entries)
    (k : String) : (∃ m, logfileRuncount lf k = .panic m) ↔ ∃ i, SucceededUnder lf.entries k i ∧ rootCount lf.entries ≤ i := by
  have hst := hc.status k
  have hroot : ∀ i, lf.storageRoot i = none ↔ rootCount lf.entries ≤ i := by
    intro i
    unfold LogFile.storageRoot rootCount
    rw [hh]
    cases lastHeader lf.entries with
    | none => simp
    | some h => simp
  constructor
  · rintro ⟨m, hm⟩
    unfold logfileRuncount LogMem.runcount at hm
    split at hm
    · cases hm
    · cases hm
    · cases hm
    · rename_i c i he
      split at hm
      · cases hm
      · rename_i hr
        exact ⟨i, (succeededUnder_iff hc.protocol hn k i).2 ⟨c, by rw [← hst, he]⟩, (hroot i).1 hr⟩
    · cases hm
  · rintro ⟨i, h1, h2⟩
    obtain ⟨c, hs⟩ := (succeededUnder_iff hc.protocol hn k i).1 h1
    unfold logfileRuncount LogMem.runcount
    rw [hst, hs]
    simp only [(hroot i).2 h2]
    exact ⟨_, rfl⟩

theorem logfileRuncount_no_err {lf : LogFile} (k : String) (e : LogfileError) : logfileRuncount lf k ≠ .err e := by
  unfold logfileRuncount
  split <;> try (intro h; cases h; done)
  split <;> intro h <;> cases h

end Verif.World
