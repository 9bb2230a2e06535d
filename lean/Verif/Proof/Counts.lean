import Verif.Proof.Rerun

/-!
# Run counts and the number of attempts (helper lemmas for C37)
-/

namespace Verif.World
open Verif Spec Verif.Props

variable {w w' : World}

theorem startsOf_append (k : String) (a b : List LogEntry) : startsOf k (a ++ b) = startsOf k a + startsOf k b := by
  simp [startsOf, List.countP_append]

theorem startsOf_mono (k : String) {a b : List LogEntry} (h : a <+: b) : startsOf k a ≤ startsOf k b := by
  obtain ⟨c, rfl⟩ := h
  rw [startsOf_append]; omega

theorem startsOf_snoc_other {k : String} {es : List LogEntry} {e : LogEntry} (h : ∀ s, e = .started s → s.key ≠ k) :
    startsOf k (es ++ [e]) = startsOf k es := by
  rw [startsOf_append]
  cases e with
  | started s => simp [startsOf, h s rfl]
  | _ => simp [startsOf]

theorem startsOf_snoc_started {es : List LogEntry} {s : StartedEntry} :
    startsOf s.key (es ++ [.started s]) = startsOf s.key es + 1 := by
  rw [startsOf_append]; simp [startsOf]

/-- A Ready entry carries at most the number of attempts before it. -/
def Few (es : List LogEntry) : Prop :=
  ∀ pre r post, es = pre ++ .ready r :: post → r.runcount ≤ startsOf r.key pre

theorem few_nil : Few [] := by intro pre r post h; simp at h

theorem few_prefix {a b : List LogEntry} (h : Few (a ++ b)) : Few a := by
  intro pre r post he
  exact h pre r (post ++ b) (by rw [he]; simp)

theorem few_append {es new : List LogEntry} (h : Few es)
    (hn : ∀ r, LogEntry.ready r ∈ new → r.runcount ≤ startsOf r.key es) : Few (es ++ new) := by
  intro pre r post he
  have fromNew : ∀ as, new = as ++ .ready r :: post → pre = es ++ as → r.runcount ≤ startsOf r.key pre := by
    intro as h2 h1
    have := hn r (by rw [h2]; simp)
    rw [h1, startsOf_append]; omega
  rcases List.append_eq_append_iff.1 he with ⟨as, h1, h2⟩ | ⟨bs, h1, h2⟩
  · exact fromNew as h2 h1
  · cases bs with
    | nil => exact fromNew [] (by simpa using h2.symm) (by simpa using h1.symm)
    | cons b bs =>
      simp only [List.cons_append, List.cons.injEq] at h2
      obtain ⟨rfl, _⟩ := h2
      exact h pre r bs h1

/-- The last Ready entry of a key against the number of its attempts. -/
theorem lastReady_few {k : String} {es : List LogEntry} (hp : Protocol es) (h : Few es) {r : ReadyEntry}
    (hl : lastReady (history k es) = some r) :
    r.runcount ≤ startsOf k es ∧
      ((∀ x, (history k es).getLast? ≠ some (.ready x)) → r.runcount + 1 ≤ startsOf k es) := by
  induction es using snocInd generalizing r with
  | nil => simp [history, lastReady] at hl
  | append_singleton es e ih =>
    have ih := fun {r} => ih (r := r) (protocol_prefix hp) (few_prefix h)
    have hps := (protocol_snoc.1 hp).2
    cases ha : about k e with
    | false =>
      rw [history_snoc] at hl ⊢
      simp only [ha, Bool.false_eq_true, if_false] at hl ⊢
      rw [startsOf_snoc_other (by rintro s rfl hk; simp [about, hk] at ha)]
      exact ih hl
    | true =>
      rw [history_snoc, if_pos ha] at hl ⊢
      rw [lastReady_snoc] at hl
      rcases about_key ha with ⟨r', rfl, rfl⟩ | ⟨s, rfl, rfl⟩ | ⟨f, rfl, rfl⟩
      · simp only [Option.some.injEq] at hl
        subst hl
        refine ⟨?_, fun hx => absurd (by simp) (hx r')⟩
        rw [startsOf_snoc_other (by simp)]
        exact h es r' [] rfl
      · rw [startsOf_snoc_started]
        have := (ih hl).1
        exact ⟨by omega, fun _ => by omega⟩
      · rw [startsOf_snoc_other (by simp)]
        obtain ⟨p, h1, h2⟩ := (hps f.key ha).2 rfl
        obtain ⟨i1, i2⟩ := ih hl
        refine ⟨i1, fun _ => i2 ?_⟩
        intro x hx
        rw [h1] at hx
        simp only [Option.some.injEq] at hx
        subst hx
        simp [isStarted] at h2

/-- What `logfile_runcount` says is at most the number of attempts. -/
theorem logfileRuncount_few {lf : LogFile} {k : String} {x : Nat × Option TaskDir} (hc : Consistent lf) (hf : Few lf.entries)
    (h : logfileRuncount lf k = .ok x) : x.1 ≤ startsOf k lf.entries := by
  unfold logfileRuncount LogMem.runcount at h
  rw [hc.status] at h
  rcases status_cases (k := k) hc.protocol with ⟨_, h4⟩ | ⟨y, h3, h4⟩ | ⟨y, r, h3, h4, h5⟩ | ⟨y, r, h3, h4, h5⟩
  · rw [h4] at h
    simp only [Res.ok.injEq] at h; subst h; exact Nat.zero_le _
  · rw [h4] at h
    simp only [Res.ok.injEq] at h; subst h
    have hl : lastReady (history k lf.entries) = some y := by
      obtain ⟨l, hl⟩ := List.getLast?_eq_some_iff.1 h3
      rw [hl, lastReady_snoc]
    exact (lastReady_few hc.protocol hf hl).1
  · rw [h5] at h
    simp only [Res.ok.injEq] at h; subst h
    exact (lastReady_few hc.protocol hf h4).2 (by intro z hz; rw [h3] at hz; simp at hz)
  · rw [h5] at h
    have hn := (lastReady_few hc.protocol hf h4).2 (by intro z hz; rw [h3] at hz; simp at hz)
    by_cases hy : y.status = 0
    · simp only [hy, decide_true] at h
      split at h
      · simp only [Res.ok.injEq] at h; subst h; simp only; omega
      · cases h
    · simp only [hy, decide_false, Res.ok.injEq] at h; subst h; exact hn

/-- The attempts of a key: how many, and what they carry. -/
theorem attempts_few {k : String} {es : List LogEntry} (hp : Protocol es) (h : Few es) :
    (attempts k es).length = startsOf k es ∧ ∀ (i n : Nat), (attempts k es)[i]? = some n → n ≤ i := by
  induction es using snocInd with
  | nil => exact ⟨rfl, fun i n h => by simp [attempts] at h⟩
  | append_singleton es e ih =>
    obtain ⟨i1, i2⟩ := ih (protocol_prefix hp) (few_prefix h)
    have hps := (protocol_snoc.1 hp).2
    cases ha : about k e with
    | false =>
      rw [attempts_snoc_other ha, startsOf_snoc_other (by rintro s rfl hk; simp [about, hk] at ha)]
      exact ⟨i1, i2⟩
    | true =>
      rcases about_key ha with ⟨r', rfl, rfl⟩ | ⟨s, rfl, rfl⟩ | ⟨f, rfl, rfl⟩
      · rw [attempts_snoc_notStarted rfl, startsOf_snoc_other (by simp)]; exact ⟨i1, i2⟩
      · obtain ⟨p, h1, h2⟩ := (hps s.key ha).1 rfl
        cases p with
        | ready x =>
          have hl : lastReady (history s.key es) = some x := by
            obtain ⟨l, hl⟩ := List.getLast?_eq_some_iff.1 h1
            rw [hl, lastReady_snoc]
          rw [attempts_snoc_started (rc := x.runcount) (by rw [hl]; rfl), startsOf_snoc_started]
          refine ⟨by simp [i1], fun i n hi => ?_⟩
          have hx := (lastReady_few (protocol_prefix hp) (few_prefix h) hl).1
          rw [List.getElem?_append] at hi
          split at hi
          · exact i2 i n hi
          · rename_i hge
            cases hd : i - (attempts s.key es).length with
            | zero => rw [hd] at hi; simp only [List.getElem?_cons_zero, Option.some.injEq] at hi; omega
            | succ m => rw [hd] at hi; simp at hi
        | _ => simp [isReady] at h2
      · rw [attempts_snoc_notStarted rfl, startsOf_snoc_other (by simp)]; exact ⟨i1, i2⟩

/-- With fresh run counts, the next one is at least the number of attempts. -/
theorem starts_le_next {k : String} {es : List LogEntry} (hp : Protocol es) (h : RcOk es) :
    startsOf k es ≤ nextOf (statusOf k es) := by
  induction es using snocInd with
  | nil => exact Nat.le_refl _
  | append_singleton es e ih =>
    have ih := ih (protocol_prefix hp) (rcOk_prefix h)
    have hps := (protocol_snoc.1 hp).2
    cases ha : about k e with
    | false =>
      rw [statusOf_snoc_other ha, startsOf_snoc_other (by rintro s rfl hk; simp [about, hk] at ha)]
      exact ih
    | true =>
      rcases about_key ha with ⟨r, rfl, rfl⟩ | ⟨s, rfl, rfl⟩ | ⟨f, rfl, rfl⟩
      · rw [statusOf_snoc_ready _ _ _ rfl, startsOf_snoc_other (by simp)]
        exact Nat.le_trans ih (h es r [] rfl)
      · obtain ⟨p, h1, h2⟩ := (hps s.key ha).1 rfl
        rw [startsOf_snoc_started, statusOf_snoc_started _ _ _ rfl]
        rcases status_cases (k := s.key) (protocol_prefix hp) with ⟨h3, h4⟩ | ⟨y, h3, h4⟩ | ⟨y, r, h3, h4, h5⟩ | ⟨y, r, h3, h4, h5⟩
        · rw [h3] at h1; cases h1
        · have hl : lastReady (history s.key es) = some y := by
            obtain ⟨l, hl⟩ := List.getLast?_eq_some_iff.1 h3
            rw [hl, lastReady_snoc]
          rw [h4] at ih
          rw [hl]
          exact Nat.succ_le_succ ih
        all_goals
          rw [h3, Option.some.injEq] at h1
          subst h1
          simp [isReady] at h2
      · obtain ⟨p, h1, h2⟩ := (hps f.key ha).2 rfl
        rw [startsOf_snoc_other (by simp), statusOf_snoc_finished _ _ _ rfl]
        rcases status_cases (k := f.key) (protocol_prefix hp) with ⟨h3, h4⟩ | ⟨y, h3, h4⟩ | ⟨y, r, h3, h4, h5⟩ | ⟨y, r, h3, h4, h5⟩
        · rw [h3] at h1; cases h1
        · rw [h3, Option.some.injEq] at h1
          subst h1
          simp [isStarted] at h2
        · rw [h5] at ih
          rw [h4]
          exact ih
        · rw [h3, Option.some.injEq] at h1
          subst h1
          simp [isStarted] at h2

/-- What `logfile_runcount` says, with fresh run counts. -/
theorem logfileRuncount_exact {lf : LogFile} {k : String} {n : Nat} {d : Option TaskDir} (hc : Consistent lf) (hf : Few lf.entries)
    (hr : RcOk lf.entries) (h : logfileRuncount lf k = .ok (n, d)) :
    (d = none ∧ n = startsOf k lf.entries) ∨ (d ≠ none ∧ n + 1 = startsOf k lf.entries) := by
  have hge := starts_le_next (k := k) hc.protocol hr
  have hle := logfileRuncount_few hc hf h
  unfold logfileRuncount LogMem.runcount at h
  rw [hc.status] at h
  rcases status_cases (k := k) hc.protocol with ⟨_, h4⟩ | ⟨y, h3, h4⟩ | ⟨y, r, h3, h4, h5⟩ | ⟨y, r, h3, h4, h5⟩
  · rw [h4] at h hge
    simp only [Res.ok.injEq, Prod.mk.injEq] at h
    simp only [nextOf] at hge
    exact .inl ⟨h.2.symm, by omega⟩
  · rw [h4] at h hge
    simp only [Res.ok.injEq, Prod.mk.injEq] at h
    simp only [nextOf] at hge
    exact .inl ⟨h.2.symm, by omega⟩
  · rw [h5] at h hge
    simp only [Res.ok.injEq, Prod.mk.injEq] at h
    simp only [nextOf] at hge
    exact .inl ⟨h.2.symm, by omega⟩
  · have hn := (lastReady_few hc.protocol hf h4).2 (by intro z hz; rw [h3] at hz; simp at hz)
    rw [h5] at h hge
    simp only [nextOf] at hge
    by_cases hy : y.status = 0
    · simp only [hy, decide_true] at h
      split at h
      · simp only [Res.ok.injEq, Prod.mk.injEq] at h
        exact .inr ⟨by rw [← h.2]; simp, by omega⟩
      · cases h
    · simp only [hy, decide_false, Res.ok.injEq, Prod.mk.injEq] at h
      exact .inl ⟨h.2.symm, by omega⟩

/-- Increasing numbers, each at most its position, are 0, 1, 2, … -/
theorem eq_range {l : List Nat} (hinc : l.Pairwise (· < ·)) (hle : ∀ (i n : Nat), l[i]? = some n → n ≤ i) :
    l = List.range l.length := by
  have ge : ∀ (i n : Nat), l[i]? = some n → i ≤ n := by
    intro i
    induction i with
    | zero => intro n _; omega
    | succ i ih =>
      intro n hn
      have hlt := (List.getElem?_eq_some_iff.1 hn).1
      have h1 := ih l[i] (List.getElem?_eq_getElem (by omega))
      have h2 : l[i] < l[i + 1] := List.pairwise_iff_getElem.1 hinc i (i + 1) (by omega) hlt (by omega)
      rw [List.getElem?_eq_getElem hlt, Option.some.injEq] at hn
      omega
  apply List.ext_getElem (by simp)
  intro i h1 h2
  have a := hle i l[i] (List.getElem?_eq_getElem h1)
  have b := ge i l[i] (List.getElem?_eq_getElem h1)
  rw [List.getElem_range]
  omega

/-- The invariant of histories. -/
structure CountInv (w : World) : Prop where
  file : Few w.file
  few : ∀ s, w.sess = some s → Few s.g.logfile.entries
  rc : ∀ s, w.sess = some s → ∀ x ∈ s.g.deps.nodes, x.runcount ≤ startsOf x.key s.g.logfile.entries

theorem CountInv.log (h : CountInv w) (hw : WInv w) : Few w.log := by
  unfold World.log
  cases hs : w.sess with
  | none => exact h.file
  | some s =>
    simp only
    cases hr : s.run with
    | none => exact h.few s hs
    | some r =>
      have hR := (hw.sess s hs).run r hr
      obtain ⟨h1, h2, h3⟩ := appended hR.good hR.reach
      simp only
      rw [h2]
      refine few_append (h.few s hs) ?_
      intro y hy
      obtain ⟨x, hx, e⟩ := List.mem_map.1 (h3.rdy y hy)
      simp only [Prod.mk.injEq] at e
      rw [← e.1, ← e.2]
      exact h.rc s hs x (hR.src x hx)

theorem countInv_init : CountInv init := ⟨few_nil, by simp [init], by simp [init]⟩

theorem count_step (hw : WInv w) (h : CountInv w) {a : Act} (hs : step w a = .ok w') : CountInv w' := by
  have hlog := h.log hw
  cases a with
  | «open» dir roots newKey info =>
    unfold step at hs
    cases hse : w.sess with
    | some s => simp [hse] at hs
    | none =>
      simp only [hse] at hs
      cases hp : pyNew w.file dir roots newKey info with
      | err e => simp [hp] at hs
      | panic m => simp [hp] at hs
      | ok g =>
        simp only [hp, Res.ok.injEq] at hs
        subst hs
        obtain ⟨lf, hd, h1, h2, h3, h4, h5, _⟩ := Log.new_appends_header hp
        have he : g.logfile.entries = w.file ++ [.header hd] := by
          rw [(Log.writeAll_entries _ _ _ h2).1, (open_ok_iff.1 h1).2.1]
        refine ⟨h.file, ?_, ?_⟩
        · intro s hs
          simp only [Option.some.injEq] at hs
          subst hs
          simp only; rw [he]
          exact few_append h.file (by simp)
        · intro s hs x hx
          simp only [Option.some.injEq] at hs
          subst hs
          simp only at hx; rw [h3] at hx; simp [ExecGraph.new, DiGraph.empty] at hx
  | add cmd deps =>
    unfold step at hs
    cases hse : w.sess with
    | none => simp [hse] at hs
    | some s =>
      have hI := hw.sess s hse
      simp only [hse] at hs
      cases hrun : s.run with
      | some r => simp [hrun] at hs
      | none =>
        simp only [hrun, Option.isSome_none, Bool.false_eq_true, if_false] at hs
        cases htm : tooMany s.g cmd with
        | true => simp [htm] at hs
        | false =>
          simp only [htm, Bool.false_eq_true, if_false] at hs
          unfold pyAddTask at hs
          cases hl : logfileRuncount s.g.logfile cmd.key with
          | err e => simp [hl, Res.bind] at hs
          | panic m => simp [hl, Res.bind] at hs
          | ok x =>
            simp only [hl, Res.bind, Res.ok.injEq] at hs
            subst hs
            obtain ⟨f1, f2, f3⟩ := addTask_facts hI.reach { cmd with runcount := x.1, priority := 0 } deps
            refine ⟨h.file, ?_, ?_⟩
            · intro s' hs'
              simp only [Option.some.injEq] at hs'
              subst hs'
              simp only [f1]; exact h.few s hse
            · intro s' hs' y hy
              simp only [Option.some.injEq] at hs'
              subst hs'
              simp only [f1]
              simp only at hy
              rcases f3 with f3 | ⟨f3, _⟩
              · rw [f3] at hy; exact h.rc s hse y hy
              · rw [f3] at hy
                rcases List.mem_append.1 hy with hy | hy
                · exact h.rc s hse y hy
                · simp only [List.mem_singleton] at hy
                  subst hy
                  exact logfileRuncount_few hI.cons (h.few s hse) hl
  | exec target rerun fizzles ch now =>
    obtain ⟨s, s1, lf', c', e1, e3, e4, e6, e7, e8, _⟩ := exec_completed hs
    obtain ⟨g1, run1, fl1, ex1, res1⟩ := s1
    simp only at e8
    subst e8
    refine ⟨by rw [e4]; exact h.file, ?_, ?_⟩
    · intro s' hs'
      rw [e3, Option.some.injEq] at hs'
      subst hs'
      simp only [e7]
      refine few_append (h.few s e1) ?_
      intro r hr
      obtain ⟨y, _, e⟩ := List.mem_map.1 hr
      cases e
    · intro s' hs' x hx
      rw [e3, Option.some.injEq] at hs'
      subst hs'
      simp only [e7]
      simp only [Selection.prioritised, withPriorities] at hx
      obtain ⟨i, hi⟩ := List.getElem?_of_mem hx
      rw [List.getElem?_mapIdx] at hi
      obtain ⟨c0, h0, h1⟩ := Option.map_eq_some_iff.1 hi
      subst h1
      exact Nat.le_trans (h.rc s e1 c0 (List.mem_of_getElem? h0)) (startsOf_mono _ (List.prefix_append _ _))
  | trk a =>
    unfold step at hs
    cases hse : w.sess with
    | none => simp [hse] at hs
    | some s =>
      simp only [hse] at hs
      cases hrun : s.run with
      | none => simp [hrun] at hs
      | some r =>
        simp only [hrun] at hs
        split at hs
        · cases hs
        · cases hst : Tracker.step r.cfg r.st a with
          | err e => simp [hst, Res.bind] at hs
          | panic m => simp [hst, Res.bind] at hs
          | ok st =>
            simp only [hst, Res.bind, Res.ok.injEq] at hs
            subst hs
            refine ⟨h.file, ?_, ?_⟩
            · intro s' hs'
              simp only [Option.some.injEq] at hs'
              subst hs'
              exact h.few s hse
            · intro s' hs'
              simp only [Option.some.injEq] at hs'
              subst hs'
              exact h.rc s hse
  | finish =>
    unfold step at hs
    cases hse : w.sess with
    | none => simp [hse] at hs
    | some s =>
      simp only [hse] at hs
      cases hrun : s.run with
      | none => simp [hrun] at hs
      | some r =>
        have hI := hw.sess s hse
        have hR := hI.run r hrun
        have hl : w.log = r.st.lf.entries := by simp [World.log, hse, hrun]
        simp only [hrun] at hs
        split at hs
        · cases hs
        · simp only [Res.ok.injEq] at hs
          subst hs
          refine ⟨h.file, ?_, ?_⟩
          · intro s' hs'
            simp only [endExec, Option.some.injEq] at hs'
            subst hs'
            simp only; rw [← hl]; exact hlog
          · intro s' hs' x hx
            simp only [endExec, Option.some.injEq] at hs'
            subst hs'
            simp only at hx ⊢
            exact Nat.le_trans (h.rc s hse x hx) (startsOf_mono _ (RunInv.log hI hR).2.2)
  | stop keep =>
    unfold step at hs
    cases hse : w.sess with
    | none => simp [hse] at hs
    | some s =>
      simp only [hse] at hs
      split at hs
      · simp only [Res.ok.injEq] at hs
        subst hs
        refine ⟨?_, by simp, by simp⟩
        rw [← List.take_append_drop keep w.log] at hlog
        exact few_prefix hlog
      · cases hs

theorem Reachable.counts (h : Reachable w) : CountInv w := by
  obtain ⟨as, hr⟩ := h
  have key : ∀ {w w' : World} {as : List Act}, Runs w as w' → WInv w → CountInv w → CountInv w' := by
    intro w w' as hr
    induction hr with
    | nil => intro _ h; exact h
    | cons hs _ ih => intro hw h; exact ih (winv_step hw hs) (count_step hw h hs)
  exact key hr winv_init countInv_init

end Verif.World
