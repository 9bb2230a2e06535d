import Verif.Spec.Rerun
import Verif.Props.Execute

/-!
# Several `execute` calls in one session (proofs)
-/

namespace Verif.World
open Verif Spec Verif.Props

variable {w w' : World}

/-- The runcount of the last Ready entry, from the status of the key. -/
def lastRc : Option RuncountStatus → Nat
  | none => 0
  | some (.ready c _) => c
  | some (.started c _) => c
  | some (.finished c _ _) => c

theorem lastRc_le_next (o : Option RuncountStatus) : lastRc o ≤ nextOf o := by
  rcases o with _ | o
  · exact Nat.le_refl _
  · cases o <;> simp [lastRc, nextOf]

/-- The status of a key knows the last Ready entry. -/
theorem lastRc_status {k : String} {es : List LogEntry} (hp : Protocol es) :
    lastRc (statusOf k es) = ((lastReady (history k es)).map (·.runcount)).getD 0 := by
  rcases status_cases (k := k) hp with ⟨h3, h4⟩ | ⟨x, h3, h4⟩ | ⟨x, r, h3, h4, h5⟩ | ⟨x, r, h3, h4, h5⟩
  · rw [h4, h3]; rfl
  · have hl : lastReady (history k es) = some x := by
      rw [List.getLast?_eq_some_iff] at h3
      obtain ⟨l, hl⟩ := h3
      rw [hl, lastReady_snoc]
    rw [h4, hl]; rfl
  · rw [h5, h4]; rfl
  · rw [h5, h4]; rfl

/-- No Ready entry carries a smaller runcount than the one before it. -/
def Weak (es : List LogEntry) : Prop :=
  ∀ pre r post, es = pre ++ .ready r :: post → lastRc (statusOf r.key pre) ≤ r.runcount

theorem weak_nil : Weak [] := by intro pre r post h; simp at h

theorem weak_prefix {a b : List LogEntry} (h : Weak (a ++ b)) : Weak a := by
  intro pre r post he
  exact h pre r (post ++ b) (by rw [he]; simp)

theorem weak_other {es new : List LogEntry} (h : Weak es) (ho : ∀ e ∈ new, ∀ k, about k e = false) : Weak (es ++ new) := by
  intro pre r post he
  rcases List.append_eq_append_iff.1 he with ⟨as, h1, h2⟩ | ⟨bs, h1, h2⟩
  · have := ho (.ready r) (by rw [h2]; simp) r.key
    simp [about] at this
  · cases bs with
    | nil =>
      simp only [List.nil_append] at h2
      have := ho (.ready r) (by rw [← h2]; simp) r.key
      simp [about] at this
    | cons b bs =>
      simp only [List.cons_append, List.cons.injEq] at h2
      obtain ⟨rfl, _⟩ := h2
      exact h pre r bs h1

theorem weak_append {es new : List LogEntry} {rcs : List (String × Nat)} (h : Weak es)
    (hA : Appended new rcs) (hrc : ∀ x ∈ rcs, lastRc (statusOf x.1 es) ≤ x.2) : Weak (es ++ new) := by
  intro pre r post he
  have fromNew : ∀ as, new = as ++ .ready r :: post → pre = es ++ as → lastRc (statusOf r.key pre) ≤ r.runcount := by
    intro as h2 h1
    rw [h1, statusOf_append_other (hA.first h2)]
    exact hrc _ (hA.rdy r (by rw [h2]; simp))
  rcases List.append_eq_append_iff.1 he with ⟨as, h1, h2⟩ | ⟨bs, h1, h2⟩
  · exact fromNew as h2 h1
  · cases bs with
    | nil => exact fromNew [] (by simpa using h2.symm) (by simpa using h1.symm)
    | cons b bs =>
      simp only [List.cons_append, List.cons.injEq] at h2
      obtain ⟨rfl, _⟩ := h2
      exact h pre r bs h1

theorem readyCounts_snoc_ready {es : List LogEntry} {r : ReadyEntry} :
    readyCounts r.key (es ++ [.ready r]) = readyCounts r.key es ++ [r.runcount] := by
  simp [readyCounts, List.filterMap_append]

theorem readyCounts_snoc_other {k : String} {es : List LogEntry} {e : LogEntry} (h : ∀ r, e = .ready r → r.key ≠ k) :
    readyCounts k (es ++ [e]) = readyCounts k es := by
  unfold readyCounts
  rw [List.filterMap_append]
  cases e with
  | ready r => simp [h r rfl]
  | _ => simp

theorem lastReady_other {k : String} {es : List LogEntry} {e : LogEntry} (h : ∀ r, e = .ready r → r.key ≠ k) :
    lastReady (history k (es ++ [e])) = lastReady (history k es) := by
  rw [history_snoc]
  split
  · rw [lastReady_snoc]
    cases e with
    | ready r =>
      rename_i ha
      simp only [about, beq_iff_eq] at ha
      exact absurd ha (h r rfl)
    | _ => simp [ready?]
  · rfl

/-- The last Ready entry is the last of the Ready entries. -/
theorem lastReady_counts {k : String} : ∀ (es : List LogEntry),
    (lastReady (history k es)).map (·.runcount) = (readyCounts k es).getLast? := by
  intro es
  induction es using snocInd with
  | nil => rfl
  | append_singleton es e ih =>
    by_cases he : ∃ r, e = .ready r ∧ r.key = k
    · obtain ⟨r, rfl, rfl⟩ := he
      rw [readyCounts_snoc_ready, history_snoc, if_pos (by simp [about]), lastReady_snoc]
      simp [ready?]
    · have hn : ∀ r, e = .ready r → r.key ≠ k := fun r h1 h2 => he ⟨r, h1, h2⟩
      rw [readyCounts_snoc_other hn, lastReady_other hn]; exact ih

/-- The attempts are among the Ready entries, in their order; as long as the last one was not started, among those before
it. -/
theorem attempts_sublist {k : String} {es : List LogEntry} (hp : Protocol es) :
    (attempts k es).Sublist (readyCounts k es) ∧
      (∀ x, (history k es).getLast? = some (.ready x) → (attempts k es).Sublist (readyCounts k es).dropLast) := by
  induction es using snocInd with
  | nil => exact ⟨List.Sublist.refl _, fun x h => by simp [history] at h⟩
  | append_singleton es e ih =>
    obtain ⟨i1, i2⟩ := ih (protocol_prefix hp)
    have hps := (protocol_snoc.1 hp).2
    cases ha : about k e with
    | false =>
      have hn : ∀ r, e = .ready r → r.key ≠ k := by
        rintro r rfl hk
        simp [about, hk] at ha
      rw [attempts_snoc_other ha, readyCounts_snoc_other hn, history_snoc]
      simp only [ha, Bool.false_eq_true, if_false]
      exact ⟨i1, i2⟩
    | true =>
      rcases about_key ha with ⟨r, rfl, rfl⟩ | ⟨s, rfl, rfl⟩ | ⟨f, rfl, rfl⟩
      · rw [attempts_snoc_notStarted rfl, readyCounts_snoc_ready]
        refine ⟨i1.trans (List.sublist_append_left _ _), fun x _ => ?_⟩
        rw [List.dropLast_concat]; exact i1
      · obtain ⟨p, h1, h2⟩ := (hps s.key ha).1 rfl
        cases p with
        | ready x =>
          have hl : lastReady (history s.key es) = some x := by
            rw [List.getLast?_eq_some_iff] at h1
            obtain ⟨l, hl⟩ := h1
            rw [hl, lastReady_snoc]
          have hc := lastReady_counts (k := s.key) es
          rw [hl] at hc
          rw [attempts_snoc_started (rc := x.runcount) (by rw [hl]; rfl), readyCounts_snoc_other (by simp)]
          refine ⟨?_, fun y hy => ?_⟩
          · have hd := i2 x h1
            obtain ⟨l, hl2⟩ := List.getLast?_eq_some_iff.1 hc.symm
            rw [hl2, List.dropLast_concat] at hd
            rw [hl2]
            exact hd.append (List.Sublist.refl _)
          · rw [history_snoc, if_pos ha] at hy
            simp at hy
        | _ => simp [isReady] at h2
      · rw [attempts_snoc_notStarted rfl, readyCounts_snoc_other (by simp)]
        refine ⟨i1, fun y hy => ?_⟩
        rw [history_snoc, if_pos ha] at hy
        simp at hy

/-- Runcounts do not decrease. -/
theorem counts_of_weak {k : String} {es : List LogEntry} (hp : Protocol es) (h : Weak es) :
    (readyCounts k es).Pairwise (· ≤ ·) := by
  induction es using snocInd with
  | nil => exact List.Pairwise.nil
  | append_singleton es e ih =>
    have i := ih (protocol_prefix hp) (weak_prefix h)
    by_cases he : ∃ r, e = .ready r ∧ r.key = k
    · obtain ⟨r, rfl, rfl⟩ := he
      have hw := h es r [] rfl
      rw [lastRc_status (protocol_prefix hp), lastReady_counts] at hw
      rw [readyCounts_snoc_ready, List.pairwise_append]
      refine ⟨i, List.pairwise_singleton _ _, fun a ha b hb => ?_⟩
      simp only [List.mem_singleton] at hb
      subst hb
      cases hl : (readyCounts r.key es).getLast? with
      | none => rw [List.getLast?_eq_none_iff] at hl; rw [hl] at ha; cases ha
      | some x =>
        rw [hl] at hw
        simp only [Option.getD_some] at hw
        obtain ⟨l, hl2⟩ := List.getLast?_eq_some_iff.1 hl
        rw [hl2] at ha i
        rcases List.mem_append.1 ha with ha | ha
        · have := (List.pairwise_append.1 i).2.2 a ha x (by simp)
          omega
        · simp only [List.mem_singleton] at ha; omega
    · have hn : ∀ r, e = .ready r → r.key ≠ k := fun r h1 h2 => he ⟨r, h1, h2⟩
      rw [readyCounts_snoc_other hn]; exact i

/-! ## Taken -/

theorem Taken.append {k : String} {es new : List LogEntry} (h : Taken k es) (hn : ∀ x ∈ new, ∀ h, x ≠ .header h) :
    Taken k (es ++ new) := by
  obtain ⟨pre, e, post, h1, h2, h3⟩ := h
  refine ⟨pre, e, post ++ new, by rw [h1]; simp, ?_, h3⟩
  intro x hx
  rcases List.mem_append.1 hx with hx | hx
  · exact h2 x hx
  · exact hn x hx

theorem Taken.new {k : String} {es new : List LogEntry} (hn : ∀ x ∈ new, ∀ h, x ≠ .header h)
    {e : LogEntry} (he : e ∈ new) (hk : (∃ r, e = .ready r ∧ r.key = k) ∨ e = .backref ⟨k⟩) : Taken k (es ++ new) := by
  obtain ⟨a, b, rfl⟩ := List.append_of_mem he
  exact ⟨es ++ a, e, b, by simp, fun x hx => hn x (by simp [hx]), hk⟩

theorem Appended.noHeader {new : List LogEntry} {rcs : List (String × Nat)} (hA : Appended new rcs) :
    ∀ x ∈ new, ∀ h, x ≠ .header h := by
  intro e he x hx
  subst hx
  rcases hA.kind _ he with k | k | k <;> simp [isReady, isStarted, isFinished] at k

/-! ## The invariant -/

/-- Of a session. -/
structure Rerun (s : Sess) : Prop where
  rc : ∀ x ∈ s.g.deps.nodes, s.g.logfile.mem.hasSuccess x.key = false →
    lastRc (statusOf x.key s.g.logfile.entries) ≤ x.runcount
  taken : ∀ k ∈ s.g.completed, Taken k s.g.logfile.entries
  weak : Weak s.g.logfile.entries

/-- Of a world. -/
structure RerunInv (w : World) : Prop where
  file : Weak w.file
  sess : ∀ s, w.sess = some s → Rerun s

theorem Rerun.log {s : Sess} {multi : Bool} {r : Running} (h : Rerun s) (hR : RunInv s multi r) : Weak r.st.lf.entries := by
  obtain ⟨h1, h2, h3⟩ := appended hR.good hR.reach
  rw [h2]
  refine weak_append h.weak h3 ?_
  intro x hx
  obtain ⟨y, hy, rfl⟩ := List.mem_map.1 hx
  exact h.rc y (hR.src y hy) (hR.fresh y hy).1

theorem RerunInv.log (h : RerunInv w) (hw : WInv w) : Weak w.log := by
  unfold World.log
  cases hs : w.sess with
  | none => exact h.file
  | some s =>
    simp only
    cases hr : s.run with
    | none => exact (h.sess s hs).weak
    | some r => exact (h.sess s hs).log ((hw.sess s hs).run r hr)

/-- What the start of `execute` does to the set of completed keys. -/
theorem exec_completed {w1 : World} {target : Option Nat} {rerun : Bool} {fizzles : Nat} {ch : Choices} {now : Int}
    (h : step w (.exec target rerun fizzles ch now) = .ok w1) :
    ∃ s s1 lf' completed', w.sess = some s ∧ w1.sess = some s1 ∧ w1.file = w.file ∧ lf'.mem = s.g.logfile.mem ∧
      lf'.entries = s.g.logfile.entries ++ ch.reuseOrder.map (fun k => LogEntry.backref ⟨k⟩) ∧
      s1.g = { s.g with deps := Selection.prioritised s.g ch, logfile := lf', completed := completed' } ∧
      ∀ k, k ∈ completed' ↔ k ∈ s.g.completed ∨ k ∈ ch.reuseOrder := by
  unfold step at h
  cases hs : w.sess with
  | none => simp [hs] at h
  | some s =>
    simp only [hs] at h
    split at h
    · cases h
    · obtain ⟨lf', c', h1, h2, h3, h4, h5⟩ := Selection.getSubgraph_ok s.g target rerun ch
      unfold startExec at h
      simp only [h1] at h
      split at h
      · simp only [Res.ok.injEq] at h
        subst h
        exact ⟨s, _, lf', c', rfl, rfl, rfl, h2, h4, rfl, h5⟩
      · simp only [Res.ok.injEq] at h
        subst h
        exact ⟨s, _, lf', c', rfl, rfl, rfl, h2, h4, rfl, h5⟩

theorem rerunInv_init : RerunInv init := ⟨weak_nil, by simp [init]⟩

theorem rerun_step (hw : WInv w) (h : RerunInv w) {a : Act} (hs : step w a = .ok w') : RerunInv w' := by
  have hlog := h.log hw
  cases a with
  | «open» dir roots newKey info =>
    unfold step at hs
    cases hse : w.sess with
    | some s => simp [hse] at hs
    | none =>
      simp only [hse] at hs
      cases hp : pyNew w.file dir roots newKey info with
      | err e => simp [hp] at hs
      | panic m => simp [hp] at hs
      | ok g =>
        simp only [hp, Res.ok.injEq] at hs
        subst hs
        obtain ⟨lf, hd, h1, h2, h3, h4, h5, _⟩ := Log.new_appends_header hp
        have he : g.logfile.entries = w.file ++ [.header hd] := by
          rw [(Log.writeAll_entries _ _ _ h2).1, (open_ok_iff.1 h1).2.1]
        refine ⟨h.file, ?_⟩
        intro s hs
        simp only [Option.some.injEq] at hs
        subst hs
        refine ⟨?_, ?_, ?_⟩
        · intro x hx; simp only at hx; rw [h3] at hx; simp [ExecGraph.new, DiGraph.empty] at hx
        · intro k hk; simp only at hk; rw [h3] at hk; simp [ExecGraph.new] at hk
        · simp only; rw [he]
          refine weak_other h.file ?_
          intro e he k
          simp only [List.mem_singleton] at he
          subst he; rfl
  | add cmd deps =>
    unfold step at hs
    cases hse : w.sess with
    | none => simp [hse] at hs
    | some s =>
      have hI := hw.sess s hse
      have hJ := h.sess s hse
      simp only [hse] at hs
      cases hrun : s.run with
      | some r => simp [hrun] at hs
      | none =>
        simp only [hrun, Option.isSome_none, Bool.false_eq_true, if_false] at hs
        cases htm : tooMany s.g cmd with
        | true => simp [htm] at hs
        | false =>
          simp only [htm, Bool.false_eq_true, if_false] at hs
          unfold pyAddTask at hs
          cases hl : logfileRuncount s.g.logfile cmd.key with
          | err e => simp [hl, Res.bind] at hs
          | panic m => simp [hl, Res.bind] at hs
          | ok x =>
            simp only [hl, Res.bind, Res.ok.injEq] at hs
            subst hs
            obtain ⟨f1, f2, f3⟩ := addTask_facts hI.reach { cmd with runcount := x.1, priority := 0 } deps
            refine ⟨h.file, ?_⟩
            intro s' hs'
            simp only [Option.some.injEq] at hs'
            subst hs'
            refine ⟨?_, ?_, ?_⟩
            · intro y hy hns
              simp only [f1] at hns ⊢
              simp only at hy
              rcases f3 with f3 | ⟨f3, _⟩
              · rw [f3] at hy; exact hJ.rc y hy hns
              · rw [f3] at hy
                rcases List.mem_append.1 hy with hy | hy
                · exact hJ.rc y hy hns
                · simp only [List.mem_singleton] at hy
                  subst hy
                  simp only at hns ⊢
                  have := logfileRuncount_next hI.cons hl hns
                  have := lastRc_le_next (statusOf cmd.key s.g.logfile.entries)
                  omega
            · simp only [f1, f2]; exact hJ.taken
            · simp only [f1]; exact hJ.weak
  | exec target rerun fizzles ch now =>
    obtain ⟨s, s1, lf', c', e1, e3, e4, e6, e7, e8, hcomp⟩ := exec_completed hs
    have hJ := h.sess s e1
    have hh : ∀ x ∈ ch.reuseOrder.map (fun k => LogEntry.backref ⟨k⟩), ∀ h, x ≠ .header h := by
      intro x hx h e
      obtain ⟨y, _, rfl⟩ := List.mem_map.1 hx
      cases e
    refine ⟨by rw [e4]; exact h.file, ?_⟩
    intro s' hs'
    rw [e3, Option.some.injEq] at hs'
    subst hs'
    obtain ⟨g1, run1, fl1, ex1, res1⟩ := s1
    simp only at e8
    subst e8
    refine ⟨?_, ?_, ?_⟩
    · intro x hx hns
      simp only [e6] at hns
      simp only [e7]
      rw [statusOf_append_other (fun e he => about_backrefs e he _)]
      simp only [withPriorities] at hx
      obtain ⟨i, hi⟩ := List.getElem?_of_mem hx
      rw [List.getElem?_mapIdx] at hi
      obtain ⟨c0, h0, h1⟩ := Option.map_eq_some_iff.1 hi
      subst h1
      exact hJ.rc c0 (List.mem_of_getElem? h0) hns
    · intro k hk
      simp only [e7]
      rcases (hcomp k).1 hk with hk | hk
      · exact (hJ.taken k hk).append hh
      · exact Taken.new hh (List.mem_map.2 ⟨k, hk, rfl⟩) (.inr rfl)
    · simp only [e7]; exact weak_other hJ.weak about_backrefs
  | trk a =>
    unfold step at hs
    cases hse : w.sess with
    | none => simp [hse] at hs
    | some s =>
      have hJ := h.sess s hse
      simp only [hse] at hs
      cases hrun : s.run with
      | none => simp [hrun] at hs
      | some r =>
        simp only [hrun] at hs
        split at hs
        · cases hs
        · cases hst : Tracker.step r.cfg r.st a with
          | err e => simp [hst, Res.bind] at hs
          | panic m => simp [hst, Res.bind] at hs
          | ok st =>
            simp only [hst, Res.bind, Res.ok.injEq] at hs
            subst hs
            refine ⟨h.file, ?_⟩
            intro s' hs'
            simp only [Option.some.injEq] at hs'
            subst hs'
            exact ⟨hJ.rc, hJ.taken, hJ.weak⟩
  | finish =>
    unfold step at hs
    cases hse : w.sess with
    | none => simp [hse] at hs
    | some s =>
      have hI := hw.sess s hse
      have hJ := h.sess s hse
      simp only [hse] at hs
      cases hrun : s.run with
      | none => simp [hrun] at hs
      | some r =>
        have hR := hI.run r hrun
        simp only [hrun] at hs
        split at hs
        · cases hs
        · simp only [Res.ok.injEq] at hs
          subst hs
          obtain ⟨h1, h2, h3⟩ := appended hR.good hR.reach
          obtain ⟨l1, l2, l3⟩ := RunInv.log hI hR
          have hkey : ∀ y ∈ s.g.deps.nodes, ∀ x ∈ s.g.deps.nodes, y.key = x.key → y = x := by
            have hg := (TaskGraph.good_of_reachable hI.reach).nodup
            intro y hy x hx hk
            obtain ⟨i, hi⟩ := List.getElem?_of_mem hy
            obtain ⟨j, hj⟩ := List.getElem?_of_mem hx
            have hij : i = j := by
              refine (List.getElem?_inj (l := s.g.taskKeys) ?_ hg).1 ?_
              · simp only [ExecGraph.taskKeys, List.length_map]
                exact (List.getElem?_eq_some_iff.1 hi).1
              · simp only [ExecGraph.taskKeys, List.getElem?_map, hi, hj, Option.map_some, hk]
            subst hij
            rw [hi] at hj
            exact Option.some.inj hj
          refine ⟨h.file, ?_⟩
          intro s' hs'
          simp only [endExec, Option.some.injEq] at hs'
          subst hs'
          refine ⟨?_, ?_, hJ.log hR⟩
          · intro x hx hns
            simp only at hx hns ⊢
            have hnew : ∀ rc ∈ readyCounts x.key (Tracker.newEntries s.g.logfile r.st), rc = x.runcount := by
              intro rc hrc
              obtain ⟨e, he, hm⟩ := List.mem_filterMap.1 hrc
              cases e with
              | ready r' =>
                simp only [Option.ite_none_right_eq_some, Option.some.injEq] at hm
                obtain ⟨hk, rfl⟩ := hm
                obtain ⟨y, hy, hyk⟩ := List.mem_map.1 (h3.rdy r' he)
                simp only [Prod.mk.injEq] at hyk
                have : y = x := hkey y (hR.src y hy) x hx (by rw [hyk.1, hk])
                rw [← hyk.2, this]
              | _ => cases hm
            rw [lastRc_status l1.protocol, lastReady_counts, h2]
            unfold readyCounts at hnew ⊢
            rw [List.filterMap_append, List.getLast?_append]
            cases hl : (List.filterMap _ (Tracker.newEntries s.g.logfile r.st)).getLast? with
            | some rc =>
              rw [hnew rc (List.mem_of_getLast? hl)]
              simp
            | none =>
              have hold : s.g.logfile.mem.hasSuccess x.key = false := by
                cases hb : s.g.logfile.mem.hasSuccess x.key with
                | false => rfl
                | true =>
                  rw [hasSuccess_iff hI.cons hI.log.norerun] at hb
                  obtain ⟨f, f1, f2⟩ := hb
                  have : r.st.lf.mem.hasSuccess x.key = true :=
                    (hasSuccess_iff l1 l2.norerun _).2 ⟨f, by rw [h2]; exact List.mem_append_left _ f1, f2⟩
                  rw [this] at hns; cases hns
              have := hJ.rc x hx hold
              rw [lastRc_status hI.cons.protocol, lastReady_counts] at this
              simpa [readyCounts] using this
          · intro k hk
            simp only at hk ⊢
            rw [h2]
            rcases Props.World.mem_insertKeys.1 hk with hk | hk
            · exact (hJ.taken k hk).append h3.noHeader
            · obtain ⟨x, hx, rfl⟩ := List.mem_map.1 hk
              have hmade := Tracker.Reachable.obtained_made hR.good hR.reach
                (Tracker.Reachable.closed_obtained hR.good hR.reach (v := x.1) (st := x.2) (List.mem_append_left _ hx))
              obtain ⟨hi, hh⟩ := hR.reach.inv hR.good
              obtain ⟨k1, k2, k3⟩ := hh.log.new_eq
              have hrk : (Tracker.cmdOf r.cfg.g x.1).key ∈ Tracker.readyKeys (Tracker.newEntries s.g.logfile r.st) := by
                rw [k3.ready]; exact List.mem_map.2 ⟨x.1, hmade, rfl⟩
              obtain ⟨e, he, hk⟩ := List.mem_filterMap.1 hrk
              cases e with
              | ready r' =>
                simp only [Tracker.readyKey?, Option.some.injEq] at hk
                exact Taken.new h3.noHeader he (.inl ⟨r', rfl, hk⟩)
              | _ => simp [Tracker.readyKey?] at hk
  | stop keep =>
    unfold step at hs
    cases hse : w.sess with
    | none => simp [hse] at hs
    | some s =>
      simp only [hse] at hs
      split at hs
      · simp only [Res.ok.injEq] at hs
        subst hs
        refine ⟨?_, by simp⟩
        rw [← List.take_append_drop keep w.log] at hlog
        exact weak_prefix hlog
      · cases hs

theorem Reachable.rerun (h : Reachable w) : RerunInv w := by
  obtain ⟨as, hr⟩ := h
  have key : ∀ {w w' : World} {as : List Act}, Runs w as w' → WInv w → RerunInv w → RerunInv w' := by
    intro w w' as hr
    induction hr with
    | nil => intro _ h; exact h
    | cons hs _ ih => intro hw h; exact ih (winv_step hw hs) (rerun_step hw h hs)
  exact key hr winv_init rerunInv_init

end Verif.World
