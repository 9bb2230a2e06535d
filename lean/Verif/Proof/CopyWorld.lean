import Verif.Proof.Copy
import Verif.Proof.World

/-!
# Copying logs: sessions in histories
-/

namespace Verif.Copy
open Verif Spec Verif.World Verif.Props

theorem newest_split {old sess : List LogEntry} {h : HeaderEntry} (hs : ∀ e ∈ sess, isHeader e = false) : newest (old ++ .header h :: sess) = sess := by
  induction old with
  | nil =>
    have : sess.any isHeader = false := by rw [List.any_eq_false]; intro e he; rw [hs e he]; simp
    simp [newest, this, isHeader]
  | cons e old ih =>
    have : (old ++ LogEntry.header h :: sess).any isHeader = true := by
      rw [List.any_eq_true]; exact ⟨_, List.mem_append_right _ (List.mem_cons_self ..), rfl⟩
    simp only [List.cons_append, newest, this, if_true]
    exact ih

theorem OwnReady.append {a b : List LogEntry} (ha : OwnReady a) (hb : OwnReady b) : OwnReady (a ++ b) := by
  intro pre e post he k hk hr
  rcases List.append_eq_append_iff.1 he with ⟨c, h1, h2⟩ | ⟨c, h1, h2⟩
  · obtain ⟨x, hx, h⟩ := hb c e post h2 k hk hr
    exact ⟨x, by rw [h1]; exact List.mem_append_right _ hx, h⟩
  · cases c with
    | nil =>
      simp only [List.append_nil, List.nil_append] at h1 h2
      obtain ⟨x, hx, _⟩ := hb [] e post h2.symm k hk hr
      cases hx
    | cons y c =>
      simp only [List.cons_append, List.cons.injEq] at h2
      obtain ⟨rfl, _⟩ := h2
      exact ha pre _ c h1 k hk hr

theorem OwnReady.prefix {a b : List LogEntry} (h : OwnReady (a ++ b)) : OwnReady a := by
  intro pre e post he k hk hr
  exact h pre e (post ++ b) (by rw [he]; simp) k hk hr

theorem OwnReady.other {a : List LogEntry} (h : ∀ e ∈ a, ∀ k, about k e = false) : OwnReady a := by
  intro pre e post he k hk _
  rw [h e (by rw [he]; simp) k] at hk; cases hk

theorem ownReady_appended {new : List LogEntry} {rcs : List (String × Nat)} (h : Appended new rcs) : OwnReady new := by
  intro pre e post he k hk hr
  have hc : Tracker.closerOf k e = true := by
    cases e <;> simp_all [about, isReady, Tracker.closerOf]
  obtain ⟨j, r, hj, hjr, hjk⟩ := h.after pre.length e k (by rw [he]; simp) hc
  refine ⟨.ready r, ?_, rfl, by simp [about, hjk]⟩
  rw [he, List.getElem?_append_left hj] at hjr
  exact List.mem_of_getElem? hjr

/-- The entries of one session. -/
structure SessOk (mine : List LogEntry) : Prop where
  free : ∀ e ∈ mine, isHeader e = false
  nodup : (backrefKeys mine).Nodup
  own : OwnReady mine

theorem backrefKeys_append (a b : List LogEntry) : backrefKeys (a ++ b) = backrefKeys a ++ backrefKeys b := List.filterMap_append

theorem SessOk.nil : SessOk [] := ⟨by simp, by simp [backrefKeys], .other (by simp)⟩

theorem SessOk.prefix {a b : List LogEntry} (h : SessOk (a ++ b)) : SessOk a := by
  refine ⟨fun e he => h.free e (List.mem_append_left _ he), ?_, h.own.prefix⟩
  have := h.nodup
  rw [backrefKeys_append, List.nodup_append] at this
  exact this.1

theorem backrefKeys_appended {new : List LogEntry} {rcs : List (String × Nat)} (h : Appended new rcs) :
    backrefKeys new = [] ∧ ∀ e ∈ new, isHeader e = false := by
  constructor
  · unfold backrefKeys
    rw [List.filterMap_eq_nil_iff]
    intro e he
    have := h.kind e he
    cases e <;> simp_all [isReady, isStarted, isFinished]
  · intro e he
    have := h.kind e he
    cases e <;> simp_all [isReady, isStarted, isFinished, isHeader]

theorem SessOk.run {mine new : List LogEntry} {rcs : List (String × Nat)} (h : SessOk mine) (ha : Appended new rcs) : SessOk (mine ++ new) := by
  obtain ⟨h1, h2⟩ := backrefKeys_appended ha
  refine ⟨?_, ?_, h.own.append (ownReady_appended ha)⟩
  · intro e he
    rcases List.mem_append.1 he with he | he
    · exact h.free e he
    · exact h2 e he
  · rw [backrefKeys_append, h1, List.append_nil]; exact h.nodup

theorem backrefKeys_map : ∀ l : List String, backrefKeys (l.map (fun k => LogEntry.backref ⟨k⟩)) = l := by
  intro l
  induction l with
  | nil => rfl
  | cons x l ih => simp only [backrefKeys, List.map_cons, List.filterMap_cons] at *; rw [ih]

theorem SessOk.exec {mine : List LogEntry} {ks : List String} (h : SessOk mine) (hn : ks.Nodup) (hd : ∀ k ∈ backrefKeys mine, k ∉ ks) :
    SessOk (mine ++ ks.map (fun k => LogEntry.backref ⟨k⟩)) := by
  refine ⟨?_, ?_, h.own.append (.other about_backrefs)⟩
  · intro e he
    rcases List.mem_append.1 he with he | he
    · exact h.free e he
    · obtain ⟨x, _, rfl⟩ := List.mem_map.1 he; rfl
  · rw [backrefKeys_append, backrefKeys_map, List.nodup_append]
    refine ⟨h.nodup, hn, ?_⟩
    rintro a ha b hb rfl
    exact hd a ha hb

/-- A log whose newest session is as a process writes it. -/
def LastOk (es : List LogEntry) : Prop := es = [] ∨ ∃ old h sess, es = old ++ .header h :: sess ∧ SessOk sess

/-- The session's part of the log. -/
def SessPart (file : List LogEntry) (s : Sess) : Prop :=
  ∃ hd mine, s.g.logfile.entries = file ++ .header hd :: mine ∧ SessOk mine ∧ ∀ k ∈ backrefKeys mine, k ∈ s.g.completed

/-- The invariant. -/
structure CInv (w : World) : Prop where
  file : LastOk w.file
  sess : ∀ s, w.sess = some s → SessPart w.file s

theorem cinv_init : CInv init := ⟨.inl rfl, by simp [init]⟩

/-- The log at any moment. -/
theorem CInv.log {w : World} (hW : WInv w) (h : CInv w) :
    (w.sess = none ∧ w.log = w.file) ∨ ∃ hd mine, w.log = w.file ++ .header hd :: mine ∧ SessOk mine := by
  unfold World.log
  cases hs : w.sess with
  | none => exact .inl ⟨rfl, rfl⟩
  | some s =>
    right
    obtain ⟨hd, mine, h1, h2, _⟩ := h.sess s hs
    cases hr : s.run with
    | none => exact ⟨hd, mine, by simp only [hr]; exact h1, h2⟩
    | some r =>
      have hR := (hW.sess s hs).run r hr
      obtain ⟨_, k2, k3⟩ := appended hR.good hR.reach
      refine ⟨hd, mine ++ Tracker.newEntries s.g.logfile r.st, ?_, h2.run k3⟩
      simp only [hr]
      rw [k2, h1]; simp

theorem CInv.last {w : World} (hW : WInv w) (h : CInv w) : LastOk w.log := by
  rcases h.log hW with ⟨_, h1⟩ | ⟨hd, mine, h1, h2⟩
  · rw [h1]; exact h.file
  · exact .inr ⟨w.file, hd, mine, h1, h2⟩

theorem mem_insertKeys {k : String} : ∀ {ks c : List String}, k ∈ c → k ∈ insertKeys c ks := by
  intro ks
  induction ks with
  | nil => intro c h; exact h
  | cons x ks ih =>
    intro c h
    simp only [insertKeys]
    apply ih
    split
    · exact h
    · exact List.mem_append_left _ h

theorem cinv_step {w w' : World} (hW : WInv w) (h : CInv w) {a : World.Act} (hs : step w a = .ok w') : CInv w' := by
  cases a with
  | «open» dir roots newKey info =>
    unfold step at hs
    cases hse : w.sess with
    | some s => simp [hse] at hs
    | none =>
      simp only [hse] at hs
      cases hp : pyNew w.file dir roots newKey info with
      | err e => simp [hp] at hs
      | panic m => simp [hp] at hs
      | ok g =>
        simp only [hp, Res.ok.injEq] at hs
        subst hs
        obtain ⟨lf, hd, h1, h2, h3, _⟩ := Log.new_appends_header hp
        refine ⟨h.file, ?_⟩
        intro s hs
        simp only [Option.some.injEq] at hs
        subst hs
        refine ⟨hd, [], ?_, SessOk.nil, by simp [backrefKeys]⟩
        simp only
        rw [(Log.writeAll_entries _ _ _ h2).1, (open_ok_iff.1 h1).2.1]
  | add cmd deps =>
    unfold step at hs
    cases hse : w.sess with
    | none => simp [hse] at hs
    | some s =>
      have hI := hW.sess s hse
      simp only [hse] at hs
      split at hs
      · cases hs
      · split at hs
        · cases hs
        · unfold pyAddTask at hs
          cases hl : logfileRuncount s.g.logfile cmd.key with
          | err e => simp [hl, Res.bind] at hs
          | panic m => simp [hl, Res.bind] at hs
          | ok x =>
            simp only [hl, Res.bind, Res.ok.injEq] at hs
            subst hs
            obtain ⟨f1, f2, _⟩ := addTask_facts hI.reach { cmd with runcount := x.1, priority := 0 } deps
            refine ⟨h.file, ?_⟩
            intro s' hs'
            simp only [Option.some.injEq] at hs'
            subst hs'
            obtain ⟨hd, mine, k1, k2, k3⟩ := h.sess s hse
            exact ⟨hd, mine, by simp only [f1]; exact k1, k2, by simp only [f2]; exact k3⟩
  | exec target rerun fizzles ch now =>
    unfold step at hs
    cases hse : w.sess with
    | none => simp [hse] at hs
    | some s =>
      have hI := hW.sess s hse
      simp only [hse] at hs
      cases hrun : s.run with
      | some r => simp [hrun] at hs
      | none =>
        simp only [hrun, Option.isSome_none, Bool.false_or] at hs
        cases hleg : legal s.g target rerun ch with
        | false => simp [hleg] at hs
        | true =>
          simp only [hleg, Bool.not_true, Bool.false_eq_true, if_false] at hs
          have hL := (Bridge.legal_iff hI.reach).1 hleg
          obtain ⟨sub, g', ks, e1, e2, e3, e4, e5⟩ := Selection.backrefs_exact hI.reach target rerun ch hL
          obtain ⟨hd, mine, k1, k2, k3⟩ := h.sess s hse
          have hpart : ∀ s' : Sess, s'.g = g' → SessPart w.file s' := by
            intro s' hg
            refine ⟨hd, mine ++ ks.map (fun k => LogEntry.backref ⟨k⟩), ?_, k2.exec e3 ?_, ?_⟩
            · rw [hg, e2, k1]; simp
            · intro k hk hm
              obtain ⟨_, _, _, _, _, hn, _⟩ := (e4 k).1 hm
              exact hn (k3 k hk)
            · intro k hk
              rw [backrefKeys_append, backrefKeys_map] at hk
              rw [hg, e5]
              rcases List.mem_append.1 hk with hk | hk
              · exact .inl (k3 k hk)
              · exact .inr hk
          unfold startExec at hs
          simp only [e1] at hs
          split at hs
          · simp only [Res.ok.injEq] at hs
            subst hs
            refine ⟨h.file, ?_⟩
            intro s' hs'
            simp only [Option.some.injEq] at hs'
            subst hs'
            exact hpart _ rfl
          · simp only [Res.ok.injEq] at hs
            subst hs
            refine ⟨h.file, ?_⟩
            intro s' hs'
            simp only [Option.some.injEq] at hs'
            subst hs'
            exact hpart _ rfl
  | trk a =>
    unfold step at hs
    cases hse : w.sess with
    | none => simp [hse] at hs
    | some s =>
      simp only [hse] at hs
      cases hrun : s.run with
      | none => simp [hrun] at hs
      | some r =>
        simp only [hrun] at hs
        split at hs
        · cases hs
        · cases hst : Tracker.step r.cfg r.st a with
          | err e => simp [hst, Res.bind] at hs
          | panic m => simp [hst, Res.bind] at hs
          | ok st =>
            simp only [hst, Res.bind, Res.ok.injEq] at hs
            subst hs
            refine ⟨h.file, ?_⟩
            intro s' hs'
            simp only [Option.some.injEq] at hs'
            subst hs'
            exact h.sess s hse
  | finish =>
    unfold step at hs
    cases hse : w.sess with
    | none => simp [hse] at hs
    | some s =>
      simp only [hse] at hs
      cases hrun : s.run with
      | none => simp [hrun] at hs
      | some r =>
        simp only [hrun] at hs
        split at hs
        · cases hs
        · simp only [Res.ok.injEq] at hs
          subst hs
          have hR := (hW.sess s hse).run r hrun
          obtain ⟨_, q2, q3⟩ := appended hR.good hR.reach
          obtain ⟨hd, mine, k1, k2, k3⟩ := h.sess s hse
          refine ⟨h.file, ?_⟩
          intro s' hs'
          simp only [endExec, Option.some.injEq] at hs'
          subst hs'
          refine ⟨hd, mine ++ Tracker.newEntries s.g.logfile r.st, ?_, k2.run q3, ?_⟩
          · simp only [endExec]; rw [q2, k1]; simp
          · intro k hk
            rw [backrefKeys_append, (backrefKeys_appended q3).1, List.append_nil] at hk
            exact mem_insertKeys (k3 k hk)
  | stop keep =>
    unfold step at hs
    cases hse : w.sess with
    | none => simp [hse] at hs
    | some s =>
      simp only [hse] at hs
      split at hs
      · rename_i hk
        simp only [Res.ok.injEq] at hs
        subst hs
        refine ⟨?_, by simp⟩
        simp only
        rcases h.log hW with ⟨h0, _⟩ | ⟨hd, mine, h1, h2⟩
        · rw [hse] at h0; cases h0
        · have hle : w.file.length ≤ keep := by
            have := (hW.sess s hse).onDisk.length_le
            rw [List.length_take] at this
            omega
          obtain ⟨m, rfl⟩ := Nat.le.dest hle
          rw [h1, List.take_length_add_append]
          cases m with
          | zero => simpa using h.file
          | succ m =>
            rw [List.take_succ_cons]
            refine .inr ⟨w.file, hd, mine.take m, rfl, ?_⟩
            have e : mine = mine.take m ++ mine.drop m := (List.take_append_drop _ _).symm
            rw [e] at h2
            exact h2.prefix
      · cases hs

theorem Reachable.cinv {w : World} (h : World.Reachable w) : WInv w ∧ CInv w := by
  obtain ⟨as, hr⟩ := h
  have key : ∀ {w w' : World} {as : List World.Act}, Runs w as w' → WInv w → CInv w → WInv w' ∧ CInv w' := by
    intro w w' as hr
    induction hr with
    | nil => intro h1 h2; exact ⟨h1, h2⟩
    | cons hs _ ih => intro h1 h2; exact ih (winv_step h1 hs) (cinv_step h1 h2 hs)
  exact key hr winv_init cinv_init

end Verif.Copy
