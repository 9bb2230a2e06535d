import Verif.Proof.Snapshot
import Verif.Props.Selection
import Verif.Props.Log

/-!
# C40, C41, C42: what `load_logfile` returns
-/

namespace Verif.Props.Snapshot
open Verif Spec Verif.Snapshot

/-- **C40.** The file is `old`, the newest header `h`, and the entries `sess` of the newest session, which has no
duplicate Backref. Then "current" is the header, the last attempts (in `old`) of the keys with a Backref in `sess`, and
the entries of `sess` without its Backrefs, in file order. -/
theorem current_exact (old sess : List LogEntry) (h : HeaderEntry) (hs : ∀ e ∈ sess, isHeader e = false)
    (hn : (backrefKeys sess).Nodup) :
    ∃ outdated, currentAndOutdated (old ++ .header h :: sess) =
      .ok (.header h :: (lastAttempts (backrefKeys sess) old ++ sess.filter (fun e => !isBackref e)), outdated) := by
  have := currentAndOutdated_spec old sess (some h) (by simp) hs
  simp only [Option.toList_some, List.map_cons, List.map_nil, List.append_assoc, List.cons_append,
    List.nil_append] at this
  rw [this, if_pos hn]
  exact ⟨_, rfl⟩

theorem mem_lastAttempts_or (B : List String) (l : List LogEntry) (e : LogEntry) (he : e ∈ l) :
    e ∈ lastAttempts B l ∨ e ∈ otherEntries B l := by
  induction l with
  | nil => cases he
  | cons x l ih =>
    simp only [lastAttempts, otherEntries]
    rcases List.mem_cons.1 he with rfl | he
    · split <;> simp
    · rcases ih he with h | h
      · left; split <;> simp [h]
      · right; split <;> simp [h]

theorem mem_otherEntries (B : List String) (l : List LogEntry) (e : LogEntry) (he : e ∈ otherEntries B l) : e ∈ l := by
  induction l with
  | nil => cases he
  | cons x l ih =>
    simp only [otherEntries] at he
    split at he
    · exact List.mem_cons_of_mem _ (ih he)
    · rcases List.mem_cons.1 he with rfl | he
      · simp
      · exact List.mem_cons_of_mem _ (ih he)

/-- **C40 (nothing lost).** Every entry of the file is in "current", in "outdated", is a Backref of the newest session, or
has a key that is in "current"; and "outdated" contains only entries older than the newest header. -/
theorem nothing_lost (old sess : List LogEntry) (h : HeaderEntry) (hs : ∀ e ∈ sess, isHeader e = false)
    {current outdated : List LogEntry}
    (hok : currentAndOutdated (old ++ .header h :: sess) = .ok (current, outdated)) :
    (∀ e ∈ old ++ .header h :: sess, e ∈ current ∨ e ∈ outdated ∨ (e ∈ sess ∧ isBackref e = true) ∨
      ∃ k, keyOf e = some k ∧ ∃ y ∈ current, keyOf y = some k) ∧
    (∀ e ∈ outdated, e ∈ old) := by
  have := currentAndOutdated_spec old sess (some h) (by simp) hs
  simp only [Option.toList_some, List.map_cons, List.map_nil, List.append_assoc, List.cons_append,
    List.nil_append] at this
  rw [this] at hok
  split at hok
  · simp only [Res.ok.injEq, Prod.mk.injEq] at hok
    obtain ⟨rfl, rfl⟩ := hok
    constructor
    · intro e he
      simp only [List.mem_append, List.mem_cons] at he
      rcases he with he | rfl | he
      · rcases mem_lastAttempts_or (backrefKeys sess) old e he with hl | ho
        · left; simp [hl]
        · right
          by_cases hk : ∃ k, keyOf e = some k ∧ ∃ y ∈ LogEntry.header h ::
              (lastAttempts (backrefKeys sess) old ++ sess.filter (fun e => !isBackref e)), keyOf y = some k
          · exact .inr (.inr hk)
          · left
            rw [List.mem_filter]
            refine ⟨ho, ?_⟩
            simp only [decide_eq_true_eq]
            intro k hk1 y hy hyk
            exact hk ⟨k, hk1, y, hy, hyk⟩
      · left; simp
      · by_cases hb : isBackref e = true
        · exact .inr (.inr (.inl ⟨he, hb⟩))
        · left; simp [he, hb]
    · intro e he
      exact mem_otherEntries _ _ _ (List.mem_filter.1 he).1
  · cases hok

/-- Every file splits at its newest header. -/
theorem split_at_header (all : List LogEntry) : ∃ old hd sess, (hd = none → old = []) ∧
    (∀ e ∈ sess, isHeader e = false) ∧ all = old ++ hd.toList.map LogEntry.header ++ sess := by
  induction all with
  | nil => exact ⟨[], none, [], by simp, by simp, by simp⟩
  | cons e all ih =>
    obtain ⟨old, hd, sess, h1, h2, rfl⟩ := ih
    cases hd with
    | some x => exact ⟨e :: old, some x, sess, by simp, h2, by simp⟩
    | none =>
      rw [h1 rfl]
      cases e with
      | header x => exact ⟨[], some x, sess, by simp, h2, by simp⟩
      | _ =>
        refine ⟨[], none, _ :: sess, by simp, ?_, rfl⟩
        intro x hx
        rcases List.mem_cons.1 hx with rfl | hx
        · rfl
        · exact h2 x hx

/-- **C41.** Whatever the file contains: no key of an "outdated" entry occurs in "current". -/
theorem outdated_disjoint (all current outdated : List LogEntry)
    (hok : currentAndOutdated all = .ok (current, outdated)) (x y : LogEntry) (hx : x ∈ outdated) (hy : y ∈ current)
    (k : String) (hk : keyOf x = some k) : keyOf y ≠ some k := by
  obtain ⟨old, hd, sess, h1, h2, rfl⟩ := split_at_header all
  have := currentAndOutdated_spec old sess hd h1 h2
  simp only at this
  rw [this] at hok
  split at hok
  · simp only [Res.ok.injEq, Prod.mk.injEq] at hok
    obtain ⟨rfl, rfl⟩ := hok
    have := (List.mem_filter.1 hx).2
    simp only [decide_eq_true_eq] at this
    exact this k hk y hy
  · cases hok

/-- **C41 (the point of it).** If the newest session has a Backref for `k` and the last entry of `k` before that session
is Finished (the reused result), then that entry is in "current", so no entry of `k` is in "outdated". -/
theorem reused_result_is_current (old sess : List LogEntry) (h : HeaderEntry) (hs : ∀ e ∈ sess, isHeader e = false)
    {current outdated : List LogEntry}
    (hok : currentAndOutdated (old ++ .header h :: sess) = .ok (current, outdated)) (k : String)
    (hk : k ∈ backrefKeys sess) (f : FinishedEntry) (hf : (history k old).getLast? = some (.finished f)) :
    LogEntry.finished f ∈ current ∧ ∀ x ∈ outdated, keyOf x ≠ some k := by
  have hmem : ∀ l : List LogEntry, (history k l).getLast? = some (.finished f) →
      LogEntry.finished f ∈ lastAttempts (backrefKeys sess) l := by
    intro l
    induction l with
    | nil => intro h; simp [history] at h
    | cons e l ih =>
      intro hl
      by_cases hnil : history k l = []
      · have hab : about k e = true := by
          by_cases hab : about k e = true
          · exact hab
          · simp only [history] at hl hnil
            rw [List.filter_cons, if_neg hab, hnil] at hl; simp at hl
        have he : e = .finished f := by
          simp only [history] at hl hnil
          rw [List.filter_cons, if_pos hab, hnil] at hl; simpa using hl
        subst he
        simp only [lastAttempts]
        rw [if_pos]
        · simp
        · refine ⟨k, hk, hab, ?_⟩
          rintro x hx ⟨_, hx2⟩
          have : x ∈ history k l := List.mem_filter.2 ⟨hx, hx2⟩
          rw [hnil] at this; cases this
      · have : (history k l).getLast? = some (.finished f) := by
          simp only [history] at hl hnil ⊢
          rw [List.filter_cons] at hl
          split at hl
          · rw [List.getLast?_cons] at hl
            cases hg : (l.filter (about k)).getLast? with
            | none => rw [List.getLast?_eq_none_iff] at hg; exact absurd hg hnil
            | some z => rw [hg] at hl; simpa using hl
          · exact hl
        have := ih this
        simp only [lastAttempts]
        split <;> simp [this]
  have hcur : LogEntry.finished f ∈ current := by
    have := currentAndOutdated_spec old sess (some h) (by simp) hs
    simp only [Option.toList_some, List.map_cons, List.map_nil, List.append_assoc, List.cons_append,
      List.nil_append] at this
    rw [this] at hok
    split at hok
    · simp only [Res.ok.injEq, Prod.mk.injEq] at hok
      obtain ⟨rfl, rfl⟩ := hok
      simp [hmem old hf]
    · cases hok
  refine ⟨hcur, fun x hx hxk => ?_⟩
  have hfk : f.key = k := by
    have := history_last_about hf
    simpa [about] using this
  exact outdated_disjoint _ _ _ hok x _ hx hcur k hxk (by simp [keyOf, hfk])

/-- **C42.** `load_logfile` either returns or panics, and it panics exactly if the entries after the newest header contain
a Backref of the same key twice. -/
theorem panics_iff_duplicate_backref (old sess : List LogEntry) (hd : Option HeaderEntry)
    (hold : hd = none → old = []) (hs : ∀ e ∈ sess, isHeader e = false) :
    let r := currentAndOutdated (old ++ hd.toList.map LogEntry.header ++ sess)
    (r.isPanic = true ↔ ¬ (backrefKeys sess).Nodup) ∧ (r.isOk = true ↔ (backrefKeys sess).Nodup) := by
  intro r
  have := currentAndOutdated_spec old sess hd hold hs
  simp only at this
  simp only [r, this]
  by_cases h : (backrefKeys sess).Nodup
  · rw [if_pos h]; simp [Res.isPanic, Res.isOk, h]
  · rw [if_neg h]; simp [Res.isPanic, Res.isOk, h]

/-- **C42 (written logs).** After any session of this library, cut at any entry boundary after its header,
`load_logfile` does not panic. -/
theorem written_log_never_panics {es : List LogEntry} {dir : String} {roots : List String} {newKey : String}
    {info : HeaderEntry} {g0 g : ExecGraph} (hnew : pyNew es dir roots newKey info = .ok g0)
    (hsess : Selection.Session g0.logfile g) (cut : List LogEntry) (hlo : g0.logfile.entries <+: cut)
    (hhi : cut <+: g.logfile.entries) : (currentAndOutdated cut).isOk = true := by
  obtain ⟨lf, hd, h1, h2, _⟩ := Log.new_appends_header hnew
  have he : g0.logfile.entries = es ++ [.header hd] := by
    rw [(Log.writeAll_entries _ _ _ h2).1, (open_ok_iff.1 h1).2.1]
  obtain ⟨mine, m1, m2, _, m4⟩ := Selection.backrefs_once_per_session hsess
  obtain ⟨part, rfl⟩ := hlo
  obtain ⟨rest, hr⟩ := hhi
  rw [m1, List.append_assoc, List.append_cancel_left_eq] at hr
  subst hr
  have hb : backrefKeys (part ++ rest) = backrefKeys part ++ backrefKeys rest := by simp [backrefKeys]
  rw [hb, List.nodup_append] at m2
  have := (panics_iff_duplicate_backref es part (some hd) (by simp)
    (fun e h => m4 e (by simp [h]))).2.2 m2.1
  rw [he]
  simpa using this

/-- The example log: session 1 runs a (succeeds) and b (fails twice over); session 2 reuses a, reruns b. -/
def demo : List LogEntry :=
  [.header (Log.demoHeader []), .ready ⟨⟨0, 0⟩, "a", 0, "x", 0⟩, .started ⟨⟨0, 0⟩, "a", "h", 1, ""⟩,
    .ready ⟨⟨0, 0⟩, "b", 0, "x", 0⟩, .finished ⟨⟨0, 0⟩, "a", 0, []⟩, .started ⟨⟨0, 0⟩, "b", "h", 1, ""⟩,
    .ready ⟨⟨0, 0⟩, "z", 0, "x", 0⟩, .finished ⟨⟨0, 0⟩, "b", 1, []⟩]

/-- Non-trivial case of C40-C42: hypotheses hold; `a`'s three entries and session 2 are current; `z` is outdated; `b`'s
old entries are in neither since `b` is current. -/
example :
    currentAndOutdated (demo ++ .header (Log.demoHeader []) :: [.backref ⟨"a"⟩, .ready ⟨⟨0, 0⟩, "b", 1, "x", 0⟩]) =
      .ok ([.header (Log.demoHeader []), .ready ⟨⟨0, 0⟩, "a", 0, "x", 0⟩, .started ⟨⟨0, 0⟩, "a", "h", 1, ""⟩,
        .finished ⟨⟨0, 0⟩, "a", 0, []⟩, .ready ⟨⟨0, 0⟩, "b", 1, "x", 0⟩],
        [.header (Log.demoHeader []), .ready ⟨⟨0, 0⟩, "z", 0, "x", 0⟩]) ∧
    (history "a" demo).getLast? = some (.finished ⟨⟨0, 0⟩, "a", 0, []⟩) := by
  constructor <;> rfl

/-- Non-trivial case of C42: a duplicate Backref after the newest header panics. -/
example : (currentAndOutdated (demo ++ .header (Log.demoHeader []) :: [.backref ⟨"a"⟩, .backref ⟨"a"⟩])).isPanic = true :=
  rfl

/-- Non-trivial case of `written_log_never_panics`: a session on top of `demo` that adds `a` and executes writes a
Backref for it. -/
example : ∃ g0 g, pyNew demo "/d" [] "k" (Log.demoHeader []) = .ok g0 ∧ Selection.Session g0.logfile g ∧
    backrefKeys g.logfile.entries = ["a"] := by
  refine ⟨_, _, rfl, .exec none true ⟨[0], [0], [], ["a"]⟩ .empty [] ["a"] (.add { cmdline := [.str "x"], key := "a" } [] .start)
    ⟨DiGraph.topo_of_isTopo (by decide), DiGraph.topo_of_isTopo (by decide), DiGraph.topo_of_isTopo (by decide), by decide⟩ rfl (by simp)
    (by decide), ?_⟩
  decide

end Verif.Props.Snapshot
