import Verif.Proof.LogFile
import Verif.Model.ExecGraph

/-!
# C33, C34, C38, C39: the workflow log on disk and in memory
-/

namespace Verif.Props.Log
open Verif Spec

/-- **C33/C38.** A log can be reopened exactly if it follows the log protocol and all its headers have version 4 and the
same workflow key. -/
theorem reopen_iff (es : List LogEntry) (dir : String) :
    (∃ lf, LogFile.open es dir = .ok lf) ↔ Protocol es ∧ HeadersOk es := by
  constructor
  · rintro ⟨lf, h⟩
    obtain ⟨st, h1, _⟩ := loadRuncounts_ok_iff.1 (open_ok_iff.1 h).1
    have := loadInv_loop es [] _ st loadInv_init h1
    exact ⟨this.protocol, this.headers⟩
  · rintro ⟨hp, hh⟩
    obtain ⟨st, h⟩ := loadLoop_ok es [] _ loadInv_init hp hh
    exact ⟨⟨st.mem, es, dir⟩, open_ok_iff.2 ⟨loadRuncounts_ok_iff.2 ⟨st, h, rfl⟩, rfl, rfl⟩⟩

/-- **C33.** Reopening panics only on a log that violates the protocol. -/
theorem reopen_panic (es : List LogEntry) (dir : String) (h : (LogFile.open es dir).isPanic = true) :
    ¬ Protocol es := by
  have key : ∀ (es pre : List LogEntry) (st : LoadState), LoadInv pre st → (loadLoop st es).isPanic = true →
      ¬ Protocol (pre ++ es) := by
    intro es
    induction es with
    | nil => intro pre st _ h; simp [loadLoop, Res.isPanic] at h
    | cons e es ih =>
      intro pre st hi h hp
      have e1 : pre ++ e :: es = (pre ++ [e]) ++ es := by simp
      rw [e1] at hp
      simp only [loadLoop] at h
      cases hs : loadStep st e with
      | ok st1 => rw [hs] at h; exact ih (pre ++ [e]) st1 (loadInv_step hi e hs) h hp
      | err x => rw [hs] at h; simp [Res.bind, Res.isPanic] at h
      | panic x => exact loadStep_panic_protocol hi e hs (protocol_prefix hp)
  apply key es [] _ loadInv_init
  unfold LogFile.open loadRuncounts at h
  cases hl : loadLoop ⟨.empty, none⟩ es with
  | ok st => rw [hl] at h; simp [Res.bind, Res.isPanic] at h
  | err x => rw [hl] at h; simp [Res.bind, Res.isPanic] at h
  | panic x => rfl

/-- **C33.** On an opened log a sequence of writes succeeds exactly if the resulting file follows the protocol;
otherwise some write panics. -/
theorem write_iff {es new : List LogEntry} {dir : String} {lf : LogFile} (h : LogFile.open es dir = .ok lf) :
    ((∃ lf', lf.writeAll new = .ok lf') ↔ Protocol (es ++ new)) ∧
    ((lf.writeAll new).isPanic = true ↔ ¬ Protocol (es ++ new)) := by
  obtain ⟨st, h1, h2⟩ := loadRuncounts_ok_iff.1 (open_ok_iff.1 h).1
  have hinv := loadInv_loop es [] _ st loadInv_init h1
  obtain ⟨k1, k2⟩ := writeAll_step new es lf (fun k => by rw [← h2]; exact hinv.status k) hinv.protocol
  refine ⟨⟨fun ⟨lf', hl⟩ => Classical.byContradiction fun hn => ?_, k1⟩, fun hp hprot => ?_, k2⟩
  · have := k2 hn; rw [hl] at this; simp [Res.isPanic] at this
  · obtain ⟨lf', hl⟩ := k1 hprot; rw [hl] at hp; simp [Res.isPanic] at hp

/-- **C34.** After a reopening the state of every key and the header are what the entries of the file say. -/
theorem reopen_reads_file {es : List LogEntry} {dir : String} {lf : LogFile} (h : LogFile.open es dir = .ok lf) :
    (∀ k, lf.mem.runcount k = statusOf k es) ∧ lf.mem.header = lastHeader es ∧ lf.entries = es := by
  obtain ⟨st, h1, h2⟩ := loadRuncounts_ok_iff.1 (open_ok_iff.1 h).1
  have hinv := loadInv_loop es [] _ st loadInv_init h1
  exact ⟨fun k => by rw [LogMem.runcount, ← h2]; exact hinv.status k, by rw [← h2]; exact hinv.header,
    (open_ok_iff.1 h).2.1⟩

/-- **C34 (has_success, has_failure).** A key counts as successful exactly if its last entry is a Finished entry with
status 0, as failed exactly if its last entry is a Finished entry with another status. -/
theorem success_iff_last_entry {es : List LogEntry} {dir : String} {lf : LogFile}
    (h : LogFile.open es dir = .ok lf) (k : String) :
    (lf.mem.hasSuccess k = true ↔ ∃ f, (history k es).getLast? = some (.finished f) ∧ f.status = 0) ∧
    (lf.mem.hasFailure k = true ↔ ∃ f, (history k es).getLast? = some (.finished f) ∧ f.status ≠ 0) := by
  have hp := ((reopen_iff es dir).1 ⟨lf, h⟩).1
  have hs := (reopen_reads_file h).1 k
  simp only [LogMem.runcount] at hs
  have hc := status_cases (k := k) hp
  rw [← hs] at hc
  unfold LogMem.hasSuccess LogMem.hasFailure
  rcases hc with ⟨h1, h2⟩ | ⟨x, h1, h2⟩ | ⟨x, r, h1, _, h2⟩ | ⟨x, r, h1, _, h2⟩
  · rw [h2, h1]; simp
  · rw [h2, h1]; simp
  · rw [h2, h1]; simp
  · rw [h2, h1]; simp

/-- **C34.** Writing to an opened log and reopening the result gives back exactly the writer's state (memory, file,
directory) if the headers agree, and otherwise an error, never a different state. -/
theorem reopen_restores {es new : List LogEntry} {dir : String} {lf lf' : LogFile}
    (h : LogFile.open es dir = .ok lf) (hw : lf.writeAll new = .ok lf') :
    (HeadersOk (es ++ new) → LogFile.open lf'.entries dir = .ok lf') ∧
    (¬ HeadersOk (es ++ new) → ∃ x, LogFile.open lf'.entries dir = .err x) := by
  have key : ∀ (new : List LogEntry) (st : LoadState) (lf lf' : LogFile), lf.mem = st.mem →
      lf.writeAll new = .ok lf' → lf'.entries = lf.entries ++ new ∧ lf'.dir = lf.dir ∧
      ((∃ st', loadLoop st new = .ok st' ∧ st'.mem = lf'.mem) ∨ ∃ x, loadLoop st new = .err x) := by
    intro new
    induction new with
    | nil =>
      intro st lf lf' hm hw
      simp only [LogFile.writeAll, Res.ok.injEq] at hw
      subst hw
      exact ⟨by simp, rfl, .inl ⟨st, rfl, hm.symm⟩⟩
    | cons e new ih =>
      intro st lf lf' hm hw
      simp only [LogFile.writeAll, LogFile.write] at hw
      cases hme : lf.mem.write e with
      | err x => rw [hme] at hw; cases hw
      | panic x => rw [hme] at hw; cases hw
      | ok m =>
        rw [hme] at hw
        simp only [Res.bind] at hw
        rcases loadStep_of_write (st := st) (by rw [← hm]; exact hme) with ⟨st1, h1, h2⟩ | ⟨x, hx⟩
        · obtain ⟨a, b, c⟩ := ih st1 _ lf' h2.symm hw
          refine ⟨by simpa using a, b, ?_⟩
          simp only [loadLoop, h1]
          exact c
        · -- the entries still get appended whatever the loader says
          have happ : ∀ (new : List LogEntry) (lf lf' : LogFile), lf.writeAll new = .ok lf' →
              lf'.entries = lf.entries ++ new ∧ lf'.dir = lf.dir := by
            intro new
            induction new with
            | nil => intro lf lf' h; simp only [LogFile.writeAll, Res.ok.injEq] at h; subst h; simp
            | cons e new ih =>
              intro lf lf' h
              simp only [LogFile.writeAll, LogFile.write] at h
              cases hme : lf.mem.write e with
              | err x => rw [hme] at h; cases h
              | panic x => rw [hme] at h; cases h
              | ok m =>
                rw [hme] at h
                simp only [Res.bind] at h
                obtain ⟨a, b⟩ := ih _ _ h
                exact ⟨by simpa using a, b⟩
          obtain ⟨a, b⟩ := happ new _ lf' hw
          refine ⟨by simpa using a, b, .inr ⟨x, ?_⟩⟩
          simp only [loadLoop, hx, Res.bind]
  obtain ⟨hl, he, hd⟩ := open_ok_iff.1 h
  obtain ⟨st, h1, h2⟩ := loadRuncounts_ok_iff.1 hl
  obtain ⟨a, b, c⟩ := key new st lf lf' h2.symm hw
  rw [a, he]
  have happ : loadLoop ⟨.empty, none⟩ (es ++ new) = loadLoop st new := by
    rw [loadLoop_append, h1]; rfl
  rcases c with ⟨st', c1, c2⟩ | ⟨x, hx⟩
  · have hopen : LogFile.open (es ++ new) dir = .ok lf' :=
      open_ok_iff.2 ⟨loadRuncounts_ok_iff.2 ⟨st', by rw [happ]; exact c1, c2⟩, by rw [a, he], by rw [b, hd]⟩
    exact ⟨fun _ => hopen, fun hn => absurd ((reopen_iff (es ++ new) dir).1 ⟨_, hopen⟩).2 hn⟩
  · have herr : LogFile.open (es ++ new) dir = .err x := by
      unfold LogFile.open loadRuncounts
      rw [happ, hx]; rfl
    refine ⟨fun hh => ?_, fun _ => ⟨x, herr⟩⟩
    have hp : Protocol (es ++ new) := ((write_iff h).1).1 ⟨lf', hw⟩
    obtain ⟨z, hz⟩ := (reopen_iff (es ++ new) dir).2 ⟨hp, hh⟩
    rw [herr] at hz; cases hz

/-- **C34 (crash points).** Every entry-boundary prefix of a file that can be reopened can be reopened. -/
theorem reopen_prefix {es pre : List LogEntry} {dir : String} {lf : LogFile} (h : LogFile.open es dir = .ok lf)
    (hpre : pre <+: es) : ∃ lf', LogFile.open pre dir = .ok lf' := by
  obtain ⟨rest, rfl⟩ := hpre
  obtain ⟨hp, hh⟩ := (reopen_iff _ dir).1 ⟨lf, h⟩
  exact (reopen_iff pre dir).2 ⟨protocol_prefix hp, headersOk_prefix hh⟩

/-- The contents a log file can have: empty at first; then sessions, each of which opens the file through the Python
constructor, makes any non-header writes that do not panic, and ends or crashes with the file cut at any entry
boundary. -/
inductive Contents : List LogEntry → Prop
  | empty : Contents []
  | session {es : List LogEntry} (dir : String) (roots : List String) (newKey : String) (info : HeaderEntry)
      (g : ExecGraph) (new : List LogEntry) (lf : LogFile) (cut : List LogEntry) :
      Contents es → pyNew es dir roots newKey info = .ok g → g.logfile.writeAll new = .ok lf →
      (∀ e ∈ new, ∀ h, e ≠ .header h) → cut <+: lf.entries → Contents cut

theorem writeAll_entries : ∀ (new : List LogEntry) (lf lf' : LogFile), lf.writeAll new = .ok lf' →
    lf'.entries = lf.entries ++ new ∧ lf'.dir = lf.dir := by
  intro new
  induction new with
  | nil => intro lf lf' h; simp only [LogFile.writeAll, Res.ok.injEq] at h; subst h; simp
  | cons e new ih =>
    intro lf lf' h
    simp only [LogFile.writeAll, LogFile.write] at h
    cases hme : lf.mem.write e with
    | err x => rw [hme] at h; cases h
    | panic x => rw [hme] at h; cases h
    | ok m =>
      rw [hme] at h
      simp only [Res.bind] at h
      obtain ⟨a, b⟩ := ih _ _ h
      exact ⟨by simpa using a, b⟩

/-- What the Python constructor does to a log that can be opened: it appends one header, with the version 4, the
storage roots given (with `$KEY` expanded), and the workflow key of the last header if there is one. -/
theorem new_appends_header {es : List LogEntry} {dir : String} {roots : List String} {newKey : String}
    {info : HeaderEntry} {g : ExecGraph} (h : pyNew es dir roots newKey info = .ok g) :
    ∃ lf hd, LogFile.open es dir = .ok lf ∧ lf.writeAll [.header hd] = .ok g.logfile ∧
      g = ExecGraph.new g.logfile ∧ hd.version = 4 ∧
      hd.workflowKey = ((lastHeader es).map (·.workflowKey)).getD newKey ∧
      hd.storageRoots = roots.map (expandRoot hd.workflowKey) := by
  unfold pyNew at h
  cases ho : LogFile.open es dir with
  | err x => rw [ho] at h; cases h
  | panic x => rw [ho] at h; cases h
  | ok lf =>
    rw [ho] at h
    simp only [Res.bind, LogFile.write, LogMem.write, Res.ok.injEq] at h
    subst h
    refine ⟨lf, _, rfl, rfl, rfl, rfl, ?_, rfl⟩
    simp only [LogMem.workflowKey, (reopen_reads_file ho).2.1]

theorem headersOk_nonheader {es new : List LogEntry} (h : HeadersOk es) (hn : ∀ e ∈ new, ∀ h, e ≠ .header h) :
    HeadersOk (es ++ new) := by
  have : ∀ x, LogEntry.header x ∈ es ++ new → LogEntry.header x ∈ es := by
    intro x hx
    rcases List.mem_append.1 hx with hx | hx
    · exact hx
    · exact absurd rfl (hn _ hx x)
  exact ⟨fun x hx => h.1 x (this x hx), fun x y hx hy => h.2 x y (this x hx) (this y hy)⟩

/-- The last header of a list is a member; there is one if there is any header. -/
theorem lastHeader_mem {es : List LogEntry} {h : HeaderEntry} (hl : lastHeader es = some h) :
    LogEntry.header h ∈ es := by
  unfold lastHeader at hl
  have := List.mem_of_getLast? hl
  obtain ⟨e, he, hee⟩ := List.mem_filterMap.1 this
  cases e <;> simp at hee
  subst hee; exact he

theorem lastHeader_some {es : List LogEntry} {h : HeaderEntry} (hm : LogEntry.header h ∈ es) :
    ∃ h', lastHeader es = some h' := by
  unfold lastHeader
  cases hg : (es.filterMap (fun e => match e with | .header h => some h | _ => none)).getLast? with
  | some x => exact ⟨x, rfl⟩
  | none =>
    rw [List.getLast?_eq_none_iff] at hg
    have : h ∈ es.filterMap (fun e => match e with | .header h => some h | _ => none) :=
      List.mem_filterMap.2 ⟨_, hm, rfl⟩
    rw [hg] at this; cases this

/-- **C38, C33.** In every history of sessions and crashes on one log file all headers carry one workflow key and
version 4, the protocol holds, and the file can be reopened. -/
theorem workflow_key_stable {es : List LogEntry} (h : Contents es) :
    (∀ h h', LogEntry.header h ∈ es → LogEntry.header h' ∈ es → h.workflowKey = h'.workflowKey) ∧
    (∀ h, LogEntry.header h ∈ es → h.version = 4) ∧ Protocol es ∧
    ∀ dir, ∃ lf, LogFile.open es dir = .ok lf := by
  have key : Protocol es ∧ HeadersOk es := by
    induction h with
    | empty => exact ⟨protocol_nil, by simp [HeadersOk]⟩
    | @session es dir roots newKey info g new lf cut _ hnew hw hnh hcut ih =>
      obtain ⟨lf0, hd, h1, h2, h3, h4, h5, _⟩ := new_appends_header hnew
      have hh : HeadersOk (es ++ [.header hd]) := by
        have hall : ∀ x, LogEntry.header x ∈ es → x.workflowKey = hd.workflowKey := by
          intro x hx
          obtain ⟨y, hy⟩ := lastHeader_some hx
          rw [h5, hy]
          exact ih.2.2 x y hx (lastHeader_mem hy)
        refine ⟨?_, ?_⟩
        · intro x hx
          simp only [List.mem_append, List.mem_singleton, LogEntry.header.injEq] at hx
          rcases hx with hx | rfl
          · exact ih.2.1 x hx
          · exact h4
        · intro x y hx hy
          simp only [List.mem_append, List.mem_singleton, LogEntry.header.injEq] at hx hy
          rcases hx with hx | rfl <;> rcases hy with hy | rfl
          · exact ih.2.2 x y hx hy
          · exact hall x hx
          · exact (hall y hy).symm
          · rfl
      have hopen := (reopen_restores h1 h2).1 hh
      have hge : g.logfile.entries = es ++ [.header hd] := by
        rw [(writeAll_entries _ _ _ h2).1, (open_ok_iff.1 h1).2.1]
      have hp := ((write_iff hopen).1).1 ⟨lf, hw⟩
      rw [hge] at hp
      obtain ⟨rest, hr⟩ := hcut
      have hle : lf.entries = es ++ [.header hd] ++ new := by rw [(writeAll_entries _ _ _ hw).1, hge]
      rw [hle] at hr
      have hh2 := headersOk_nonheader hh hnh
      rw [← hr] at hp hh2
      exact ⟨protocol_prefix hp, headersOk_prefix hh2⟩
  exact ⟨key.2.2, key.2.1, key.1, fun dir => (reopen_iff es dir).2 key⟩

/-- **C38.** A second session keeps the workflow key, whatever key function it is given. -/
theorem workflow_key_kept {es : List LogEntry} (hc : Contents es) {h : HeaderEntry} (hh : LogEntry.header h ∈ es)
    {dir : String} {roots : List String} {newKey : String} {info : HeaderEntry} {g : ExecGraph}
    (hn : pyNew es dir roots newKey info = .ok g) : g.logfile.mem.workflowKey = some h.workflowKey := by
  obtain ⟨lf0, hd, h1, h2, h3, h4, h5, _⟩ := new_appends_header hn
  obtain ⟨y, hy⟩ := lastHeader_some hh
  have hk : hd.workflowKey = h.workflowKey := by
    rw [h5, hy]
    exact (workflow_key_stable hc).1 y h (lastHeader_mem hy) hh
  simp only [LogFile.writeAll, LogFile.write, LogMem.write, Res.bind, Res.ok.injEq] at h2
  rw [← h2]
  simp [LogMem.workflowKey, hk]

/-- Where a task with key `k` and this Ready entry runs, under the header in force: the directory
`<root>/<key>.<runcount>`, relative roots taken from the directory of the log. -/
def runDirectory (dir : String) (h : HeaderEntry) (r : ReadyEntry) : Option TaskDir :=
  (h.storageRoots[r.storageRoot]?).map fun p =>
    ⟨if p.toList.head? = some '/' then p else dir ++ "/" ++ p, r.key, r.runcount⟩

/-- **C39 (unchanged roots).** If key `k` is recorded as successful, its last Ready entry being `r`, written while `h`
was the newest header, and all headers list the same storage roots, then `logfile_runcount` gives the runcount of that
attempt and the directory it ran in. -/
theorem success_directory_partial {es pre post : List LogEntry} {dir : String} {lf : LogFile} {k : String}
    {r : ReadyEntry} {h : HeaderEntry} {d : TaskDir} (ho : LogFile.open es dir = .ok lf)
    (hs : lf.mem.hasSuccess k = true) (hes : es = pre ++ .ready r :: post) (hr : r.key = k)
    (hlast : ∀ r', LogEntry.ready r' ∈ post → r'.key ≠ k) (hh : lastHeader pre = some h)
    (hsame : ∀ x, LogEntry.header x ∈ es → x.storageRoots = h.storageRoots)
    (hd : runDirectory dir h r = some d) : logfileRuncount lf k = .ok (r.runcount, some d) := by
  obtain ⟨hstat, hhead, _⟩ := reopen_reads_file ho
  have hp := ((reopen_iff es dir).1 ⟨lf, ho⟩).1
  have hlr : lastReady (history k es) = some r := by
    subst hes
    unfold lastReady history
    rw [List.filter_append, List.filter_cons]
    simp only [about, hr, beq_self_eq_true, if_true, List.filterMap_append, List.filterMap_cons, ready?]
    have hnil : (post.filter (about k)).filterMap ready? = [] := by
      rw [List.filterMap_eq_nil_iff]
      intro e he
      obtain ⟨he1, he2⟩ := List.mem_filter.1 he
      cases e with
      | ready r' => exact absurd (by simpa [about] using he2) (hlast r' he1)
      | _ => rfl
    rw [hnil]; simp
  have hhd : ∃ h', lf.mem.header = some h' ∧ h'.storageRoots = h.storageRoots := by
    rw [hhead]
    have hmem : LogEntry.header h ∈ es := by rw [hes]; simp [lastHeader_mem hh]
    obtain ⟨y, hy⟩ := lastHeader_some hmem
    exact ⟨y, hy, hsame y (lastHeader_mem hy)⟩
  obtain ⟨h', hh1, hh2⟩ := hhd
  have hst := hstat k
  rcases status_cases (k := k) hp with ⟨h1, h2⟩ | ⟨x, h1, h2⟩ | ⟨x, r', h1, _, h2⟩ | ⟨x, r', h1, h3, h2⟩
  · rw [h2] at hst; simp only [LogMem.runcount] at hst; simp [LogMem.hasSuccess, hst] at hs
  · rw [h2] at hst; simp only [LogMem.runcount] at hst; simp [LogMem.hasSuccess, hst] at hs
  · rw [h2] at hst; simp only [LogMem.runcount] at hst; simp [LogMem.hasSuccess, hst] at hs
  · rw [h2] at hst
    rw [hlr] at h3
    obtain rfl := Option.some.inj h3
    have hx : x.status = 0 := by
      simp only [LogMem.runcount] at hst
      simpa [LogMem.hasSuccess, hst] using hs
    unfold logfileRuncount
    rw [hst]
    simp only [hx, decide_true, LogFile.storageRoot, hh1, hh2, Option.bind_some, (open_ok_iff.1 ho).2.2]
    unfold runDirectory at hd
    cases hg : h.storageRoots[r.storageRoot]? with
    | none => rw [hg] at hd; cases hd
    | some p =>
      rw [hg] at hd
      simp only [Option.map_some, Option.some.injEq, hr] at hd ⊢
      rw [← hd]
      simp [isAbsolute]

/-- A header for the concrete cases. -/
def demoHeader (roots : List String) : HeaderEntry :=
  ⟨4, ⟨0, 0⟩, "u", "h", "wf", [], "/w", 1, roots⟩

/-- A log in which `a` succeeded with runcount 2 under root 1. -/
def demoLog (roots1 roots2 : List String) : List LogEntry :=
  [.header (demoHeader roots1), .ready ⟨⟨0, 0⟩, "a", 2, "true", 1⟩, .started ⟨⟨0, 0⟩, "a", "h", 1, ""⟩,
    .finished ⟨⟨0, 0⟩, "a", 0, []⟩, .header (demoHeader roots2)]

/-- Non-trivial case of the log theorems: `a` failed, was retried and is running; the log opens, its status is
"started with the runcount of the second Ready". -/
example :
    let es : List LogEntry := [.header (demoHeader ["/r"]), .ready ⟨⟨0, 0⟩, "a", 0, "x", 0⟩,
      .started ⟨⟨0, 0⟩, "a", "h", 1, ""⟩, .ready ⟨⟨0, 0⟩, "b", 0, "y", 0⟩, .finished ⟨⟨0, 0⟩, "a", 1, []⟩,
      .backref ⟨"c"⟩, .header (demoHeader ["/r"]), .ready ⟨⟨0, 0⟩, "a", 1, "x", 0⟩,
      .started ⟨⟨0, 0⟩, "a", "h", 2, ""⟩]
    (∃ lf, LogFile.open es "/d" = .ok lf) ∧ statusOf "a" es = some (.started 1 0) ∧
      statusOf "b" es = some (.ready 0 0) ∧ statusOf "c" es = none := by
  refine ⟨⟨_, rfl⟩, by decide, by decide, by decide⟩

/-- Non-trivial case of `success_directory_partial`: its hypotheses hold and the directory is as expected. -/
example : ∃ lf, LogFile.open (demoLog ["/q", "r"] ["/q", "r"]) "/d" = .ok lf ∧ lf.mem.hasSuccess "a" = true ∧
    runDirectory "/d" (demoHeader ["/q", "r"]) ⟨⟨0, 0⟩, "a", 2, "true", 1⟩ = some ⟨"/d/r", "a", 2⟩ ∧
    lastHeader [.header (demoHeader ["/q", "r"])] = some (demoHeader ["/q", "r"]) := by
  refine ⟨_, rfl, by decide, by decide, by decide⟩

/-- **C39 (violated when roots change).** A task that succeeded in `/r/a.2`; a later session lists the roots in another
order: `logfile_runcount` reports another directory. -/
theorem success_directory_violated :
    ∃ lf, LogFile.open (demoLog ["/q", "/r"] ["/r", "/q"]) "/d" = .ok lf ∧ lf.mem.hasSuccess "a" = true ∧
      runDirectory "/d" (demoHeader ["/q", "/r"]) ⟨⟨0, 0⟩, "a", 2, "true", 1⟩ = some ⟨"/r", "a", 2⟩ ∧
      (∃ d, logfileRuncount lf "a" = .ok (2, some d) ∧ d ≠ ⟨"/r", "a", 2⟩) := by
  refine ⟨_, rfl, by decide, by decide, ⟨"/q", "a", 2⟩, by decide, by decide⟩

/-- **C39 (violated when roots change).** With fewer roots in the later session `logfile_runcount` panics. -/
theorem success_directory_panics :
    ∃ lf, LogFile.open (demoLog ["/q", "/r"] ["/q"]) "/d" = .ok lf ∧ lf.mem.hasSuccess "a" = true ∧
      logfileRuncount lf "a" = .panic "Unable to find storage root" :=
  ⟨_, rfl, by decide, by decide⟩

/-- Non-trivial case of C38: two sessions, the second with another key function, both keep key "k1". -/
example : ∃ g, pyNew [.header { demoHeader [] with workflowKey := "k1" }] "/d" ["/$KEY"] "k2" (demoHeader []) = .ok g ∧
    g.logfile.mem.workflowKey = some "k1" ∧ Contents [.header { demoHeader [] with workflowKey := "k1" }] :=
  ⟨_, rfl, by decide, .session "/d" [] "k1" (demoHeader []) _ [] _ _ .empty rfl rfl (by simp)
    ⟨[], by decide⟩⟩

end Verif.Props.Log
