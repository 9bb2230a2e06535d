import Verif.Proof.CopyWorld
import Verif.Props.World

/-!
# C146: copying, merging, recovering and compacting logs
-/

namespace Verif.Props.Copy
open Verif Spec Verif.Json Verif.Copy

/-! ### Copying -/

/-- **C146 (copying).** If a file, whoever wrote it, can be opened, then `load_logfile(path, "all")` returns its entries, `write_logfile` of
these to a new file succeeds, and the copy is opened with the same entries and the same state. -/
theorem copy_exact {bs : List UInt8} {dir : String} {lf : LogFile} (h : openBytes bs dir = .ok lf) :
    loadAll bs = .ok lf.entries ∧ writeLogfile [] dir lf.entries = .ok (fileOf lf.entries) ∧
      openBytes (fileOf lf.entries) dir = .ok lf := by
  obtain ⟨h1, h2, h3⟩ := openBytes_ok h
  refine ⟨h1, ?_, ?_⟩
  · have ho : openBytes [] dir = lift (LogFile.open [] dir) := openBytes_file (es := []) (by simp) dir
    obtain ⟨lf0, h0⟩ := (Log.reopen_iff [] dir).2 (by
      have := (Log.reopen_iff lf.entries dir).1 ⟨lf, h2⟩
      exact ⟨protocol_prefix (es' := lf.entries) this.1, headersOk_prefix (es' := lf.entries) this.2⟩)
    obtain ⟨lf1, hw⟩ := (Log.write_iff (new := lf.entries) h0).1.2 ((Log.reopen_iff lf.entries dir).1 ⟨lf, h2⟩).1
    unfold writeLogfile
    rw [ho, h0]
    simp only [lift, Res.bind]
    rw [hw]
    rfl
  · rw [openBytes_file h3, h2]; rfl

/-- A file another program wrote: white space, an unknown field, no newline at the end. -/
def foreign : List UInt8 := utf8 "{ \"Backref\" : {\"z\":1, \"key\":\"k\"} }\n{\"Backref\":{\"key\":\"l\"}}".toList

/-- Non-trivial case: it can be opened. -/
example : (openBytes foreign "/d").isOk = true ∧ (match loadAll foreign with | .ok es => decide (es = [.backref ⟨"k"⟩, .backref ⟨"l"⟩]) | _ => false) = true := by
  decide +kernel

/-! ### Merging -/

/-- **C146 (merging).** Writing the entries of one log to the file of another always succeeds. The result can be opened exactly if the workflow
keys agree, and then a key has the state it had in the log written last, if it occurs there, otherwise the state it had in the first. -/
theorem merge {es1 es2 : List LogEntry} (hw1 : ∀ e ∈ es1, Writable e) (hw2 : ∀ e ∈ es2, Writable e) {dir : String} {lf1 lf2 : LogFile}
    (h1 : LogFile.open es1 dir = .ok lf1) (h2 : LogFile.open es2 dir = .ok lf2) :
    writeLogfile (fileOf es1) dir es2 = .ok (fileOf (es1 ++ es2)) ∧
    ((∃ lf, openBytes (fileOf (es1 ++ es2)) dir = .ok lf) ↔
      ∀ a b, LogEntry.header a ∈ es1 → LogEntry.header b ∈ es2 → a.workflowKey = b.workflowKey) ∧
    ∀ lf, openBytes (fileOf (es1 ++ es2)) dir = .ok lf →
      ∀ k, lf.mem.runcount k = if Mentions k es2 then lf2.mem.runcount k else lf1.mem.runcount k := by
  obtain ⟨p1, q1⟩ := (Log.reopen_iff es1 dir).1 ⟨_, h1⟩
  obtain ⟨p2, q2⟩ := (Log.reopen_iff es2 dir).1 ⟨_, h2⟩
  obtain ⟨hp, hst⟩ := append_status p1 p2
  have hw : ∀ e ∈ es1 ++ es2, Writable e := fun e he => (List.mem_append.1 he).elim (hw1 e) (hw2 e)
  refine ⟨?_, ?_, ?_⟩
  · obtain ⟨lf, hl⟩ := (Log.write_iff h1).1.2 hp
    unfold writeLogfile
    rw [openBytes_file hw1, h1]
    simp only [lift, Res.bind]
    rw [hl]
    simp [fileOf]
  · rw [openBytes_file hw]
    constructor
    · rintro ⟨lf, hl⟩ a b ha hb
      have hl : ∃ lf, LogFile.open (es1 ++ es2) dir = .ok lf := by
        cases ho : LogFile.open (es1 ++ es2) dir with
        | ok x => exact ⟨x, rfl⟩
        | err x => rw [ho] at hl; cases hl
        | panic x => rw [ho] at hl; cases hl
      exact ((Log.reopen_iff _ _).1 hl).2.2 a b (List.mem_append_left _ ha) (List.mem_append_right _ hb)
    · intro hk
      have : HeadersOk (es1 ++ es2) := by
        refine ⟨fun x hx => (List.mem_append.1 hx).elim (q1.1 x) (q2.1 x), ?_⟩
        intro a b ha hb
        rcases List.mem_append.1 ha with ha | ha <;> rcases List.mem_append.1 hb with hb | hb
        · exact q1.2 a b ha hb
        · exact hk a b ha hb
        · exact (hk b a hb ha).symm
        · exact q2.2 a b ha hb
      obtain ⟨lf, hl⟩ := (Log.reopen_iff _ dir).2 ⟨hp, this⟩
      exact ⟨lf, by rw [hl]; rfl⟩
  · intro lf hl k
    rw [openBytes_file hw] at hl
    have hl : LogFile.open (es1 ++ es2) dir = .ok lf := by
      cases ho : LogFile.open (es1 ++ es2) dir with
      | ok x => rw [ho] at hl; simp only [lift, Res.ok.injEq] at hl; rw [hl]
      | err x => rw [ho] at hl; cases hl
      | panic x => rw [ho] at hl; cases hl
    rw [(Log.reopen_reads_file hl).1, (Log.reopen_reads_file h1).1, (Log.reopen_reads_file h2).1]
    exact hst k

/-- **C146 (written twice).** Writing the entries of a log to its own file leaves every key in the state it had. -/
theorem write_to_itself {es : List LogEntry} (hw : ∀ e ∈ es, Writable e) {dir : String} {lf : LogFile} (h : LogFile.open es dir = .ok lf) :
    writeLogfile (fileOf es) dir es = .ok (fileOf (es ++ es)) ∧
    ∃ lf', openBytes (fileOf (es ++ es)) dir = .ok lf' ∧ ∀ k, lf'.mem.runcount k = lf.mem.runcount k := by
  obtain ⟨h1, h2, h3⟩ := merge hw hw h h
  obtain ⟨lf', hl⟩ := h2.2 (fun a b ha hb => ((Log.reopen_iff es dir).1 ⟨_, h⟩).2.2 a b ha hb)
  refine ⟨h1, lf', hl, fun k => ?_⟩
  rw [h3 lf' hl k]
  simp

/-- A header with a given workflow key. -/
def hdr (k : String) : LogEntry := .header ⟨4, ⟨0, 0⟩, "u", "h", k, [], "/w", 1, []⟩

/-- A key with one attempt. -/
def tried (k : String) (rc : Nat) (st : Int) : List LogEntry :=
  [.ready ⟨⟨0, 0⟩, k, rc, "true", 0⟩, .started ⟨⟨0, 0⟩, k, "h", 1, ""⟩, .finished ⟨⟨1, 0⟩, k, st, []⟩]

/-- Two logs of one workflow: in the first `a` succeeded and `b` failed, in the second `b` succeeded. -/
def log1 : List LogEntry := hdr "w" :: (tried "a" 0 0 ++ tried "b" 0 1)
def log2 : List LogEntry := hdr "w" :: tried "b" 1 0
/-- A log of another workflow. -/
def log3 : List LogEntry := hdr "v" :: tried "c" 0 0

theorem logs_writable : ∀ e ∈ log1 ++ log2 ++ log3, Writable e := by
  intro e he
  simp only [log1, log2, log3, tried, hdr, List.cons_append, List.nil_append, List.mem_cons, List.not_mem_nil, or_false] at he
  repeat' rcases he with rfl | he
  all_goals simp [Writable]

theorem opens_of {es : List LogEntry} {dir : String} (h : (LogFile.open es dir).isOk = true) : ∃ lf, LogFile.open es dir = .ok lf := by
  cases ho : LogFile.open es dir with
  | ok lf => exact ⟨lf, rfl⟩
  | err x => rw [ho] at h; cases h
  | panic x => rw [ho] at h; cases h

/-- Non-trivial case: merged, `a` has its state of the first log and `b` of the second. -/
example : ∃ lf, openBytes (fileOf (log1 ++ log2)) "/d" = .ok lf ∧ lf.mem.runcount "a" = some (.finished 0 0 true) ∧
    lf.mem.runcount "b" = some (.finished 1 0 true) := by
  obtain ⟨lf1, h1⟩ := opens_of (es := log1) (dir := "/d") (by decide +kernel)
  obtain ⟨lf2, h2⟩ := opens_of (es := log2) (dir := "/d") (by decide +kernel)
  obtain ⟨_, m2, m3⟩ := merge (fun e he => logs_writable e (by simp [he])) (fun e he => logs_writable e (by simp [he])) h1 h2
  obtain ⟨lf, hl⟩ := m2.2 (by
    intro a b ha hb
    simp only [log1, log2, tried, hdr, List.cons_append, List.nil_append, List.mem_cons, List.not_mem_nil, or_false, LogEntry.header.injEq,
      reduceCtorEq] at ha hb
    rw [ha, hb])
  refine ⟨lf, hl, ?_, ?_⟩
  · rw [m3 lf hl, (Log.reopen_reads_file h1).1, (Log.reopen_reads_file h2).1]; decide +kernel
  · rw [m3 lf hl, (Log.reopen_reads_file h1).1, (Log.reopen_reads_file h2).1]; decide +kernel

/-- **C146 (merging, violated).** Entries of another workflow are written without an error; after that the log can not be opened. -/
theorem merge_violated : (∃ lf, openBytes (fileOf log1) "/d" = .ok lf) ∧ (∃ lf, openBytes (fileOf log3) "/d" = .ok lf) ∧
    writeLogfile (fileOf log1) "/d" log3 = .ok (fileOf (log1 ++ log3)) ∧ ¬ ∃ lf, openBytes (fileOf (log1 ++ log3)) "/d" = .ok lf := by
  have w1 : ∀ e ∈ log1, Writable e := fun e he => logs_writable e (by simp [he])
  have w3 : ∀ e ∈ log3, Writable e := fun e he => logs_writable e (by simp [he])
  obtain ⟨lf1, h1⟩ := opens_of (es := log1) (dir := "/d") (by decide +kernel)
  obtain ⟨lf3, h3⟩ := opens_of (es := log3) (dir := "/d") (by decide +kernel)
  obtain ⟨m1, m2, _⟩ := merge w1 w3 h1 h3
  refine ⟨⟨lf1, by rw [openBytes_file w1, h1]; rfl⟩, ⟨lf3, by rw [openBytes_file w3, h3]; rfl⟩, m1, fun hn => ?_⟩
  have := m2.1 hn _ _ (List.mem_cons_self ..) (List.mem_cons_self ..)
  revert this
  decide

/-! ### Recovering -/

theorem fileOf_append (a b : List LogEntry) : fileOf (a ++ b) = fileOf a ++ fileOf b := by simp [fileOf]

theorem fileOf_text : ∀ (es : List LogEntry), fileOf es = utf8 (es.flatMap (fun e => entryText e ++ ['\n']))
  | [] => rfl
  | e :: es => by
    have : fileOf (e :: es) = lineBytes e ++ fileOf es := by simp [fileOf]
    rw [this, fileOf_text es, List.flatMap_cons, utf8_append, utf8_append, lineBytes]
    congr 1

/-- **C146 (recovering).** Of a log that could be opened any number of bytes at the end are lost. `load_logfile(path, "all")` fails only if the
cut is inside a character. Otherwise it returns a beginning of the entries, with at least those whose lines are whole; written to a new file
these can be opened. -/
theorem recover {es : List LogEntry} (hw : ∀ e ∈ es, Writable e) {dir : String} {lf : LogFile} (ho : LogFile.open es dir = .ok lf) (n : Nat) :
    (loadAll ((fileOf es).take n) = .err .utf8 ∧ unutf8 ((fileOf es).take n) = none ∨ ∃ es', loadAll ((fileOf es).take n) = .ok es') ∧
    ∀ es', loadAll ((fileOf es).take n) = .ok es' →
      es' <+: es ∧ (∀ j, (fileOf (es.take j)).length ≤ n → es.take j <+: es') ∧
      writeLogfile [] dir es' = .ok (fileOf es') ∧ ∃ lf', openBytes (fileOf es') dir = .ok lf' := by
  have hopen : ∀ pre, pre <+: es → writeLogfile [] dir pre = .ok (fileOf pre) ∧ ∃ lf', openBytes (fileOf pre) dir = .ok lf' := by
    intro pre hp
    obtain ⟨lf', hl⟩ := Log.reopen_prefix ho hp
    have hb : openBytes (fileOf pre) dir = .ok lf' := by rw [openBytes_file (fun e he => hw e (hp.subset he)), hl]; rfl
    have := (copy_exact hb).2.1
    rw [(open_ok_iff.1 hl).2.1] at this
    exact ⟨this, lf', hb⟩
  have hread : ∀ pre, pre <+: es → loadAll (fileOf pre) = .ok pre := fun pre hp =>
    (LogBytes.file_round_trip (fun e he => hw e (hp.subset he)) dir).2
  rcases LogBytes.cut_somewhere es n with hc | ⟨pre, e, post, m, h1, h2, h3⟩
  · rw [hc, hread es (List.prefix_refl _)]
    refine ⟨.inr ⟨es, rfl⟩, ?_⟩
    intro es' he
    simp only [Res.ok.injEq] at he
    subst he
    exact ⟨List.prefix_refl _, fun j _ => List.take_prefix _ _, hopen es (List.prefix_refl _)⟩
  · have hp : pre <+: es := ⟨e :: post, h1.symm⟩
    have hp1 : pre ++ [e] <+: es := ⟨post, by rw [h1]; simp⟩
    have hlen : ((fileOf es).take n).length = (fileOf pre).length + m := by
      rw [h3, List.length_append, List.length_take]; omega
    -- whole lines
    have whole : ∀ j, (fileOf (es.take j)).length ≤ n → es.take j <+: pre := by
      intro j hj
      by_cases hjl : j ≤ pre.length
      · rw [h1, List.take_append_of_le_length hjl]
        exact List.take_prefix _ _
      · exfalso
        obtain ⟨i, rfl⟩ : ∃ i, j = pre.length + (i + 1) := ⟨j - pre.length - 1, by omega⟩
        have e1 : es.take (pre.length + (i + 1)) = pre ++ e :: post.take i := by
          rw [h1, List.take_length_add_append, List.take_succ_cons]
        have e2 : fileOf es = fileOf (es.take (pre.length + (i + 1))) ++ fileOf (es.drop (pre.length + (i + 1))) := by
          rw [← fileOf_append, List.take_append_drop]
        have e3 : (fileOf es).length = (fileOf (es.take (pre.length + (i + 1)))).length + (fileOf (es.drop (pre.length + (i + 1)))).length := by
          rw [← List.length_append, ← e2]
        have e4 : (fileOf pre).length + ((utf8 (entryText e)).length + 1) ≤ (fileOf (es.take (pre.length + (i + 1)))).length := by
          rw [e1, fileOf_append, List.length_append]
          have : fileOf (e :: post.take i) = lineBytes e ++ fileOf (post.take i) := by simp [fileOf]
          rw [this, lineBytes]
          simp only [List.length_append, List.length_cons, List.length_nil]
          omega
        rw [List.length_take] at hlen
        omega
    by_cases h0 : m = 0
    · subst h0
      rw [h3, List.take_zero, List.append_nil, hread pre hp]
      refine ⟨.inr ⟨pre, rfl⟩, ?_⟩
      intro es' he
      simp only [Res.ok.injEq] at he
      subst he
      exact ⟨hp, whole, hopen pre hp⟩
    · by_cases hl : m = (utf8 (entryText e)).length
      · have hr : loadAll ((fileOf es).take n) = .ok (pre ++ [e]) := by
          obtain ⟨lf', hlf⟩ := Log.reopen_prefix ho hp1
          have := LogBytes.lost_newline_opens (fun x hx => hw x (hp1.subset hx)) dir
          rw [hlf] at this
          have := (openBytes_ok this).1
          rw [(open_ok_iff.1 hlf).2.1] at this
          rw [h3, hl, List.take_length]
          exact this
        rw [hr]
        refine ⟨.inr ⟨_, rfl⟩, ?_⟩
        intro es' he
        simp only [Res.ok.injEq] at he
        subst he
        exact ⟨hp1, fun j hj => (whole j hj).trans (List.prefix_append _ _), hopen _ hp1⟩
      · obtain ⟨t1, t2⟩ := LogBytes.torn_line_read (e := e) (fun x hx => hw x (hp.subset hx)) (m := m) (by omega) (by omega)
        rw [← h3] at t1 t2
        by_cases hch : ∃ p q, entryText e = p ++ q ∧ m = (utf8 p).length
        · have t1 := t1 hch
          unfold loadAll
          rw [t1]
          refine ⟨.inr ⟨_, rfl⟩, ?_⟩
          intro es' he
          simp only [Res.ok.injEq] at he
          subst he
          exact ⟨hp, whole, hopen _ hp⟩
        · have t2 := t2 hch
          unfold loadAll
          rw [t2]
          refine ⟨.inl ⟨rfl, ?_⟩, fun es' he => by cases he⟩
          cases hu : unutf8 ((fileOf es).take n) with
          | none => rfl
          | some cs =>
            exfalso
            have hb := unutf8_some hu
            rw [h3, fileOf_text] at hb
            obtain ⟨q, _, hq⟩ := utf8_prefix hb
            obtain ⟨q', hq', _⟩ := take_text (e := e) (m := m) (cs := q) (by rw [hq, unutf8_utf8])
            refine hch ⟨q, q', hq', ?_⟩
            rw [← hq, List.length_take]
            omega

/-- Non-trivial case: the log cut 20 bytes before its end. All entries but the last are recovered. -/
example : loadAll ((fileOf log1).take ((fileOf log1).length - 20)) = .ok (log1.take 6) := by
  have hlen : (fileOf log1).take ((fileOf log1).length - 20) =
      fileOf (log1.take 6) ++ (utf8 (entryText (.finished ⟨⟨1, 0⟩, "b", 1, []⟩))).take ((utf8 (entryText (.finished ⟨⟨1, 0⟩, "b", 1, []⟩))).length - 19) := by
    decide +kernel
  unfold loadAll
  rw [hlen]
  refine (LogBytes.torn_line_read (fun e he => logs_writable e (by simp [List.mem_of_mem_take he])) (by decide +kernel) (by decide +kernel)).1
    ⟨(entryText (.finished ⟨⟨1, 0⟩, "b", 1, []⟩)).take ((utf8 (entryText (.finished ⟨⟨1, 0⟩, "b", 1, []⟩))).length - 19),
     (entryText (.finished ⟨⟨1, 0⟩, "b", 1, []⟩)).drop ((utf8 (entryText (.finished ⟨⟨1, 0⟩, "b", 1, []⟩))).length - 19),
     (List.take_append_drop _ _).symm, by decide +kernel⟩

/-- The hypotheses of `recover` hold for it. -/
example : ∃ lf, LogFile.open log1 "/d" = .ok lf := opens_of (by decide +kernel)

/-! ### Compacting -/

theorem lastHeader_tail {old sess : List LogEntry} {h : HeaderEntry} (hs : ∀ e ∈ sess, isHeader e = false) :
    lastHeader (old ++ .header h :: sess) = some h := by
  have : lastHeader sess = none := by
    cases hl : lastHeader sess with
    | none => rfl
    | some x => have := hs _ (Log.lastHeader_mem hl); simp [isHeader] at this
  unfold lastHeader at this ⊢
  rw [List.getLast?_eq_none_iff] at this
  rw [List.filterMap_append]
  simp only [List.filterMap_cons]
  rw [this]
  simp

/-- **C146 (compacting).** In every history, at every moment, `load_logfile(path, "current,outdated")` does not panic, and what it returns as
"current" can be opened (so it can be written to a new file) with the same header, and so the same workflow key and storage roots. Exactly the
keys that take part in the newest session are in it, each in the state it has in the log. -/
theorem compact {w : World.World} (h : World.Reachable w) (dir : String) :
    ∃ cur out lf, Snapshot.currentAndOutdated w.log = .ok (cur, out) ∧ LogFile.open cur dir = .ok lf ∧
      lastHeader cur = lastHeader w.log ∧
      (∀ k, Mentions k cur ↔ Mentions k w.log ∧ InNewest k w.log) ∧
      (∀ k, Mentions k cur → lf.mem.runcount k = statusOf k w.log) ∧
      ∀ k, ¬ Mentions k cur → lf.mem.runcount k = none := by
  obtain ⟨hW, hC⟩ := Reachable.cinv h
  have hg := hW.log
  rcases hC.last hW with hn | ⟨old, hd, sess, he, hs⟩
  · rw [hn]
    obtain ⟨lf, hl⟩ := (Log.reopen_iff [] dir).2 ⟨protocol_nil, by simp [HeadersOk]⟩
    refine ⟨[], [], lf, by decide, hl, rfl, ?_, ?_, ?_⟩
    · intro k; simp [Mentions]
    · intro k hk; simp [Mentions] at hk
    · intro k _; rw [(Log.reopen_reads_file hl).1]; rfl
  · obtain ⟨out, hc⟩ := Props.Snapshot.current_exact old sess hd hs.free hs.nodup
    generalize hcur : LogEntry.header hd :: (lastAttempts (backrefKeys sess) old ++ sess.filter (fun e => !isBackref e)) = cur at hc
    have hp := hg.protocol
    rw [he] at hp
    have htail := current_tail hp hs.own (backrefKeys sess)
    rw [hcur] at htail
    obtain ⟨t1, t2⟩ := tail_status hp htail
    have hla : ∀ e ∈ lastAttempts (backrefKeys sess) old, isHeader e = false := by
      intro e he'
      have : ∀ l : List LogEntry, ∀ e ∈ lastAttempts (backrefKeys sess) l, isHeader e = false := by
        intro l
        induction l with
        | nil => intro e he; cases he
        | cons x l ih =>
          intro e he
          simp only [lastAttempts] at he
          split at he
          · rename_i hl
            rcases List.mem_cons.1 he with rfl | he
            · obtain ⟨k, _, ha, _⟩ := hl
              cases e <;> simp_all [about, isHeader]
            · exact ih e he
          · exact ih e he
      exact this old e he'
    have hfree : ∀ e ∈ lastAttempts (backrefKeys sess) old ++ sess.filter (fun e => !isBackref e), isHeader e = false := by
      intro e he'
      rcases List.mem_append.1 he' with h' | h'
      · exact hla e h'
      · exact hs.free e (List.mem_filter.1 h').1
    have hhd : ∀ x, LogEntry.header x ∈ cur → x = hd := by
      intro x hx
      rw [← hcur] at hx
      rcases List.mem_cons.1 hx with hx | hx
      · cases hx; rfl
      · have := hfree _ hx; simp [isHeader] at this
    have hh : HeadersOk cur := by
      have hh0 := hg.headers
      rw [he] at hh0
      refine ⟨fun x hx => ?_, fun x y hx hy => by rw [hhd x hx, hhd y hy]⟩
      rw [hhd x hx]
      exact hh0.1 hd (by simp)
    obtain ⟨lf, hl⟩ := (Log.reopen_iff cur dir).2 ⟨t1, hh⟩
    have hr := Log.reopen_reads_file hl
    rw [he]
    refine ⟨cur, out, lf, hc, hl, ?_, ?_, ?_, ?_⟩
    · rw [lastHeader_tail hs.free, ← hcur]
      exact lastHeader_tail (old := []) hfree
    · intro k
      unfold InNewest
      rw [newest_split hs.free, mentions_iff, mentions_iff, ← hcur]
      exact current_keys hp k
    · intro k hk
      rw [hr.1, t2, if_pos hk]
    · intro k hk
      rw [hr.1, t2, if_neg hk]

/-- On the bytes: the log is read, "current" is written to a new file, and this is opened. -/
theorem compact_file {w : World.World} (h : World.Reachable w) (hw : ∀ e ∈ w.log, Writable e) (dir : String) :
    ∃ cur out lf, loadBoth (fileOf w.log) = .ok (cur, out) ∧ writeLogfile [] dir cur = .ok (fileOf cur) ∧
      openBytes (fileOf cur) dir = .ok lf ∧ lf.entries = cur ∧ ∀ k, Mentions k cur → lf.mem.runcount k = statusOf k w.log := by
  obtain ⟨cur, out, lf, h1, h2, _, _, h5, _⟩ := compact h dir
  have hsub : ∀ e ∈ cur, e ∈ w.log := by
    obtain ⟨old, hd, sess, k1, k2, k3⟩ := Props.Snapshot.split_at_header w.log
    have := Verif.Snapshot.currentAndOutdated_spec old sess hd k1 k2
    simp only at this
    rw [k3, this] at h1
    split at h1
    · simp only [Res.ok.injEq, Prod.mk.injEq] at h1
      intro e he
      rw [← h1.1] at he
      rw [k3]
      have hla : ∀ l : List LogEntry, ∀ e ∈ lastAttempts (backrefKeys sess) l, e ∈ l := by
        intro l
        induction l with
        | nil => intro e he; cases he
        | cons x l ih =>
          intro e he
          simp only [lastAttempts] at he
          split at he
          · rcases List.mem_cons.1 he with rfl | he
            · simp
            · exact List.mem_cons_of_mem _ (ih e he)
          · exact List.mem_cons_of_mem _ (ih e he)
      simp only [List.mem_append, List.mem_filter] at he ⊢
      rcases he with (he | he) | he
      · exact .inl (.inr he)
      · exact .inl (.inl (hla _ e he))
      · exact .inr he.1
    · cases h1
  have hwc : ∀ e ∈ cur, Writable e := fun e he => hw e (hsub e he)
  have hb : openBytes (fileOf cur) dir = .ok lf := by rw [openBytes_file hwc, h2]; rfl
  have he := (open_ok_iff.1 h2).2.1
  refine ⟨cur, out, lf, ?_, ?_, hb, he, h5⟩
  · unfold loadBoth
    rw [(LogBytes.file_round_trip hw dir).2]
    simp only [Res.bind]
    rw [h1]; rfl
  · have := (copy_exact hb).2.1
    rw [he] at this
    exact this

/-- `a` succeeded in session 1 and was reused in session 2, in which `b` is running for the second time. -/
example : World.after Props.World.killedThenResumed (fun w =>
    match Snapshot.currentAndOutdated w.log with
    | .ok (cur, out) => decide (Mentions "a" cur) && decide (Mentions "b" cur) && decide (cur.length = 6) && decide (out.length = 1) &&
      decide (statusOf "a" cur = some (.finished 0 0 true)) && decide (statusOf "b" cur = some (.started 1 0))
    | _ => false) = true := by decide +kernel

/-- Session 1 runs `a` and `b`; session 2 has both tasks, and executes only `a`. -/
def onlyA : List World.Act :=
  Props.World.bothRun ++ [.stop 7] ++ Props.World.open2 ++ [.exec (some 0) true 1 ⟨[0, 1], [1, 0], [], ["a"]⟩ 0]

/-- **C146 (compacting, violated).** A task of the session, which has succeeded, is missing in "current" if the target of `execute` does not need
it: after writing "current" to a new file it would be run again. -/
theorem compact_violated : ∃ w cur out, World.Reachable w ∧ Snapshot.currentAndOutdated w.log = .ok (cur, out) ∧
    (w.tasks.nodes.map (·.key)) = ["a", "b"] ∧ statusOf "b" w.log = some (.finished 0 0 true) ∧ statusOf "b" cur = none := by
  obtain ⟨w, h1, h2⟩ := World.runs_of_after (as := onlyA) (p := fun w =>
    match Snapshot.currentAndOutdated w.log with
    | .ok (cur, _) => decide ((w.tasks.nodes.map (·.key)) = ["a", "b"]) && decide (statusOf "b" w.log = some (.finished 0 0 true)) &&
      decide (statusOf "b" cur = none)
    | _ => false) (by decide +kernel)
  cases hc : Snapshot.currentAndOutdated w.log with
  | err x => rw [hc] at h2; cases h2
  | panic x => rw [hc] at h2; cases h2
  | ok r =>
    rw [hc] at h2
    obtain ⟨cur, out⟩ := r
    simp only [Bool.and_eq_true, decide_eq_true_eq] at h2
    exact ⟨w, cur, out, ⟨_, h1⟩, hc, h2.1.1, h2.1.2, h2.2⟩

/-- Session 2 only opens the log and adds the tasks. -/
def onlyOpened : List World.Act := Props.World.bothRun ++ [.stop 7] ++ Props.World.open2 ++ [.stop 8]

/-- **C146 (compacting, violated).** After a process that only opened the log, "current" has nothing but its header. -/
theorem compact_opened_violated : ∃ w hd out, World.Reachable w ∧ Snapshot.currentAndOutdated w.log = .ok ([.header hd], out) ∧
    statusOf "a" w.log = some (.finished 0 0 true) ∧ statusOf "b" w.log = some (.finished 0 0 true) := by
  obtain ⟨w, h1, h2⟩ := World.runs_of_after (as := onlyOpened) (p := fun w =>
    match Snapshot.currentAndOutdated w.log with
    | .ok ([.header _], _) => decide (statusOf "a" w.log = some (.finished 0 0 true)) && decide (statusOf "b" w.log = some (.finished 0 0 true))
    | _ => false) (by decide +kernel)
  split at h2
  · rename_i hd out hc
    simp only [Bool.and_eq_true, decide_eq_true_eq] at h2
    exact ⟨w, hd, out, ⟨_, h1⟩, hc, h2.1, h2.2⟩
  · cases h2

end Verif.Props.Copy
