import Verif.Proof.Json3
import Verif.Props.Log

/-!
# Properties of the bytes of the log (C43, C44, C91)
-/

namespace Verif.Props.LogBytes
open Verif Verif.Json

/-! ### C43: one line per entry -/

/-- **C43 (framing).** Whatever strings an entry contains, its text contains no newline, carriage return or other control
character; so the line `write` appends has one newline, at its end. -/
theorem entry_is_one_line (e : LogEntry) : (∀ b ∈ utf8 (entryText e), 32 ≤ b.toNat) ∧ lineBytes e = utf8 (entryText e) ++ [10] :=
  ⟨bytes_visible (entryText_visible e), rfl⟩

/-- **C43 (round trip).** Parsing the text of an entry gives the entry back. -/
theorem entry_round_trip {e : LogEntry} (h : Writable e) : fromStr (entryText e) = some e := fromStr_entryText h

/-- **C43 (files).** A file to which the entries `es` were written is opened like the list of entries `es`, and read as `es`. -/
theorem file_round_trip {es : List LogEntry} (h : ∀ e ∈ es, Writable e) (dir : String) :
    openBytes (fileOf es) dir = lift (LogFile.open es dir) ∧ readBytes (fileOf es) = .ok es := by
  constructor
  · have := openBytes_fileOf h dir []
    rw [List.append_nil] at this
    rw [this, lift_open]
    rfl
  · have := readAll_map h []
    have h2 := rawLines_fileOf es (rest := [])
    rw [List.append_nil] at h2
    rw [readBytes, h2]
    rw [show rawLines [] = [] from rfl, this]
    simp [readAll, Res.bind]

/-- **C43 (entries are told apart).** Different lists of entries give different files. -/
theorem file_injective {es es' : List LogEntry} (h : ∀ e ∈ es, Writable e) (h' : ∀ e ∈ es', Writable e)
    (he : fileOf es = fileOf es') : es = es' := by
  have h1 := (file_round_trip h "").2
  have h2 := (file_round_trip h' "").2
  rw [he, h2] at h1
  simpa using h1.symm

/-! ### C44: after a crash -/

/-- Every beginning of a file ends with a part of a line (possibly empty, possibly without the newline only), or is the
whole file. -/
theorem cut_somewhere (es : List LogEntry) (n : Nat) : (fileOf es).take n = fileOf es ∨
    ∃ pre e post m, es = pre ++ e :: post ∧ m ≤ (utf8 (entryText e)).length ∧
      (fileOf es).take n = fileOf pre ++ (utf8 (entryText e)).take m := by
  induction es generalizing n with
  | nil => exact .inl (by simp [fileOf])
  | cons e es ih =>
    have hf : fileOf (e :: es) = lineBytes e ++ fileOf es := by simp [fileOf]
    by_cases hn : n ≤ (utf8 (entryText e)).length
    · refine .inr ⟨[], e, es, n, rfl, hn, ?_⟩
      rw [hf, lineBytes, List.append_assoc, List.take_append_of_le_length hn]
      simp [fileOf]
    · have hl : (lineBytes e).length ≤ n := by simp only [lineBytes, List.length_append, List.length_cons, List.length_nil]; omega
      obtain ⟨k, rfl⟩ := Nat.le.dest hl
      rw [hf, List.take_length_add_append]
      rcases ih k with h | ⟨pre, e', post, m, h1, h2, h3⟩
      · exact .inl (by rw [h])
      · refine .inr ⟨e :: pre, e', post, m, by rw [h1]; rfl, h2, ?_⟩
        rw [h3]
        simp [fileOf]

/-- **C44 (torn line, violated).** If the crash cuts the last line inside the JSON text the log can not be opened again. -/
theorem torn_line_rejected_violated {es : List LogEntry} {e : LogEntry} (hw : ∀ x ∈ es, Writable x) {dir : String} {lf : LogFile}
    (ho : LogFile.open es dir = .ok lf) {m : Nat} (h0 : 0 < m) (hm : m < (utf8 (entryText e)).length) :
    openBytes (fileOf es ++ (utf8 (entryText e)).take m) dir = .err .utf8 ∨
    openBytes (fileOf es ++ (utf8 (entryText e)).take m) dir = .err (.log .json) := by
  obtain ⟨st, hst⟩ := loop_of_open ho
  have hne : (utf8 (entryText e)).take m ≠ [] := by
    intro h
    have := congrArg List.length h
    rw [List.length_take, List.length_nil] at this
    omega
  rw [openBytes_fileOf hw, hst, rawLines_last take_visible hne]
  simp only [lift, Res.bind, loadLines]
  cases hu : unutf8 ((utf8 (entryText e)).take m) with
  | none => exact .inl rfl
  | some cs => right; simp [cut_not_entry hm hu]

/-- **C44 (the read-only reader).** It skips the torn line, unless the cut is inside a character: then it fails as well. -/
theorem torn_line_read {es : List LogEntry} {e : LogEntry} (hw : ∀ x ∈ es, Writable x) {m : Nat} (h0 : 0 < m)
    (hm : m < (utf8 (entryText e)).length) :
    ((∃ p q, entryText e = p ++ q ∧ m = (utf8 p).length) →
      readBytes (fileOf es ++ (utf8 (entryText e)).take m) = .ok es) ∧
    ((¬ ∃ p q, entryText e = p ++ q ∧ m = (utf8 p).length) →
      readBytes (fileOf es ++ (utf8 (entryText e)).take m) = .err .utf8) := by
  have hne : (utf8 (entryText e)).take m ≠ [] := by
    intro h
    have := congrArg List.length h
    rw [List.length_take, List.length_nil] at this
    omega
  have hr : readBytes (fileOf es ++ (utf8 (entryText e)).take m) = (readAll [(utf8 (entryText e)).take m]).bind (fun l => .ok (es ++ l)) := by
    rw [readBytes, rawLines_fileOf, readAll_map hw, rawLines_last take_visible hne]
  rw [hr, readAll]
  constructor
  · rintro ⟨p, q, h1, rfl⟩
    have : (utf8 (entryText e)).take (utf8 p).length = utf8 p := by rw [h1, utf8_append, List.take_left]
    have hu := unutf8_utf8 p
    rw [← this] at hu
    rw [hu]
    simp [cut_not_entry hm hu, readAll, Res.bind]
  · intro hb
    cases hu : unutf8 ((utf8 (entryText e)).take m) with
    | none => rfl
    | some cs =>
      exfalso
      obtain ⟨q, h1, _⟩ := take_text hu
      refine hb ⟨cs, q, h1, ?_⟩
      rw [← unutf8_some hu, List.length_take]
      omega

/-- **C44 (newline lost).** If exactly the newline is cut off the log is opened as if it were there. -/
theorem lost_newline_opens {es : List LogEntry} {e : LogEntry} (hw : ∀ x ∈ es ++ [e], Writable x) (dir : String) :
    openBytes (fileOf es ++ utf8 (entryText e)) dir = lift (LogFile.open (es ++ [e]) dir) := by
  have hne : utf8 (entryText e) ≠ [] := by
    obtain ⟨c, t, h, _⟩ := print_head (toJson e)
    rw [entryText, h, utf8_cons]
    intro hc
    exact String.utf8EncodeChar_ne_nil (List.append_eq_nil_iff.1 hc).1
  have hloop : ∀ (l : List LogEntry) (st : LoadState), loadLoop st (l ++ [e]) = (loadLoop st l).bind (fun st => loadStep st e) := by
    intro l
    induction l with
    | nil => intro st; simp only [List.nil_append, loadLoop, Res.bind]; cases loadStep st e <;> rfl
    | cons a l ih =>
      intro st
      rw [List.cons_append, loadLoop, loadLoop]
      cases loadStep st a with
      | ok st1 => exact ih st1
      | err x => rfl
      | panic m => rfl
  rw [openBytes_fileOf (fun x hx => hw x (by simp [hx])), rawLines_last (bytes_visible (entryText_visible e)) hne, lift_open, hloop]
  cases loadLoop ⟨.empty, none⟩ es with
  | err x => rfl
  | panic m => rfl
  | ok st =>
    simp only [lift, Res.bind, loadLines, unutf8_utf8]
    rw [trimEnd_visible (entryText_visible e), fromStr_entryText (hw e (by simp))]
    simp only
    cases loadStep st e <;> rfl

/-- **C44 (newline lost, violated).** But then the next entry is glued to the line, and after that the log can not be opened;
the read-only reader loses both entries. -/
theorem glued_line_rejected_violated {es more : List LogEntry} {e e' : LogEntry} (hw : ∀ x ∈ es, Writable x)
    (hm : ∀ x ∈ more, Writable x) {dir : String} {lf : LogFile} (ho : LogFile.open es dir = .ok lf) :
    openBytes (fileOf es ++ utf8 (entryText e) ++ fileOf (e' :: more)) dir = .err (.log .json) ∧
    readBytes (fileOf es ++ utf8 (entryText e) ++ fileOf (e' :: more)) = .ok (es ++ more) := by
  have hv : ∀ d ∈ entryText e ++ entryText e', 32 ≤ d.toNat := by
    intro d hd
    rcases List.mem_append.1 hd with h | h
    · exact entryText_visible e d h
    · exact entryText_visible e' d h
  have hr : rawLines (utf8 (entryText e) ++ fileOf (e' :: more)) =
      (utf8 (entryText e ++ entryText e') ++ [10]) :: rawLines (fileOf more) := by
    have : utf8 (entryText e) ++ fileOf (e' :: more) = utf8 (entryText e ++ entryText e') ++ 10 :: fileOf more := by
      rw [utf8_append]
      simp [fileOf, lineBytes]
    rw [this, rawLines, linesGo_line (bytes_visible hv)]
    simp [rawLines]
  have hu : unutf8 (utf8 (entryText e ++ entryText e') ++ [10]) = some (entryText e ++ entryText e' ++ ['\n']) := by
    have : utf8 (entryText e ++ entryText e') ++ [10] = utf8 (entryText e ++ entryText e' ++ ['\n']) := by
      rw [utf8_append (entryText e ++ entryText e')]
      congr 1
    rw [this, unutf8_utf8]
  have hf : fromStr (trimEnd (entryText e ++ entryText e' ++ ['\n'])) = none := by
    rw [trimEnd_newline hv, fromStr_glued]
  constructor
  · obtain ⟨st, hst⟩ := loop_of_open ho
    rw [List.append_assoc, openBytes_fileOf hw, hst, hr]
    simp only [lift, Res.bind, loadLines, hu, hf]
  · rw [List.append_assoc, readBytes, rawLines_fileOf, readAll_map hw, hr, readAll, hu]
    simp only
    rw [hf]
    have := (file_round_trip hm "").2
    rw [readBytes] at this
    rw [this]
    simp [Res.bind]

/-- **C44 (exactly).** Of a log that could be opened, a beginning of its bytes can be opened exactly if it ends at the end of a
line, or just before its newline. -/
theorem reopen_after_crash_iff {es : List LogEntry} (hw : ∀ x ∈ es, Writable x) {dir : String} {lf : LogFile}
    (ho : LogFile.open es dir = .ok lf) (n : Nat) :
    (∃ lf', openBytes ((fileOf es).take n) dir = .ok lf') ↔
      ∃ pre, pre <+: es ∧ ((fileOf es).take n = fileOf pre ∨ (fileOf es).take n ++ [10] = fileOf pre) := by
  have hpre : ∀ pre, pre <+: es → ∃ lf', LogFile.open pre dir = .ok lf' := fun pre hp => Props.Log.reopen_prefix ho hp
  have hfile : ∀ pre, pre <+: es → ∃ lf', openBytes (fileOf pre) dir = .ok lf' := by
    intro pre hp
    obtain ⟨lf', h⟩ := hpre pre hp
    refine ⟨lf', ?_⟩
    rw [(file_round_trip (fun x hx => hw x (hp.subset hx)) dir).1, h]
    rfl
  constructor
  · rintro ⟨lf', h⟩
    rcases cut_somewhere es n with hc | ⟨pre, e, post, m, h1, h2, h3⟩
    · exact ⟨es, List.prefix_refl _, .inl hc⟩
    · by_cases h0 : m = 0
      · exact ⟨pre, ⟨e :: post, h1.symm⟩, .inl (by rw [h3, h0]; simp)⟩
      · by_cases hl : m = (utf8 (entryText e)).length
        · refine ⟨pre ++ [e], ⟨post, by rw [h1]; simp⟩, .inr ?_⟩
          rw [h3, hl, List.take_length]
          simp [fileOf, lineBytes]
        · exfalso
          have hp : pre <+: es := ⟨e :: post, h1.symm⟩
          obtain ⟨lf1, ho1⟩ := hpre pre hp
          rw [h3] at h
          rcases torn_line_rejected_violated (e := e) (fun x hx => hw x (hp.subset hx)) ho1 (m := m) (by omega) (by omega) with hx | hx
          · rw [hx] at h; cases h
          · rw [hx] at h; cases h
  · rintro ⟨pre, hp, h | h⟩
    · rw [h]
      exact hfile pre hp
    · rcases List.eq_nil_or_concat pre with rfl | ⟨l, e, rfl⟩
      · simp [fileOf] at h
      · rw [List.concat_eq_append] at h hp
        have he : (fileOf es).take n = fileOf l ++ utf8 (entryText e) := by
          have : fileOf (l ++ [e]) = (fileOf l ++ utf8 (entryText e)) ++ [10] := by simp [fileOf, lineBytes]
          rw [this] at h
          exact List.append_cancel_right h
        obtain ⟨lf', h'⟩ := hpre _ hp
        rw [he, lost_newline_opens (fun x hx => hw x (hp.subset hx)), h']
        exact ⟨lf', rfl⟩

/-! ### C91: other writers -/

/-- **C91 (order of fields, unknown fields).** An object with the fields of an entry in any order, and any other fields
between them, is read as the entry. -/
theorem read_any_order {e : LogEntry} (h : Writable e) {l : List (String × Json)} (hl : noReal (.obj l) = true)
    (hp : (l.filter (fun x => ((written e).2.map (·.1)).contains x.1)).Perm (written e).2) :
    fromStr (print (.obj [((written e).1, .obj l)])) = some e := by
  have hb := ofJson_toJson h
  have hq : noReal (.obj [((written e).1, .obj l)]) = true := by
    simp only [noReal, noRealFields] at hl ⊢
    simp [hl]
  rw [fromStr, parse_print hq, Option.bind_some, ← hb]
  cases e with
  | header x =>
    simp only [written, toJson, List.map_cons, List.map_nil] at hp ⊢
    simp only [ofJson]
    unfold asHeader
    rw [args_perm hp (by simp)]
    rfl
  | ready x =>
    simp only [written, toJson, List.map_cons, List.map_nil] at hp ⊢
    simp only [ofJson]
    unfold asReady
    rw [args_perm hp (by simp)]
    rfl
  | started x =>
    simp only [written, toJson, List.map_cons, List.map_nil] at hp ⊢
    simp only [ofJson]
    unfold asStarted
    rw [args_perm hp (by simp)]
    rfl
  | finished x =>
    simp only [written, toJson, List.map_cons, List.map_nil] at hp ⊢
    simp only [ofJson]
    unfold asFinished
    rw [args_perm hp (by simp)]
    rfl
  | backref x =>
    simp only [written, toJson, List.map_cons, List.map_nil] at hp ⊢
    simp only [ofJson]
    unfold asBackref
    rw [args_perm hp (by simp)]
    rfl

/-- **C91 (missing fields).** Without its optional field (as older versions wrote it) an entry is read with the default value. -/
theorem read_older {e : LogEntry} (h : Writable e) :
    fromStr (print (.obj [((written e).1, .obj ((written e).2.filter (fun x => !mayMiss.contains ((written e).1, x.1))))])) =
      some (defaulted e) := by
  cases e with
  | header x =>
    obtain ⟨h1, h2, h3, h4⟩ := h
    have hj : Json.obj [((written (.header x)).1, .obj ((written (.header x)).2.filter
        (fun y => !mayMiss.contains ((written (.header x)).1, y.1))))] =
        .obj [("Header", .obj [("version", .int x.version), ("time", timeJ x.time), ("user", .str x.user),
      ("hostname", .str x.hostname), ("workflow_key", .str x.workflowKey), ("cmdline", strsJ x.cmdline),
      ("workdir", .str x.workdir), ("pid", .int x.pid)])] := by simp [written, toJson, mayMiss]
    have ha : args false ["version", "time", "user", "hostname", "workflow_key", "cmdline", "workdir", "pid", "storage_roots"]
        (.obj [("version", .int x.version), ("time", timeJ x.time), ("user", .str x.user),
      ("hostname", .str x.hostname), ("workflow_key", .str x.workflowKey), ("cmdline", strsJ x.cmdline),
      ("workdir", .str x.workdir), ("pid", .int x.pid)]) =
        some [some (.int x.version), some (timeJ x.time), some (.str x.user),
      some (.str x.hostname), some (.str x.workflowKey), some (strsJ x.cmdline),
      some (.str x.workdir), some (.int x.pid), none] := by
      simp [args, field]
    rw [hj, fromStr, parse_print (by simp [noReal, noRealFields, timeJ, strsJ, noReals_map (f := Json.str) (fun _ => rfl)]), Option.bind_some,
      ofJson, if_pos rfl, asHeader, ha, Option.bind_some]
    dsimp only
    rw [asU32_int h1, asTime_timeJ h3 h4, asStrs_strsJ, asU32_int h2, orDefault]
    rfl
  | ready x =>
    obtain ⟨h1, h2, h3, h4⟩ := h
    have hj : Json.obj [((written (.ready x)).1, .obj ((written (.ready x)).2.filter
        (fun y => !mayMiss.contains ((written (.ready x)).1, y.1))))] =
        .obj [("Ready", .obj [("time", timeJ x.time), ("key", .str x.key), ("runcount", .int x.runcount),
      ("command", .str x.command)])] := by simp [written, toJson, mayMiss]
    have ha : args false ["time", "key", "runcount", "command", "r"]
        (.obj [("time", timeJ x.time), ("key", .str x.key), ("runcount", .int x.runcount),
      ("command", .str x.command)]) =
        some [some (timeJ x.time), some (.str x.key), some (.int x.runcount), some (.str x.command), none] := by
      simp [args, field]
    rw [hj, fromStr, parse_print (by simp [noReal, noRealFields, timeJ]), Option.bind_some,
      ofJson, if_neg (by decide), if_pos rfl, asReady, ha, Option.bind_some]
    dsimp only
    rw [asU32_int h1, asTime_timeJ h3 h4, orDefault]
    rfl
  | started x =>
    obtain ⟨h1, h3, h4⟩ := h
    have hj : Json.obj [((written (.started x)).1, .obj ((written (.started x)).2.filter
        (fun y => !mayMiss.contains ((written (.started x)).1, y.1))))] =
        .obj [("Started", .obj [("time", timeJ x.time), ("key", .str x.key), ("host", .str x.host),
      ("pid", .int x.pid)])] := by simp [written, toJson, mayMiss]
    have ha : args false ["time", "key", "host", "pid", "slurm_jobid"]
        (.obj [("time", timeJ x.time), ("key", .str x.key), ("host", .str x.host), ("pid", .int x.pid)]) =
        some [some (timeJ x.time), some (.str x.key), some (.str x.host), some (.int x.pid), none] := by
      simp [args, field]
    rw [hj, fromStr, parse_print (by simp [noReal, noRealFields, timeJ]), Option.bind_some,
      ofJson, if_neg (by decide), if_neg (by decide), if_pos rfl, asStarted, ha, Option.bind_some]
    dsimp only
    rw [asU32_int h1, asTime_timeJ h3 h4]
    rfl
  | finished x =>
    obtain ⟨h1, h2, h3, h4, -⟩ := h
    have hj : Json.obj [((written (.finished x)).1, .obj ((written (.finished x)).2.filter
        (fun y => !mayMiss.contains ((written (.finished x)).1, y.1))))] =
        .obj [("Finished", .obj [("time", timeJ x.time), ("key", .str x.key), ("status", .int x.status)])] := by
      simp [written, toJson, mayMiss]
    have ha : args false ["time", "key", "status", "values"]
        (.obj [("time", timeJ x.time), ("key", .str x.key), ("status", .int x.status)]) =
        some [some (timeJ x.time), some (.str x.key), some (.int x.status), none] := by
      simp [args, field]
    have hs : asInt (-2147483648) 2147483648 (.int x.status) = some x.status := by
      simp only [asInt]; rw [if_pos ⟨h1, h2⟩]
    rw [hj, fromStr, parse_print (by simp [noReal, noRealFields, timeJ]), Option.bind_some,
      ofJson, if_neg (by decide), if_neg (by decide), if_neg (by decide), if_pos rfl, asFinished, ha, Option.bind_some]
    dsimp only
    rw [hs, asTime_timeJ h3 h4, orDefault]
    rfl
  | backref x =>
    rw [show Json.obj [((written (.backref x)).1, .obj ((written (.backref x)).2.filter
        (fun y => !mayMiss.contains ((written (.backref x)).1, y.1))))] = toJson (.backref x) by simp [written, toJson, mayMiss]]
    exact fromStr_entryText h

/-! ### Concrete cases -/

/-- Entries with a quote, a backslash, a newline, another control character and non-ASCII characters. -/
def demoHeader : LogEntry := .header ⟨4, ⟨1700000000, 7⟩, "u", "h", "w\"1\\", ["a", "b c"], "/d", 12, ["", "/s"]⟩
def demoReady : LogEntry := .ready ⟨⟨1700000001, 0⟩, "k\u00e9", 3, "echo a\nb\u0001", 1⟩
def demoFinished : LogEntry := .finished ⟨⟨1700000002, 999999999⟩, "k\u00e9", -9, [[("x", "1"), ("y", "")], []]⟩

/-- The text as serde_json writes it. -/
example : String.ofList (entryText demoReady) =
    "{\"Ready\":{\"time\":{\"secs_since_epoch\":1700000001,\"nanos_since_epoch\":0},\"key\":\"k\u00e9\",\"runcount\":3,\"command\":\"echo a\\nb\\u0001\",\"r\":1}}" := by
  decide +kernel

example : String.ofList (entryText demoHeader) =
    "{\"Header\":{\"version\":4,\"time\":{\"secs_since_epoch\":1700000000,\"nanos_since_epoch\":7},\"user\":\"u\",\"hostname\":\"h\",\"workflow_key\":\"w\\\"1\\\\\",\"cmdline\":[\"a\",\"b c\"],\"workdir\":\"/d\",\"pid\":12,\"storage_roots\":[\"\",\"/s\"]}}" := by
  decide +kernel

example : String.ofList (entryText demoFinished) =
    "{\"Finished\":{\"time\":{\"secs_since_epoch\":1700000002,\"nanos_since_epoch\":999999999},\"key\":\"k\u00e9\",\"status\":-9,\"values\":[{\"x\":\"1\",\"y\":\"\"},{}]}}" := by
  decide +kernel

/-- They meet the hypotheses of the theorems above. -/
theorem demo_writable : ∀ e ∈ [demoHeader, demoReady, demoFinished], Writable e := by
  intro e he
  simp only [List.mem_cons, List.not_mem_nil, or_false] at he
  rcases he with rfl | rfl | rfl
  · exact ⟨by decide, by decide, by decide, by decide⟩
  · exact ⟨by decide, by decide, by decide, by decide⟩
  · exact ⟨by decide, by decide, by decide, by decide, by decide⟩

example : readBytes (fileOf [demoHeader, demoReady, demoFinished]) = .ok [demoHeader, demoReady, demoFinished] :=
  (file_round_trip demo_writable "/d").2

/-- The fields of an entry in another order, with an unknown one in between. -/
example : fromStr (print (.obj [("Backref", .obj [("other", .arr [.null]), ("key", .str "k"), ("z", .int 3)])])) =
    some (.backref ⟨"k"⟩) :=
  read_any_order (e := .backref ⟨"k"⟩) trivial (by decide) (by simp [written, toJson])

/-- A line of an older version. -/
example : fromStr "{\"Started\":{\"time\":{\"secs_since_epoch\":1,\"nanos_since_epoch\":0},\"key\":\"k\",\"host\":\"h\",\"pid\":4}}".toList =
    some (.started ⟨⟨1, 0⟩, "k", "h", 4, ""⟩) := by
  have := read_older (e := .started ⟨⟨1, 0⟩, "k", "h", 4, "x"⟩) ⟨by decide, by decide, by decide⟩
  rw [← show defaulted (.started ⟨⟨1, 0⟩, "k", "h", 4, "x"⟩) = .started ⟨⟨1, 0⟩, "k", "h", 4, ""⟩ from rfl, ← this]
  decide +kernel

/-- The log with the first two entries can be opened. -/
theorem demo_opens : ∃ lf, LogFile.open [demoHeader, demoReady] "/d" = .ok lf := by
  have h : (LogFile.open [demoHeader, demoReady] "/d").isOk = true := by decide +kernel
  cases ho : LogFile.open [demoHeader, demoReady] "/d" with
  | ok lf => exact ⟨lf, rfl⟩
  | err x => rw [ho] at h; cases h
  | panic x => rw [ho] at h; cases h

theorem demo_two : ∀ e ∈ [demoHeader, demoReady], Writable e := fun e he => demo_writable e (by
  simp only [List.mem_cons, List.not_mem_nil, or_false] at he ⊢; rcases he with h | h <;> simp [h])

/-- The third line cut after 50 bytes: the log can not be opened, the read-only reader skips the line. -/
example : (∃ x, openBytes (fileOf [demoHeader, demoReady] ++ (utf8 (entryText demoFinished)).take 50) "/d" = .err x) ∧
    readBytes (fileOf [demoHeader, demoReady] ++ (utf8 (entryText demoFinished)).take 50) = .ok [demoHeader, demoReady] := by
  obtain ⟨lf, ho⟩ := demo_opens
  constructor
  · rcases torn_line_rejected_violated (e := demoFinished) demo_two ho (m := 50) (by decide) (by decide +kernel) with h | h
    · exact ⟨_, h⟩
    · exact ⟨_, h⟩
  · exact (torn_line_read (e := demoFinished) demo_two (m := 50) (by decide) (by decide +kernel)).1
      ⟨(entryText demoFinished).take 50, (entryText demoFinished).drop 50, (List.take_append_drop _ _).symm, by decide +kernel⟩

/-- The position in the third line of the character é, which has two bytes. -/
def demoAt : Nat := (utf8 ((entryText demoFinished).takeWhile (· != 'é'))).length

/-- Cut inside the character: the read-only reader fails as well. -/
example : readBytes (fileOf [demoHeader, demoReady] ++ (utf8 (entryText demoFinished)).take (demoAt + 1)) = .err .utf8 := by
  have hr : (unutf8 ((utf8 (entryText demoFinished)).take (demoAt + 1))).isNone = true := by decide +kernel
  refine (torn_line_read (e := demoFinished) demo_two (m := demoAt + 1) (by omega) (by decide +kernel)).2 ?_
  rintro ⟨p, q, h1, h2⟩
  rw [h2, h1, utf8_append, List.take_left, unutf8_utf8] at hr
  cases hr

/-- The newline of the second line cut off and the third line written: glued. -/
example : openBytes (fileOf [demoHeader] ++ utf8 (entryText demoReady) ++ fileOf [demoFinished]) "/d" = .err (.log .json) ∧
    readBytes (fileOf [demoHeader] ++ utf8 (entryText demoReady) ++ fileOf [demoFinished]) = .ok [demoHeader] := by
  obtain ⟨lf, ho⟩ := demo_opens
  obtain ⟨lf1, ho1⟩ := Props.Log.reopen_prefix ho (show [demoHeader] <+: _ from ⟨[demoReady], rfl⟩)
  exact glued_line_rejected_violated (more := []) (fun x hx => demo_two x (by
    simp only [List.mem_cons, List.not_mem_nil, or_false] at hx ⊢; exact .inl hx)) (by simp) ho1

end Verif.Props.LogBytes
