import Verif.Model.Base

/-!
# logfile2.rs: the workflow log

The file is modelled as its list of entries; the byte level (one JSON line per entry, torn lines) is in
`Verif.Model.Json`, the lock in `Verif.Model.Lock`.
-/

namespace Verif

/-- `SystemTime` (serialised by serde as seconds and nanoseconds since the epoch). -/
structure SysTime where
  secs : Nat
  nanos : Nat
deriving DecidableEq, Repr, Inhabited

/-- `HeaderEntry` (logfile2.rs:27-40). Paths are strings. -/
structure HeaderEntry where
  version : Nat
  time : SysTime
  user : String
  hostname : String
  workflowKey : String
  cmdline : List String
  workdir : String
  pid : Nat
  storageRoots : List String
deriving DecidableEq, Repr, Inhabited

/-- `ReadyEntry` (logfile2.rs:42-51). -/
structure ReadyEntry where
  time : SysTime
  key : String
  runcount : Nat
  command : String
  storageRoot : Nat
deriving DecidableEq, Repr, Inhabited

/-- `StartedEntry` (logfile2.rs:53-62). -/
structure StartedEntry where
  time : SysTime
  key : String
  host : String
  pid : Nat
  slurmJobid : String
deriving DecidableEq, Repr, Inhabited

/-- `FinishedEntry` (logfile2.rs:64-71). A value map is its list of pairs in the order serde writes them. -/
structure FinishedEntry where
  time : SysTime
  key : String
  status : Int
  values : List (List (String × String))
deriving DecidableEq, Repr, Inhabited

/-- `BackrefEntry` (logfile2.rs:73-76). -/
structure BackrefEntry where
  key : String
deriving DecidableEq, Repr, Inhabited

/-- `LogEntry` (logfile2.rs:18-25). -/
inductive LogEntry where
  | header (h : HeaderEntry)
  | ready (r : ReadyEntry)
  | started (s : StartedEntry)
  | finished (f : FinishedEntry)
  | backref (b : BackrefEntry)
deriving DecidableEq, Repr, Inhabited

/-- `LOGFILE_VERSION` (logfile2.rs:16). -/
def logfileVersion : Nat := 4

/-- `LogfileError` (logfile2.rs:596-623); io errors are not modelled. -/
inductive LogfileError where
  | json
  | workflowKeyMismatch
  | mismatchedVersion (found : Nat)
  | alreadyLocked
deriving DecidableEq, Repr

/-- `RuncountStatus` (logfile2.rs:166-181). -/
inductive RuncountStatus where
  | ready (runcount storageRoot : Nat)
  | started (runcount storageRoot : Nat)
  | finished (runcount storageRoot : Nat) (success : Bool)
deriving DecidableEq, Repr

/-- A `HashMap<String, β>` as a function (logfile2.rs:154-160). -/
abbrev StrMap (β : Type) := String → Option β

/-- `HashMap::insert`. Standard library, no counterpart in the repo. -/
def StrMap.set {β : Type} (m : StrMap β) (k : String) (v : β) : StrMap β :=
  fun x => if x = k then some v else m x

/-- The in-memory part of `LogFile` (logfile2.rs:154-161: `header`, `runcounts`). -/
structure LogMem where
  header : Option HeaderEntry
  runcounts : StrMap RuncountStatus

/-- Nothing loaded: `HashMap::new()`, `None` (logfile2.rs:300-301). -/
def LogMem.empty : LogMem := ⟨none, fun _ => none⟩

/-- The in-memory effect of `LogFile::write` (logfile2.rs:213-272). The `expect`s and `panic!`s are explicit. -/
def LogMem.write (m : LogMem) (e : LogEntry) : Res LogfileError LogMem :=
  match e with
  | .header h => .ok { m with header := some h }
  | .ready r => .ok { m with runcounts := m.runcounts.set r.key (.ready r.runcount r.storageRoot) }
  | .started s =>
    match m.runcounts s.key with
    | none => .panic "I see a Started entry, but no Ready entry"
    | some (.ready c srt) => .ok { m with runcounts := m.runcounts.set s.key (.started c srt) }
    | some _ => .panic "Malformed?"
  | .finished f =>
    match m.runcounts f.key with
    | none => .panic "I see a Finished entry, but no prior entry"
    | some (.started c srt) =>
      .ok { m with runcounts := m.runcounts.set f.key (.finished c srt (f.status == 0)) }
    | some _ => .panic "Malformed"
  | .backref _ => .ok m

/-- Loop state of `load_runcounts` (logfile2.rs:300-302). -/
structure LoadState where
  mem : LogMem
  workflowKey : Option String

/-- One turn of the loop of `load_runcounts` on a parsed entry (logfile2.rs:320-386). -/
def loadStep (st : LoadState) (e : LogEntry) : Res LogfileError LoadState :=
  match e with
  | .header h =>
    match st.workflowKey with
    | some k =>
      if k ≠ h.workflowKey then .err .workflowKeyMismatch
      else if h.version ≠ logfileVersion then .err (.mismatchedVersion h.version)
      else .ok { st with mem := { st.mem with header := some h } }
    | none =>
      if h.version ≠ logfileVersion then .err (.mismatchedVersion h.version)
      else .ok ⟨{ st.mem with header := some h }, some h.workflowKey⟩
  | .ready r =>
    .ok { st with mem :=
      { st.mem with runcounts := st.mem.runcounts.set r.key (.ready r.runcount r.storageRoot) } }
  | .started s =>
    match st.mem.runcounts s.key with
    | none => .panic "I see a Started entry, but no Ready entry"
    | some (.ready c srt) =>
      .ok { st with mem := { st.mem with runcounts := st.mem.runcounts.set s.key (.started c srt) } }
    | some _ => .panic "Malformed?"
  | .finished f =>
    match st.mem.runcounts f.key with
    | none => .panic "I see a Finished entry, but no prior entry"
    | some (.started c srt) =>
      .ok { st with mem :=
        { st.mem with runcounts := st.mem.runcounts.set f.key (.finished c srt (f.status == 0)) } }
    | some _ => .panic "Malformed"
  | .backref _ => .ok st

/-- The loop of `load_runcounts` (logfile2.rs:307-387) over the parsed entries. -/
def loadLoop : LoadState → List LogEntry → Res LogfileError LoadState
  | st, [] => .ok st
  | st, e :: es => (loadStep st e).bind (fun st => loadLoop st es)

/-- `load_runcounts` (logfile2.rs:297-390) on a file whose lines parse to `es`. -/
def loadRuncounts (es : List LogEntry) : Res LogfileError LogMem :=
  (loadLoop ⟨.empty, none⟩ es).bind (fun st => .ok st.mem)

/-- `LogFile<LogFileRW>` (logfile2.rs:154-161): memory part, all entries of the file including buffered ones, and
the directory of the file. -/
structure LogFile where
  mem : LogMem
  entries : List LogEntry
  dir : String

/-- `LogFile::new` (logfile2.rs:185-211) without the lock. -/
def LogFile.open (es : List LogEntry) (dir : String) : Res LogfileError LogFile :=
  (loadRuncounts es).bind (fun m => .ok ⟨m, es, dir⟩)

/-- `LogFile::write` (logfile2.rs:213-277): update the memory part, then append the entry. -/
def LogFile.write (lf : LogFile) (e : LogEntry) : Res LogfileError LogFile :=
  (lf.mem.write e).bind (fun m => .ok { lf with mem := m, entries := lf.entries ++ [e] })

/-- Several writes in a row. Calls of `write` (logfile2.rs:213-278). -/
def LogFile.writeAll : LogFile → List LogEntry → Res LogfileError LogFile
  | lf, [] => .ok lf
  | lf, e :: es => (lf.write e).bind (fun lf => lf.writeAll es)

/-- `LogFile::workflow_key` (logfile2.rs:392-394). -/
def LogMem.workflowKey (m : LogMem) : Option String := m.header.map (·.workflowKey)

/-- `p.is_absolute()` on Unix. Standard library; used at logfile2.rs:396-419. -/
def isAbsolute (p : String) : Bool := p.toList.head? == some '/'

/-- `LogFile::storage_root` (logfile2.rs:408-419). Joining is string concatenation with a slash. -/
def LogFile.storageRoot (lf : LogFile) (id : Nat) : Option String :=
  (lf.mem.header.bind (fun h => h.storageRoots[id]?)).map
    (fun p => if isAbsolute p then p else lf.dir ++ "/" ++ p)

/-- `LogFile::runcount` (logfile2.rs:429-431). -/
def LogMem.runcount (m : LogMem) (key : String) : Option RuncountStatus := m.runcounts key

/-- `LogFile::has_success` (logfile2.rs:433-441). -/
def LogMem.hasSuccess (m : LogMem) (key : String) : Bool :=
  match m.runcounts key with
  | some (.finished _ _ success) => success
  | some _ => false
  | none => false

/-- `LogFile::has_failure` (logfile2.rs:443-451). -/
def LogMem.hasFailure (m : LogMem) (key : String) : Bool :=
  match m.runcounts key with
  | some (.finished _ _ success) => !success
  | some _ => false
  | none => false

end Verif
