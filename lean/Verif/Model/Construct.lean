import Verif.Model.ExecGraph
import Verif.Model.Json

/-!
# The Python constructor, step by step (pylib.rs:62-122)

`pyNew` (Model/ExecGraph) says what a successful constructor makes of the log. Here are its steps in order, each of which may fail: the lock, the log, the mirror file
`log.txt`, the callback that makes the workflow key, the header; and what a failure leaves behind, in the file system and in the process. The lock is one per directory
(logfile2.rs:187), the mirror one per process (logging.rs:23), behind a mutex that is poisoned when its holder panics.
-/

namespace Verif.Construct
open Verif Verif.Json

/-- A log file: its directory and its name (pylib.rs:65, logfile2.rs:187). -/
abbrev Path := String × String

/-- The file system and the process, as far as constructors touch them: the bytes of the logs on disk; the directories whose `.wrk.lock` is locked, here or in another
process (logfile2.rs:187-192); the directory of the current mirror file and whether the mutex around it is poisoned (logging.rs:23, 47-52). -/
structure Proc where
  logs : Path → Option (List UInt8)
  locked : String → Bool
  mirror : Option String
  poisoned : Bool

/-- A process that has imported the module, with nothing on disk (pylib.rs:428). -/
def init : Proc := ⟨fun _ => none, fun _ => false, none, false⟩

/-- Arguments (pylib.rs:52-70). The callback returns a key or raises (here a number); `header` are the fields of the header that depend on the machine. -/
structure Args where
  path : Path
  numParallel : Int
  storageRoots : List String
  failuresAllowed : Nat
  newKeyFn : Option (Except Nat String)
  rerunFailures : Bool
  header : HeaderEntry

/-- What the operating system answers: the number of cores (pylib.rs:73); opening `.wrk.lock` (logfile2.rs:188-191); whether the command line is Unicode, which `env::args`
insists on (logfile2.rs:90); the working directory, at the first and the second header (logfile2.rs:91; 194, pylib.rs:103); writing `.wrk.lock` (194-195); opening, reading
the log (197-202, 309) and its canonical path (205); opening `log.txt` (logging.rs:97-102); writing the header: `none`, or an error when `n` bytes of its line have got to the disk
(pylib.rs:103-109, logfile2.rs:274-275). -/
structure Env where
  cores : Option Nat
  lockOpens : Bool
  argsUnicode : Bool
  cwd : Bool
  lockWrites : Bool
  logOpens : Bool
  logReads : Bool
  canonical : Bool
  mirrorOpens : Bool
  cwd2 : Bool
  header : Option Nat

/-- Everything works. No counterpart in the code. -/
def Env.good : Env := ⟨some 4, true, true, true, true, true, true, true, true, true, none⟩

/-- Exceptions: `cores` (pylib.rs:73), `io` (79, `PyIOError`), `version` (77), `version2` (91), `user` (the callback's, 98), `os` (109, 372-376), `panic` (pyo3 makes a
`PanicException` of it). -/
inductive Exc where
  | cores
  | io
  | version
  | version2
  | user (x : Nat)
  | os
  | panic
deriving DecidableEq, Repr

/-- `PyExecGraph` (pylib.rs:41-48) and the path of its log. -/
structure Graph where
  path : Path
  g : ExecGraph
  numParallel : Nat
  failuresAllowed : Nat
  key : String
  rerunFailures : Bool

/-- Outcome of the constructor; `asked`: the callback was called. -/
structure Outcome where
  asked : Bool
  res : Except Exc Graph

/-- pylib.rs:72-74: a negative number stands for the number of cores, which has to be an `i32`. -/
def parallel (n : Int) (e : Env) : Except Exc Nat :=
  if n < 0 then
    match e.cores with
    | some c => if c < 2 ^ 31 then .ok c else .error .cores
    | none => .error .cores
  else .ok n.toNat

/-- The error `LogFile::new` reports for a log it cannot read (pylib.rs:75-80). A line that is no entry is logged first (logfile2.rs:316), which panics when the mutex is
poisoned. -/
def readExc (poisoned : Bool) : ReadError → Exc
  | .log (.mismatchedVersion _) => .version
  | .log .json => if poisoned then .panic else .io
  | _ => .io

/-- The log after the attempt to open it: it is created if it is not there (logfile2.rs:197-201). -/
def touched (logs : Path → Option (List UInt8)) (p : Path) : Path → Option (List UInt8) :=
  fun q => if q = p then some ((logs p).getD []) else logs q

/-- The key (pylib.rs:95-101), and whether the callback was called. -/
def chooseKey (m : LogMem) (fn : Option (Except Nat String)) : Bool × Except Exc String :=
  match m.workflowKey with
  | some k => (false, .ok k)
  | none =>
    match fn with
    | none => (false, .ok "default-key-value")
    | some (.ok k) => (true, .ok k)
    | some (.error x) => (true, .error (.user x))

/-- The header (pylib.rs:103-109). -/
def headerOf (a : Args) (key : String) : LogEntry :=
  .header { a.header with
    version := logfileVersion
    workflowKey := key
    storageRoots := a.storageRoots.map (expandRoot key) }

/-- The constructor from the key on (pylib.rs:95-121); `lf` is the log, `bs` its bytes. On failure the log is closed, which releases the lock. -/
def finish (s : Proc) (a : Args) (e : Env) (n : Nat) (bs : List UInt8) (lf : LogFile) : Proc × Outcome :=
  let (asked, k) := chooseKey lf.mem a.newKeyFn
  match k with
  | .error x => (s, ⟨asked, .error x⟩)
  | .ok key =>
    if !e.argsUnicode then (s, ⟨asked, .error .panic⟩)
    else if !e.cwd2 then (s, ⟨asked, .error .os⟩)
    else
      match e.header with
      | some m => ({ s with logs := fun q => if q = a.path then some (bs ++ (lineBytes (headerOf a key)).take m) else s.logs q }, ⟨asked, .error .os⟩)
      | none =>
        match lf.write (headerOf a key) with
        | .ok lf => ({ s with locked := fun d => d = a.path.1 || s.locked d }, ⟨asked, .ok ⟨a.path, ExecGraph.new lf, n, failuresAllowed a.failuresAllowed, key, a.rerunFailures⟩⟩)
        | .err _ => (s, ⟨asked, .error .os⟩)
        | .panic _ => (s, ⟨asked, .error .panic⟩)

/-- `init_logging` (pylib.rs:82-84, logging.rs:93-106): the mutex is taken, and with it held `log.txt` is opened; `unwrap` panics if that fails, which poisons the mutex,
or if the mutex is poisoned already. Then the second check of the version (pylib.rs:86-92). -/
def mirrored (s : Proc) (a : Args) (e : Env) (n : Nat) (bs : List UInt8) (lf : LogFile) : Proc × Outcome :=
  if s.poisoned then (s, ⟨false, .error .panic⟩)
  else if !e.mirrorOpens then ({ s with poisoned := true }, ⟨false, .error .panic⟩)
  else
    let s := { s with mirror := some a.path.1 }
    if (lf.mem.header.map (fun h => decide (h.version ≠ logfileVersion))).getD false then (s, ⟨false, .error .version2⟩)
    else finish s a e n bs lf

/-- The constructor (pylib.rs:62-122; `LogFile::new`: logfile2.rs:185-211). -/
def construct (s : Proc) (a : Args) (e : Env) : Proc × Outcome :=
  match parallel a.numParallel e with
  | .error x => (s, ⟨false, .error x⟩)
  | .ok n =>
    if !e.lockOpens || s.locked a.path.1 then (s, ⟨false, .error .io⟩)
    else if !e.argsUnicode then (s, ⟨false, .error .panic⟩)
    else if !e.cwd || !e.lockWrites || !e.logOpens then (s, ⟨false, .error .io⟩)
    else
      let bs := (s.logs a.path).getD []
      let s := { s with logs := touched s.logs a.path }
      if !e.logReads then (s, ⟨false, .error .io⟩)
      else
        match openBytes bs a.path.1 with
        | .err x => (s, ⟨false, .error (readExc s.poisoned x)⟩)
        | .panic _ => (s, ⟨false, .error .panic⟩)
        | .ok lf => if !e.canonical then (s, ⟨false, .error .io⟩) else mirrored s a e n bs lf

/-- What a process does: construct a graph; drop one, after which its log has the bytes `bs` (what sessions write is in Model/World and Model/Disk) and the lock is free
(logfile2.rs:454-460); print (`rawlog!`, logging.rs:171-176); flush (`flush_logging`, logging.rs:119-124), which every `execute` does at its end (pylib.rs:367). -/
inductive Op where
  | new (a : Args) (e : Env)
  | drop (p : Path) (bs : List UInt8)
  | print
  | flush

/-- Outcome of an operation: of a constructor, or whether a print or flush panics (`lock().unwrap()`, logging.rs:75, 84). -/
inductive Out where
  | new (o : Outcome)
  | done
  | panicked

/-- One operation (see `Op`). -/
def step (s : Proc) : Op → Proc × Out
  | .new a e => ((construct s a e).1, .new (construct s a e).2)
  | .drop p bs =>
    ({ s with
        logs := fun q => if q = p then some bs else s.logs q
        locked := fun d => s.locked d && d ≠ p.1 }, .done)
  | .print => (s, if s.poisoned then .panicked else .done)
  | .flush => (s, if s.poisoned then .panicked else .done)

/-- Operations one after the other, and their outcomes. No counterpart in the code: calls one after the other. -/
def run : Proc → List Op → Proc × List Out
  | s, [] => (s, [])
  | s, o :: os => ((run (step s o).1 os).1, (step s o).2 :: (run (step s o).1 os).2)

end Verif.Construct
