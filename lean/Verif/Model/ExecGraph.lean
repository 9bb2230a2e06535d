import Verif.Model.GraphTheory
import Verif.Model.LogFile

/-!
# execgraph.rs: the task graph, `add_task`, `get_subgraph`; pylib.rs: `logfile_runcount`, `add_task`, constructor
-/

namespace Verif

/-- `OsString`: either text or something that is not UTF-8 (execgraph.rs:31). -/
inductive OsStr where
  | str (s : String)
  | notUtf8
deriving DecidableEq, Repr, Inhabited

/-- `Cmd` (execgraph.rs:30-51). Preamble and postamble are opaque handles. -/
structure Cmd where
  cmdline : List OsStr := []
  key : String := ""
  display : Option String := none
  affinity : BitVec 64 := 0
  runcount : Nat := 0
  priority : Nat := 0
  storageRoot : Nat := 0
  fdInput : Option (Int × List UInt8) := none
  preamble : Option Nat := none
  postamble : Option Nat := none
deriving DecidableEq, Repr, Inhabited

/-- `ExecGraph` (execgraph.rs:181-186). `completed` is a set kept as a list. -/
structure ExecGraph where
  deps : DiGraph Cmd
  keyToId : StrMap Nat
  logfile : LogFile
  completed : List String

namespace ExecGraph

/-- `ExecGraph::new` (execgraph.rs:190-199). -/
def new (lf : LogFile) : ExecGraph := ⟨.empty, fun _ => none, lf, []⟩

/-- `ntasks` (execgraph.rs:201-203). -/
def ntasks (g : ExecGraph) : Nat := g.deps.n

/-- `get_task` (execgraph.rs:205-207). -/
def getTask (g : ExecGraph) (id : Nat) : Option Cmd := g.deps.nodes[id]?

/-- `task_keys` (execgraph.rs:209-215). -/
def taskKeys (g : ExecGraph) : List String := g.deps.nodes.map (·.key)

/-- Loop over the dependencies in `add_task` (execgraph.rs:228-234): the graph after it, and whether all were valid. -/
def addDeps (new : Nat) : DiGraph Cmd → List Nat → DiGraph Cmd × Bool
  | g, [] => (g, true)
  | g, d :: ds =>
    if d = new ∨ (g.nodes[d]?).isNone then (g.removeNode new, false)
    else addDeps new (g.addEdge d new) ds

/-- Error of `add_task` (execgraph.rs:223, 231). -/
inductive AddErr where
  | emptyCmdline
  | invalidDependency
deriving DecidableEq, Repr

/-- `ExecGraph::add_task` (execgraph.rs:217-239): result and new graph. -/
def addTask (g : ExecGraph) (cmd : Cmd) (dependencies : List Nat) : Except AddErr Nat × ExecGraph :=
  match g.keyToId cmd.key with
  | some i => (.ok i, g)
  | none =>
    if cmd.cmdline.isEmpty then (.error .emptyCmdline, g)
    else
      let new := g.deps.n
      let r := addDeps new (g.deps.addNode cmd) dependencies
      if r.2 then (.ok new, { g with deps := r.1, keyToId := g.keyToId.set cmd.key new })
      else (.error .invalidDependency, { g with deps := r.1 })

end ExecGraph

/-- What `get_subgraph` cannot know: the orders `toposort` returns (for the priorities, for the reversed graph, for
the filtered graph) and the iteration order of the hash set `reused_old_keys` (execgraph.rs:446-520). -/
structure Choices where
  ordPrio : List Nat
  ordRev : List Nat
  ordFilt : List Nat
  reuseOrder : List String

/-- `get_subgraph` lines 455-459: priorities written into the graph. -/
def withPriorities (deps : DiGraph Cmd) (ord : List Nat) : DiGraph Cmd :=
  { deps with nodes := deps.nodes.mapIdx (fun i c => { c with priority := deps.tlevel ord i }) }

/-- `get_subgraph` lines 464-475: is node `i` relevant for the target? -/
def relevant (deps : DiGraph Cmd) (target : Option Nat) (ordRev : List Nat) (i : Nat) : Bool :=
  match target with
  | none => true
  | some t => i == t || ((deps.reverse.transitiveClosure ordRev).succs t).contains i

/-- `get_subgraph` lines 464-492: the part of the graph belonging to the target. -/
def targetGraph (deps : DiGraph Cmd) (target : Option Nat) (ordRev : List Nat) : DiGraph Cmd :=
  deps.filterMap (fun i w => if relevant deps target ordRev i then some w else none)

/-- `get_subgraph` lines 498-523: without what was finished in this session or is recorded as successful. -/
def pendingGraph (sub : DiGraph Cmd) (completed : List String) (log : LogMem) : DiGraph Cmd :=
  sub.filterMap (fun _ w =>
    if completed.contains w.key then none else if log.hasSuccess w.key then none else some w)

/-- `get_subgraph` lines 510-516: keys whose recorded success is reused. -/
def reusedSuccess (sub : DiGraph Cmd) (completed : List String) (log : LogMem) : List String :=
  (sub.nodes.filter (fun w => !completed.contains w.key && log.hasSuccess w.key)).map (·.key)

/-- Does the node with index `i` have a recorded failure? (execgraph.rs:531-537) -/
def isFailure (g : DiGraph Cmd) (log : LogMem) (i : Nat) : Bool :=
  match g.nodes[i]? with
  | some w => log.hasFailure w.key
  | none => false

/-- `get_subgraph` lines 540-560: without failures and what is downstream of them. -/
def noFailGraph (f : DiGraph Cmd) (ordFilt : List Nat) (log : LogMem) : DiGraph Cmd :=
  let tc := f.transitiveClosure ordFilt
  f.filterMap (fun i w =>
    if isFailure f log i then none
    else if (tc.preds i).any (isFailure f log) then none
    else some w)

/-- `get_subgraph` lines 542-546: keys whose recorded failure is reused. -/
def reusedFailure (f : DiGraph Cmd) (log : LogMem) : List String :=
  (f.nodes.filter (fun w => log.hasFailure w.key)).map (·.key)

/-- `get_subgraph` lines 464-561: the selected graph and the reused keys, before anything is written. -/
def select (deps : DiGraph Cmd) (completed : List String) (log : LogMem) (target : Option Nat)
    (rerunFailures : Bool) (ch : Choices) : DiGraph Cmd × List String :=
  let sub := targetGraph deps target ch.ordRev
  let f := pendingGraph sub completed log
  if rerunFailures then (f, reusedSuccess sub completed log)
  else (noFailGraph f ch.ordFilt log, reusedSuccess sub completed log ++ reusedFailure f log)

/-- `get_subgraph` lines 564-568: write a Backref for each reused key, and remember it as completed. -/
def writeBackrefs : LogFile → List String → List String → Res LogfileError (LogFile × List String)
  | lf, completed, [] => .ok (lf, completed)
  | lf, completed, k :: ks =>
    (lf.write (.backref ⟨k⟩)).bind (fun lf =>
      writeBackrefs lf (if k ∈ completed then completed else completed ++ [k]) ks)

/-- `get_subgraph` (execgraph.rs:446-571): the selected graph and the changed `ExecGraph`. The iteration order of
`reused_old_keys` is `ch.reuseOrder`, to be a permutation of the reused keys. -/
def getSubgraph (g : ExecGraph) (target : Option Nat) (rerunFailures : Bool) (ch : Choices) :
    Res LogfileError (DiGraph Cmd × ExecGraph) :=
  let deps := withPriorities g.deps ch.ordPrio
  let sel := select deps g.completed g.logfile.mem target rerunFailures ch
  (writeBackrefs g.logfile g.completed ch.reuseOrder).bind (fun r =>
    .ok (sel.1, { g with deps := deps, logfile := r.1, completed := r.2 }))

/-- A task directory `<root>/<key>.<runcount>`, kept as its parts (pylib.rs:164, `join(format!("{}.{}"))`). -/
structure TaskDir where
  root : String
  key : String
  runcount : Nat
deriving DecidableEq, Repr

/-- `logfile_runcount` (pylib.rs:134-172): runcount to use, and the directory of a recorded success.
Simplified: run counts are natural numbers, `u32` in the code; in a log written by sessions they are less than the number of its lines
(`Rerun.runcount_at_most_attempts`), so `+ 1` does not overflow; a log made by other means may hold `u32::MAX`. -/
def logfileRuncount (lf : LogFile) (key : String) : Res LogfileError (Nat × Option TaskDir) :=
  match lf.mem.runcount key with
  | none => .ok (0, none)
  | some (.ready runcount _) => .ok (runcount, none)
  | some (.started runcount _) => .ok (runcount + 1, none)
  | some (.finished runcount storageRoot true) =>
    match lf.storageRoot storageRoot with
    | some p => .ok (runcount, some ⟨p, key, runcount⟩)
    | none => .panic "Unable to find storage root"
  | some (.finished runcount _ false) => .ok (runcount + 1, none)

/-- Python-level `add_task` (pylib.rs:260-288): the runcount comes from the log. `cmd` carries the other fields. -/
def pyAddTask (g : ExecGraph) (cmd : Cmd) (dependencies : List Nat) :
    Res LogfileError (Except ExecGraph.AddErr Nat × ExecGraph) :=
  (logfileRuncount g.logfile cmd.key).bind (fun r =>
    .ok (g.addTask { cmd with runcount := r.1, priority := 0 } dependencies))

/-- `replace("$KEY", &key)` on one storage root (pylib.rs:107). -/
def expandRoot (key root : String) : String := root.replace "$KEY" key

/-- Python constructor (pylib.rs:62-122): open the log, take its workflow key or make a new one, write a header.
`info` supplies the machine-dependent header fields. -/
def pyNew (es : List LogEntry) (dir : String) (storageRoots : List String) (newKey : String)
    (info : HeaderEntry) : Res LogfileError ExecGraph :=
  (LogFile.open es dir).bind (fun lf =>
    let key := (lf.mem.workflowKey).getD newKey
    (lf.write (.header { info with
      version := logfileVersion
      workflowKey := key
      storageRoots := storageRoots.map (expandRoot key) })).bind (fun lf => .ok (ExecGraph.new lf)))

/-- `failures_allowed` as the constructor stores it (pylib.rs:114-118). -/
def failuresAllowed (n : Nat) : Nat := if n = 0 then 2 ^ 32 - 1 else n

end Verif
