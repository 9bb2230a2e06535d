# Design: machine-checked model of execgraph

Source modelled: `/repo` (Rust), read as text, never built. Prover: Lean 4.33.0 (+ single Mathlib modules where
convenient). All modules are under `lean/Verif`:

* `Model/*`: the code, function by function, as total computable functions;
* `Spec/*`: the vocabulary in which properties are stated (used by no model function);
* `Proof/*`: helper lemmas and invariants;
* `Props/*`: the property theorems, each with a concrete case that meets its hypotheses;
* `Audit`: prints, at build time, the axioms of every theorem named in `MANIFEST.json` (generated).

## Trusted base

* The Lean kernel, and the standard axioms `propext`, `Classical.choice`, `Quot.sound`. No property theorem depends
  on any other axiom (printed by `Audit`). No `sorry`, no own axioms, no `native_decide`/`bv_decide`.
* The hand translation from Rust to Lean. Each definition carries a comment `file:lines` and says what is
  simplified. Nothing mechanical ties the model to the Rust text.
* Behaviour of external crates and of the system, as stated in the comment of the definition that models them:
  * `petgraph`: node/edge lists, `filter_map` renumbering, `toposort` = *any* topological order;
  * `async_priority_channel`: a pop returns an item of maximal priority; closed when the sender is dropped; items
    left can still be popped. `async_channel`: FIFO;
  * `DashMap`/`HashMap`/`HashSet`: maps and sets; iteration order is a parameter;
  * `tokio::select!`: any ready branch; `tokio::sync::watch`, `event_listener`, atomics: sequentially consistent;
  * `slotmap`: versioned keys; `flock`, unlink, append: a file system with inodes (`Model/Lock`);
  * `serde_json` and the derived (de)serialisers: `Model/Json`, from their documentation (no limit on nesting; a
    number with fraction or exponent has no value, it only parses);
  * `postcard` 1.0: wire format in `Model/Postcard`; LZ4: any lossless compression (a parameter);
  * `shell_words::split`: `Model/Fd3`, from memory of the crate; `aho_corasick`: leftmost-first replacement.

## Modelling conventions

* A Rust panic is an explicit outcome (`Res.panic`), never a default value. Errors are explicit (`Res.err`); for
  transition systems `err ()` means that the action is not possible in that state.
* Concurrency: a labelled transition system; one action = one atomic access to shared state (one channel
  operation, one atomic, one critical section of a lock). `select!` is nondeterministic choice. Nondeterminism
  is in the action labels, so that `step` is a total computable function and every theorem quantifies over
  all lists of actions.
* Time is a clock that actions may advance by any amount.
* Counters are unbounded naturals unless wrap-around/underflow is the point (then it is explicit).
* If the code violates a claim users rely on, there is a theorem with a concrete witness (or a family of witnesses,
  or "for every such state") for the violation, name ending in `_violated`, and a theorem for the part that does
  hold, name ending in `_partial`. In `MANIFEST.json` the status is `proved` if the English statement in
  `properties.jsonl` itself contains the proviso and the violation, and both are proved; it is `partial` if something of the
  statement is not proved.

## Modules

| module | models | source |
|---|---|---|
| `Model/Base` | outcomes of calls: `ok`, `err`, `panic` | |
| `Model/Graph` | `DiGraph`: node and edge lists, `filter_map`, `reverse`, removal of the last node | petgraph |
| `Model/GraphTheory` | `descendants_at_distance`, `transitive_closure_dag`, `tlevel_dag`, `blevel_dag` | graphtheory.rs |
| `Model/ExecGraph` | `Cmd`, `add_task`, `get_subgraph`, `logfile_runcount`, the Python constructor's checks | execgraph.rs, pylib.rs |
| `Model/Display` | `Cmd::display` | execgraph.rs |
| `Model/LogFile` | entries; `load_runcounts`, `write`, `runcount`, `has_success`, `has_failure`, `storage_root` | logfile2.rs |
| `Model/Snapshot` | `read_current_and_outdated` (behind `load_logfile`) | logfile2.rs |
| `Model/Json` | the bytes of the log: printing and parsing of lines, reading the file, appending after reopening | logfile2.rs, serde_json |
| `Model/Lock` | lock file protocol, append to and reading of the log by several processes, `Drop` | logfile2.rs |
| `Model/Tracker` | `ReadyTrackerServer`/`ReadyTrackerClient`: queues, claim flags, event channel, counters, shutdown, drain | sync.rs |
| `Model/Status` | `get_queuestate` against `add_to_ready_queue` (etag long polling) at the level of single atomics | sync.rs |
| `Model/World` | histories: sessions over one log file: open, `add_task`, `execute` (tracker steps), process end at any point | execgraph.rs, pylib.rs, logfile2.rs |
| `Model/System` | local process loops, HTTP handlers, ping reaper, shutdown of `execute`, on top of the tracker | localrunner.rs, server.rs, execgraph.rs |
| `Model/Print` | the lines printed by `_finished_bookkeeping_1` and `drain` | sync.rs |
| `Model/Mirror` | `rawlog!`: console and mirror file with std's buffered writers; construction of several graphs | logging.rs, pylib.rs |
| `Model/Piped` | the same when stdout is a file or pipe: a second buffer | logging.rs:47-90, 171-176 |
| `Model/Construct` | the Python constructor step by step, each step failing or not; the mutex of the mirror | pylib.rs:62-122, logfile2.rs:185-211, logging.rs:93-106 |
| `Model/Abort` | `execute` panicking at any point, the session going on | execgraph.rs, sync.rs |
| `Model/LogIo` | `LogFile::write`, `flush`, `Drop` with a buffered file that may fail | logfile2.rs |
| `Model/Lifetime` | the variables of `execute` and the runtime around `Model/System`: return, panic, drop of the runtime | execgraph.rs:251-258, 279-333, 386-397; pylib.rs:350-364 |
| `Model/Copy` | `load_logfile`, `write_logfile` on the bytes of the files | pylib.rs:396-420 |
| `Model/WheelRace` | the timer wheel with atomic clock and locks as separate actions of any number of threads | time/timewheel.rs |
| `Model/Watcher` | the watcher of Slurm's error file: bytes of the file, inotify events, channel of capacity 1 | bin/execgraph-remote.rs:672-727 |
| `Model/Expand` | `%` patterns in options, job ids | bin/execgraph-remote.rs:34-43, 643-668 |
| `Model/Family` | scheduler and local loops together with the pipes and processes of all tasks: synchronised product of `Model/System` and `Model/ChildIo` | localrunner.rs:46-153 |
| `Model/Admin` | the four requests of the admin socket beside the system, the limiter and the output | admin_server.rs:20-69 |
| `Model/Lossy` | `from_utf8_lossy`, the output in reports of local and remote tasks | localrunner.rs, execgraph-remote.rs, server.rs |
| `Model/Numbers` | `count_offset` over the executes of a session | execgraph.rs, sync.rs |
| `Model/Limited` | an execute together with its rate limiter | sync.rs, time/gcra.rs |
| `Model/Average` | the server together with the ring buffer of runtimes | sync.rs, simpleringbuffer.rs |
| `Model/Launches` | the server and its clients together with the rate counter | sync.rs, time/ratecounter.rs |
| `Model/Metered` | an execute with its rate limiter and its launch counter | sync.rs, time/gcra.rs, time/ratecounter.rs |
| `Model/Lifecycle` | beginning and end of HTTP server, admin server, provisioner; `join_all` | execgraph.rs, admin_server.rs |
| `Model/Sockets` | socket files of admin servers: names, regular expression, cleanup by several processes | admin_server.rs |
| `Model/TimeWheel` | the timer wheel | time/timewheel.rs |
| `Model/Hold` | `System` with the clock of the holding time of requests for a task | server.rs:346-369, constants.rs, execgraph-remote.rs:153 |
| `Model/Gcra` | launch rate limiter | time/gcra.rs |
| `Model/RateCounter` | launch rate in the status, over the real numbers | time/ratecounter.rs |
| `Model/Token`, `AsyncFlag`, `Ring` | cancellation token; flag and counter with waiters; average of runtimes | fancy_cancellation_token.rs, async_flag.rs, simpleringbuffer.rs |
| `Model/Fd3` | `ChildOutput`: exit status, fd 3 values, output decoding | localrunner.rs |
| `Model/ChildIo` | one local task with its pipes: feeding the input, reading the outputs, arbitrary programs with descendants | localrunner.rs |
| `Model/Postcard` | HTTP messages, encoding, compression threshold, body limit | httpinterface.rs, http_extensions/* |
| `Model/Remote` | the remote runner: deadline, child cleanup, error conversion, loss of the server, main loop and `run_command` | bin/execgraph-remote.rs |
| `Model/Cluster` | the server of `System` with any number of runners of `Remote`, and a network that delays and loses | server.rs, execgraph-remote.rs |
| `Model/Deploy` | `World` with a `Cluster` for each `execute`; remote runners that outlive their server | all of the above |
| `Model/Disk` | `World` over the bytes of the log file; a process can end with the file cut anywhere | logfile2.rs, pylib.rs |

### Levels of abstraction and what connects them

* `World` uses the tracker model as it is; entries written by the tracker are the entries of `Model/LogFile`. The byte
  level (`Json`) is connected by the round trip of files of entries (`Props/LogBytes`); a crash in `World` loses no
  part of an entry (entries are atomic there). `Disk` runs `World` over bytes with cuts anywhere; `session_is_history` says
  that its sessions are those of `World`.
* `System` contains the tracker model as a component; each runner action is a tracker action or leaves the tracker
  alone, so all theorems on tracker runs apply to system runs (`Proof/System*`).
* The timer wheel inside `System` is the model of `Model/TimeWheel`, whose operations are atomic. `WheelRace` looks inside: C147 says how
  far the operations of several threads look atomic (they do as long as no thread is stalled in `insert` for the whole delay).
* `Cluster` composes `System` and any number of `Remote` runners. Its runs project to runs of `System` that meet the
  assumption made there on clients (`runners_polite`), so all theorems on system runs apply. The network delays and loses requests
  and answers and does not duplicate them; pings are requests anybody may send at any time.
* `Deploy` puts a `Cluster` into each `execute` of `World`. Its runs project to histories of `World` (C105), so all theorems on
  histories apply. Remote runners of a process that has ended or was killed go on by themselves; its local children are not followed.
* In `System` the input and output of a local task are single actions (`loopOutput`, its report). `ChildIo` looks inside: it is one task of
  one loop, with pipes of finite size and an arbitrary program. It is not composed with `System`; C119, C120 and C118 say when the
  assumption of `System` (a started process ends and can be reported) is not met.
* `Print` is a function of tracker runs; `Mirror` is a model of its own, connected by `execute_mirrored` (C141): one `rawlog!` for each line.
* Token operations are atomic in `System`; `Token.cancel_atomic` (Props/Token) says when this is justified, and C60 shows
  the race otherwise.

### Not modelled

Of the logging: tracing, the mutex around the writers except its poisoning (C179). Floating point (the rate counter is modelled over the real numbers), latency histograms, what the provisioner process does, TCP/HTTP transport itself (requests arrive, are delayed or lost), pyo3 glue except the functions named above,
argument parsing of the remote binary except its `%` patterns, OS process spawning except its outcome, `Debug` formatting of error messages, memory exhaustion.

## How the properties are proved

* Graph and selection (C01–C09, C72): invariants over lists of `add_task` calls; closure and levels by induction over the
  topological order; characterisation of `get_subgraph` by its specification in `Spec/Selection`.
* One execute (C10–C31, C35, C74–C78): one inductive invariant (`Proof/TrackerInv*`) relating claim flags, channels,
  counters and statuses, preserved by every action of a well-behaved run (`TrackerStep*`), and history facts (`TrackerHist`,
  `TrackerRuns`, `TrackerEntries`, `TrackerFizzle`). Violations: concrete action lists, with "for all continuations" where the
  claim is a hang.
* Histories (C32–C39, C73): invariant over all histories including process ends at any point (`Proof/World`).
* Log (C33, C34, C40–C44, C91): structural induction on entry lists; printer/parser round trip on bytes.
* Locking (C45, C79): invariant over interleavings of any number of processes.
* Runners and server (C22, C47–C49, C52–C54, C58, C59, C82–C90): invariants over system runs: each task has one holder
  (connection, handler, loop or report), timers of connections, sources of reports.
* Small components (C50, C51, C55–C57, C60–C68, C80, C81): simulation by countdowns (wheel), potential on `tat` (limiter),
  interleavings with any number of waiters (flag), counting argument (C81).
* Remote runner (C69–C71, C92–C98): arithmetic; invariant over snapshots; the trace is a sequence of rounds (`Proof/Remote`).
* Server and runners together (C99–C104): invariant relating packets, handlers, transactions and runners (`Proof/Cluster*`), on
  top of the trace of rounds and of the counts of transactions (`Proof/System9`).
* Deployments (C105–C109): every report is traced back to a process seen to end (`Proof/Cluster6`); invariant over deployments
  that ties clusters, histories and processes together (`Proof/Deploy`).
* Bytes over histories (C110–C112): simulation of `Disk` by `World` (`Proof/Disk`): the bytes are those of the entries, or those
  without the last newline, or refused.
* The end of `execute` (C113–C116): a potential that every inside action lowers (`Proof/Measure`, `Proof/Terminate`); case
  distinction on what everybody is waiting for (`Proof/Stuck*`); both together for infinite fair runs (`Proof/Terminate2`).
* Pipes (C117–C122): invariant over runs of one task with any program (`Proof/ChildIo`): what was written is read or in the pipe, behind the
  end of the file nobody can write; exact characterisation of blocked states and a potential (`ChildIo2`); processes that
  keep a descriptor (`ChildIo3`).
* Rate counter (C123, C124): closed form by induction over the events, inequalities of the exponential function.
* Tasks behind `execute` (C125–C128): invariant and potential over all orders of events (`Proof/Lifecycle`).
* Socket files (C129–C132): structural induction on names; invariant over interleavings of processes, sessions and cleaners; closed form of a
  pass (`Proof/Sockets`).
* Remote runners (C133–C134): a potential over the whole system, a second one for waiting handlers, and a case analysis of states in which
  nothing brings the tasks forward (`Proof/Progress`, `Proof/Churn`, `Proof/Standstill`).
* Return of `execute` with remote runners (C135–C137): in a fair infinite run the potential ceases to decrease; from then on the case analysis
  of C134 applies at every moment, and fairness of the single handlers and of the reaper excludes each case (`Proof/Fairly`,
  `Proof/Fairly2`; silence by the invariant of the timer wheel, `Proof/Fairly3`). That such runs exist is shown by extending finite runs at
  whose end everything has returned.
* Printing (C138): invariant over tracker runs relating the printed lines, the closed tasks and the counters (`Proof/Print`); keys counted as done and
  keys of selected tasks are different (`Proof/Print2`).
* Console and mirror file (C139–C141): every writer keeps "written and buffered = before and a beginning of the text"; `write_all` ends since each
  turn uses up a byte or an answer (`Proof/Mirror`, `Mirror2`); induction over histories of the process (`Mirror3`).
* Panicking `execute` (C142): the invariant of `World` is kept when an action of the scheduler is broken off after any number of its entries
  (`Proof/Abort`); the theorems on histories then follow as before.
* Failing writes to the log (C143): the writer keeps "file and buffer = before and a beginning of the line" (`Proof/LogIo`); a scanner that follows nesting and
  strings shows that a beginning of a line followed by another line is not JSON (`Proof/Json4`).
* Storage roots (C144): invariant over histories: roots named in Ready entries, numbers of roots in headers, header in memory = newest header (`Proof/Roots`).
* Lifetimes (C145): invariant: after the join nobody is left who could use the tracker (`JoinInv`), with the place of `execute` (`FrameInv`); the violations by replaying steps (`Proof/Lifetime`).
* Copying logs (C146): what the parser returns can be written (`fromStr_writable`); the strict and the tolerant reader agree (`loadLines_readAll`); 'current' has of every key the last part of its history, beginning with a Ready entry (`current_tail`), for which the newest session must have a Ready entry before each other entry of a key and no Backref twice: an invariant of histories (`CInv`, `Proof/CopyWorld`).
* The timer wheel with threads (C147): a run of small actions is related to a serial run on a wheel of duration 256 (a delay is a number of ticks), see `run_serial`; the theorems on the wheel of one thread (C56, C57) then apply.
* The watcher (C148): an invariant of all runs (`Proof/Watcher`), with the content of the file at earlier moments as ghost information.
* Patterns (C149): adding one replacement to a simultaneous expansion (`replace_expand`), by induction on the text.
* Local tasks with their programs (C151-C153): both projections of a run of the product are runs (`Runs.sys`, `tied`); termination with the measure `(b+1) * left + work of the tasks` (`total_step`), enabledness by lifting C114 through the pipes (`able_or_jammed`).
* Admin requests (C154): every run with requests is a run of the system with the answered shutdowns inserted (`carried_out`); conversely any run of the system can have ignored requests inserted (`shutdown_ignored_violated`).
* Outcome (C155): `nothing_forgotten` (C15) plus the origin of reports give an exact description of a complete run in terms of graph and behaviour of the tasks; equality of two runs follows.
* Completeness and results (C156, C157): a whole `execute` is decomposed into selection (C08), tracker run and end (`executed_cases`); where Finished entries come from is an invariant over histories (`RepInv`).
* Programs (C158): `Yields` is a big-step semantics of one process without pipes; an invariant over the runs of pipes and processes says that a process that is alone is on the track of this semantics; with C155 and C152 this gives the log of a whole `execute` as a function of graph and programs.
* Placement (C159): what the scheduler is told by a cluster in which nothing goes wrong is faithful to the behaviour of the tasks (`Cluster.anywhere_peace`): a reported exit code comes from a process of a loop or, by the story of each remote runner, from a process of the runner; a report of a disconnected runner needs 255 silent ticks. With C155 this determines the log.
* Reading only what is there (C160, C161): inversion of the decoders of entries; decoders of messages do not look at what follows (`Extends`), so a proper beginning of an encoded message cannot decode.
* Resuming (C162): in histories with one `execute` per session the successes in the log are closed under dependencies (`log_closed`, by induction over the history). So the subgraph selected contains every path from an unfinished task to a selected one, and what is due in it is what is due in the whole graph; then C155 determines the outcome.
* Whole deployments (C163): exit codes in the log are true (C108), so successes in the log are what the programs do; the world of a deployment is a history (C105), so its log is closed under dependencies as in C162; in the last call the scheduler is told what the programs do, wherever they run (C159); then the argument of C162 applies (`resumed_core`).
* The way out (C164): the receivers in the tracker are the loops and handlers in `recv`, also after panics (`RecvOk`); after a hard cancellation, while `execute` has not returned, some part can go on by itself (`Sound.moves`); the potentials of C133-C136 (work to do, waiting handlers, the round of the reaper) bound how often.
* Postambles (C165): `Model/Hooks` adds to `World` the calls of postambles with arbitrary results, and the end of `execute` on an objection (as in `Model/Abort`). The order of calls and of Finished entries is that of `postambles_eq` and `NewOk.fin`.
* Names of attempts (C166): `Model/Names`: the path `logfile_runcount` returns and the text of the failure line; digits of two bases are compared with a small inductive relation `Writes`.
* Programs everywhere (C167): `Model/Grid` is `Model/Cluster` together with `Model/Family` and, for every remote runner, the pipes and processes of `Model/ChildIo`; the change of phase of a runner is taken together with what it means for its pipes (`follow`). The reports of a runner are then not free but what `wait_with_output` yields. Simplified: stdout and stderr of the child are read but not reported (they are in `/end` but not in the log).
* Process groups (C168, C169): `Model/Signals` has the processes of a machine with groups, sessions, dispositions of SIGTERM and the foreground group of a terminal. Not modelled: zombies, permissions, masks, other signals.
* The end of `execute` with the actual runners (C170, C171): `Spec/Runners` has infinite runs of the cluster; what the server sees of them is an infinite run in the sense of C135-C137, with an idle moment for every action that is none of its business.
* Everything done with the actual runners (C172): the invariant `Smooth` of runs without trouble says of every request that its sender waits for it or has heard its answer, and of every task received that its runner is still at it, has sent its report, or the connection is gone.
* The grammar of JSON (C173): `Spec/JsonGrammar.lean` states the grammar of RFC 8259 as inductive predicates; soundness of the parser by induction on the fuel, completeness by induction on the derivation. C160 is stated with the grammar, not with the parser.
* Last flush (C174): `Abort.Act.unflushed`; the invariant of histories does not depend on what the caller is told.
* Runners sent away (C175): `step_handlers` lists the moves of a handler; while serving the token says hard only after a cancellation (induction), the queues are closed only by a soft shutdown; C15 gives the rest.
* Ranges (C176): from the counting invariant of C15-C20; a walk is not longer than what stands before its end in a topological order.
* Time (C177): a state without own actions is characterised from the lemmas of C114; over the run, for every task that may still run a chain of dependencies ending in it whose running time is at least the time in which some loop was free (on such a tick the task runs, or by induction on its number an unfinished dependency has such a chain); the slots are counted by `numParallel * elapsed <= work + (numParallel - 1) * idle`.
* Holding time (C178): times of arrival and of the call of `sleep` are recorded along the run; when nothing is left to do every request is answered or held (from the lemmas of C134), so that time goes by only for requests that are held, and these were held since they came.
* Constructors (C179): case analysis over the steps; what `load_runcounts` knows of the headers by induction over the lines (`Proof/Construct`); the spoilt mirror by induction over the operations of the process.
* Redirected stdout (C180): the line writer takes a beginning of the text as long as it says, whatever the answers (`Buf.lineWrite_wrote`); flushing the outer buffer by induction over what is left and the answers; the pieces by induction.
* Output of tasks (C181): `Spec/Lossy` has the maximal subparts of the Unicode standard; the table of first and second bytes against the encoding of characters by arithmetic; the pieces by induction along the bytes.
* Numbers of a session (C182): the lines of each execute (C138) put together along a history; the offset of the next execute is at least the number of reports handled before, by disjointness of the keys.
* Launch rate of an execute (C183): `Model/Limited` lets a loop or request into `recv` only with a permit of the limiter; who waits in `recv` has used a permit and uses it up when handed a task (`holding_step`); the permits of a stretch move `tat` ahead, which is never more than a second ahead of the clock (`granted_le`).
* Average runtime (C184): `Model/Average` pairs the tracker with the ring of C67; the inflight map agrees with the start reports of the trace on tasks not yet finished (`TimesOk`, from the proof about quick failures), so each push is the runtime the trace says (`ring_step`).
* Launch rate over an execute (C185): `Model/Launches` pairs the tracker with the counter of C123; its updates are the tasks obtained (`ctr_runs`, `launches_tasks`), in the order of the clock (`launches_inOrder`), so that the closed form of C123 applies.
* Rate shown under a limit (C186): `Model/Metered` adds the counter to `Model/Limited`; by C183 the last m launches take at least m intervals less `1 s + H` intervals (`sparse_run`), so the weighted sum is at most `exp((1 + H/r)/30)` times a geometric sum of as many terms as fit into the time since the start (`weighted_le`, `powers_le`), which the denominator cancels.

## Testing of the theorems

`seeded/LOG.jsonl`: one line per wrong program tried (edit of a model definition in a scratch copy), with the theorems that
failed and what was tightened.

## Status of each property

Theorem names are relative to `Verif.Props`. `v`: violation proved.

| id | property | status | theorems |
|---|---|---|---|
| C01 | add_task is idempotent on the key | proved | `TaskGraph.add_task_idempotent`, `TaskGraph.add_task_fresh` |
| C02 | A rejected add_task leaves no trace | proved | `TaskGraph.rejected_leaves_no_trace`, `TaskGraph.rejected_iff`, `TaskGraph.accepted_edges` |
| C03 | The task graph is always acyclic | proved | `TaskGraph.graph_acyclic` |
| C04 | Keys identify tasks | proved | `TaskGraph.keys_identify_tasks` |
| C05 | Transitive closure is reachability | proved | `GraphTheory.closure_is_reachability`, `GraphTheory.closure_multiplicity`, `GraphTheory.descendants_at_distance_correct` |
| C06 | Priority is the longest dependency chain | proved | `GraphTheory.priority_is_longest_chain`, `GraphTheory.priority_increases`, `GraphTheory.priority_order_independent`, `GraphTheory.blevel_is_longest_chain` |
| C07 | execute(target) touches only the target and what it needs | proved | `Selection.target_only`, `Selection.unknown_target` |
| C08 | Exactly which tasks one execute call selects | proved | `Selection.selection_exact`, `Selection.legal_choices_exist` |
| C09 | Backrefs are written exactly for reused results | proved | `Selection.backrefs_exact`, `Selection.backrefs_once_per_session` |
| C10 | A task is handed out only after its dependencies succeeded | proved | `Tracker.dependencies_first`, `Tracker.dependencies_first_transitive`, `Tracker.ghosts_are_observations` |
| C11 | At most one runner gets a task | proved | `Tracker.obtained_once` |
| C12 | Affinity is respected | proved | `Tracker.affinity_respected`, `Tracker.runner_type_checked` |
| C13 | Highest priority first | proved | `Tracker.highest_priority_first` |
| C14 | A failure stops everything downstream of it | proved | `Tracker.failure_stops_downstream` |
| C15 | Nothing is forgotten | proved | `Tracker.nothing_forgotten`, `Tracker.all_succeed` |
| C16 | Execution order is duplicate-free and topological | proved | `Tracker.order_topological` |
| C17 | The failure count is right | proved | `Tracker.failure_count`, `Tracker.failure_count_drained` |
| C18 | Queue counters shown by /status are exact | proved | `Tracker.queue_counters`, `Tracker.queue_entry_exists` |
| C19 | num_ready can wrap around after a soft shutdown | proved (v) | `Tracker.ready_zero_after_soft_shutdown_partial`, `Tracker.ready_after_soft_shutdown_violated` |
| C20 | The unready count is exact | proved | `Tracker.unready_exact` |
| C21 | No internal panic with well-behaved runners | proved | `Tracker.no_panic`, `Tracker.diamond_good` |
| C22 | A duplicated /begun kills the server loop | proved (v) | `System.repeated_begun_panics_violated`, `Tracker.second_start_report_panics` |
| C23 | Progress: the scheduler never deadlocks while queues are served | proved | `Tracker.progress`, `Tracker.pop_possible` |
| C24 | A task with empty affinity hangs execute | proved | `Tracker.empty_affinity_hangs` |
| C25 | Bounded work | proved | `Tracker.work_bounded` |
| C26 | Soft shutdown dispatches nothing new | proved | `Tracker.soft_shutdown_dispatches_nothing`, `Tracker.trigger_is_soft` |
| C27 | Soft shutdown waits for started tasks | proved (v) | `Tracker.serving_waits_for_started_partial`, `Tracker.soft_shutdown_waits_violated` |
| C28 | A soft shutdown while nothing runs never ends by itself | proved | `Tracker.idle_soft_shutdown_hangs`, `Tracker.idle_soft_reachable` |
| C29 | failures_allowed counts only quick failures | proved (v) | `Tracker.soft_shutdown_iff_quick_failures`, `Tracker.unlimited_failures`, `Tracker.limit_as_given`, `Tracker.limit_fits`, `Tracker.quick_failures_le`, `Tracker.stop_after_failures_violated` |
| C30 | After execute every Started has a Finished in the log | proved | `Tracker.drained_log_closed` |
| C31 | Reported order vs. log during shutdown | proved (v) | `Tracker.listed_is_logged_partial`, `Tracker.logged_is_listed_violated` |
| C32 | A failed dependency blocks a task across execute calls | proved (v) | `World.dependencies_succeeded_partial`, `World.dependencies_succeeded_violated`, `World.reused_failure_violated`, `Rerun.dependencies_settled` |
| C33 | The log protocol holds in every history | proved | `Log.reopen_iff`, `Log.reopen_panic`, `Log.write_iff`, `World.log_always_opens`, `World.open_succeeds`, `World.history_no_panic` |
| C34 | Reopening a log restores exactly the in-memory state | proved | `Log.reopen_reads_file`, `Log.success_iff_last_entry`, `Log.reopen_restores`, `Log.reopen_prefix` |
| C35 | A Started entry is preceded by its dependencies' success entries | proved (v) | `Tracker.started_after_dependencies`, `Tracker.ready_after_dependencies_violated` |
| C36 | A task recorded as successful is never run again | proved | `World.success_never_rerun`, `World.success_not_obtained` |
| C37 | Attempts get fresh runcounts | proved (v) | `World.runcounts_increase_partial`, `World.runcounts_increase_violated`, `Rerun.runcounts_never_decrease`, `Rerun.runcount_at_most_attempts`, `Rerun.attempts_numbered`, `Rerun.logfile_runcount_counts`, `Rerun.runcount_shared_violated` |
| C38 | The workflow key never changes | proved | `Log.workflow_key_stable`, `Log.workflow_key_kept`, `Log.reopen_iff` |
| C39 | logfile_runcount points at the directory of the success | proved (v) | `Log.success_directory_partial`, `Log.success_directory_violated`, `Log.success_directory_panics` |
| C40 | load_logfile's current part is the last session plus what it reuses | proved | `Snapshot.current_exact`, `Snapshot.nothing_lost` |
| C41 | Outdated never names a current key | proved | `Snapshot.outdated_disjoint`, `Snapshot.reused_result_is_current` |
| C42 | load_logfile panics exactly on duplicate Backrefs | proved | `Snapshot.panics_iff_duplicate_backref`, `Snapshot.written_log_never_panics` |
| C43 | Log lines: round trip and framing | proved | `LogBytes.entry_is_one_line`, `LogBytes.entry_round_trip`, `LogBytes.file_round_trip`, `LogBytes.file_injective` |
| C44 | A torn last line makes the log unusable | proved (v) | `LogBytes.cut_somewhere`, `LogBytes.torn_line_rejected_violated`, `LogBytes.torn_line_read`, `LogBytes.lost_newline_opens`, `LogBytes.glued_line_rejected_violated`, `LogBytes.reopen_after_crash_iff` |
| C45 | Exclusive access to the log | proved (v) | `Lock.exclusive_partial`, `Lock.second_opener_refused`, `Lock.next_opener_succeeds`, `Lock.one_session_per_lock_file`, `Lock.exclusive_without_removal`, `Lock.exclusive_violated`, `Lock.exclusive_in_drop_violated` |
| C46 | Exit status mapping | proved | `Fd3.success_iff_exit_zero`, `Fd3.recorded_number`, `Fd3.recorded_number_ambiguous` |
| C47 | Local parallelism bound | proved | `System.local_parallelism`, `System.no_local_without_parallel`, `System.no_more_loops`, `System.loop_protocol`, `System.loop_types`, `System.killed_only_if_hard` |
| C48 | Soft cancellation hits only recently started tasks | proved | `System.cancelled_recently_started`, `System.not_cancelled_without_failures` |
| C49 | Preamble and postamble calls | proved (v) | `System.preamble_called_twice_violated`, `System.postamble_once` |
| C50 | fd3 values parsing | proved | `Fd3.values_by_line`, `Fd3.lines_exist`, `Fd3.values_utf8`, `Fd3.value_of_key`, `Fd3.unclosed_quote`, `Shell.words_of_line`, `Shell.map_of_line` |
| C51 | Displayed commands are single-cell text | proved | `Display.display_text`, `Display.pieces_exist`, `Display.display_clean`, `Display.display_verbatim`, `Display.display_panics_iff` |
| C52 | Requests without the token change nothing | proved | `System.unauthorized_changes_nothing` |
| C53 | Each remote task is reported finished at most once, and exactly once when its connection goes away properly | proved | `System.reported_at_most_once`, `System.responsible_or_reported`, `System.connections_distinct`, `System.end_takes_connection` |
| C54 | A task can be lost by /end from another Slurm job | proved (v) | `System.foreign_end_abandons_violated`, `System.foreign_end_hangs_violated`, `System.abandoned_unreported`, `System.abandoned_hangs`, `System.abandoned_started_hangs` |
| C55 | Silent runners are disconnected, pinging ones are not | proved | `TimeWheel.silent_fires_at_255`, `TimeWheel.pinging_never_fires`, `TimeWheel.timeout_in_ticks` |
| C56 | Timer wheel exactness | proved | `TimeWheel.wheel_refines`, `TimeWheel.fires_exactly`, `TimeWheel.ticks_for_delay`, `TimeWheel.wheel_panics_iff` |
| C57 | Cancelling a timer cancels only that timer | proved (v) | `TimeWheel.wheel_refines`, `TimeWheel.cancelled_never_fires`, `TimeWheel.cancelled_id_not_reused`, `TimeWheel.cancel_after_fire_violated` |
| C58 | A Slurm job reported as safe to cancel gets no further task | proved (v) | `System.marked_job_gets_no_task_partial`, `System.mark_reply`, `System.marked_start_refused`, `System.marked_waiting_start_violated`, `System.marked_next_task_violated` |
| C59 | The reaper can crash on a concurrent /end | proved (v) | `System.reaper_dies_violated`, `System.dead_reaper_never_reports` |
| C60 | Cancellation only grows | proved (v) | `Token.cancels_cover`, `Token.cancel_atomic`, `Token.cancellation_grows_partial`, `Token.cancellation_grows_violated`, `Token.value_was_requested`, `Token.cancelled_future_returns`, `Token.future_returns_only_if_covered` |
| C61 | No lost wake-ups | proved | `AsyncFlag.flag_no_lost_wakeup`, `AsyncFlag.flag_shows_last`, `AsyncFlag.flag_wait_means_set`, `AsyncFlag.counter_no_lost_wakeup`, `AsyncFlag.counter_wait_exceeds`, `AsyncFlag.counter_counts`, `AsyncFlag.sleeper_notified_or_pending` |
| C62 | Etag long-polling | proved (v) | `Status.early_answer`, `Status.not_before_timemin`, `Status.answer_covers_etag`, `Status.nothing_missed`, `Status.repoll_answered`, `Status.one_larger_needs_two`, `Status.one_larger_violated`, `Status.totals_are_batches` |
| C63 | Launch rate limit | proved | `Rate.rate_window`, `Rate.rate_no_initial_burst`, `Rate.rate_per_seconds`, `Rate.reset_is_fresh` |
| C64 | The limiter does not starve | proved | `Rate.retry_granted`, `Rate.wait_at_most_one_interval`, `Rate.unlimited` |
| C65 | Rate read-back | proved (v) | `Rate.rate_readback`, `Rate.rate_readback_ge`, `Rate.rate_readback_violated` |
| C66 | Permits are hoarded by idle receivers | proved (v) | `Rate.launch_rate_violated`, `Rate.launch_rate_partial`, `Rate.launch_rate_window`, `Rate.accounting` |
| C67 | Average runtime | proved | `Ring.mean_eq`, `Ring.mean_between`, `Ring.mean_forgets`, `Ring.new_100`, `Ring.new_iff` |
| C68 | HTTP body codec round trip | proved (v) | `Codec.requests_round_trip_partial`, `Codec.responses_round_trip`, `Codec.unknown_refused`, `Codec.long_output_refused_violated` |
| C69 | Remote deadline reserve | proved (v) | `Remote.deadline_reserve`, `Remote.description_no_panic`, `Remote.description_true_partial`, `Remote.description_false_violated` |
| C70 | SIGKILL only 5 seconds after SIGTERM | proved (v) | `Remote.term_when_first_seen_partial`, `Remote.kill_only_after_term_partial`, `Remote.one_term_partial`, `Remote.kill_if_still_there_partial`, `Remote.cleanup_returns`, `Remote.reused_pid_killed_violated` |
| C71 | Error conversion does not terminate | proved (v) | `Remote.conversion_diverges_violated`, `Remote.stuck_forever_violated` |
| C72 | Empty key is not special | proved (v) | `Selection.empty_key_skipped_violated`, `Selection.empty_key_deduplicated_violated` |
| C73 | What an execute call logged survives the process | proved (v) | `World.returned_is_durable_partial`, `World.returned_is_durable_violated` |
| C74 | What execute returns agrees with the log | proved | `World.result_agrees_with_log`, `World.nothing_to_run` |
| C75 | Nothing runs twice in one session | proved | `World.nothing_runs_twice_in_session` |
| C76 | Log entries say what happened | proved (v) | `Tracker.entries_have_origin`, `Tracker.started_entry_violated` |
| C77 | Finish reports are acknowledged, and not too early | proved | `Tracker.reports_acknowledged`, `Tracker.over_is_cancelled`, `Tracker.acknowledged_is_processed` |
| C78 | The event counter counts batches of ready tasks | proved | `Tracker.counter_counts_batches` |
| C79 | Sessions only append to the log | proved (v) | `Lock.file_only_grows_partial`, `Lock.file_overwritten_violated` |
| C80 | Quoted values survive | proved (v) | `Fd3.written_words_split`, `Fd3.laid_words_split`, `Fd3.values_round_trip_partial`, `Fd3.newline_value_lost_violated` |
| C81 | Long output and the end report | proved (v) | `Codec.requests_round_trip_partial`, `Codec.long_output_refused_violated` |
| C82 | A panicking local runner | proved (v) | `System.loop_panic_abandons_violated`, `System.loop_panics_iff`, `System.fd3_input_hangs_violated`, `System.abandoned_unreported`, `System.abandoned_hangs` |
| C83 | A failing preamble of a remote task | proved (v) | `System.handler_panic_abandons_violated`, `System.abandoned_unreported`, `System.abandoned_hangs` |
| C84 | Transaction ids are unique | proved (v) | `System.txn_collision_abandons_violated`, `System.txn_collision_wrong_task_violated` |
| C85 | A silent runner is noticed | proved (v) | `System.silent_connection_reaped_partial`, `System.stalled_end_stops_watching_violated` |
| C86 | A runner that pings is not declared disconnected | proved (v) | `System.disconnected_only_if_partial`, `System.pinging_not_disconnected_partial`, `System.stale_timer_disconnects_violated` |
| C87 | Soft cancellation ends only recently started remote tasks | proved | `System.disconnected_only_if_partial` |
| C88 | Finish reports are true | proved | `System.finish_reports_true` |
| C89 | The next task of /end comes after its own finish | proved | `System.next_task_after_processing` |
| C90 | execute leaves no runner behind | proved | `System.runners_ended`, `System.killed_only_if_hard`, `System.server_stops_only_if_hard` |
| C91 | Logs of other writers are read | proved | `LogBytes.read_any_order`, `LogBytes.read_older` |
| C92 | The remote runner's protocol | proved (v) | `Remote.protocol`, `Remote.end_reported`, `Remote.failed_start_reported`, `Remote.bad_task_panics_violated` |
| C93 | A runner told to stop accepts no further tasks | proved | `Remote.no_more_tasks`, `Remote.asks_for_next` |
| C94 | SIGTERM to a task | proved (v) | `Remote.sigterm_only`, `Remote.sigterm_storm_violated`, `Remote.sigterm_after_end_violated` |
| C95 | No tasks after the deadline | proved (v) | `Remote.after_deadline_partial`, `Remote.black_hole_violated` |
| C96 | Runner and server give each other up in the right order | proved (v) | `Remote.gives_up_before_server_partial`, `Remote.gives_up_after_server_violated`, `Remote.patient` |
| C97 | A runner leaves no task behind | proved (v) | `Remote.exit_leaves_nothing`, `Remote.panic_leaves_child_violated` |
| C98 | A task that does not read its input blocks the runner | proved (v) | `Remote.deaf_while_feeding_violated` |
| C99 | Honest runners cannot bring the server down | proved | `Cluster.runners_polite`, `Cluster.server_does_not_panic` |
| C100 | Reported exit codes are what the runner saw, end to end | proved | `Cluster.finish_reports_true` |
| C101 | Reported hosts, process ids and jobs are true, end to end | proved | `Cluster.start_reports_true` |
| C102 | At most one process per task, everywhere | proved | `Cluster.at_most_one_process`, `Cluster.runs_what_it_received` |
| C103 | When execute returns, tasks reported disconnected may still run | proved (v) | `Cluster.process_outlives_execute_violated`, `Cluster.reported_process_has_ended_partial` |
| C104 | Server and runner agree on who may say what | proved | `Cluster.answers_expected` |
| C105 | Deployments are histories | proved | `Deploy.deployment_is_history`, `Deploy.cluster_in_world` |
| C106 | A process is started only after processes of its dependencies were seen to end with 0 | proved (v) | `Deploy.dependencies_ended_first_partial`, `Deploy.dependencies_ended_first_violated` |
| C107 | What has succeeded is not started again | proved (v) | `Deploy.success_not_started_partial`, `Deploy.durable_success_final_partial`, `Deploy.success_not_started_violated`, `Deploy.two_processes_at_once_violated` |
| C108 | Exit codes in the log are true | proved | `Deploy.logged_exit_true`, `Deploy.logged_success_true` |
| C109 | No deployment makes the server panic | proved | `Deploy.deployment_no_panic` |
| C110 | Kills at any byte change nothing for the sessions that open | proved | `Disk.session_is_history`, `Disk.flushed_is_read`, `Disk.success_never_rerun`, `Disk.bytes_no_panic` |
| C111 | When the log can be opened again | proved | `Disk.reopens_iff`, `Disk.opens_if_lines_whole`, `Disk.refused_forever` |
| C112 | A lost newline is accepted once | proved (v) | `Disk.lost_newline_dooms`, `Disk.lost_newline_violated` |
| C113 | A bound on the work of execute | proved | `Terminate.work_bounded` |
| C114 | Never stuck | proved | `Terminate.never_stuck`, `Terminate.can_always_finish` |
| C115 | execute returns | proved | `Terminate.execute_returns`, `Terminate.execute_returns_in_time`, `Terminate.fair_run_exists` |
| C116 | Total correctness | proved | `Terminate.everything_done` |
| C117 | Reported output is complete | proved | `ChildIo.report_exact`, `ChildIo.nothing_lost` |
| C118 | A task is reported only when nobody has its pipes open | proved (v) | `ChildIo.report_waits`, `ChildIo.never_reported`, `ChildIo.background_process_violated` |
| C119 | When a task with fd_input is stuck | proved (v) | `ChildIo.stuck_iff`, `ChildIo.small_input_never_stuck_partial`, `ChildIo.large_input_deadlock_violated` |
| C120 | Input that is not read | proved (v) | `ChildIo.reader_never_panics_partial`, `ChildIo.unread_input_violated` |
| C121 | The loop does bounded work per task | proved | `ChildIo.parent_work_bounded`, `ChildIo.comes_to_end` |
| C122 | What is left of a task | proved (v) | `ChildIo.child_gone`, `ChildIo.descendants_survive_violated` |
| C123 | Launch rate in the status | proved | `RateCounter.rate_nonneg`, `RateCounter.rate_closed_form`, `RateCounter.rate_up`, `RateCounter.rate_decays` |
| C124 | The launch rate is a rate | proved | `RateCounter.rate_at_most`, `RateCounter.rate_at_least`, `RateCounter.young_rate` |
| C125 | What is left when execute returns | proved | `Lifecycle.returned_clean` |
| C126 | Life of the provisioner | proved | `Lifecycle.started_once`, `Lifecycle.cancelled_only_if`, `Lifecycle.provisioner_over` |
| C127 | HTTP server cannot be bound | proved (v) | `Lifecycle.no_server_no_provisioner`, `Lifecycle.bind_failure_violated` |
| C128 | How long the end takes | proved (v) | `Lifecycle.waits_only_for_requests`, `Lifecycle.steps_bounded`, `Lifecycle.returns_in_time`, `Lifecycle.status_request_delays_violated` |
| C129 | Names of admin sockets | proved | `Sockets.name_round_trip`, `Sockets.name_injective`, `Sockets.name_match` |
| C130 | A session in progress can be reached | proved (v) | `Sockets.reachable_partial`, `Sockets.pid_reuse_violated`, `Sockets.two_sessions_violated`, `Sockets.two_machines_violated` |
| C131 | What the cleanup removes | proved (v) | `Sockets.removes_only`, `Sockets.foreign_socket_violated` |
| C132 | A pass of the cleanup | proved (v) | `Sockets.pass`, `Sockets.pass_partial`, `Sockets.pass_stops_violated` |
| C133 | Work is bounded whatever remote runners do | proved | `Progress.work_bounded`, `Progress.waits_bounded` |
| C134 | What execute waits for with remote runners | proved | `Progress.never_stuck`, `Progress.at_rest` |
| C135 | execute returns with remote runners | proved | `Fairly.execute_returns` |
| C136 | Silent runners do not keep execute from returning | proved | `Fairly.execute_returns_silent` |
| C137 | Total correctness with remote runners | proved | `Fairly.everything_done` |
| C138 | What execute prints | proved (v) | `Print.lines_exact`, `Print.numbers_increase`, `Print.numbers_consecutive`, `Print.failures_named`, `Print.failures_named_violated`, `Print.total_bounded` |
| C139 | The mirror file gets exactly what is printed | proved | `Mirror.file_exact`, `Mirror.never_stuck`, `Mirror.succeeds_if_taken`, `Mirror.no_file_fails` |
| C140 | What the terminal shows | proved (v) | `Mirror.console_exact`, `Mirror.console_complete_partial`, `Mirror.console_loses_violated`, `Mirror.console_repeats_violated` |
| C141 | Which mirror file gets what | proved (v) | `Mirror.files_exact`, `Mirror.on_disk`, `Mirror.append_only`, `Mirror.execute_mirrored`, `Mirror.own_output_violated` |
| C142 | A session survives an execute that panics | proved (v) | `Abort.log_always_opens`, `Abort.success_never_rerun`, `Abort.nothing_lost`, `Abort.session_goes_on`, `Abort.returned_not_again`, `Abort.success_recorded_violated`, `Abort.own_backref_violated` |
| C143 | Failing writes to the log file | proved (v) | `LogIo.file_exact`, `LogIo.succeeds_if_taken`, `LogIo.memory_first`, `LogIo.ends_like_kill`, `LogIo.goes_on_violated`, `LogIo.one_refused_write_violated` |
| C144 | Storage roots must exist | proved (v) | `Roots.add_panics_iff`, `Roots.add_no_panic_partial`, `Roots.poisoned`, `Roots.no_such_root_violated`, `Roots.add_again_violated` |
| C145 | Extended lifetimes are harmless unless the server task panics | proved (v) | `Lifetime.return_is_safe`, `Lifetime.execute_is_over`, `Lifetime.use_is_noted`, `Lifetime.dangling_only_if`, `Lifetime.dangling_loop_violated`, `Lifetime.dangling_request_violated`, `Lifetime.dangling_violated` |
| C146 | Logs can be copied, merged, recovered and compacted with load_logfile and write_logfile | proved (v) | `Copy.copy_exact`, `Copy.merge`, `Copy.write_to_itself`, `Copy.merge_violated`, `Copy.recover`, `Copy.compact`, `Copy.compact_file`, `Copy.compact_violated`, `Copy.compact_opened_violated` |
| C147 | The timer wheel used by several threads | proved | `WheelRace.serialisable`, `WheelRace.race_fires`, `WheelRace.race_on_time`, `WheelRace.race_cancelled`, `WheelRace.zero_delay_early`, `WheelRace.stalled_insert_late`, `WheelRace.not_linearizable` |
| C148 | The runner hears from Slurm's error file exactly what is there | proved (v) | `Watcher.messages_true`, `Watcher.no_false_alarm`, `Watcher.nothing_missed`, `Watcher.before_watch_missed`, `Watcher.early_message_violated`, `Watcher.split_character_violated` |
| C149 | Patterns in the options of the remote runner | proved (v) | `Expand.message_expanded`, `Expand.logfile_expanded`, `Expand.double_percent_violated`, `Expand.value_with_percent_violated` |
| C150 | Job ids of remote runners | proved (v) | `Expand.array_ids_distinct`, `Expand.ids_outside_arrays_violated`, `Expand.one_marked_all_refused` |
| C151 | A local task from its process to the log | proved | `Family.run_of_system`, `Family.report_is_of_process`, `Family.logged_end_true` |
| C152 | execute returns when the programs end | proved | `Family.work_bounded`, `Family.stuck_only_by_input`, `Family.execute_returns`, `Family.fair_run_exists`, `Family.everything_done` |
| C153 | One task can keep execute from ever returning | proved (v) | `Family.one_task_blocks_execute_violated` |
| C154 | Requests to the admin socket | proved (v) | `Admin.carried_out`, `Admin.soft_only_by_admin`, `Admin.settings_shown`, `Admin.others_answered`, `Admin.shutdown_iff`, `Admin.shutdown_works_partial`, `Admin.shutdown_ignored_violated` |
| C155 | The outcome does not depend on the schedule | proved (v) | `Outcome.outcome_determined`, `Outcome.log_determined`, `Outcome.schedule_irrelevant`, `Outcome.schedule_matters_violated` |
| C156 | Zero failures means everything is done | proved (v) | `Complete.zero_failures_partial`, `Complete.all_done_means_zero`, `Complete.interrupted_violated`, `Complete.shut_down_violated`, `Complete.not_rerun_violated`, `Complete.second_execute_violated` |
| C157 | Results do not depend on the history | proved | `Complete.entries_reported`, `Complete.result_unique`, `Complete.history_irrelevant` |
| C158 | The result of execute is a function of the programs | proved (v) | `Program.program_has_one_result`, `Program.report_is_result`, `Program.log_computed`, `Program.execute_computes`, `Program.several_processes_violated` |
| C159 | The result of execute does not depend on where the tasks run | proved (v) | `Anywhere.log_determined_anywhere_partial`, `Anywhere.placement_irrelevant_partial`, `Anywhere.cut_off_runner_violated` |
| C160 | A line of the log is read as an entry only if it says so | proved | `LogRead.read_says`, `LogRead.opened_says`, `LogRead.snapshot_says`, `LogRead.accepted_iff`, `LogRead.line_accepted_iff` |
| C161 | A message that was cut short is refused | proved | `Codec.cut_messages_refused`, `Codec.compressed_iff` |
| C162 | Resuming interrupted work gives what one undisturbed run gives | proved (v) | `Resume.resumption_partial`, `Resume.as_if_uninterrupted_partial`, `Resume.two_executes_violated` |
| C163 | Work interrupted, resumed and moved between machines ends as the programs alone say | proved | `Workflow.redeployment_partial`, `Workflow.as_if_in_one_place_partial` |
| C164 | Ctrl-C and hard shutdown always get execute to return, whatever has broken | proved | `CtrlC.cancelled_returns`, `CtrlC.over_returns`, `CtrlC.always_a_way_out`, `CtrlC.ctrl_c_gets_out` |
| C165 | Postambles have the last word on what is recorded | proved (v) | `Hooks.recorded_were_granted`, `Hooks.no_success_against_veto`, `Hooks.only_capsules`, `Hooks.consulted`, `Hooks.told_rightly`, `Hooks.objection_ends_execute`, `Hooks.like_panics`, `Hooks.only_the_task_violated` |
| C166 | Names of attempts | proved (v) | `Names.names_distinct`, `Names.paths_distinct`, `Names.absolute_keys_violated`, `Names.failure_names`, `Names.shown_iff`, `Names.misleading_violated` |
| C167 | From the programs to the log, wherever they run | proved (v) | `Grid.run_of_parts`, `Grid.logged_end_true`, `Grid.log_computed_anywhere`, `Grid.placement_of_programs_irrelevant`, `Grid.one_task_blocks_runner_violated`, `GridPanic.broken_input_panics` |
| C168 | The SIGTERM with which execute ends | proved (v) | `Signals.always_own_group`, `Signals.sent_to_own_group`, `Signals.one_signal_each`, `SignalsSession.only_own_session`, `SignalsSession.no_handler_no_call`, `Signals.only_descendants_partial`, `Signals.descendants_ended_partial`, `Signals.survives_own_signal_partial`, `Signals.pipeline_violated`, `Signals.other_execute_violated`, `Signals.no_longer_ends_violated`, `Signals.own_handler_called_violated`, `Signals.handler_called_iff`, `Signals.ends_itself_violated` |
| C169 | Ctrl-C and the terminal | proved (v) | `Signals.ctrl_c_arrives_partial`, `Signals.ctrl_c_lost_violated`, `Signals.console_lost_violated` |
| C170 | execute returns with the actual remote runners | proved | `Runners.execute_returns_runners`, `Runners.connections_end_or_silent` |
| C171 | A runner's report is accepted | proved | `Runners.report_accepted`, `Runners.no_connection_lost` |
| C172 | Everything is done with the actual remote runners | proved | `Runners.everything_done_runners`, `Runners.connections_end` |
| C173 | The lines of the log are JSON, and what is read is what they denote | proved | `JsonGrammar.read_iff_json`, `JsonGrammar.one_meaning`, `JsonGrammar.written_is_json`, `JsonGrammar.entry_iff_json`, `JsonGrammar.not_json_refused` |
| C174 | An execute whose last flush fails | proved (v) | `Abort.goes_on_as_if_returned`, `Abort.failure_never_told_violated` |
| C175 | No remote runner is sent away from work | proved | `System.gone_means`, `System.not_sent_away_from_work`, `System.notFound_means`, `System.tooMany_means` |
| C176 | Counters do not overflow | proved | `Tracker.counters_divide`, `Tracker.queue_counters_fit`, `GraphTheory.priority_fits`, `Selection.priorities_fit` |
| C177 | Tasks run in parallel as far as possible | proved | `Greedy.no_idle_slots`, `Greedy.nobody_waits_in_vain`, `Greedy.time_at_most`, `Greedy.time_at_least`, `Greedy.at_most_twice` |
| C178 | A request for a task is held for 30 seconds and answered before the runner gives up | proved | `Hold.held_for_30s`, `Hold.answered_in_time`, `Hold.client_does_not_give_up`, `Hold.timeout_can_happen`, `Hold.nothing_means_nothing`, `Hold.nothing_else_waits` |
| C179 | Constructors that fail | proved (v) | `Construct.succeeds_iff`, `Construct.what_it_makes`, `Construct.failed_leaves_log`, `Construct.retry`, `Construct.one_per_directory`, `Construct.second_check_is_dead`, `Construct.mirror_and_poison`, `Construct.poisoned_forever`, `Construct.print_panics_iff`, `MirrorDir.mirror_is_last`, `MirrorDir.mirror_none_iff`, `MirrorDir.other_graph_violated`, `Construct.others_untouched`, `Construct.reopen`, `Construct.no_panic` |
| C180 | What a redirected stdout gets | proved (v) | `Piped.exact`, `Piped.succeeds_if_taken`, `Piped.flushed`, `Piped.console_exact`, `Piped.console_loses_violated` |
| C181 | What is seen of a task's output | proved (v) | `Lossy.shown_iff`, `Lossy.exact_iff`, `Lossy.unmarked_exact`, `Lossy.ascii_kept`, `Lossy.at_most_three`, `Lossy.local_exact`, `Lossy.remote_as_local`, `Lossy.slurm_text`, `Lossy.own_line_violated`, `Lossy.from_processes` |
| C182 | The numbers shown in the course of a session | proved (v) | `Numbers.numbers_rise_partial`, `Numbers.numbers_continue`, `Numbers.total_exact`, `Numbers.repeated_violated`, `Numbers.total_violated` |
| C183 | The launch rate of an execute | proved (v) | `Limited.launches_window`, `Limited.launches_from_start`, `Limited.launches_after_change`, `Limited.local_launches`, `Limited.next_permit`, `Limited.unlimited`, `Limited.nothing_else_waits`, `Limited.is_an_execute`, `Limited.burst_violated` |
| C184 | The average runtime in the status | proved | `Average.average_is_mean`, `Average.average_le_elapsed`, `Average.only_successes`, `Average.is_an_execute` |
| C185 | The launch rate over an execute | proved | `Launches.rate_is`, `Launches.launches_are_tasks`, `Launches.young_rate`, `Launches.zero_iff`, `Launches.is_an_execute` |
| C186 | The rate shown under a rate limit | proved (v) | `Metered.shown_rate`, `Metered.shown_rate_local`, `Metered.shown_rate_any`, `Metered.shown_rate_local_any`, `Metered.high_rate_violated` |

## Violations of plausible claims found in the code

* C19 (num_ready can wrap around after a soft shutdown): Claim users rely on: after a soft shutdown num_ready is 0 (doc comment in background_serve). It is false: a receiver that already passed the closed-check decrements after the reset and the counter becomes 2^32-1.
* C22 (A duplicated /begun kills the server loop): Claim users rely on: an authenticated client retrying a request cannot bring down execute. False: a second Started for the same task trips the log protocol panic.
* C27 (Soft shutdown waits for started tasks): If serving ends through a soft shutdown, every task whose Started report was processed has had its Finished report processed. (The documented stronger claim, that every running task is allowed to finish, is false: a task obtained whose Started report is still queued is not waited for.)
* C29 (failures_allowed counts only quick failures): A soft shutdown for failures happens at a processed finish iff at least failures_allowed failures so far came within 5s of their start report. The documented claim (stop after N failed tasks) is false for slow failures. failures_allowed=0 means 2^32-1.
* C31 (Reported order vs. log during shutdown): Claim: a task logged as finished during an execute is in the returned execution order. False: reports processed in drain are logged and counted but not listed. Converse (listed implies logged finished) holds.
* C32 (A failed dependency blocks a task across execute calls): Claim: no task is ever run unless its dependencies succeeded. False over two execute calls of one session: the first execute puts the failed key into the completed set, the second drops it from the graph, so its dependents have no dependency left and run. Holds for the first execute of a session. For any execute: a dependency without success had been taken up or reused by an earlier execute of the same session.
* C35 (A Started entry is preceded by its dependencies' success entries): In the log of an execute, before Started(v) there is for each selected dependency u of v an entry Finished(u, 0) of the same execute. (The same for Ready(v) is false: Ready(v) is written just before Finished(u).)
* C37 (Attempts get fresh runcounts): In a history where each session calls execute at most once, the runcounts of successive Started entries of a key are strictly increasing, in fact 0, 1, 2, ... without gaps, and logfile_runcount reports the number of attempts so far (one less, with the directory, if the last one was a success), provided tasks are added with the runcount that logfile_runcount reports. Over several executes in a session it is false: an interrupted task is rerun under the same runcount, so two attempts share a directory, and if the process is killed after the second Ready, attempts of different sessions share it. In every history the runcounts of a key never decrease, and a runcount is at most the number of attempts of its key before it, hence less than the number of lines of the log.
* C39 (logfile_runcount points at the directory of the success): Claim: for a succeeded key logfile_runcount returns the directory the task ran in. True while the storage roots are the same in all sessions; false if a later session passes other roots, since the recorded root number is looked up in the newest header (wrong path, or panic if there are fewer roots).
* C44 (A torn last line makes the log unusable): Claim: after a crash the log can be reopened. False: if the crash cuts the last line inside the JSON text, reopening fails (parse error, or invalid UTF-8). The read-only reader skips such a line, unless the cut is inside a multi-byte character: then it fails as well. If the crash cuts exactly the newline, reopening works but the next entry is glued to the line; the reopening after that fails and the read-only reader loses both entries. Cuts at a line boundary are fine; so a beginning of a good log can be reopened exactly if it ends after a line or just before its newline.
* C45 (Exclusive access to the log): While one session holds the log no other session can open it - provided no opener is between opening the lock file and locking it when the holder exits. Without that proviso it is false: the holder deletes the lock file on exit, so two later openers can lock two different files.
* C49 (Preamble and postamble calls): Claim: the preamble is called once before the command. False: a started local or remote task gets it twice. The postamble is called exactly once per processed finish, with the right success flag.
* C54 (A task can be lost by /end from another Slurm job): Claim: a task handed to a remote runner is eventually reported (by /end or timeout). False: /end with a jobid other than recorded is refused, but the connection has been removed, so neither later /end nor the timeout reports it and execute hangs.
* C57 (Cancelling a timer cancels only that timer): cancel with the id of a pending timer removes this timer and no other; with the id of one that was cancelled earlier it does nothing. With the id of a timer that already fired it can remove a different timer inserted later in the same slot.
* C58 (A Slurm job reported as safe to cancel gets no further task): Claim in the code comments. A /start arriving after the reply is refused with 410. But false for a /start already waiting, and for the next-task part of /end, which never checks.
* C59 (The reaper can crash on a concurrent /end): Claim: no sequence of valid requests crashes the server. False: when reaping after a soft cancel, the connection found by iteration is removed with unwrap, while /end may have removed it in between.
* C60 (Cancellation only grows): Sequentially: after cancel(s) the set of start times considered cancelled is the union of the old set and that of s; hard stays hard. So once soft_cancelled(t) would return it always would. Concurrently it is false: a soft cancel racing with a hard cancel can replace it.
* C62 (Etag long-polling): A status request with etag e returns early only when the counter exceeds e; polling with the etag last received returns as soon as tasks were made ready since. The documented 'one larger' misses one increment.
* C65 (Rate read-back): The ratelimit shown equals the one set whenever r(r+1) <= 10^9, and is never smaller than the one set; it is wrong for some larger rates (60000 is shown as 60002).
* C66 (Permits are hoarded by idle receivers): Claim: no more than ratelimit tasks are launched per second. False: each receiver takes its permit before waiting for a task, so k idle receivers launch k tasks at the same instant, however small the rate. What holds: over a whole run the launches respect the rate, and in any window they exceed it by at most the number of receivers holding a permit at its beginning; and every launch has used up a permit of its own and a ready task.
* C68 (HTTP body codec round trip): What one side encodes the other decodes to the same message, whether or not the size threshold triggers compression, in both directions, provided a request's encoded body is at most 2 MiB (the server refuses longer ones, see C81); a body with unknown content type or encoding is rejected.
* C69 (Remote deadline reserve): The remote runner's SIGTERM deadline is never before the start nor after start+duration, leaves 60s when the duration exceeds 120s, and its computation never underflows. The message 'a (b minus c for cleanup)' adds up for durations above 120s; for shorter ones it does not (it says 60s are taken off when none are).
* C70 (SIGKILL only 5 seconds after SIGTERM): In child cleanup each process gets SIGTERM exactly once, when first seen, and SIGKILL only if it is still there more than 5s after its own SIGTERM; provided pids are not reused during the cleanup. If a pid is reused, a process may get SIGKILL without SIGTERM.
* C71 (Error conversion does not terminate): Claim: an error from a child process is turned into a RemoteError. False: the conversion calls itself forever; after such an error the runner never reports, cleans up or exits.
* C72 (Empty key is not special): Claim (docstring): a task with key '' is never skipped. False: it is deduplicated and skipped like any other key.
* C73 (What an execute call logged survives the process): Claim: when execute has returned, all log entries it wrote are on disk and remain a prefix of the log in all later sessions, even if the process is killed immediately afterwards. Holds if execute ran anything. False if everything was reused: then execute returns without flushing, and the Backref entries of that call are lost if the process is killed.
* C76 (Log entries say what happened): Every entry an execute appends has an origin: a Ready entry shows key, runcount, storage root and display text of a task; a Finished entry shows exit code and values that a runner reported for the task, or was made up by drain (-1, no values) for a task reported as started; a Started entry shows host, pid and job id the runner reported, or was made up (empty host, pid 0) for a task of which only the end was reported. Claim: a Started entry for a reported start shows the reported host and pid. False for reports processed by drain: the entry says host 'host', pid 0.
* C79 (Sessions only append to the log): What one session has written to the log file is not overwritten by another - provided no opener is between opening and locking the lock file when the holder removes it, and none opens it before the holder has closed the log. Without the proviso false: the lock file is removed before the log buffer is written, and the log is not opened in append mode, so a session that begins in between overwrites the records of the first.
* C80 (Quoted values survive): A task that writes key=value words to fd 3, one line per map, each word shell-quoted (single quotes, or plain if harmless), gets exactly these maps recorded, if no word contains a newline. A quoted value with a newline is lost.
* C81 (Long output and the end report): A remote runner can report the end of a task whatever its output was. (Violated: the server refuses request bodies over 2 MiB, so whatever the compression does there is output of less than 19 million characters with which the end report is refused.)
* C82 (A panicking local runner): A task obtained by a local runner is eventually reported, whatever it is. (Violated: a task with fd_input on descriptor 3, which add_task accepts, makes the runner panic; so does a failing preamble or a child that closes its input early. The task is then never reported and execute hangs unless somebody shuts it down.)
* C83 (A failing preamble of a remote task): A task handed to a remote runner is eventually reported. (Violated: when the preamble of the task fails in the handler of /start or /end, the task has been taken from the queue but there is no connection yet, so nobody ever reports it.)
* C84 (Transaction ids are unique): The transaction id a remote runner gets identifies its task until it is ended. (Violated: ids are random 32-bit numbers and not compared with those in use; on a collision the older task is never reported, and its runner's /end is recorded as the success of the other task.)
* C85 (A silent runner is noticed): A connection for which no ping arrives during 255 ticks of the timer wheel (35 s) is removed by the reaper. (True if no tick falls between a handler's use of the wheel and its use of the connections; otherwise violated: a stalled /end cancels another connection's timer, whose id is the same as its own expired one, and that connection is never removed.)
* C86 (A runner that pings is not declared disconnected): A remote task is reported as disconnected only if no authorized ping for it arrived during 255 consecutive ticks of the timer wheel (35 s) while its connection was open, or because of the quick-failure rule (C87). (True if transaction ids are distinct and no tick falls between a handler's use of the wheel and its use of the connections; without distinct ids it is violated: the timer of an earlier connection with the same id ends the later one early.)
* C92 (The remote runner's protocol): A remote runner asks at /start at most once and handles tasks one after the other; each but the last is received, started, announced at /begun with its process's pid (0 if it could not be started), waited for, and reported once at /end with that process's exit code and values (13 without values if it could not be started) together with a request for another. The last may be cut short, or reported with -15 after a message of Slurm. When a task's process has ended (or could not be started) and the server answers, this is reported; but a task with an empty command line or with its input at descriptor 3 makes the runner panic and is not reported.
* C94 (SIGTERM to a task): The runner sends SIGTERM to a running task only after the deadline or on a message of Slurm. After the deadline it does not send it once but again and again without pause until the task's output is complete, and also to the pid of a process that has already ended.
* C95 (No tasks after the deadline): If max_time_accepting_tasks is not after the deadline, a runner receives at most one task after its deadline. Without that option this is false: it takes any number of tasks after the deadline and terminates each.
* C96 (Runner and server give each other up in the right order): If answers reach the runner within 5s, the runner gives up no later than the server's ping timeout after the server last heard from it; with slower answers the server may give up first. A runner whose pongs are at most two ping intervals apart does not give up.
* C97 (A runner leaves no task behind): When the runner's main returns, its tasks' processes have ended. A runner that panics (a task closes its input early) leaves the process behind.
* C98 (A task that does not read its input blocks the runner): Claim: a runner reacts to a lost server, Slurm messages and the deadline at any time while a task runs. False while it writes the task's input: it stays there until the task reads or closes it, and the server is not told that the task has begun.
* C103 (When execute returns, tasks reported disconnected may still run): Claim: when a task is reported as finished, its process has ended. True for exit codes (other than Slurm's -15): the report is sent after the process was waited for. False for disconnected tasks: the reaper reports a task whose runner pings regularly (soft cancellation), execute returns, the runner's pings are answered with 200 all along, and the process runs on.
* C106 (A process is started only after processes of its dependencies were seen to end with 0): Whenever any process is started for a task of the first execute of a session, by a local loop or a remote runner, even by one whose server is gone: for each dependency of the task a process was started earlier, in this or an earlier session, and was seen to end with exit code 0. False for later execute calls of a session: there a process is started although the only process ever of its dependency ended with exit code 1.
* C107 (What has succeeded is not started again): Whenever the execute in progress starts a process, no success of that task is in the log; and what was in the file when an earlier execute returned or an earlier session ended is never started again by any later execute. False for remote runners of an earlier process: the process is killed after a runner has obtained a task; the next session runs the task to success; then the runner starts it again. It can also do so while the process of the second session runs, with the same attempt number, so both use one attempt directory.
* C112 (A lost newline is accepted once): One would expect: if the constructor succeeds and execute returns success, the log can be opened later. False: if a kill lost exactly the newline of the last entry, the next constructor succeeds and its session works as usual, but as soon as anything of that session is in the file no constructor ever succeeds again; the first new entry was appended to the unterminated line.
* C118 (A task is reported only when nobody has its pipes open): A local task is not reported before every process that inherited one of its pipes has closed it. In particular a task that starts a background process which keeps stdout open and exits with 0 is not reported as long as that process lives.
* C119 (When a task with fd_input is stuck): A local task can get stuck only while its input is being written, and exactly when the input pipe is full and all its processes are in front of full output pipes, which nobody reads yet. Without input, or with an input that fits into the pipe, this never happens. Otherwise it can: for every pipe capacity there is a program that writes its output before it reads its input with which the loop blocks in every schedule, and a cancellation or Ctrl-C does not help.
* C120 (Input that is not read): If a process of the task reads the input to its end before it closes it or exits, the loop does not panic (unless a process is killed from outside). A task that exits with 0 without reading its input is reported as a success or makes the loop panic, depending on who is faster.
* C122 (What is left of a task): When the loop is through with a task (reported, cancelled, panicked) the child has ended. Descendants of the child are not killed by a cancellation.
* C127 (HTTP server cannot be bound): If the HTTP server cannot be bound, no provisioner is started. Nobody is told: the session is not cancelled and goes on until the main loop ends for another reason or an administrator shuts it down.
* C128 (How long the end takes): After the main loop, execute waits for nothing but the moments at which requests are due, with a bounded number of steps, and can return when the last one is due. Status requests are not cut short: a client that asks for a status with a long timeout and does not hang up keeps execute from returning for as long as it likes.
* C130 (A session in progress can be reached): With one machine, one session at a time in each process, nobody else touching the socket files, and no reuse of a process number between the look and the removal of a cleaner, every session that is served can be reached at the path of its process and does not panic over its socket file, whatever else is started, ends or is killed, with any number of concurrent cleaners. Without any one of these conditions it is false: reuse of a process number, two executes at once in one process, and a directory shared by two machines each make a running session unreachable.
* C131 (What the cleanup removes): A file removed by the cleanup has a name with a number as in the names of sessions, there was a socket of that name before, and there was a moment without a process of that number on the machine of the cleaner. It need not be the file of a session: sockets of other programs with similar names are removed.
* C132 (A pass of the cleanup): A cleaner that is left alone comes to an end. If no socket has something like a number in its name that is none or too large, then exactly the sockets of processes that are gone have been removed, and the files that are no sockets and the sockets of running processes are still there. Otherwise it panics at the first such socket, and the sockets behind it are never removed.
* C138 (What execute prints): Everything an execute prints is the sequence of its finish reports in the order in which they are handled: a line [k/n] for a success, a line with word, key and run count for a failure, then the captured output. The numbers increase, start above the number of tasks done beforehand, never exceed the total, and are consecutive when nothing fails; the total is at most the number of tasks of the graph. Without a soft shutdown every failure is named; failures handled after a soft shutdown, and all output handled after it, are not printed.
* C140 (What the terminal shows): If the operating system takes everything, the terminal shows exactly the printed text as long as no piece has 1024 bytes or more after its last newline. Otherwise the end of the piece is silently missing on the terminal (the count of the line writer is ignored), though not in the mirror file; and if the file takes only part of a long piece the rest is shown twice.
* C141 (Which mirror file gets what): In a process that constructs any number of graphs, prints and flushes in any order, every log.txt gets what is printed while its graph is the one constructed last, and nothing else; on disk is always a beginning of it that only grows, and after a flush all of it. An execute whose graph is the newest leaves exactly the lines of its finish reports there; the output of an older graph's execute goes to the newest graph's file.
* C142 (A session survives an execute that panics): When execute panics because printing or flushing fails (to Python: an exception) at any point, and the session or a later one goes on, in any history with any number of such panics: the log follows the protocol at every cut and can be opened; the constructor succeeds; nothing recorded is lost; a task recorded as successful is never run again; what earlier executes returned is not run again in the session; another execute can be started at once. Not kept: a success whose line could not be printed is not recorded and the task is run again under the same run count; results of the aborted execute are taken for those of earlier sessions (a Backref is written), after which load_logfile's current part can contain an older failed attempt of the same task.
* C143 (Failing writes to the log file): However the operating system splits or interrupts writes: as long as no write or flush of the log fails, file and buffer together hold exactly the file found and the lines of the entries written, and after a flush all of it is on disk; nothing hangs, nothing is taken back, and short or interrupted writes do not make an operation fail. If the process ends at the first failure (or before), killed or dropping the log, what is on disk is a beginning of what it meant to write, containing all that was flushed, so everything known about killed processes (C110-C112) applies. But the entry counts as written in memory although its write failed, and if the session goes on after a failure that left part of a line, the next entry is glued to it and the log can never be opened again; a single refused write(2) while a long entry is written is enough.
* C144 (Storage roots must exist): If every session has at least m storage roots and every task is given one of the first m, adding tasks never panics, in any history. But add_task does not check the number: a task given a root that does not exist is run and reported as successful, and from then on adding it panics, in the same session (where it ought to return the id) and in every later session that does not have more roots; nothing can be done about it from the API. Exactly when add_task panics: at 2^32 - 1 tasks, or if the key succeeded under a root number not below the number of roots of this session.
* C145 (Extended lifetimes are harmless unless the server task panics): execute gives its spawned tasks references to the tracker and to the commands whose lifetimes are extended without a check. If execute returns, whatever requests clients have sent, no task has used them after execute ended and no task can do so any more: all of them have ended. The same holds if drain fails or panics. But if execute panics in background_serve (as it does when a remote runner repeats /begun, or when the log can not be written), a local loop whose process ends, or the server on the next /begun, uses memory that was freed, before the runtime is dropped.
* C146 (Logs can be copied, merged, recovered and compacted with load_logfile and write_logfile): If a log can be opened, writing what load_logfile(path, 'all') returns to a new file gives a log with the same entries and the same state. Writing the entries of a second log to the file succeeds; the result can be opened exactly if the workflow keys agree (no error is reported at the time of writing otherwise), and every key then has the state of the second log if it occurs there, else of the first; writing a log to its own file changes no state. If any number of bytes at the end of a log is lost, load_logfile(path, 'all') fails only if the cut is inside a character, and otherwise returns a beginning of the entries with at least those whose lines are whole, which can be written to a new file and opened. In every history 'current' can be computed without a panic, opened, and has the header of the log and exactly the keys that take part in the newest session, each in its state in the log; so a task that succeeded is lost from it if the target of the last session did not need it, and everything is lost if the last process only opened the log.
* C148 (The runner hears from Slurm's error file exactly what is there): Every message the remote runner gets from the watcher of the Slurm error file is the text of the whole file at some moment, containing CANCELLED, FAILED or ERROR (or that it cannot be read). If the file is appended to after the runner began to watch it and the events have been handled, then a file with such a word has led to a message. Exceptions: what was written before the watch began is not noticed until the next append; if an append ends inside a character of several bytes, the runner takes the file for unreadable and ends its task although no word occurs.
* C149 (Patterns in the options of the remote runner): If no value contains % and the option has no %%, the disconnect message and the path of the error file are the options with all patterns (%u %j %x %c %h, resp. %u %j) expanded at once; patterns of variables that are not set stay. Otherwise not: patterns that arise from values, or from a % before a value, are expanded again. Given a path, the runner panics if SLURM_JOB_ID is not set, whether %j occurs or not.
* C150 (Job ids of remote runners): Runners in array jobs have the same job id exactly if they belong to the same task of the same array. Claim: the job id identifies the Slurm job. False outside array jobs: all these runners have the id `_`, so that when one such job is reported as safe to cancel, the server refuses every later /start of all of them.
* C153 (One task can keep execute from ever returning): Claim: execute can always be brought to an end by Ctrl-C or a shutdown. False: the loop writes the input of a task before it looks at the cancellation token and before it reads the output; if the task writes more than a pipe takes before it reads its input, and the input is larger than a pipe takes, then from the start of that process on no schedule leads to the return of execute, also not with Ctrl-C or a shutdown request, unless somebody else kills the process.
* C154 (Requests to the admin socket): In every execute with any number of admin requests: scheduler and runners go through exactly their own actions and the shutdowns the admin got an answer for; every answer shows the provisioner info and (up to 31622 per second) the rate limit asked for last; requests other than /shutdown are always answered and change nothing else. Claim: /shutdown stops the execute. It does if the warning can be printed, and then log.txt gets exactly the line. Violated otherwise: the handler prints before it does anything, and panics if it cannot, so that any execute can go on to its end as if nothing had been asked. Nobody else begins a soft shutdown: without an answered request for one, none begins except after too many quick failures.
* C155 (The outcome does not depend on the schedule): If each task always ends with the same status and reports the same values, a complete execute (serving over, no shutdown from outside, quick failures below the limit) runs exactly the tasks all of whose transitive dependencies succeed, whatever the number and types of runners, priorities, speed and order: any two such executes over the same keys and dependencies report the same tasks with the same statuses, the same number of failures and successes, and log the same Ready keys and the same Finished keys, exit codes and values; only the order differs. False when the limit of quick failures is reached: whether an independent task is run depends on the order.
* C156 (Zero failures means everything is done): Claim: if execute reports zero failures, every task it was to look at (all tasks, or the target and what it depends on) has a success in the log. True for the first execute of a session with failures to be rerun and without shutdown from outside. False after ctrl-c, after a soft shutdown, with rerun_failures = false when a failure is reused, and in a second execute of a session after a failure. Conversely, if all these tasks have a success in the log, the execute has reported zero failures, always.
* C158 (The result of execute is a function of the programs): A program that starts no other process and comes to an end has for every input exactly one result (what it writes to descriptor 3 and its exit code), and if the task is reported, then with this result, whatever the capacity of the pipes and the order of reads and writes. For local tasks with such programs, if fewer of them fail than quick failures are allowed and there is no trouble around them (shutdown requests, Ctrl-C, panics, processes that cannot be started or are killed), a complete execute appends exactly one Finished entry for each task all of whose transitive dependencies exit with 0, with the exit code and the values of its program, and no other; and if the inputs fit into a pipe and are read and the schedule is fair, execute does return. False for programs that start other processes: the same program may give different values.
* C159 (The result of execute does not depend on where the tasks run): Suppose the process of a task ends with the same exit code and the same values wherever it runs, fewer tasks fail than quick failures are allowed, and nothing goes wrong around the processes (shutdown requests, Ctrl-C, processes that cannot be started, a runner told by Slurm to stop). Then a complete execute with any number of local loops and remote runners, any delays and losses of requests and answers, appends exactly one Finished entry for each task all of whose transitive dependencies exit with 0, with exit code and values of its process, and no other, provided the server hears of each runner with a task within 255 ticks of its wheel (35 s) and its handlers are prompt; so two such executions, one local and one remote, add the same entries up to order and return the same counts. False without the proviso: a runner cut off for 35 s gets its task logged with -1 although its process succeeds.
* C162 (Resuming interrupted work gives what one undisturbed run gives): The process may be killed, tasks may fail or be killed, the log may lose its end, sessions may be opened any number of times, each calling execute once at most. If then a session with the same tasks calls execute, with failures to be rerun, and nothing disturbs it, the result is the one of a run in one go: of the tasks it looks at exactly those have a success in the log which succeed and whose dependencies, transitively, all succeed, each with exactly one result, the one it reports; the number of failures returned is the number of tasks that fail while all they depend on succeeds. This presupposes that a task always ends in the same way unless it is disturbed, and that fewer tasks fail than quick failures are allowed. Violated if a session calls execute twice: after a failed dependency the second call runs the dependent task, and the log keeps its success.
* C165 (Postambles have the last word on what is recorded): The postamble of a task is called before its finish is recorded. In every history, with any number of sessions and of executes broken off by a postamble, the finishes in the log are in order among those to which the postamble did not object (it returned 0, or there is none), each asked about separately; a task is not recorded as successful if its postamble objected each time it was told of a success; an object that is not a capsule of the expected name counts as an objection always. It is told the success, the run count last announced for the task in the log and the number of tasks of this execute. An objection ends execute with a panic; the session goes on as after any panic (C142). Violated: an objection does not concern only its task; the other running tasks are given up and started again under the same run count by the next execute.
* C166 (Names of attempts): Different attempts of tasks have different directory names key.runcount, whatever the keys contain, and below one root different directories unless a key is an absolute path. The line about a failed task names the attempt unambiguously, but with the run count in hexadecimal: it is the name of the directory exactly for the first ten attempts. Violated from then on: the directory name of every attempt from number 10 on is the name shown for a later attempt of the same task (the line about attempt 16 says key.10).
* C167 (From the programs to the log, wherever they run): With server, local loops, remote runners, pipes and processes running together: every Finished entry in the log is the end of a process of that task, here or on a remote runner, with the values made of exactly what it and its descendants wrote to descriptor 3, or one of the documented substitutes (-1, -10, 13, -15). If the programs have definite results and nothing goes wrong around them (and the server hears of the runners in time), the log is a function of the programs: it does not depend on which task runs where, on the pipes or on the schedule. Violated for large inputs: a remote runner can write an input for ever, without telling the server that the process was started and without looking at deadline, lost connection or SIGUSR1. If a task no longer reads its input, the remote runner that writes it panics, and does nothing ever after.
* C168 (The SIGTERM with which execute ends): An execute that ran something ends by sending SIGTERM to a process group, once. It is the group of its own process, whether or not the setpgid at its beginning succeeded (the error is made but not raised); everything forked since then that stayed in the group and left SIGTERM alone is gone afterwards, in any number of generations; if the process did not share its group before and nobody joins it, nothing but descendants is ended; nothing of another session is ended; and the process itself survives. Not kept: in `python workflow.py | tee log` tee is ended by the first execute; an execute in another thread loses its tasks; after the first execute SIGTERM no longer ends the process; a SIGTERM handler of the program is called at the end of every execute; and if the program sets SIGTERM to the default between two executes, the second one ends the process before it has written the end of the log. A program that has installed no handler for SIGTERM has none called.
* C169 (Ctrl-C and the terminal): Claim: Ctrl-C at the terminal interrupts a running execute, and tasks of the console queue can use the terminal. True for Ctrl-C if the process already was the leader of the foreground group when execute was called. Otherwise (called from a script, or not first in a pipeline) false: execute moves the process into a new group which is not in the foreground, so no Ctrl-C gets to it any more and no process it starts can read from the terminal.
* C174 (An execute whose last flush fails): When everything is done execute flushes the log, then the printed lines; if one of these fails the caller gets an error instead of the result. In every history with any number of such failures (and of panics): the session goes on as if execute had returned, log and tasks are the same and every later execute selects the same tasks, writes the same entries and starts in the same state; what was on disk stays there, and all claims of C142 hold. Violated: a failed task can go unreported for good; it counts as done although nobody was told, and the next execute finds nothing to do and returns no failures.
* C179 (Constructors that fail): Whatever fails in the constructor, no log loses or gains a byte (a log that was not there may be left empty), unless writing the header itself fails, after which a beginning of its line may stand at the end of the log; the lock is free again; and the constructor can be called again with the outcome it would have had without the failure. It succeeds exactly if the lock is free, the log can be read, log.txt can be opened and there is a key; the callback is asked for a key exactly if the log has no header. While a graph is open none can be constructed for any log in the same directory; once it is closed the next constructor reads exactly what the graph left; a log changes only by its own constructors and its own graph. What is printed goes to the log.txt beside the log of the last constructor that got as far as opening one, and nowhere before the first. Violated where log.txt is concerned: what a graph prints goes to the directory of another graph made later, even a dropped one; a constructor that fails later (its callback raises) has already redirected what is printed; and one that cannot open its log.txt spoils the whole process: every later constructor, for whatever directory, every print and every execute panics.
* C180 (What a redirected stdout gets): If stdout is a file or a pipe and no printed piece has 8192 bytes or more: however the operating system splits, interrupts or refuses writes, a rawlog! that succeeds has handed exactly its text to stdout and to the mirror file, once and in order; one that fails has handed over whole pieces only, stdout at most one piece more than the file; it fails only if the operating system refuses. What is in the pipe is a beginning of what was printed, and after a flush everything. Violated: a task's output of 8192 bytes or more whose last line is longer than 1024 bytes loses the end of that line in the redirected stdout (silently, not in the mirror file).
* C181 (What is seen of a task's output): If the output of a task is UTF-8, exactly its bytes are printed, stdout before stderr, with nothing between. Of other bytes the characters are shown, and U+FFFD for each broken piece as the Unicode standard defines them; all ASCII characters (newlines) are kept in order and no others come in; the text is at most three times as long; if no U+FFFD is shown, the text is exact. Of a remote task the same is printed as of a local one, with the message about the time limit, if any, before stderr, provided the request is not refused for its length; what Slurm has written about the end of a job is printed as it is. Violated: a line about a task does not always start a line: nothing is put behind an output that does not end in a newline.
* C182 (The numbers shown in the course of a session): Over all executes of a session the numbers k in the progress lines [k/n] rise, so that none is shown twice, provided no execute returned with reports left to be handled after it stopped serving. If everything succeeds and nothing is reused from the log they go on from one execute to the next without a gap and end at the number of tasks done. The total n of an execute of everything is the number of tasks of the session less those whose success this very call found in the log. Violated: after Ctrl-C a number can be shown again; in a session that reuses results the total is not the number of tasks, and numbers are left out.
* C183 (The launch rate of an execute): With ratelimit_per_second = r, over any stretch of an execute in which the limit is not changed, the number of tasks handed out to local loops and remote runners together, times the interval of 1/r s, is at most the length of the stretch plus one second plus one interval for each loop or request that already waits for a task at its beginning; from the start of the execute (or a change of the limit, up to those waiting) on, n tasks take at least n intervals: there is no initial burst. With local runners only this is at most r(k+1) + num_parallel + 1 tasks in any k seconds. Whoever waits for the limiter can go on when one interval has passed and nobody else took the permit; with limit 0 nobody ever waits. Violated: more tasks than the rate allows may be handed out at one moment, since loops and requests keep their permits while there is no task.
* C186 (The rate shown under a rate limit): With ratelimit_per_second = r (a divisor of 10^9), not changed during the execute, the launch rate shown in the status is at every moment at most r * exp((1 + H/r)/30), H being the largest number of local loops and requests of remote runners that wait for a task past the rate limiter at one moment; with local runners only H is at most num_parallel + 1. With r = 10 and 9 loops this is less than 7% above the limit, from the first moment on, whatever bursts there are. For other r up to 31622 the first factor r becomes 10^9 / ((r + 1) * floor(10^9/r) - 10^9), because the interval is rounded down (3.00000002 for 3). Not kept for large r: with r = 60000 a rate of 900 million can be shown just after the start.

## Partial

