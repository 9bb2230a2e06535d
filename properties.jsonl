{"id": "C01", "title": "add_task is idempotent on the key", "statement": "If a task with the same key was accepted earlier, add_task returns the id given then, and changes nothing: not the number of tasks, not any stored command, not any dependency. Ids handed out are dense (0,1,2,...) and get_task(id) keeps returning the command stored at first acceptance, whatever is added later.", "quantifier": "every sequence of add_task calls with any commands, keys and dependency lists", "why_tests_cant": "The number of histories of add_task calls is infinite; a test shows a few.", "anchors": ["src/execgraph.rs: ExecGraph::add_task, get_task, ntasks, task_keys"]}
{"id": "C02", "title": "A rejected add_task leaves no trace", "statement": "When add_task reports an error (empty command line; a dependency that is not an existing task, or is the new task itself) the task graph is exactly what it was: same tasks, same dependencies, same key index, even when the bad dependency comes after good ones in the list.", "quantifier": "every graph state, every command and every dependency list", "why_tests_cant": "Position of the bad dependency, duplicates and prior contents are unbounded.", "anchors": ["src/execgraph.rs: ExecGraph::add_task"]}
{"id": "C03", "title": "The task graph is always acyclic", "statement": "After any sequence of add_task calls each dependency of a task has a strictly smaller id than the task. Hence no dependency cycle can exist, and execute never fails because of a cycle.", "quantifier": "every sequence of add_task calls", "why_tests_cant": "Needs an invariant over all call histories.", "anchors": ["src/execgraph.rs: ExecGraph::add_task, get_subgraph", "src/graphtheory.rs: tlevel_dag, transitive_closure_dag"]}
{"id": "C04", "title": "Keys identify tasks", "statement": "In every reachable graph, distinct ids have distinct keys, the key index maps exactly the keys of the stored tasks to their ids, and ntasks is the number of distinct accepted keys.", "quantifier": "every sequence of add_task calls", "why_tests_cant": "Global uniqueness over unbounded histories.", "anchors": ["src/execgraph.rs: ExecGraph::add_task, task_keys, ntasks"]}
{"id": "C05", "title": "Transitive closure is reachability", "statement": "For every acyclic graph and every order toposort may return, the computed closure has the edge (u,v) iff there is a non-empty dependency path from u to v, has the same nodes, and has at most the original multiplicity of duplicate edges for direct dependencies.", "quantifier": "every DAG (any size, duplicate edges included) and every topological order", "why_tests_cant": "Correctness for all graphs is an induction over the topological order.", "anchors": ["src/graphtheory.rs: transitive_closure_dag, descendants_at_distance"]}
{"id": "C06", "title": "Priority is the longest dependency chain", "statement": "The priority given to a task is the length of the longest dependency chain ending in it in the whole graph: some chain of that length exists and no longer one does. So priority strictly increases along dependencies. blevel is the same with the arrows reversed.", "quantifier": "every DAG and every topological order", "why_tests_cant": "Both the existence and the upper bound quantify over all paths of all graphs.", "anchors": ["src/graphtheory.rs: tlevel_dag, blevel_dag", "src/execgraph.rs: get_subgraph"]}
{"id": "C07", "title": "execute(target) touches only the target and what it needs", "statement": "With a target, the tasks considered are exactly the target and the tasks reachable from it by following dependencies backwards; nothing else is run, logged or reported. A target id that does not exist selects nothing and execute returns (0, []).", "quantifier": "every graph, target, log and completed set", "why_tests_cant": "Reachability over all graphs.", "anchors": ["src/execgraph.rs: get_subgraph, ExecGraph::execute"]}
{"id": "C08", "title": "Exactly which tasks one execute call selects", "statement": "A task is selected iff it is in the target's closure (or no target), was not finished earlier in this session, the log does not record its last attempt as successful and, when rerun_failures is false, neither it nor any task from which it is reachable through selected-so-far tasks is recorded as failed. Dependencies between two selected tasks are exactly the original ones, with multiplicity.", "quantifier": "every graph, log state, completed set, target and rerun flag", "why_tests_cant": "Composition of closure, three filters with node renumbering, for all graphs.", "anchors": ["src/execgraph.rs: get_subgraph"]}
{"id": "C09", "title": "Backrefs are written exactly for reused results", "statement": "execute writes one Backref for each considered task whose recorded success (or, with rerun_failures=false, recorded failure) is reused, no Backref for anything else, and a second execute in the session never writes it again.", "quantifier": "every graph, log and sequence of execute calls in a session", "why_tests_cant": "Set-iteration order and repeated calls are unbounded.", "anchors": ["src/execgraph.rs: get_subgraph"]}
{"id": "C10", "title": "A task is handed out only after its dependencies succeeded", "statement": "Within one execute call: whenever a runner (local loop or HTTP runner) has obtained a task, every selected dependency of that task has already been reported finished with exit code 0 and that report has been processed.", "quantifier": "every graph, every number of runners, every interleaving of runners, events, timeouts and shutdowns", "why_tests_cant": "The schedules are infinite; races cannot be enumerated by tests.", "anchors": ["src/sync.rs: background_serve, _finished_bookkeeping_2, add_to_ready_queue, ReadyTrackerClient::recv"]}
{"id": "C11", "title": "At most one runner gets a task", "statement": "Within one execute call a task is obtained by at most one recv, even if it is eligible for several runner types and sits in several queues, and whatever the number of concurrent receivers.", "quantifier": "every interleaving of any number of receivers on any of the 64 queues", "why_tests_cant": "Race on the shared claim flag; needs all interleavings.", "anchors": ["src/sync.rs: ReadyTrackerClient::recv, add_to_ready_queue, TaskItem"]}
{"id": "C12", "title": "Affinity is respected", "statement": "A recv for runner type i returns only tasks whose affinity has bit i set; a runner type >= 64 is refused with NoSuchRunnerType.", "quantifier": "every interleaving, every affinity mask", "why_tests_cant": "All masks and schedules.", "anchors": ["src/sync.rs: add_to_ready_queue, ReadyTrackerClient::recv"]}
{"id": "C13", "title": "Highest priority first", "statement": "A task popped from a queue has priority at least that of every item in that queue at the moment of the pop, so the task a recv returns has priority at least that of all unclaimed tasks then in its queue.", "quantifier": "every queue content and interleaving", "why_tests_cant": "Over all heap contents.", "anchors": ["src/sync.rs: ReadyTrackerClient::recv, add_to_ready_queue", "src/execgraph.rs: get_subgraph"]}
{"id": "C14", "title": "A failure stops everything downstream of it", "statement": "Within one execute call, after a task is reported finished with anything but exit code 0, no task that transitively depends on it is ever made ready, handed out, started or finished.", "quantifier": "every graph and schedule", "why_tests_cant": "Poison is propagated one level only; that this suffices needs an invariant.", "anchors": ["src/sync.rs: _finished_bookkeeping_2"]}
{"id": "C15", "title": "Nothing is forgotten", "statement": "If execute ends because the ready-or-running count reached zero and no soft shutdown happened, every selected task either was reported finished exactly once or transitively depends on a task that failed. In particular with no failure every selected task finished with exit code 0.", "quantifier": "every graph and schedule", "why_tests_cant": "The loop's exit test is a counter; its meaning is an invariant over all histories.", "anchors": ["src/sync.rs: background_serve, _finished_bookkeeping_1, add_to_ready_queue"]}
{"id": "C16", "title": "Execution order is duplicate-free and topological", "statement": "The order returned by execute contains no task twice, only selected tasks, and lists every selected dependency of a listed task before it.", "quantifier": "every graph and schedule", "why_tests_cant": "All schedules.", "anchors": ["src/sync.rs: background_serve, finished_order", "src/execgraph.rs: ExecGraph::execute"]}
{"id": "C17", "title": "The failure count is right", "statement": "When background serving ends, n_failed + n_success equals the number of finish reports processed, n_failed is the number of those that were not exit code 0; after drain, n_failed also counts each task that had been started and never reported, once.", "quantifier": "every schedule and set of exit statuses", "why_tests_cant": "Counter vs. history invariant.", "anchors": ["src/sync.rs: _finished_bookkeeping_1, drain", "src/execgraph.rs: ExecGraph::execute"]}
{"id": "C18", "title": "Queue counters shown by /status are exact", "statement": "Until a shutdown begins, for every affinity mask num_ready is the number of ready tasks with that mask nobody has claimed (or is just claiming) and num_inflight the number claimed and not yet reported as finished; neither ever underflows.", "quantifier": "every schedule", "why_tests_cant": "Counters are updated from several threads.", "anchors": ["src/sync.rs: queuestate, recv, add_to_ready_queue, _finished_bookkeeping_1"]}
{"id": "C19", "title": "num_ready can wrap around after a soft shutdown", "statement": "Claim users rely on: after a soft shutdown num_ready is 0 (doc comment in background_serve). It is false: a receiver that already passed the closed-check decrements after the reset and the counter becomes 2^32-1.", "quantifier": "one schedule as witness; the positive part ranges over all schedules where no receiver is between claim and count", "why_tests_cant": "A race of two instructions.", "anchors": ["src/sync.rs: background_serve, ReadyTrackerClient::recv"]}
{"id": "C20", "title": "The unready count is exact", "statement": "num_unready equals the number of selected tasks not yet made ready, and the checked subtraction on it never panics.", "quantifier": "every schedule", "why_tests_cant": "Counter invariant.", "anchors": ["src/sync.rs: add_to_ready_queue, checked_sub, get_num_unready_tasks"]}
{"id": "C21", "title": "No internal panic with well-behaved runners", "statement": "If every runner reports Started at most once and before Finished, and Finished at most once per obtained task, none of the server's expects/asserts (queue lookups, counter underflow, inflight double insert, dropped channel, log protocol) can fire, in serving or in drain.", "quantifier": "every graph, schedule, shutdown order and log history", "why_tests_cant": "Unreachability of panics over all executions.", "anchors": ["src/sync.rs: background_serve, drain, _finished_bookkeeping_1, _finished_bookkeeping_2, add_to_ready_queue, checked_sub", "src/logfile2.rs: LogFile::write"]}
{"id": "C22", "title": "A duplicated /begun kills the server loop", "statement": "Claim users rely on: an authenticated client retrying a request cannot bring down execute. False: a second Started for the same task trips the log protocol panic.", "quantifier": "witness schedule", "why_tests_cant": "Needs a specific retry at a specific moment.", "anchors": ["src/sync.rs: background_serve", "src/server.rs: begun_handler", "src/logfile2.rs: LogFile::write"]}
{"id": "C23", "title": "Progress: the scheduler never deadlocks while queues are served", "statement": "If serving has not ended and no task was lost, some ready task sits in a queue, or is held by a runner, or a finish report is waiting to be processed, or the server itself can take a step, provided each selected task has at least one affinity bit. So if each queue with a waiting task has a receiver, some step is always possible.", "quantifier": "every reachable state", "why_tests_cant": "Deadlock freedom is a statement about all reachable states.", "anchors": ["src/sync.rs: background_serve, add_to_ready_queue, recv"]}
{"id": "C24", "title": "A task with empty affinity hangs execute", "statement": "Claim: execute always returns once nothing can run. False: a task with affinity 0 is counted as ready but put in no queue; serving never ends by itself.", "quantifier": "witness graph, all schedules from it", "why_tests_cant": "Non-termination cannot be observed by a test.", "anchors": ["src/sync.rs: add_to_ready_queue"]}
{"id": "C25", "title": "Bounded work", "statement": "In every schedule the number of tasks made ready, claims, finish reports processed is at most the number of selected tasks each: the scheduler cannot loop forever generating work.", "quantifier": "every schedule of any length", "why_tests_cant": "Bound over infinite schedules.", "anchors": ["src/sync.rs: background_serve, add_to_ready_queue, recv"]}
{"id": "C26", "title": "Soft shutdown dispatches nothing new", "statement": "Once a soft shutdown has been processed no task is ever made ready again, no receiver that calls recv afterwards gets a task, and the number of tasks obtained afterwards is at most the number of receivers that were inside recv at that moment.", "quantifier": "every schedule", "why_tests_cant": "All schedules after the shutdown point.", "anchors": ["src/sync.rs: background_serve, recv, trigger_soft_shutdown"]}
{"id": "C27", "title": "Soft shutdown waits for started tasks", "statement": "If serving ends through a soft shutdown, every task whose Started report was processed has had its Finished report processed. (The documented stronger claim, that every running task is allowed to finish, is false: a task obtained whose Started report is still queued is not waited for.)", "quantifier": "every schedule; witness schedule for the negation", "why_tests_cant": "Race between /begun and another task's finish.", "anchors": ["src/sync.rs: background_serve, trigger_soft_shutdown"]}
{"id": "C28", "title": "A soft shutdown while nothing runs never ends by itself", "statement": "Claim: after trigger_soft_shutdown execute returns when running tasks are finished. False when nothing is running at that moment: the exit test is only evaluated on a finish report.", "quantifier": "witness state; every continuation without hard cancel, ctrl-c or a new claim", "why_tests_cant": "Non-termination.", "anchors": ["src/sync.rs: background_serve"]}
{"id": "C29", "title": "failures_allowed counts only quick failures", "statement": "A soft shutdown for failures happens at a processed finish iff at least failures_allowed failures so far came within 5s of their start report. The documented claim (stop after N failed tasks) is false for slow failures. failures_allowed=0 means 2^32-1.", "quantifier": "every schedule; witness for the negation", "why_tests_cant": "Timing-dependent.", "anchors": ["src/sync.rs: _finished_bookkeeping_1, background_serve", "src/pylib.rs: PyExecGraph::new"]}
{"id": "C30", "title": "After execute every Started has a Finished in the log", "statement": "When drain has run, no task of this execute is left in the log as started-but-not-finished: whichever way serving ended (normal, ctrl-c, hard or soft shutdown).", "quantifier": "every schedule, shutdown path and channel content", "why_tests_cant": "All interleavings of shutdown with reports in the channel.", "anchors": ["src/sync.rs: drain"]}
{"id": "C31", "title": "Reported order vs. log during shutdown", "statement": "Claim: a task logged as finished during an execute is in the returned execution order. False: reports processed in drain are logged and counted but not listed. Converse (listed implies logged finished) holds.", "quantifier": "every schedule; witness for the negation", "why_tests_cant": "Race with shutdown.", "anchors": ["src/sync.rs: drain, background_serve", "src/execgraph.rs: ExecGraph::execute"]}
{"id": "C32", "title": "A failed dependency blocks a task across execute calls", "statement": "Claim: no task is ever run unless its dependencies succeeded. False over two execute calls of one session: the first execute puts the failed key into the completed set, the second drops it from the graph, so its dependents have no dependency left and run. Holds for the first execute of a session. For any execute: a dependency without success had been taken up or reused by an earlier execute of the same session.", "quantifier": "every session history; witness for the negation", "why_tests_cant": "Needs multi-call histories.", "anchors": ["src/execgraph.rs: get_subgraph, ExecGraph::execute"]}
{"id": "C33", "title": "The log protocol holds in every history", "statement": "In the file, for each key every Started directly follows (among that key's Ready/Started/Finished entries) a Ready, and every Finished directly follows a Started; this holds at every crash point that cuts the file at an entry boundary, over any number of sessions. So reopening never panics.", "quantifier": "every history of sessions, executes, schedules and crash points", "why_tests_cant": "Unbounded histories and crash points.", "anchors": ["src/logfile2.rs: LogFile::write, LogFile::load_runcounts", "src/sync.rs: background_serve, drain"]}
{"id": "C34", "title": "Reopening a log restores exactly the in-memory state", "statement": "Loading what was written gives the same runcount/success/failure answer for every key and the same header as the writer had in memory at that point; same for every entry-boundary prefix.", "quantifier": "every sequence of write calls that did not panic", "why_tests_cant": "Equality of two folds over all entry sequences.", "anchors": ["src/logfile2.rs: LogFile::write, LogFile::load_runcounts, runcount, has_success, has_failure"]}
{"id": "C35", "title": "A Started entry is preceded by its dependencies' success entries", "statement": "In the log of an execute, before Started(v) there is for each selected dependency u of v an entry Finished(u, 0) of the same execute. (The same for Ready(v) is false: Ready(v) is written just before Finished(u).)", "quantifier": "every schedule and every crash point in it; witness for the negation", "why_tests_cant": "Ordering over all interleavings.", "anchors": ["src/sync.rs: background_serve, _finished_bookkeeping_2, add_to_ready_queue"]}
{"id": "C36", "title": "A task recorded as successful is never run again", "statement": "In any history of sessions over one log file, after Finished(k,0) the log never contains another Ready, Started or Finished for k, and k is never handed to a runner again; after a crash this holds for each success that survived in the file.", "quantifier": "every history of sessions, crashes, executes, schedules", "why_tests_cant": "Unbounded multi-session histories.", "anchors": ["src/execgraph.rs: get_subgraph, ExecGraph::execute", "src/logfile2.rs: has_success, load_runcounts"]}
{"id": "C37", "title": "Attempts get fresh runcounts", "statement": "In a history where each session calls execute at most once, the runcounts of successive Started entries of a key are strictly increasing, in fact 0, 1, 2, ... without gaps, and logfile_runcount reports the number of attempts so far (one less, with the directory, if the last one was a success), provided tasks are added with the runcount that logfile_runcount reports. Over several executes in a session it is false: an interrupted task is rerun under the same runcount, so two attempts share a directory, and if the process is killed after the second Ready, attempts of different sessions share it. In every history the runcounts of a key never decrease, and a runcount is at most the number of attempts of its key before it, hence less than the number of lines of the log.", "quantifier": "every history; witness for the negation", "why_tests_cant": "Multi-session, multi-execute histories with interruption.", "anchors": ["src/pylib.rs: logfile_runcount, add_task", "src/sync.rs: drain", "src/execgraph.rs: get_subgraph"]}
{"id": "C38", "title": "The workflow key never changes", "statement": "In every history of sessions on one log file all Header entries carry the same workflow key, so reopening never fails with a key mismatch; a log with two different keys or another version is refused.", "quantifier": "every history of sessions and key functions", "why_tests_cant": "Unbounded histories.", "anchors": ["src/pylib.rs: PyExecGraph::new", "src/logfile2.rs: load_runcounts, workflow_key"]}
{"id": "C39", "title": "logfile_runcount points at the directory of the success", "statement": "Claim: for a succeeded key logfile_runcount returns the directory the task ran in. True while the storage roots are the same in all sessions; false if a later session passes other roots, since the recorded root number is looked up in the newest header (wrong path, or panic if there are fewer roots).", "quantifier": "every history with unchanged roots; witness for the negation", "why_tests_cant": "Multi-session configuration changes.", "anchors": ["src/pylib.rs: logfile_runcount, new", "src/logfile2.rs: storage_root"]}
{"id": "C40", "title": "load_logfile's current part is the last session plus what it reuses", "statement": "For a log whose last session has no duplicate Backref: current is the newest header, then in file order - for each Backref'd key - its entries from its last Ready before the newest header on, then the entries of the newest session without its Backrefs. Every entry is in current, in outdated, is a Backref of the newest session, or has a key that is in current.", "quantifier": "every log file content", "why_tests_cant": "All entry sequences.", "anchors": ["src/logfile2.rs: LogFileSnapshotReader::read_current_and_outdated"]}
{"id": "C41", "title": "Outdated never names a current key", "statement": "No Ready/Started/Finished/Backref entry in outdated has a key that occurs in current, so deleting the directories of outdated tasks cannot delete a current result.", "quantifier": "every log file content", "why_tests_cant": "All entry sequences.", "anchors": ["src/logfile2.rs: LogFileSnapshotReader::read_current_and_outdated"]}
{"id": "C42", "title": "load_logfile panics exactly on duplicate Backrefs", "statement": "read_current_and_outdated's internal assertion fails iff the part after the newest header contains the same Backref key twice. Logs written by one session with this library never contain such a duplicate.", "quantifier": "every log content; every session history", "why_tests_cant": "All contents.", "anchors": ["src/logfile2.rs: read_current_and_outdated", "src/execgraph.rs: get_subgraph"]}
{"id": "C43", "title": "Log lines: round trip and framing", "statement": "Each entry is written as one line: its JSON contains no raw newline whatever the strings inside are, and parsing the line gives the entry back. So a file of n writes has n lines which parse to the n entries.", "quantifier": "every entry, all strings", "why_tests_cant": "All strings including control characters.", "anchors": ["src/logfile2.rs: LogEntry, LogFile::write, LogFile::load_runcounts, LogFileSnapshotReader::read"]}
{"id": "C44", "title": "A torn last line makes the log unusable", "statement": "Claim: after a crash the log can be reopened. False: if the crash cuts the last line inside the JSON text, reopening fails (parse error, or invalid UTF-8). The read-only reader skips such a line, unless the cut is inside a multi-byte character: then it fails as well. If the crash cuts exactly the newline, reopening works but the next entry is glued to the line; the reopening after that fails and the read-only reader loses both entries. Cuts at a line boundary are fine; so a beginning of a good log can be reopened exactly if it ends after a line or just before its newline.", "quantifier": "every entry and every cut position", "why_tests_cant": "Every byte position of every entry.", "anchors": ["src/logfile2.rs: LogFile::new, LogFile::write, load_runcounts, LogFileSnapshotReader::read"]}
{"id": "C45", "title": "Exclusive access to the log", "statement": "While one session holds the log no other session can open it - provided no opener is between opening the lock file and locking it when the holder exits. Without that proviso it is false: the holder deletes the lock file on exit, so two later openers can lock two different files.", "quantifier": "every interleaving of any number of openers; witness for the negation", "why_tests_cant": "File-system race.", "anchors": ["src/logfile2.rs: LogFile::new, Drop for LogFile"]}
{"id": "C46", "title": "Exit status mapping", "statement": "A task counts as successful iff its process exited with code 0: death by signal, cancellation, disconnection, failure to spawn are all recorded as non-zero. The recorded number is the exit code, minus the signal number, -10 or -1.", "quantifier": "every exit status", "why_tests_cant": "All codes/signals.", "anchors": ["src/sync.rs: ExitStatus", "src/localrunner.rs: ChildOutput::code, run_local_process_loop", "src/logfile2.rs: LogFile::write"]}
{"id": "C47", "title": "Local parallelism bound", "statement": "At any moment at most num_parallel tasks are held by the normal local loops and at most one by the console loop; with num_parallel=0 no task is ever run locally. Each local loop reports each task it took exactly once as started and at most once as finished, in this order, unless hard-cancelled.", "quantifier": "every schedule", "why_tests_cant": "All interleavings.", "anchors": ["src/execgraph.rs: ExecGraph::execute", "src/localrunner.rs: run_local_process_loop"]}
{"id": "C48", "title": "Soft cancellation hits only recently started tasks", "statement": "When a failure-triggered soft shutdown happens at time t, a local task is cancelled only if it was started after t - 5s; older ones run to completion (unless hard-cancelled).", "quantifier": "every schedule", "why_tests_cant": "Timing and interleavings.", "anchors": ["src/localrunner.rs: run_local_process_loop", "src/fancy_cancellation_token.rs: soft_cancelled", "src/sync.rs: background_serve"]}
{"id": "C49", "title": "Preamble and postamble calls", "statement": "Claim: the preamble is called once before the command. False: a started local or remote task gets it twice. The postamble is called exactly once per processed finish, with the right success flag.", "quantifier": "every schedule; witness for the negation", "why_tests_cant": "All schedules.", "anchors": ["src/localrunner.rs: run_local_process_loop", "src/sync.rs: send_started, _finished_bookkeeping_1", "src/server.rs: start_request_impl"]}
{"id": "C50", "title": "fd3 values parsing", "statement": "Each good line of the fd3 output yields one map of its key=value words; the value may contain '=', the last assignment of a key in a line wins, words without '=' are ignored, a line that is not well quoted is dropped without affecting other lines, and non-UTF-8 output gives no values. What the words of a line are, and which lines are not well quoted, is exactly what the quoting rules of the shell say (single and double quotes, backslashes, comments).", "quantifier": "every byte string", "why_tests_cant": "All inputs.", "anchors": ["src/localrunner.rs: ChildOutput::fd3_values"]}
{"id": "C51", "title": "Displayed commands are single-cell text", "statement": "A command without explicit display text is shown as its words joined by blanks, with each backslash-newline replaced by a blank and each tab by backslash-t; the result contains no tab and no backslash-newline that came from one occurrence; explicit display text is shown verbatim.", "quantifier": "every command line", "why_tests_cant": "All strings, overlapping patterns.", "anchors": ["src/execgraph.rs: Cmd::display"]}
{"id": "C52", "title": "Requests without the token change nothing", "statement": "Every request except /status with a missing or wrong token is answered with an error (401 if the token is wrong and the request is otherwise well-formed; another 4xx if the header is missing or the body can not be decoded) and leaves the server, the scheduler and the log unchanged.", "quantifier": "every server state and request", "why_tests_cant": "All states/requests.", "anchors": ["src/server.rs: handlers, validate token"]}
{"id": "C53", "title": "Each remote task is reported finished at most once, and exactly once when its connection goes away properly", "statement": "For each task handed to a remote runner the scheduler receives at most one finish report: the /end answer and the ping timeout exclude each other, whatever their order and however often requests are repeated; after it the transaction is unknown.", "quantifier": "every sequence and interleaving of /start, /begun, /ping, /end, timer ticks", "why_tests_cant": "Races between handlers and reaper.", "anchors": ["src/server.rs: end_handler, reap_pings_forever, start_request_impl"]}
{"id": "C54", "title": "A task can be lost by /end from another Slurm job", "statement": "Claim: a task handed to a remote runner is eventually reported (by /end or timeout). False: /end with a jobid other than recorded is refused, but the connection has been removed, so neither later /end nor the timeout reports it and execute hangs.", "quantifier": "witness sequence and all continuations", "why_tests_cant": "Needs a particular misdirected request; hang.", "anchors": ["src/server.rs: end_handler, reap_pings_forever"]}
{"id": "C55", "title": "Silent runners are disconnected, pinging ones are not", "statement": "A connection whose timer is (re)set at some tick is reported disconnected exactly at the 255th following tick of the wheel if there is no ping or end before, and never if each ping comes within 254 ticks of the last. (255 ticks are 34.86s, so the documented 35s timeout is undercut slightly.)", "quantifier": "every sequence of ticks, inserts, cancels", "why_tests_cant": "Unbounded time.", "anchors": ["src/server.rs: reap_pings_forever, ping_handler, start_request_impl", "src/time/timewheel.rs"]}
{"id": "C56", "title": "Timer wheel exactness", "statement": "An entry inserted with a delay that maps to step s in 1..255 fires at exactly the s-th tick after insertion unless cancelled, and once; entries of others do not change this. Delays mapping to step 0 (shorter than a tick, or the full revolution) fire only at tick 256.", "quantifier": "every sequence of operations, every duration", "why_tests_cant": "Unbounded sequences, modular arithmetic.", "anchors": ["src/time/timewheel.rs: tick, insert, cancel"]}
{"id": "C57", "title": "Cancelling a timer cancels only that timer", "statement": "cancel with the id of a pending timer removes this timer and no other; with the id of one that was cancelled earlier it does nothing. With the id of a timer that already fired it can remove a different timer inserted later in the same slot.", "quantifier": "every sequence of operations; witness for the negation", "why_tests_cant": "Id reuse across slot recreation.", "anchors": ["src/time/timewheel.rs: cancel, insert, tick"]}
{"id": "C58", "title": "A Slurm job reported as safe to cancel gets no further task", "statement": "Claim in the code comments. A /start arriving after the reply is refused with 410. But false for a /start already waiting, and for the next-task part of /end, which never checks.", "quantifier": "every request sequence with atomic requests; witness interleaving for the negation", "why_tests_cant": "Interleavings of long-running requests.", "anchors": ["src/server.rs: mark_slurm_job_cancelation, start_handler, end_handler, start_request_impl"]}
{"id": "C59", "title": "The reaper can crash on a concurrent /end", "statement": "Claim: no sequence of valid requests crashes the server. False: when reaping after a soft cancel, the connection found by iteration is removed with unwrap, while /end may have removed it in between.", "quantifier": "witness interleaving", "why_tests_cant": "Race.", "anchors": ["src/server.rs: reap_pings_forever, end_handler"]}
{"id": "C60", "title": "Cancellation only grows", "statement": "Sequentially: after cancel(s) the set of start times considered cancelled is the union of the old set and that of s; hard stays hard. So once soft_cancelled(t) would return it always would. Concurrently it is false: a soft cancel racing with a hard cancel can replace it.", "quantifier": "every sequence of cancels; witness interleaving for the negation", "why_tests_cant": "All sequences and interleavings.", "anchors": ["src/fancy_cancellation_token.rs: CancellationToken::cancel, soft_cancelled, hard_cancelled"]}
{"id": "C61", "title": "No lost wake-ups", "statement": "A task waiting on an AsyncFlag (AsyncCounter) is never left sleeping un-notified while the flag is set (the counter exceeds the awaited value), whatever the interleaving of waiters and setters; wait on the counter returns only values greater than the argument.", "quantifier": "every interleaving of any number of waiters, set/unset/incr", "why_tests_cant": "Classic race; needs all interleavings.", "anchors": ["src/async_flag.rs: AsyncFlag, AsyncCounter"]}
{"id": "C62", "title": "Etag long-polling", "statement": "A status request with etag e returns early only when the counter exceeds e; polling with the etag last received returns as soon as tasks were made ready since. The documented 'one larger' misses one increment.", "quantifier": "every history of increments; witness for the negation", "why_tests_cant": "All histories.", "anchors": ["src/sync.rs: get_queuestate", "src/async_flag.rs: AsyncCounter::wait", "src/httpinterface.rs: StatusReply"]}
{"id": "C63", "title": "Launch rate limit", "statement": "With n permits granted at clock readings all within [a,b] and no reset in between, n*tau <= (b-a) + 10^9 ns, where tau = 10^9/rate; since creation (or reset) at time a, n*tau <= (b-a) + (10^9 - rate*tau), i.e. no initial burst. Also with concurrent callers whose clock readings are out of order.", "quantifier": "every sequence of requests, every rate, every clock behaviour", "why_tests_cant": "Unbounded sequences.", "anchors": ["src/time/gcra.rs: RateLimiter"]}
{"id": "C64", "title": "The limiter does not starve", "statement": "A denied caller is told a wait after which, if nobody else took a permit meanwhile, it is granted; and a rate above 10^9 or 0-tau means unlimited.", "quantifier": "every limiter state and time", "why_tests_cant": "All states.", "anchors": ["src/time/gcra.rs: compute_raw, until_ready"]}
{"id": "C65", "title": "Rate read-back", "statement": "The ratelimit shown equals the one set whenever r(r+1) <= 10^9, and is never smaller than the one set; it is wrong for some larger rates (60000 is shown as 60002).", "quantifier": "every rate; witness for the negation", "why_tests_cant": "All rates.", "anchors": ["src/time/gcra.rs: rate_per_second, new, reset"]}
{"id": "C66", "title": "Permits are hoarded by idle receivers", "statement": "Claim: no more than ratelimit tasks are launched per second. False: each receiver takes its permit before waiting for a task, so k idle receivers launch k tasks at the same instant, however small the rate. What holds: over a whole run the launches respect the rate, and in any window they exceed it by at most the number of receivers holding a permit at its beginning; and every launch has used up a permit of its own and a ready task.", "quantifier": "witness: every k and every rate", "why_tests_cant": "Needs many idle runners.", "anchors": ["src/sync.rs: ReadyTrackerClient::recv", "src/time/gcra.rs"]}
{"id": "C67", "title": "Average runtime", "statement": "The reported average is 0 with no sample, else it lies between the smallest and the largest of the most recent (at most 100) recorded runtimes in milliseconds and depends on nothing older.", "quantifier": "every sequence of recorded runtimes", "why_tests_cant": "All sequences.", "anchors": ["src/simpleringbuffer.rs"]}
{"id": "C68", "title": "HTTP body codec round trip", "statement": "What one side encodes the other decodes to the same message, whether or not the size threshold triggers compression, in both directions, provided a request's encoded body is at most 2 MiB (the server refuses longer ones, see C81); a body with unknown content type or encoding is rejected.", "quantifier": "every message of every size", "why_tests_cant": "All payloads.", "anchors": ["src/http_extensions/axum.rs", "src/http_extensions/reqwest.rs", "src/http_extensions/common.rs"]}
{"id": "C69", "title": "Remote deadline reserve", "statement": "The remote runner's SIGTERM deadline is never before the start nor after start+duration, leaves 60s when the duration exceeds 120s, and its computation never underflows. The message 'a (b minus c for cleanup)' adds up for durations above 120s; for shorter ones it does not (it says 60s are taken off when none are).", "quantifier": "every duration", "why_tests_cant": "All durations.", "anchors": ["src/bin/execgraph-remote.rs: SigtermChildBeforeSchedulerDeadline"]}
{"id": "C70", "title": "SIGKILL only 5 seconds after SIGTERM", "statement": "In child cleanup each process gets SIGTERM exactly once, when first seen, and SIGKILL only if it is still there more than 5s after its own SIGTERM; provided pids are not reused during the cleanup. If a pid is reused, a process may get SIGKILL without SIGTERM.", "quantifier": "every sequence of process snapshots and times", "why_tests_cant": "All sequences.", "anchors": ["src/bin/execgraph-remote.rs: cleanup_child_processes_carefully"]}
{"id": "C71", "title": "Error conversion does not terminate", "statement": "Claim: an error from a child process is turned into a RemoteError. False: the conversion calls itself forever; after such an error the runner never reports, cleans up or exits.", "quantifier": "every error", "why_tests_cant": "Non-termination.", "anchors": ["src/bin/execgraph-remote.rs: From<ChildProcessError> for RemoteError"]}
{"id": "C72", "title": "Empty key is not special", "statement": "Claim (docstring): a task with key '' is never skipped. False: it is deduplicated and skipped like any other key.", "quantifier": "every graph and log; witness for the negation", "why_tests_cant": "Doc claim over all states.", "anchors": ["src/pylib.rs: add_task", "src/execgraph.rs: ExecGraph::add_task, get_subgraph"]}
{"id": "C73", "title": "What an execute call logged survives the process", "statement": "Claim: when execute has returned, all log entries it wrote are on disk and remain a prefix of the log in all later sessions, even if the process is killed immediately afterwards. Holds if execute ran anything. False if everything was reused: then execute returns without flushing, and the Backref entries of that call are lost if the process is killed.", "quantifier": "every history of sessions, crashes and schedules; witness for the negation", "why_tests_cant": "Needs kills at arbitrary points of unbounded histories.", "anchors": ["src/execgraph.rs: ExecGraph::execute, get_subgraph", "src/logfile2.rs: LogFile::write, LogFile::flush"]}
{"id": "C74", "title": "What execute returns agrees with the log", "statement": "When an execute that ran something returns (n_failed, keys): n_failed is the number of Finished entries with a non-zero exit code this call appended to the log; keys are the keys of the first Finished entries it appended, in that order, without repetition. An execute that finds nothing to run returns (0, []) and appends only Backref entries.", "quantifier": "every history of sessions, every schedule, shutdown and crash point", "why_tests_cant": "Needs all interleavings of reports, shutdowns and drain.", "anchors": ["src/execgraph.rs: ExecGraph::execute", "src/sync.rs: _finished_bookkeeping_1, drain"]}
{"id": "C75", "title": "Nothing runs twice in one session", "statement": "A task whose key an execute of a session returned, successful or not, is not selected, and so not obtained by any runner, in any later execute of that session.", "quantifier": "every history, any number of add_task and execute calls in between", "why_tests_cant": "Unbounded histories.", "anchors": ["src/execgraph.rs: ExecGraph::execute, get_subgraph"]}
{"id": "C76", "title": "Log entries say what happened", "statement": "Every entry an execute appends has an origin: a Ready entry shows key, runcount, storage root and display text of a task; a Finished entry shows exit code and values that a runner reported for the task, or was made up by drain (-1, no values) for a task reported as started; a Started entry shows host, pid and job id the runner reported, or was made up (empty host, pid 0) for a task of which only the end was reported. Claim: a Started entry for a reported start shows the reported host and pid. False for reports processed by drain: the entry says host 'host', pid 0.", "quantifier": "every run of an execute; witness for the negation", "why_tests_cant": "All interleavings.", "anchors": ["src/sync.rs: background_serve, drain, add_to_ready_queue"]}
{"id": "C77", "title": "Finish reports are acknowledged, and not too early", "statement": "A finish report sent with a flag is still waiting or being processed, or its flag is set, or the whole execute is over and the token hard cancelled: so an /end handler waiting for the flag or for the hard cancellation is woken. A flag is set only after the report was processed and all tasks it made ready were put into the queues.", "quantifier": "every run of an execute", "why_tests_cant": "All interleavings.", "anchors": ["src/sync.rs: _finished_bookkeeping, drain", "src/server.rs: end_handler"]}
{"id": "C78", "title": "The event counter counts batches of ready tasks", "statement": "ready_or_inflight_increased_event equals the number of times the server made at least one task ready (one less while such a batch is still being put into the queues).", "quantifier": "every run of an execute", "why_tests_cant": "All interleavings.", "anchors": ["src/sync.rs: add_to_ready_queue"]}
{"id": "C79", "title": "Sessions only append to the log", "statement": "What one session has written to the log file is not overwritten by another - provided no opener is between opening and locking the lock file when the holder removes it, and none opens it before the holder has closed the log. Without the proviso false: the lock file is removed before the log buffer is written, and the log is not opened in append mode, so a session that begins in between overwrites the records of the first.", "quantifier": "every interleaving of any number of sessions; witness for the negation", "why_tests_cant": "Race window between unlink and close.", "anchors": ["src/logfile2.rs: LogFile::new, Drop for LogFile"]}
{"id": "C80", "title": "Quoted values survive", "statement": "A task that writes key=value words to fd 3, one line per map, each word shell-quoted (single quotes, or plain if harmless), gets exactly these maps recorded, if no word contains a newline. A quoted value with a newline is lost.", "quantifier": "every list of lists of words; witness for the negation", "why_tests_cant": "All strings.", "anchors": ["src/localrunner.rs: ChildOutput::fd3_values"]}
{"id": "C81", "title": "Long output and the end report", "statement": "A remote runner can report the end of a task whatever its output was. (Violated: the server refuses request bodies over 2 MiB, so whatever the compression does there is output of less than 19 million characters with which the end report is refused.)", "quantifier": "every output, every lossless compression", "why_tests_cant": "No sample of outputs shows which ones compress below the limit; the claim is about every compression scheme.", "anchors": ["src/server.rs:567-620", "src/http_extensions/axum.rs:85-107", "src/http_extensions/reqwest.rs:20-38", "src/bin/execgraph-remote.rs"]}
{"id": "C82", "title": "A panicking local runner", "statement": "A task obtained by a local runner is eventually reported, whatever it is. (Violated: a task with fd_input on descriptor 3, which add_task accepts, makes the runner panic; so does a failing preamble or a child that closes its input early. The task is then never reported and execute hangs unless somebody shuts it down.)", "quantifier": "every reachable state and every continuation", "why_tests_cant": "The claim is about all continuations: that nothing any other party does can make up for the lost report.", "anchors": ["src/localrunner.rs:34-159", "src/execgraph.rs:146-161", "src/execgraph.rs:217-239"]}
{"id": "C83", "title": "A failing preamble of a remote task", "statement": "A task handed to a remote runner is eventually reported. (Violated: when the preamble of the task fails in the handler of /start or /end, the task has been taken from the queue but there is no connection yet, so nobody ever reports it.)", "quantifier": "every reachable state and every continuation", "why_tests_cant": "The claim is about all continuations.", "anchors": ["src/server.rs:345-399", "src/execgraph.rs:146-161"]}
{"id": "C84", "title": "Transaction ids are unique", "statement": "The transaction id a remote runner gets identifies its task until it is ended. (Violated: ids are random 32-bit numbers and not compared with those in use; on a collision the older task is never reported, and its runner's /end is recorded as the success of the other task.)", "quantifier": "every state; witness with all continuations", "why_tests_cant": "Collisions are rare and random.", "anchors": ["src/server.rs:373-388", "src/server.rs:452-489"]}
{"id": "C85", "title": "A silent runner is noticed", "statement": "A connection for which no ping arrives during 255 ticks of the timer wheel (35 s) is removed by the reaper. (True if no tick falls between a handler's use of the wheel and its use of the connections; otherwise violated: a stalled /end cancels another connection's timer, whose id is the same as its own expired one, and that connection is never removed.)", "quantifier": "every schedule in which handlers are prompt; witness otherwise", "why_tests_cant": "All interleavings of handlers, pings and ticks.", "anchors": ["src/server.rs:111-159", "src/server.rs:240-265", "src/server.rs:375-388", "src/server.rs:452-474", "src/time/timewheel.rs"]}
{"id": "C86", "title": "A runner that pings is not declared disconnected", "statement": "A remote task is reported as disconnected only if no authorized ping for it arrived during 255 consecutive ticks of the timer wheel (35 s) while its connection was open, or because of the quick-failure rule (C87). (True if transaction ids are distinct and no tick falls between a handler's use of the wheel and its use of the connections; without distinct ids it is violated: the timer of an earlier connection with the same id ends the later one early.)", "quantifier": "every schedule with distinct transaction ids and prompt handlers; witness otherwise", "why_tests_cant": "All interleavings of handlers, pings and ticks over any number of connections.", "anchors": ["src/server.rs:111-159", "src/server.rs:240-265", "src/server.rs:375-388"]}
{"id": "C87", "title": "Soft cancellation ends only recently started remote tasks", "statement": "A remote task whose runner pings is reported as disconnected only if it was handed out later than T - 5 s, where T is a moment at which at least fizzles_allowed tasks had failed within 5 s of their start. A shutdown asked for by the user ends no remote task.", "quantifier": "every schedule with distinct transaction ids and prompt handlers", "why_tests_cant": "The claim is about all orders of failures, ticks and requests.", "anchors": ["src/server.rs:126-142", "src/sync.rs:440-470"]}
{"id": "C88", "title": "Finish reports are true", "statement": "Every finish the scheduler is told of is that of a local process of this task which ended with this code and these fd-3 values, of an authorized /end with this code and these values for a transaction as which this task was handed out, of a local process that could not be started (code -1), of a local process stopped by soft cancellation, or of the reaper.", "quantifier": "every schedule", "why_tests_cant": "All interleavings of local loops, handlers and reaper.", "anchors": ["src/localrunner.rs:34-159", "src/server.rs:441-508", "src/server.rs:143-151"]}
{"id": "C89", "title": "The next task of /end comes after its own finish", "statement": "When /end is answered with another task, the scheduler has processed the finish it reported (so the tasks that depend on it may already be offered), unless there was a hard cancellation.", "quantifier": "every schedule", "why_tests_cant": "The order of two threads of control, in all interleavings.", "anchors": ["src/server.rs:476-508", "src/sync.rs:392-420"]}
{"id": "C90", "title": "execute leaves no runner behind", "statement": "When execute has joined its runners, every local loop has returned, was cut off by a hard cancellation or panicked; every HTTP request has been answered or dropped or its handler panicked; the reaper has stopped or panicked. A local loop is cut off in the middle of a task only after a hard cancellation. The HTTP server and the reaper stop only after a hard cancellation (execute makes one itself when the scheduler is done).", "quantifier": "every schedule", "why_tests_cant": "The claim is about all interleavings.", "anchors": ["src/execgraph.rs:388-397", "src/localrunner.rs:34-60"]}
{"id": "C91", "title": "Logs of other writers are read", "statement": "A log line is read the same whatever the order of its fields, and fields the reader does not know are ignored. A line without the fields added later (storage_roots, r, slurm_jobid, values) is read with their default values.", "quantifier": "every entry, every order of its fields, any other fields", "why_tests_cant": "Orders of fields, unknown fields and values are unbounded.", "anchors": ["src/logfile2.rs: LogEntry, HeaderEntry, ReadyEntry, StartedEntry, FinishedEntry"]}
{"id": "C92", "title": "The remote runner's protocol", "statement": "A remote runner asks at /start at most once and handles tasks one after the other; each but the last is received, started, announced at /begun with its process's pid (0 if it could not be started), waited for, and reported once at /end with that process's exit code and values (13 without values if it could not be started) together with a request for another. The last may be cut short, or reported with -15 after a message of Slurm. When a task's process has ended (or could not be started) and the server answers, this is reported; but a task with an empty command line or with its input at descriptor 3 makes the runner panic and is not reported.", "quantifier": "every run of the runner, every sequence of answers, signals and task endings", "why_tests_cant": "Sequences of tasks and interleavings are unbounded.", "anchors": ["src/bin/execgraph-remote.rs: main, run_command"]}
{"id": "C93", "title": "A runner told to stop accepts no further tasks", "statement": "Once SIGUSR1 was received or max_time_accepting_tasks has passed, the runner receives at most one more task, and only if it had already asked for it (or not yet asked at all). Before that it asks for another task with every report.", "quantifier": "every run from every state", "why_tests_cant": "Unbounded continuations.", "anchors": ["src/bin/execgraph-remote.rs: still_accepting_tasks, run_command"]}
{"id": "C94", "title": "SIGTERM to a task", "statement": "The runner sends SIGTERM to a running task only after the deadline or on a message of Slurm. After the deadline it does not send it once but again and again without pause until the task's output is complete, and also to the pid of a process that has already ended.", "quantifier": "every run; every number of repetitions", "why_tests_cant": "Timing of signals cannot be observed by unit tests.", "anchors": ["src/bin/execgraph-remote.rs: run_command wait loop"]}
{"id": "C95", "title": "No tasks after the deadline", "statement": "If max_time_accepting_tasks is not after the deadline, a runner receives at most one task after its deadline. Without that option this is false: it takes any number of tasks after the deadline and terminates each.", "quantifier": "every configuration and run", "why_tests_cant": "Needs all timings and numbers of tasks.", "anchors": ["src/bin/execgraph-remote.rs: still_accepting_tasks, run_command"]}
{"id": "C96", "title": "Runner and server give each other up in the right order", "statement": "If answers reach the runner within 5s, the runner gives up no later than the server's ping timeout after the server last heard from it; with slower answers the server may give up first. A runner whose pongs are at most two ping intervals apart does not give up.", "quantifier": "every sequence of pong times and latencies", "why_tests_cant": "All timings.", "anchors": ["src/bin/execgraph-remote.rs: run_command pinger and pong consumer", "src/constants.rs: PING_TIMEOUT_MSECS"]}
{"id": "C97", "title": "A runner leaves no task behind", "statement": "When the runner's main returns, its tasks' processes have ended. A runner that panics (a task closes its input early) leaves the process behind.", "quantifier": "every run", "why_tests_cant": "Every interleaving.", "anchors": ["src/bin/execgraph-remote.rs: main, cleanup_child_processes_carefully, run_command"]}
{"id": "C98", "title": "A task that does not read its input blocks the runner", "statement": "Claim: a runner reacts to a lost server, Slurm messages and the deadline at any time while a task runs. False while it writes the task's input: it stays there until the task reads or closes it, and the server is not told that the task has begun.", "quantifier": "every continuation", "why_tests_cant": "Requires arguing about all continuations.", "anchors": ["src/bin/execgraph-remote.rs: run_command, fd_input"]}
{"id": "C99", "title": "Honest runners cannot bring the server down", "statement": "In every run of the server with any number of remote runners of the bundled kind, however their requests and answers are delayed or lost, no runner sends /begun for a transaction for which it was accepted before; hence the server panics neither while serving nor in drain (commands displayable, transaction ids distinct).", "quantifier": "every graph, number of runners, schedule, delay and loss", "why_tests_cant": "Needs the composition of server and all runners over all schedules.", "anchors": ["src/bin/execgraph-remote.rs: run_command", "src/server.rs: begun_handler, start_request_impl", "src/sync.rs: background_serve"]}
{"id": "C100", "title": "Reported exit codes are what the runner saw, end to end", "statement": "If the scheduler receives an exit code and values for a task, then a local process of the task ended so (or could not be started: -1), or some remote runner received exactly this task's command line and input descriptor, started it, announced it, and saw it end with this code and these values (or could not start it: 13; or was told to stop by Slurm: -15), in this order and with nothing else in between but SIGTERMs at the deadline.", "quantifier": "every run, number of runners, schedule, delay and loss; transaction ids distinct", "why_tests_cant": "Attribution across processes and the network over all schedules.", "anchors": ["src/server.rs: end_handler", "src/bin/execgraph-remote.rs: run_command", "src/localrunner.rs: run_local_process_loop"]}
{"id": "C101", "title": "Reported hosts, process ids and jobs are true, end to end", "statement": "If the scheduler receives a start report for a task with host, process id and Slurm job id, then a local loop started it (no job id; process id 0 if it could not), or a remote runner on this host in this job received this task and started a process with this id (0 if it could not) right before announcing it.", "quantifier": "every run, number of runners, schedule, delay and loss; transaction ids distinct", "why_tests_cant": "Attribution across processes and the network over all schedules.", "anchors": ["src/server.rs: begun_handler", "src/bin/execgraph-remote.rs: run_command", "src/sync.rs: send_started"]}
{"id": "C102", "title": "At most one process per task, everywhere", "statement": "In one execute at most one process is started for each task, counting all local loops and all remote runners, however requests and answers are delayed or lost. A remote runner starts the command of the task it received last.", "quantifier": "every run, number of runners, schedule, delay and loss; transaction ids distinct", "why_tests_cant": "Global exclusion over all schedules of server, network and runners.", "anchors": ["src/sync.rs: recv", "src/server.rs: start_request_impl", "src/bin/execgraph-remote.rs: run_command", "src/localrunner.rs: run_local_process_loop"]}
{"id": "C103", "title": "When execute returns, tasks reported disconnected may still run", "statement": "Claim: when a task is reported as finished, its process has ended. True for exit codes (other than Slurm's -15): the report is sent after the process was waited for. False for disconnected tasks: the reaper reports a task whose runner pings regularly (soft cancellation), execute returns, the runner's pings are answered with 200 all along, and the process runs on.", "quantifier": "every run; witness run for the violation", "why_tests_cant": "Needs server, reaper and runner together at one moment.", "anchors": ["src/server.rs: ping_timeout_handler, ping_handler", "src/bin/execgraph-remote.rs: run_command, ping loop"]}
{"id": "C104", "title": "Server and runner agree on who may say what", "statement": "A remote runner that waits for an answer waits for a request it sent itself; whatever the server answers to it the runner can proceed (in particular /end without asking for another task is never answered with one), and it can proceed if request or answer is lost.", "quantifier": "every run, number of runners, schedule, delay and loss", "why_tests_cant": "Absence of a stuck state over all executions.", "anchors": ["src/server.rs: end_handler, start_handler", "src/bin/execgraph-remote.rs: run_command, main"]}
{"id": "C105", "title": "Deployments are histories", "statement": "Take any number of sessions over one log file, each with any number of execute calls, each execute with local loops, HTTP server, reaper, a network that delays and loses, and any number of remote runners, killed at any point, with remote runners going on after their server is gone. What happens to the log, to the tasks and to the results is a history as the properties of histories (C32-C39, C73) describe it, with the same log: so these hold whatever the runners do.", "quantifier": "every deployment, schedule, kill, delay and loss; transaction ids of one execute distinct", "why_tests_cant": "Refinement over unbounded executions of many processes.", "anchors": ["src/execgraph.rs: execute", "src/server.rs", "src/localrunner.rs", "src/bin/execgraph-remote.rs"]}
{"id": "C106", "title": "A process is started only after processes of its dependencies were seen to end with 0", "statement": "Whenever any process is started for a task of the first execute of a session, by a local loop or a remote runner, even by one whose server is gone: for each dependency of the task a process was started earlier, in this or an earlier session, and was seen to end with exit code 0. False for later execute calls of a session: there a process is started although the only process ever of its dependency ended with exit code 1.", "quantifier": "every deployment, session, task, runner; witness for the violation", "why_tests_cant": "Relates observable processes across sessions, machines and crashes.", "anchors": ["src/execgraph.rs: get_subgraph, execute", "src/sync.rs: background_serve", "src/bin/execgraph-remote.rs: run_command"]}
{"id": "C107", "title": "What has succeeded is not started again", "statement": "Whenever the execute in progress starts a process, no success of that task is in the log; and what was in the file when an earlier execute returned or an earlier session ended is never started again by any later execute. False for remote runners of an earlier process: the process is killed after a runner has obtained a task; the next session runs the task to success; then the runner starts it again. It can also do so while the process of the second session runs, with the same attempt number, so both use one attempt directory.", "quantifier": "every deployment; witnesses for the violations", "why_tests_cant": "Needs a crash between two particular steps and two sessions.", "anchors": ["src/execgraph.rs: execute", "src/server.rs: start_request_impl", "src/bin/execgraph-remote.rs: main, run_command", "src/logfile2.rs: runcount"]}
{"id": "C108", "title": "Exit codes in the log are true", "statement": "For an entry Finished in the log with an exit code other than those made up (-1, -10, -15, 13): a process of that task was started and was seen, by the loop or runner that started it, to end with this exit code and these values. In particular success in the log is always true, across sessions, crashes and lost messages.", "quantifier": "every deployment, log entry", "why_tests_cant": "End-to-end truth over all interleavings, crashes and lost messages.", "anchors": ["src/sync.rs: background_serve, drain", "src/server.rs: end_handler", "src/localrunner.rs", "src/bin/execgraph-remote.rs"]}
{"id": "C109", "title": "No deployment makes the server panic", "statement": "Whatever happens, nothing but add_task makes the server's process panic, if commands can be displayed: not opening the log left by any earlier crash, not execute, not the scheduler, not a request of a runner, also not after runners of earlier processes went on.", "quantifier": "every deployment, action; displayable commands; distinct transaction ids", "why_tests_cant": "Absence of panics in all reachable states.", "anchors": ["src/sync.rs", "src/server.rs", "src/logfile2.rs", "src/execgraph.rs: execute"]}
{"id": "C110", "title": "Kills at any byte change nothing for the sessions that open", "statement": "Let processes end, also by kill, with the file cut at any byte after what was flushed. Every session whose constructor succeeds then behaves as if files were only ever cut between entries: its log begins with everything any earlier session had flushed, no recorded success is run again, all properties of histories (C32-C39, C73) hold, and nothing but add_task panics.", "quantifier": "every history over the bytes of the file, every cut position of every kill", "why_tests_cant": "All positions of cuts in all sessions; a test cuts one file at a few places.", "anchors": ["src/logfile2.rs: LogFile::new, write, flush", "src/pylib.rs: new", "src/execgraph.rs: execute"]}
{"id": "C111", "title": "When the log can be opened again", "statement": "After the end of a process the constructor succeeds iff the process has added nothing to the file, or the file it had opened ended with a newline and the end of what is left is next to a newline (just behind or just before one). Otherwise it fails, and nothing this library does ever repairs the file. If every process leaves a file ending with a newline, the constructor always succeeds.", "quantifier": "every history over bytes, every number of bytes left", "why_tests_cant": "Exact characterisation over all cut positions and all earlier sessions.", "anchors": ["src/logfile2.rs: LogFile::new, load_runcounts", "src/pylib.rs: new"]}
{"id": "C112", "title": "A lost newline is accepted once", "statement": "One would expect: if the constructor succeeds and execute returns success, the log can be opened later. False: if a kill lost exactly the newline of the last entry, the next constructor succeeds and its session works as usual, but as soon as anything of that session is in the file no constructor ever succeeds again; the first new entry was appended to the unterminated line.", "quantifier": "every session that found a file without final newline; witness with two sessions and execute returning success", "why_tests_cant": "Needs a kill between two particular bytes and three sessions.", "anchors": ["src/logfile2.rs: LogFile::new, write, load_runcounts"]}
{"id": "C113", "title": "A bound on the work of execute", "statement": "With local loops only, whatever the schedule, the number of actions of execgraph and of the processes it started (channel operations, reports, log entries, starts and ends of processes, returns of loops) is at most 201 n + 2 num_parallel + 7, plus one per request for a soft shutdown; n is the number of selected tasks. There is no livelock: nothing is retried for ever.", "quantifier": "every graph, number of loops, schedule", "why_tests_cant": "Livelocks (for example two receivers stealing flags from each other for ever) depend on the schedule.", "anchors": ["src/sync.rs: background_serve, recv, send_finished, drain", "src/localrunner.rs: run_local_process_loop", "src/execgraph.rs: execute"]}
{"id": "C114", "title": "Never stuck", "statement": "With local loops only, without requests for a soft shutdown (see C28) and without panics of loops (see C82): at every moment before execute returns, execgraph itself can do something, or a process it has started is still running and has not been told to stop. From every such moment a schedule of at most 201 n + 2 num_parallel + 7 further actions leads to the return.", "quantifier": "every graph, number of loops >= 1, every reachable state, also after cancellations, failures and Ctrl-C", "why_tests_cant": "Deadlock freedom over all interleavings and all graphs.", "anchors": ["src/sync.rs: background_serve, recv, drain", "src/localrunner.rs: run_local_process_loop", "src/execgraph.rs: execute"]}
{"id": "C115", "title": "execute returns", "statement": "With local loops only: if every started process ends and nobody waits for ever in front of a possible action, execute returns, whatever the exit codes and even if somebody cancels or presses Ctrl-C at any time (provided no soft shutdown is requested, see C28, and no loop panics, see C82).", "quantifier": "every infinite fair schedule, every graph", "why_tests_cant": "Liveness over infinite schedules.", "anchors": ["src/execgraph.rs: execute", "src/sync.rs: background_serve", "src/localrunner.rs: run_local_process_loop"]}
{"id": "C116", "title": "Total correctness", "statement": "With local loops only: if moreover every process can be started and ends with exit code 0, no loop panics and nobody asks for a shutdown, execute returns and then every selected task has been reported as successful exactly once, dependencies before the tasks that need them.", "quantifier": "every infinite fair schedule, every graph whose tasks accept runner type 0 or 1", "why_tests_cant": "Total correctness over infinite schedules.", "anchors": ["src/execgraph.rs: execute", "src/sync.rs: background_serve", "src/localrunner.rs: run_local_process_loop"]}
{"id": "C117", "title": "Reported output is complete", "statement": "When a local task is reported, the report says how the child ended and contains exactly the bytes written to stdout, stderr and fd 3 by the child and all its descendants, in order, whatever the program does and however small the pipes are; the recorded values are those of all bytes written to fd 3; nothing can be written afterwards. Before that nothing written is lost.", "quantifier": "every program (any machine with any number of processes), every schedule, every pipe capacity", "why_tests_cant": "Depends on the interleaving of writers, pipes of finite size and three concurrent readers.", "anchors": ["src/localrunner.rs: wait_with_output", "src/localrunner.rs: ChildOutput"]}
{"id": "C118", "title": "A task is reported only when nobody has its pipes open", "statement": "A local task is not reported before every process that inherited one of its pipes has closed it. In particular a task that starts a background process which keeps stdout open and exits with 0 is not reported as long as that process lives.", "quantifier": "every program, every schedule", "why_tests_cant": "Statement about all continuations of a run; a test would have to wait for ever.", "anchors": ["src/localrunner.rs: wait_with_output"]}
{"id": "C119", "title": "When a task with fd_input is stuck", "statement": "A local task can get stuck only while its input is being written, and exactly when the input pipe is full and all its processes are in front of full output pipes, which nobody reads yet. Without input, or with an input that fits into the pipe, this never happens. Otherwise it can: for every pipe capacity there is a program that writes its output before it reads its input with which the loop blocks in every schedule, and a cancellation or Ctrl-C does not help.", "quantifier": "every program, every schedule, every pipe capacity", "why_tests_cant": "Deadlock freedom is a statement about all reachable states; the pipe capacity is the operating system's.", "anchors": ["src/localrunner.rs: run_local_process_loop"]}
{"id": "C120", "title": "Input that is not read", "statement": "If a process of the task reads the input to its end before it closes it or exits, the loop does not panic (unless a process is killed from outside). A task that exits with 0 without reading its input is reported as a success or makes the loop panic, depending on who is faster.", "quantifier": "every program that reads its input, every schedule", "why_tests_cant": "Race between parent and child.", "anchors": ["src/localrunner.rs: run_local_process_loop"]}
{"id": "C121", "title": "The loop does bounded work per task", "statement": "For one task the loop does at most one step per byte of input and per byte of output, and a constant number of others. When all processes of the task have ended it comes to an end by itself.", "quantifier": "every program, every schedule", "why_tests_cant": "Bound over all runs.", "anchors": ["src/localrunner.rs: run_local_process_loop", "src/localrunner.rs: wait_with_output"]}
{"id": "C122", "title": "What is left of a task", "statement": "When the loop is through with a task (reported, cancelled, panicked) the child has ended. Descendants of the child are not killed by a cancellation.", "quantifier": "every program, every schedule", "why_tests_cant": "Statement about all processes of all runs.", "anchors": ["src/localrunner.rs: run_local_process_loop"]}
{"id": "C123", "title": "Launch rate in the status", "statement": "The rate in the status is never negative. It is the sum over all tasks handed out of a weight that decays exponentially with their age (time constant 30 s), divided by the total weight of the time since the start; each task handed out raises it by 1/30 per second at least, and without new tasks it decays at least exponentially.", "quantifier": "every sequence of moments, every decay time", "why_tests_cant": "Closed form over all histories of events.", "anchors": ["src/time/ratecounter.rs", "src/sync.rs: get_launch_rate"]}
{"id": "C124", "title": "The launch rate is a rate", "statement": "If tasks are handed out at intervals of at least d, the reported rate is at most 1/d + 1/tau at any time; if at intervals of at most d, it is at least 1/d right after each task; in a session younger than T it is the number of tasks per time up to a factor exp(T/tau).", "quantifier": "every sequence of moments, every d, every decay time", "why_tests_cant": "Bounds over all histories of events.", "anchors": ["src/time/ratecounter.rs", "src/sync.rs: get_launch_rate"]}
{"id": "C125", "title": "What is left when execute returns", "statement": "When execute with a provisioner has returned, the HTTP server and the admin server have ended with no request left, the admin socket file is gone, and the provisioner has exited or was killed.", "quantifier": "every schedule, any requests, failures to bind, to start the provisioner or to find a place for the socket", "why_tests_cant": "All orders of shutdown of five concurrent tasks.", "anchors": ["src/execgraph.rs: execute", "src/execgraph.rs: spawn_and_wait_for_provisioner", "src/admin_server.rs: run_admin_service_forever"]}
{"id": "C126", "title": "Life of the provisioner", "statement": "The provisioner is started at most once, after the HTTP server is up. A session is cancelled only if the main loop is through, an administrator wants it, or the provisioner cannot be started or exits; in these last cases it always is, whatever the exit status.", "quantifier": "every schedule", "why_tests_cant": "All orders of events.", "anchors": ["src/execgraph.rs: execute", "src/execgraph.rs: spawn_and_wait_for_provisioner"]}
{"id": "C127", "title": "HTTP server cannot be bound", "statement": "If the HTTP server cannot be bound, no provisioner is started. Nobody is told: the session is not cancelled and goes on until the main loop ends for another reason or an administrator shuts it down.", "quantifier": "every continuation", "why_tests_cant": "Statement about all continuations.", "anchors": ["src/execgraph.rs: execute"]}
{"id": "C128", "title": "How long the end takes", "statement": "After the main loop, execute waits for nothing but the moments at which requests are due, with a bounded number of steps, and can return when the last one is due. Status requests are not cut short: a client that asks for a status with a long timeout and does not hang up keeps execute from returning for as long as it likes.", "quantifier": "every schedule, every set of requests, every time", "why_tests_cant": "Statement about all schedules and all times.", "anchors": ["src/execgraph.rs: execute", "src/server.rs: status_handler", "src/sync.rs: get_queuestate"]}
{"id": "C129", "title": "Names of admin sockets", "statement": "The admin socket of a session is named after its process (wrk-PID.sock); different processes have different names, and the cleanup of old sockets reads from such a name exactly that process number. The cleanup takes an interest in exactly those names that contain somewhere wrk-, digits, one more character and sock.", "quantifier": "every process number, every file name, whatever characters Unicode calls digits", "why_tests_cant": "Infinitely many names.", "anchors": ["src/admin_server.rs: run_admin_service_forever, clean_up_socket_dir"]}
{"id": "C130", "title": "A session in progress can be reached", "statement": "With one machine, one session at a time in each process, nobody else touching the socket files, and no reuse of a process number between the look and the removal of a cleaner, every session that is served can be reached at the path of its process and does not panic over its socket file, whatever else is started, ends or is killed, with any number of concurrent cleaners. Without any one of these conditions it is false: reuse of a process number, two executes at once in one process, and a directory shared by two machines each make a running session unreachable.", "quantifier": "any number of processes, sessions and cleaners in any interleaving", "why_tests_cant": "Races between processes.", "anchors": ["src/admin_server.rs: run_admin_service_forever, clean_up_socket_dir"]}
{"id": "C131", "title": "What the cleanup removes", "statement": "A file removed by the cleanup has a name with a number as in the names of sessions, there was a socket of that name before, and there was a moment without a process of that number on the machine of the cleaner. It need not be the file of a session: sockets of other programs with similar names are removed.", "quantifier": "any number of processes, sessions, cleaners and other programs in any interleaving", "why_tests_cant": "Races between processes; infinitely many names.", "anchors": ["src/admin_server.rs: clean_up_socket_dir"]}
{"id": "C132", "title": "A pass of the cleanup", "statement": "A cleaner that is left alone comes to an end. If no socket has something like a number in its name that is none or too large, then exactly the sockets of processes that are gone have been removed, and the files that are no sockets and the sockets of running processes are still there. Otherwise it panics at the first such socket, and the sockets behind it are never removed.", "quantifier": "every contents of the directory", "why_tests_cant": "Unbounded directories.", "anchors": ["src/admin_server.rs: clean_up_socket_dir"]}
{"id": "C133", "title": "Work is bounded whatever remote runners do", "statement": "Whatever requests remote runners send, however long they wait, ping or hang up: the number of actions that bring the tasks forward (handing out, starts, ends, reports, log entries, returns of loops) in one execute is bounded by 201 times the number of selected tasks plus twice num_parallel plus 8 (plus the number of soft shutdown requests), and HTTP handlers start or cease to wait at most three times per request.", "quantifier": "every graph, every schedule of local loops, remote requests, handlers and reaper, of any length", "why_tests_cant": "Unbounded schedules and numbers of requests.", "anchors": ["src/server.rs", "src/execgraph.rs: execute", "src/sync.rs", "src/localrunner.rs"]}
{"id": "C134", "title": "What execute waits for with remote runners", "statement": "As long as execute has not returned, nobody asked for a soft shutdown and nothing was lost by a panic or a mistaken id, execgraph itself can do something, or it waits for a process it started, for a remote runner that has a task, or for somebody who takes a ready task that nobody who is waiting accepts. When it can do nothing by itself, all reports have been handled, every request has been answered or waits for a task, and the reaper sleeps.", "quantifier": "every graph, every schedule of local loops, remote requests, handlers and reaper", "why_tests_cant": "Deadlock freedom over all interleavings.", "anchors": ["src/server.rs", "src/execgraph.rs: execute", "src/sync.rs", "src/localrunner.rs"]}
{"id": "C135", "title": "execute returns with remote runners", "statement": "If the scheduler leaves no part of execgraph waiting for ever, processes end, every remote connection ends at some time, for a ready task that nobody takes some runner who accepts it asks, does not hang up and is let through by the rate limiter before the holding time is over, requests cease after a hard cancellation, nothing is lost by a panic or a mistaken id and nobody asks for a soft shutdown, then execute returns.", "quantifier": "every graph, every infinite schedule of local loops, remote requests, handlers and reaper with these properties", "why_tests_cant": "Liveness over infinite schedules.", "anchors": ["src/server.rs", "src/execgraph.rs: execute", "src/sync.rs", "src/localrunner.rs"]}
{"id": "C136", "title": "Silent runners do not keep execute from returning", "statement": "In C135 it is enough that every connection ends or falls silent (no ping any more), provided the clock of the reaper goes on and no handler takes so long between timer wheel and table of connections that the wheel turns.", "quantifier": "every graph, every infinite schedule with these properties", "why_tests_cant": "Liveness over infinite schedules with timeouts.", "anchors": ["src/server.rs: reap_pings", "src/timewheel.rs", "src/execgraph.rs: execute", "src/sync.rs"]}
{"id": "C137", "title": "Total correctness with remote runners", "statement": "If, besides what C135 asks for, processes and remote runners report exit code 0, processes can be started, no runner is reported as disconnected, there is no cancellation and the failures_allowed that reaches the execution is not 0 (the Python layer never passes 0), then execute returns and every selected task has been reported as successful exactly once, in an order in which dependencies come first.", "quantifier": "every graph, every infinite schedule with these properties", "why_tests_cant": "Liveness and safety over infinite schedules.", "anchors": ["src/server.rs", "src/execgraph.rs: execute", "src/sync.rs", "src/localrunner.rs"]}
{"id": "C138", "title": "What execute prints", "statement": "Everything an execute prints is the sequence of its finish reports in the order in which they are handled: a line [k/n] for a success, a line with word, key and run count for a failure, then the captured output. The numbers increase, start above the number of tasks done beforehand, never exceed the total, and are consecutive when nothing fails; the total is at most the number of tasks of the graph. Without a soft shutdown every failure is named; failures handled after a soft shutdown, and all output handled after it, are not printed.", "quantifier": "every graph, every run of execute, every captured output; for the total: every history of sessions", "why_tests_cant": "The order of reports depends on the schedule; the hidden output only shows when a failure follows the one that stopped the execute.", "anchors": ["src/sync.rs: _finished_bookkeeping_1, drain, fail_description", "src/execgraph.rs: execute (count_offset)"]}
{"id": "C139", "title": "The mirror file gets exactly what is printed", "statement": "However the operating system splits, interrupts or refuses writes to terminal and mirror file: a rawlog! that succeeds has handed exactly its text to the mirror file once and in order; one that fails a beginning of it, and it fails only if the operating system refuses a write; write_all ends. Without a mirror file printing fails.", "quantifier": "every text in any pieces, every sequence of answers of write(2) on both outputs, every content of the buffers", "why_tests_cant": "Short writes, EINTR and full disks cannot be produced systematically.", "anchors": ["src/logging.rs: ConsoleAndFile::write, _rawlog"]}
{"id": "C140", "title": "What the terminal shows", "statement": "If the operating system takes everything, the terminal shows exactly the printed text as long as no piece has 1024 bytes or more after its last newline. Otherwise the end of the piece is silently missing on the terminal (the count of the line writer is ignored), though not in the mirror file; and if the file takes only part of a long piece the rest is shown twice.", "quantifier": "every text in any pieces, both behaviours of std's LineWriter", "why_tests_cant": "The defect depends on the length of the last line of a task's output relative to a buffer inside std.", "anchors": ["src/logging.rs: ConsoleAndFile::write"]}
{"id": "C141", "title": "Which mirror file gets what", "statement": "In a process that constructs any number of graphs, prints and flushes in any order, every log.txt gets what is printed while its graph is the one constructed last, and nothing else; on disk is always a beginning of it that only grows, and after a flush all of it. An execute whose graph is the newest leaves exactly the lines of its finish reports there; the output of an older graph's execute goes to the newest graph's file.", "quantifier": "every sequence of constructions, prints and flushes, every failure of the operating system", "why_tests_cant": "Global state shared by all graphs of a process, over all interleavings of calls.", "anchors": ["src/logging.rs: init_logging, set_path, flush_logging", "src/pylib.rs: PyExecGraph::new, execute"]}
{"id": "C142", "title": "A session survives an execute that panics", "statement": "When execute panics because printing or flushing fails (to Python: an exception) at any point, and the session or a later one goes on, in any history with any number of such panics: the log follows the protocol at every cut and can be opened; the constructor succeeds; nothing recorded is lost; a task recorded as successful is never run again; what earlier executes returned is not run again in the session; another execute can be started at once. Not kept: a success whose line could not be printed is not recorded and the task is run again under the same run count; results of the aborted execute are taken for those of earlier sessions (a Backref is written), after which load_logfile's current part can contain an older failed attempt of the same task.", "quantifier": "every history of sessions, executes, kills and panics, every point of the schedule at which the panic occurs, every part of the pending log entries written", "why_tests_cant": "Failures of stdout at a chosen moment of a concurrent execution followed by further use of the same process cannot be produced systematically.", "anchors": ["src/execgraph.rs: execute (join of background_serve, drain)", "src/sync.rs: _finished_bookkeeping_1, drain", "src/logfile2.rs: read_current_and_outdated"]}
{"id": "C143", "title": "Failing writes to the log file", "statement": "However the operating system splits or interrupts writes: as long as no write or flush of the log fails, file and buffer together hold exactly the file found and the lines of the entries written, and after a flush all of it is on disk; nothing hangs, nothing is taken back, and short or interrupted writes do not make an operation fail. If the process ends at the first failure (or before), killed or dropping the log, what is on disk is a beginning of what it meant to write, containing all that was flushed, so everything known about killed processes (C110-C112) applies. But the entry counts as written in memory although its write failed, and if the session goes on after a failure that left part of a line, the next entry is glued to it and the log can never be opened again; a single refused write(2) while a long entry is written is enough.", "quantifier": "every log, every sequence of entries in any pieces, every sequence of answers of write(2), every capacity of the buffer", "why_tests_cant": "Disk-full conditions in the middle of a buffered line and continuing afterwards cannot be produced systematically.", "anchors": ["src/logfile2.rs: LogFile::write, flush, Drop", "src/execgraph.rs: execute"]}
{"id": "C144", "title": "Storage roots must exist", "statement": "If every session has at least m storage roots and every task is given one of the first m, adding tasks never panics, in any history. But add_task does not check the number: a task given a root that does not exist is run and reported as successful, and from then on adding it panics, in the same session (where it ought to return the id) and in every later session that does not have more roots; nothing can be done about it from the API. Exactly when add_task panics: at 2^32 - 1 tasks, or if the key succeeded under a root number not below the number of roots of this session.", "quantifier": "every history of sessions, execute calls and kills; for the violation every continuation of a history", "why_tests_cant": "The panic appears in a later session than the mistake, after arbitrary histories.", "anchors": ["src/pylib.rs: add_task, logfile_runcount", "src/logfile2.rs: storage_root", "src/sync.rs: add_to_ready_queue"]}
{"id": "C145", "title": "Extended lifetimes are harmless unless the server task panics", "statement": "execute gives its spawned tasks references to the tracker and to the commands whose lifetimes are extended without a check. If execute returns, whatever requests clients have sent, no task has used them after execute ended and no task can do so any more: all of them have ended. The same holds if drain fails or panics. But if execute panics in background_serve (as it does when a remote runner repeats /begun, or when the log can not be written), a local loop whose process ends, or the server on the next /begun, uses memory that was freed, before the runtime is dropped.", "quantifier": "every graph, log file, schedule of spawned tasks, and sequence of requests; every moment of the panic", "why_tests_cant": "The use of freed memory depends on the timing of threads after a panic; most of the time nothing is seen.", "anchors": ["src/execgraph.rs: execute (transmute_lifetime, transmute_lifetime_mut, join_all, drain)", "src/pylib.rs: execute (block_on, drop of the runtime)", "src/localrunner.rs: run_local_process_loop", "src/server.rs: begun_handler"]}
{"id": "C146", "title": "Logs can be copied, merged, recovered and compacted with load_logfile and write_logfile", "statement": "If a log can be opened, writing what load_logfile(path, 'all') returns to a new file gives a log with the same entries and the same state. Writing the entries of a second log to the file succeeds; the result can be opened exactly if the workflow keys agree (no error is reported at the time of writing otherwise), and every key then has the state of the second log if it occurs there, else of the first; writing a log to its own file changes no state. If any number of bytes at the end of a log is lost, load_logfile(path, 'all') fails only if the cut is inside a character, and otherwise returns a beginning of the entries with at least those whose lines are whole, which can be written to a new file and opened. In every history 'current' can be computed without a panic, opened, and has the header of the log and exactly the keys that take part in the newest session, each in its state in the log; so a task that succeeded is lost from it if the target of the last session did not need it, and everything is lost if the last process only opened the log.", "quantifier": "every file that can be opened, every pair of logs, every cut, every history of sessions at every moment", "why_tests_cant": "The copies made by tests are small and made after clean runs; that every entry read can be written, every cut recovered, and every history compacted is a statement about all files and histories.", "anchors": ["src/pylib.rs: load_logfile, write_logfile", "src/logfile2.rs: LogFileSnapshotReader::read_current_and_outdated, LogFileSnapshotReader::read, LogFile::write, load_runcounts"]}
{"id": "C147", "title": "The timer wheel used by several threads", "statement": "tick and insert touch the clock of the wheel before they lock a slot, so other threads can act in between. For any number of inserting and cancelling threads and one ticker: all answers are those of some one-at-a-time execution in which a timer fires with the first tick completed after the insertion whose number is, modulo 256, the ticks begun when the thread read the clock plus the delay. So a timer fires exactly once, at the intended tick if its thread was not stalled until that tick was over (and the delay is at least a tick), otherwise a revolution later; one cancelled before its slot was emptied never fires. Exceptions: a delay below a tick may fire at once instead of after a revolution; the operations are not linearizable (an order of the calls that respects real time need not exist).", "quantifier": "every number of threads, every interleaving of their actions, every delay", "why_tests_cant": "Tests use the wheel from one thread; the interleavings of atomic clock and locks are too many and too rare to be met.", "anchors": ["src/time/timewheel.rs: tick, insert, cancel", "src/server.rs: reap_pings_forever, ping_handler, start_request_impl"]}
{"id": "C148", "title": "The runner hears from Slurm's error file exactly what is there", "statement": "Every message the remote runner gets from the watcher of the Slurm error file is the text of the whole file at some moment, containing CANCELLED, FAILED or ERROR (or that it cannot be read). If the file is appended to after the runner began to watch it and the events have been handled, then a file with such a word has led to a message. Exceptions: what was written before the watch began is not noticed until the next append; if an append ends inside a character of several bytes, the runner takes the file for unreadable and ends its task although no word occurs.", "quantifier": "every content of the file, every sequence of appends and events, every scheduling of watcher thread and runner", "why_tests_cant": "Tests would need Slurm; the interleavings of appends, events and receptions cannot be enumerated.", "anchors": ["src/bin/execgraph-remote.rs: async_watcher, run_command"]}
{"id": "C149", "title": "Patterns in the options of the remote runner", "statement": "If no value contains % and the option has no %%, the disconnect message and the path of the error file are the options with all patterns (%u %j %x %c %h, resp. %u %j) expanded at once; patterns of variables that are not set stay. Otherwise not: patterns that arise from values, or from a % before a value, are expanded again. Given a path, the runner panics if SLURM_JOB_ID is not set, whether %j occurs or not.", "quantifier": "every option text and every environment", "why_tests_cant": "Templates and values are arbitrary strings.", "anchors": ["src/bin/execgraph-remote.rs: parse_disconnect_error_message, parse_slurm_error_logfile"]}
{"id": "C150", "title": "Job ids of remote runners", "statement": "Runners in array jobs have the same job id exactly if they belong to the same task of the same array. Claim: the job id identifies the Slurm job. False outside array jobs: all these runners have the id `_`, so that when one such job is reported as safe to cancel, the server refuses every later /start of all of them.", "quantifier": "every environment of the runners, every continuation of the server", "why_tests_cant": "Depends on all pairs of environments and all later requests.", "anchors": ["src/bin/execgraph-remote.rs: SLURM_JOBID", "src/server.rs: mark_slurm_job_cancelation, start_handler"]}
{"id": "C151", "title": "A local task from its process to the log", "statement": "Whatever programs the tasks run and however scheduler, loops, pipes and processes are interleaved: every Finished entry appended to the log for a local task shows how the child of this very run of the task ended (exit code, or minus the signal), with the values made of exactly the bytes which it and its descendants wrote to descriptor 3; otherwise an authorized /end said so, or the entry is one of the documented substitutes (-1 or -10, no values).", "quantifier": "every graph, every program of every task, every schedule of the whole", "why_tests_cant": "A test runs some program; here the program, the sizes of writes and pipes and all interleavings are arbitrary.", "anchors": ["src/localrunner.rs: run_local_process_loop, wait_with_output, to_event", "src/sync.rs: background_serve"]}
{"id": "C152", "title": "execute returns when the programs end", "statement": "If every program comes to an end when it is run (a measure decreases with every step, input bytes may add a fixed amount of work), then the number of actions of execgraph and all processes is bounded; while execute has not returned something can happen, unless a loop cannot get rid of the input of a task; so if inputs fit into a pipe and are read, every fair run returns, and if moreover the programs exit with 0 and nothing interferes, all tasks are reported successful once, dependencies first. That the processes end and are reported is proved and not assumed.", "quantifier": "every graph, every program, every fair schedule", "why_tests_cant": "Termination of all schedules cannot be tested.", "anchors": ["src/execgraph.rs: execute", "src/localrunner.rs: run_local_process_loop, wait_with_output", "src/sync.rs"]}
{"id": "C153", "title": "One task can keep execute from ever returning", "statement": "Claim: execute can always be brought to an end by Ctrl-C or a shutdown. False: the loop writes the input of a task before it looks at the cancellation token and before it reads the output; if the task writes more than a pipe takes before it reads its input, and the input is larger than a pipe takes, then from the start of that process on no schedule leads to the return of execute, also not with Ctrl-C or a shutdown request, unless somebody else kills the process.", "quantifier": "every capacity of the pipes, every schedule and every request after the start", "why_tests_cant": "A test cannot observe that something never happens.", "anchors": ["src/localrunner.rs: run_local_process_loop (115-123)"]}
{"id": "C154", "title": "Requests to the admin socket", "statement": "In every execute with any number of admin requests: scheduler and runners go through exactly their own actions and the shutdowns the admin got an answer for; every answer shows the provisioner info and (up to 31622 per second) the rate limit asked for last; requests other than /shutdown are always answered and change nothing else. Claim: /shutdown stops the execute. It does if the warning can be printed, and then log.txt gets exactly the line. Violated otherwise: the handler prints before it does anything, and panics if it cannot, so that any execute can go on to its end as if nothing had been asked. Nobody else begins a soft shutdown: without an answered request for one, none begins except after too many quick failures.", "quantifier": "every run of the system, every sequence of requests at every moment, every behaviour of terminal and file", "why_tests_cant": "The tests of the admin socket return at once without /run/user; and no test shows that a request is ignored in every run.", "anchors": ["src/admin_server.rs: post_ratelimit_handler, post_provisioner_info_handler, post_shutdown_handler", "src/logging.rs: _rawlog", "src/pylib.rs: set_soundness"]}
{"id": "C155", "title": "The outcome does not depend on the schedule", "statement": "If each task always ends with the same status and reports the same values, a complete execute (serving over, no shutdown from outside, quick failures below the limit) runs exactly the tasks all of whose transitive dependencies succeed, whatever the number and types of runners, priorities, speed and order: any two such executes over the same keys and dependencies report the same tasks with the same statuses, the same number of failures and successes, and log the same Ready keys and the same Finished keys, exit codes and values; only the order differs. False when the limit of quick failures is reached: whether an independent task is run depends on the order.", "quantifier": "every graph, every pair of schedules, every status and values of tasks", "why_tests_cant": "Tests run a graph once; two schedules with the same outcome say nothing about the others.", "anchors": ["src/sync.rs: background_serve, recv, drain", "src/execgraph.rs: execute"]}
{"id": "C156", "title": "Zero failures means everything is done", "statement": "Claim: if execute reports zero failures, every task it was to look at (all tasks, or the target and what it depends on) has a success in the log. True for the first execute of a session with failures to be rerun and without shutdown from outside. False after ctrl-c, after a soft shutdown, with rerun_failures = false when a failure is reused, and in a second execute of a session after a failure. Conversely, if all these tasks have a success in the log, the execute has reported zero failures, always.", "quantifier": "every history, every target, every run of the execute", "why_tests_cant": "A test sees the return value of its own scenarios, not whether a zero can be returned with work left.", "anchors": ["src/execgraph.rs: execute, get_subgraph", "src/pylib.rs: execute"]}
{"id": "C157", "title": "Results do not depend on the history", "statement": "In every history of sessions, executes, kills and restarts every Finished entry shows key, exit code and values of a report a runner sent some time, or is one made up by drain (-1, no values). If tasks report the same values whenever they succeed, then for every key the log has at most one result (exactly one if it has a success) and it is this one; and two histories over the same keys, each ending with an undisturbed first execute with zero failures, have the same single result for every task, whatever failed or was killed before.", "quantifier": "every pair of histories, every length, every moment of a kill", "why_tests_cant": "Tests compare at most one interrupted run with one that was not.", "anchors": ["src/sync.rs: background_serve, drain", "src/execgraph.rs: execute", "src/logfile2.rs: LogFile"]}
{"id": "C158", "title": "The result of execute is a function of the programs", "statement": "A program that starts no other process and comes to an end has for every input exactly one result (what it writes to descriptor 3 and its exit code), and if the task is reported, then with this result, whatever the capacity of the pipes and the order of reads and writes. For local tasks with such programs, if fewer of them fail than quick failures are allowed and there is no trouble around them (shutdown requests, Ctrl-C, panics, processes that cannot be started or are killed), a complete execute appends exactly one Finished entry for each task all of whose transitive dependencies exit with 0, with the exit code and the values of its program, and no other; and if the inputs fit into a pipe and are read and the schedule is fair, execute does return. False for programs that start other processes: the same program may give different values.", "quantifier": "every graph, every family of programs, every number of loops, every pipe capacity, every schedule", "why_tests_cant": "A test runs some programs in one interleaving of loops, pipes and processes; the claim is about all of them.", "anchors": ["src/localrunner.rs: run_local_process_loop, wait_with_output", "src/sync.rs: background_serve", "src/execgraph.rs: execute"]}
{"id": "C159", "title": "The result of execute does not depend on where the tasks run", "statement": "Suppose the process of a task ends with the same exit code and the same values wherever it runs, fewer tasks fail than quick failures are allowed, and nothing goes wrong around the processes (shutdown requests, Ctrl-C, processes that cannot be started, a runner told by Slurm to stop). Then a complete execute with any number of local loops and remote runners, any delays and losses of requests and answers, appends exactly one Finished entry for each task all of whose transitive dependencies exit with 0, with exit code and values of its process, and no other, provided the server hears of each runner with a task within 255 ticks of its wheel (35 s) and its handlers are prompt; so two such executions, one local and one remote, add the same entries up to order and return the same counts. False without the proviso: a runner cut off for 35 s gets its task logged with -1 although its process succeeds.", "quantifier": "every graph, every behaviour of the tasks, every number of loops and runners, every network behaviour, every schedule", "why_tests_cant": "A test can compare one local with one remote run; the claim is about all placements, delays and interleavings.", "anchors": ["src/localrunner.rs: run_local_process_loop", "src/server.rs: start_handler, begun_handler, end_handler, ping_timeout_handler", "src/bin/execgraph-remote.rs: run_command", "src/sync.rs: background_serve"]}
{"id": "C160", "title": "A line of the log is read as an entry only if it says so", "statement": "If a JSON value is read as a log entry, then it is an object whose only field is the kind of the entry, and every field of the entry is in it, under its name or at its place, with this value: the key, the exit code, the values (of repeated names the last one), the time up to a carry of nanoseconds. Only storage_roots, r, slurm_jobid and values may be missing, and are then empty or 0. Conversely every JSON text that says an entry in this sense is read as it, provided no field is given twice, an array has not too many elements, the time has no other fields, the values are strings and the numbers fit their types; and only such texts are read. If a log file can be opened, every line of it says the entry it is read as, and there are as many entries as lines; what a reader of a snapshot returns are entries said by lines of the file, in their order.", "quantifier": "every sequence of bytes", "why_tests_cant": "A test tries some malformed lines; the claim is about every file.", "anchors": ["src/logfile2.rs: load_runcounts", "src/logfile2.rs: LogFileSnapshotReader::read", "src/logfile2.rs: LogEntry"]}
{"id": "C161", "title": "A message that was cut short is refused", "statement": "No message between server and remote runner that is cut short, at whatever byte, is taken for a message, neither the same nor another one; bytes that follow a message are ignored. Requests longer than 128 bytes and responses of at least 128 bytes are compressed, others are not.", "quantifier": "every message, every cut, all following bytes", "why_tests_cant": "A test cuts one message at one place.", "anchors": ["src/http_extensions/axum.rs", "src/http_extensions/reqwest.rs", "src/httpinterface.rs"]}
{"id": "C162", "title": "Resuming interrupted work gives what one undisturbed run gives", "statement": "The process may be killed, tasks may fail or be killed, the log may lose its end, sessions may be opened any number of times, each calling execute once at most. If then a session with the same tasks calls execute, with failures to be rerun, and nothing disturbs it, the result is the one of a run in one go: of the tasks it looks at exactly those have a success in the log which succeed and whose dependencies, transitively, all succeed, each with exactly one result, the one it reports; the number of failures returned is the number of tasks that fail while all they depend on succeeds. This presupposes that a task always ends in the same way unless it is disturbed, and that fewer tasks fail than quick failures are allowed. Violated if a session calls execute twice: after a failed dependency the second call runs the dependent task, and the log keeps its success.", "quantifier": "every history, task graph, target, order of events and number of interruptions", "why_tests_cant": "Interruptions at every moment of every history cannot be tried.", "anchors": ["src/execgraph.rs: execute", "src/execgraph.rs: get_subgraph", "src/logfile2.rs: load_runcounts", "src/sync.rs: process_finished"]}
{"id": "C163", "title": "Work interrupted, resumed and moved between machines ends as the programs alone say", "statement": "Sessions over one log file, each execute with local loops, a server and remote runners, which may outlive it; processes killed, runners lost, sessions opened again any number of times, each calling execute once at most. If then a session with the same tasks calls execute, with failures to be rerun, and around its own processes nothing goes wrong, the result depends only on what the programs do: not on what happened before, nor on whether a task runs locally or on a remote runner, nor on runners of earlier calls that still run the same tasks. Exactly the tasks that succeed and whose dependencies all succeed have a success in the log, each with exactly one result; the number of failures returned is the number of tasks that fail while all they depend on succeeds. It is presupposed that a process that ends with 0 ever, anywhere, has done what the program does, that the server hears of the runners that have a task at least every 255 ticks, and that fewer tasks fail than quick failures are allowed.", "quantifier": "every deployment history, task graph, target, number of local loops and remote runners, interleaving, delay and loss", "why_tests_cant": "Histories of several processes and machines with kills at every moment cannot be tried.", "anchors": ["src/execgraph.rs: execute", "src/execgraph.rs: get_subgraph", "src/localrunner.rs: run_local_process_loop", "src/server.rs", "src/bin/execgraph-remote.rs", "src/sync.rs: background_serve", "src/logfile2.rs"]}
{"id": "C164", "title": "Ctrl-C and hard shutdown always get execute to return, whatever has broken", "statement": "After Ctrl-C while the server waits, a hard shutdown request, or the end of serving for any other reason, execute returns: in every run in which no part of execgraph is left waiting for ever by the scheduler and from some time on nobody connects or asks for a soft shutdown any more. This holds even if local loops, handlers or the ping reaper have panicked, processes run for ever, or remote runners are never heard of again; and from every state reachable then there is a way to the return that needs neither the clock, nor the end of a process, nor a request.", "quantifier": "every graph whose tasks can be displayed, number of loops, history (with panics of loops, handlers and reaper), infinite fair schedule", "why_tests_cant": "The panics happen at particular interleavings; that nothing then waits for a dead part is a statement about all of them.", "anchors": ["src/execgraph.rs: execute", "src/sync.rs: background_serve", "src/server.rs: start_request_impl", "src/server.rs: reap_pings_forever", "src/localrunner.rs: run_local_process_loop"]}
{"id": "C165", "title": "Postambles have the last word on what is recorded", "statement": "The postamble of a task is called before its finish is recorded. In every history, with any number of sessions and of executes broken off by a postamble, the finishes in the log are in order among those to which the postamble did not object (it returned 0, or there is none), each asked about separately; a task is not recorded as successful if its postamble objected each time it was told of a success; an object that is not a capsule of the expected name counts as an objection always. It is told the success, the run count last announced for the task in the log and the number of tasks of this execute. An objection ends execute with a panic; the session goes on as after any panic (C142). Violated: an objection does not concern only its task; the other running tasks are given up and started again under the same run count by the next execute.", "quantifier": "every history, graph, schedule and every behaviour of the functions", "why_tests_cant": "A postamble can object at any of the calls, also in the middle of drain; what must not be in the log afterwards depends on the whole history.", "anchors": ["src/execgraph.rs: Capsule::call", "src/execgraph.rs: call_postamble", "src/sync.rs: _finished_bookkeeping_1", "src/sync.rs: drain", "src/pylib.rs: add_task"]}
{"id": "C166", "title": "Names of attempts", "statement": "Different attempts of tasks have different directory names key.runcount, whatever the keys contain, and below one root different directories unless a key is an absolute path. The line about a failed task names the attempt unambiguously, but with the run count in hexadecimal: it is the name of the directory exactly for the first ten attempts. Violated from then on: the directory name of every attempt from number 10 on is the name shown for a later attempt of the same task (the line about attempt 16 says key.10).", "quantifier": "every key, run count and root", "why_tests_cant": "The two formats agree on all run counts a test reaches; the claim is about all of them and about all keys.", "anchors": ["src/pylib.rs: logfile_runcount", "src/sync.rs: _finished_bookkeeping_1", "src/constants.rs: FAIL_COMMAND_PREFIX"]}
{"id": "C167", "title": "From the programs to the log, wherever they run", "statement": "With server, local loops, remote runners, pipes and processes running together: every Finished entry in the log is the end of a process of that task, here or on a remote runner, with the values made of exactly what it and its descendants wrote to descriptor 3, or one of the documented substitutes (-1, -10, 13, -15). If the programs have definite results and nothing goes wrong around them (and the server hears of the runners in time), the log is a function of the programs: it does not depend on which task runs where, on the pipes or on the schedule. Violated for large inputs: a remote runner can write an input for ever, without telling the server that the process was started and without looking at deadline, lost connection or SIGUSR1. If a task no longer reads its input, the remote runner that writes it panics, and does nothing ever after.", "quantifier": "every graph, program, number of loops and runners, pipe capacity, schedule, delay and loss of messages", "why_tests_cant": "The processes, the pipes, several runners and the network interleave; a test runs few of the interleavings, and none with a program of each kind.", "anchors": ["src/bin/execgraph-remote.rs: run_command", "src/localrunner.rs: wait_with_output", "src/localrunner.rs: run_local_process_loop", "src/server.rs: end_handler", "src/logfile2.rs"]}
{"id": "C168", "title": "The SIGTERM with which execute ends", "statement": "An execute that ran something ends by sending SIGTERM to a process group, once. It is the group of its own process, whether or not the setpgid at its beginning succeeded (the error is made but not raised); everything forked since then that stayed in the group and left SIGTERM alone is gone afterwards, in any number of generations; if the process did not share its group before and nobody joins it, nothing but descendants is ended; nothing of another session is ended; and the process itself survives. Not kept: in `python workflow.py | tee log` tee is ended by the first execute; an execute in another thread loses its tasks; after the first execute SIGTERM no longer ends the process; a SIGTERM handler of the program is called at the end of every execute; and if the program sets SIGTERM to the default between two executes, the second one ends the process before it has written the end of the log. A program that has installed no handler for SIGTERM has none called.", "quantifier": "every set of processes, groups, sessions and dispositions, every interleaving of forks, exits, moves and executes", "why_tests_cant": "Which processes are in the group depends on how the program was started and on what the tasks fork and when; a test sees one such tree, and none outside of its own.", "anchors": ["src/pylib.rs: execute", "src/sync.rs: drain", "src/execgraph.rs: execute"]}
{"id": "C169", "title": "Ctrl-C and the terminal", "statement": "Claim: Ctrl-C at the terminal interrupts a running execute, and tasks of the console queue can use the terminal. True for Ctrl-C if the process already was the leader of the foreground group when execute was called. Otherwise (called from a script, or not first in a pipeline) false: execute moves the process into a new group which is not in the foreground, so no Ctrl-C gets to it any more and no process it starts can read from the terminal.", "quantifier": "every set of processes and groups, every run", "why_tests_cant": "The tests send SIGINT to the process with kill; none has a terminal.", "anchors": ["src/pylib.rs: execute", "src/sync.rs: background_serve", "src/localrunner.rs: run_local_process_loop"]}
{"id": "C170", "title": "execute returns with the actual remote runners", "statement": "An infinite run of the server with any number of remote runners as they are programmed, over a network that may delay or lose every request and answer. If the scheduler is fair to the server, the reaper's clock goes on, handlers are prompt, for every ready task somebody asks (and is let through by the rate limiter in time), nothing of the server panics, nobody asks for a soft shutdown, transaction ids are not repeated, no runner stays for ever at one place of its program (processes read their input and end, requests are answered or time out), and pings come only from runners that have the task: then execute returns, whether runners report, lose the network, crash or are ended by Slurm. In particular that connections end or fall silent (assumed in C136) follows from the program of the runners.", "quantifier": "every graph, number of runners, schedule, delay and loss of messages; infinite runs", "why_tests_cant": "A liveness property of infinite executions of several programs; a test that hangs proves nothing about why, and one that ends is one schedule.", "anchors": ["src/bin/execgraph-remote.rs: run_command", "src/server.rs: end_handler", "src/server.rs: reap_pings_forever", "src/execgraph.rs: execute"]}
{"id": "C171", "title": "A runner's report is accepted", "statement": "Whatever the network does, if transaction ids are not repeated: an /end sent by a runner that arrives while its transaction is in the table of connections is taken as the end of that connection; it is never refused (404) because of the job id, and no connection is dropped without a report.", "quantifier": "every number of runners and jobs, every delay and loss of messages", "why_tests_cant": "The refusal drops the connection, so the task would never be reported; whether a runner can ever cause it depends on which job ids and transactions meet in all interleavings.", "anchors": ["src/server.rs: end_handler", "src/server.rs: start_request_impl", "src/bin/execgraph-remote.rs: run_command"]}
{"id": "C172", "title": "Everything is done with the actual remote runners", "statement": "An infinite run of the server with any number of remote runners as they are programmed. If the scheduler is fair, for every ready task somebody asks (and is let through by the rate limiter in time), nothing of the server panics, transaction ids are not repeated, requests and answers arrive after some time, no runner stays for ever at one place of its program, and nothing goes wrong (processes start, take their input and end with exit code 0, no job is ended by Slurm, no runner is reported as disconnected or gives the server up, no answer is lost, nobody cancels): then execute returns, and every selected task has been reported as successful exactly once, dependencies first. In particular that every connection ends (assumed in C137) follows from the program of the runners: whoever is given a task reports its end, and the report is accepted.", "quantifier": "every graph, number of runners, schedule and delay of messages; infinite runs", "why_tests_cant": "That no task gets lost between two programs when nothing fails is a statement about all interleavings of their messages, and about infinite runs.", "anchors": ["src/bin/execgraph-remote.rs: run_command", "src/server.rs: begun_handler", "src/server.rs: end_handler", "src/execgraph.rs: execute"]}
{"id": "C173", "title": "The lines of the log are JSON, and what is read is what they denote", "statement": "A text is read as a value if and only if it is a JSON text (RFC 8259: grammar of white space, strings with escapes and surrogate pairs, numbers, arrays, objects) denoting this value; a JSON text denotes one value only. What is appended to the log for an entry, whatever strings are in it, is a JSON text denoting the entry, in UTF-8, and a newline: so any other reader of JSON sees the same entry. A line is read as an entry if and only if it is a JSON text whose value is read as the entry (C91, C160); a file with a line that is no JSON text can not be opened.", "quantifier": "every text, every entry, every file", "why_tests_cant": "Texts are unbounded in length and nesting; tests try some.", "anchors": ["src/logfile2.rs: LogFileRW::write", "src/logfile2.rs: load_runcounts", "src/logfile2.rs: LogFileSnapshotReader::read"]}
{"id": "C174", "title": "An execute whose last flush fails", "statement": "When everything is done execute flushes the log, then the printed lines; if one of these fails the caller gets an error instead of the result. In every history with any number of such failures (and of panics): the session goes on as if execute had returned, log and tasks are the same and every later execute selects the same tasks, writes the same entries and starts in the same state; what was on disk stays there, and all claims of C142 hold. Violated: a failed task can go unreported for good; it counts as done although nobody was told, and the next execute finds nothing to do and returns no failures.", "quantifier": "every history of sessions, executes, kills, panics and failing flushes", "why_tests_cant": "A full disk at the very end of an execute and what further calls then return cannot be produced systematically.", "anchors": ["src/execgraph.rs:399-414", "src/pylib.rs:353-369"]}
{"id": "C175", "title": "No remote runner is sent away from work", "statement": "A request of a remote runner that gets no task is answered 410 only if it is a /start of a Slurm job that was declared cancelled, or the queues have been closed, or after a hard cancellation. If nobody asked for a shutdown or cancelled and fewer tasks failed quickly than allowed, a runner of a job that was not declared cancelled is told 410 only when every selected task has been reported finished or depends on a failed one. 429 is answered only to a request that has waited for a task, or for the rate limiter, for the whole holding time, 404 to a request for a task only if the runner type is 64 or more.", "quantifier": "every graph, schedule and sequence of requests", "why_tests_cant": "Which answer a request gets depends on the order of shutdowns, reports and waiting requests.", "anchors": ["src/server.rs:160-190", "src/server.rs:307-370", "src/sync.rs:255-400", "src/sync.rs:612-642"]}
{"id": "C176", "title": "Counters do not overflow", "statement": "The code counts in 32 bits and a release build wraps around silently. During an execute the selected tasks are divided into successes, failures, ready or running, and unready ones, so none of these counters exceeds the number of tasks (at most 2^32 - 1 in a graph); quick failures are among the failures. The numbers of ready and running tasks shown for a queue together are at most the number of tasks until a shutdown begins (afterwards num_ready can wrap, C19), and the number of running ones always. Priorities are smaller than the number of tasks.", "quantifier": "every graph, every schedule of an execute with well-behaved runners", "why_tests_cant": "Overflow needs billions of tasks, or a counter that is decremented once too often on a rare schedule.", "anchors": ["src/sync.rs: _finished_bookkeeping_1, add_to_ready_queue, recv", "src/graphtheory.rs: tlevel_dag", "src/execgraph.rs: get_subgraph"]}
{"id": "C177", "title": "Tasks run in parallel as far as possible", "statement": "With local runners: whenever execgraph has nothing left to do by itself and there was no shutdown, a process runs in each of the num_parallel loops, or every task whose dependencies have all succeeded is finished or running. With remote runners too, whenever execgraph has nothing left to do by itself and the queues are open: while anybody waits for a task for runner type r, every task that accepts r and whose dependencies have all succeeded has been claimed. If what execgraph does by itself takes no time (only processes do; no rate limit), then until execute returns p times the time gone by is at most the total running time of the processes plus p - 1 times the running time of the tasks on some chain of dependencies (p = num_parallel; Graham's bound), so execute takes at most 2 - 1/p times as long as the best schedule of the same processes on p slots. In the other direction, tasks on a chain of dependencies run one after the other and at most p + 1 processes run at once (one of them on the console).", "quantifier": "every graph whose tasks accept the normal loops, every schedule without soft shutdown request and panic of a loop; running times, exit codes, cancellations and Ctrl-C arbitrary", "why_tests_cant": "Whether a slot is ever left idle depends on the order of reports, wake-ups and queue operations; a test measures the time of a few graphs.", "anchors": ["src/localrunner.rs: run_local_process_loop", "src/sync.rs: background_serve, add_to_ready_queue, recv", "src/execgraph.rs: execute"]}
{"id": "C178", "title": "A request for a task is held for 30 seconds and answered before the runner gives up", "statement": "A request of a remote runner for which there is no task is told so (429) not earlier than 30 seconds after it came. If what execgraph does by itself takes no time and its timers go off in time, every request is answered within 30 seconds of its arrival: also if it has to wait for the rate limiter, and also if it is a /end that asks for a further task and first waits until the end is processed. So the HTTP client of execgraph-remote, which waits for twice that time, never gives up a request that is being held, and a task that is handed out is not lost on a runner that has stopped waiting. The time-out is never blocked: when execgraph has nothing else to do, a request that was held for 30 seconds can be answered. And when a request that got past the rate limiter is told that there is nothing to do while execgraph itself is idle and the queues are open, every task it could have been given and whose dependencies have succeeded has been claimed by somebody else.", "quantifier": "every graph, schedule and sequence of requests; for the upper bound, every schedule in which time goes by only when execgraph has nothing left to do", "why_tests_cant": "The time-out races with tasks becoming ready, the rate limiter, reports and shutdowns; a test of 30 seconds sees one order.", "anchors": ["src/server.rs: start_request_impl", "src/server.rs: end_handler", "src/constants.rs: HOLD_RATETIMITED_TIME", "src/bin/execgraph-remote.rs: run_command"]}
{"id": "C179", "title": "Constructors that fail", "statement": "Whatever fails in the constructor, no log loses or gains a byte (a log that was not there may be left empty), unless writing the header itself fails, after which a beginning of its line may stand at the end of the log; the lock is free again; and the constructor can be called again with the outcome it would have had without the failure. It succeeds exactly if the lock is free, the log can be read, log.txt can be opened and there is a key; the callback is asked for a key exactly if the log has no header. While a graph is open none can be constructed for any log in the same directory; once it is closed the next constructor reads exactly what the graph left; a log changes only by its own constructors and its own graph. What is printed goes to the log.txt beside the log of the last constructor that got as far as opening one, and nowhere before the first. Violated where log.txt is concerned: what a graph prints goes to the directory of another graph made later, even a dropped one; a constructor that fails later (its callback raises) has already redirected what is printed; and one that cannot open its log.txt spoils the whole process: every later constructor, for whatever directory, every print and every execute panics.", "quantifier": "every state of the disk and the process, all arguments, every answer of the operating system at each step, every sequence of operations of a process", "why_tests_cant": "The steps fail for reasons a test cannot produce (working directory gone, disk full, permissions), and the damage shows up in other graphs of the process.", "anchors": ["src/pylib.rs: PyExecGraph::new", "src/logfile2.rs: LogFile::new", "src/logging.rs: set_path"]}
{"id": "C180", "title": "What a redirected stdout gets", "statement": "If stdout is a file or a pipe and no printed piece has 8192 bytes or more: however the operating system splits, interrupts or refuses writes, a rawlog! that succeeds has handed exactly its text to stdout and to the mirror file, once and in order; one that fails has handed over whole pieces only, stdout at most one piece more than the file; it fails only if the operating system refuses. What is in the pipe is a beginning of what was printed, and after a flush everything. Violated: a task's output of 8192 bytes or more whose last line is longer than 1024 bytes loses the end of that line in the redirected stdout (silently, not in the mirror file).", "quantifier": "every text in any pieces, every sequence of answers of write(2) on both outputs, every content of the buffers, both behaviours of std's LineWriter", "why_tests_cant": "Depends on two nested buffers inside the libraries and on how the operating system cuts writes.", "anchors": ["src/logging.rs: ConsoleAndFile::write, flush, _rawlog"]}
{"id": "C181", "title": "What is seen of a task's output", "statement": "If the output of a task is UTF-8, exactly its bytes are printed, stdout before stderr, with nothing between. Of other bytes the characters are shown, and U+FFFD for each broken piece as the Unicode standard defines them; all ASCII characters (newlines) are kept in order and no others come in; the text is at most three times as long; if no U+FFFD is shown, the text is exact. Of a remote task the same is printed as of a local one, with the message about the time limit, if any, before stderr, provided the request is not refused for its length; what Slurm has written about the end of a job is printed as it is. Violated: a line about a task does not always start a line: nothing is put behind an output that does not end in a newline.", "quantifier": "every sequence of bytes on both streams, every message, every lossless compression", "why_tests_cant": "Arbitrary bytes: cut characters, overlong forms, surrogates.", "anchors": ["src/localrunner.rs: ChildOutput::stdout_str, stderr_str, to_event", "src/bin/execgraph-remote.rs: run_command", "src/server.rs: end_handler", "src/sync.rs: _finished_bookkeeping_1"]}
{"id": "C182", "title": "The numbers shown in the course of a session", "statement": "Over all executes of a session the numbers k in the progress lines [k/n] rise, so that none is shown twice, provided no execute returned with reports left to be handled after it stopped serving. If everything succeeds and nothing is reused from the log they go on from one execute to the next without a gap and end at the number of tasks done. The total n of an execute of everything is the number of tasks of the session less those whose success this very call found in the log. Violated: after Ctrl-C a number can be shown again; in a session that reuses results the total is not the number of tasks, and numbers are left out.", "quantifier": "every history of sessions, executes, additions of tasks, failures and interruptions; every output", "why_tests_cant": "The offset of an execute depends on all executes before it in the session and on the log; tests look at single calls.", "anchors": ["src/execgraph.rs: execute (count_offset, completed), get_subgraph", "src/sync.rs: _finished_bookkeeping_1, drain"]}
{"id": "C183", "title": "The launch rate of an execute", "statement": "With ratelimit_per_second = r, over any stretch of an execute in which the limit is not changed, the number of tasks handed out to local loops and remote runners together, times the interval of 1/r s, is at most the length of the stretch plus one second plus one interval for each loop or request that already waits for a task at its beginning; from the start of the execute (or a change of the limit, up to those waiting) on, n tasks take at least n intervals: there is no initial burst. With local runners only this is at most r(k+1) + num_parallel + 1 tasks in any k seconds. Whoever waits for the limiter can go on when one interval has passed and nobody else took the permit; with limit 0 nobody ever waits. Violated: more tasks than the rate allows may be handed out at one moment, since loops and requests keep their permits while there is no task.", "quantifier": "every schedule of loops, requests, server and limiter; every rate, graph, number of runners and time", "why_tests_cant": "A test sees one schedule and one rate; the bound combines the limiter with who waits in recv in every interleaving.", "anchors": ["src/sync.rs: ReadyTrackerClient::recv, set_ratelimit", "src/time/gcra.rs: RateLimiter", "src/localrunner.rs: run_local_process_loop", "src/server.rs: start_request_impl"]}
{"id": "C184", "title": "The average runtime in the status", "statement": "At any moment of an execute before its cleanup, average_recent_task_runtime is the mean (each runtime in whole milliseconds) of the runtimes of the last 100 tasks, or all if fewer, that were reported with exit code 0 and whose start report had been processed; a runtime is the time from the processing of the start report to that of the finish report; 0 if there is none. It is never more than the time since the start of execute. Failures, starts, requests and the passing of time do not change it. Asking for it never panics, and recording runtimes does not change what the execute can do.", "quantifier": "every graph, every schedule of runners and server, every time less than 584554 years after the start", "why_tests_cant": "A test sees one schedule; which runtimes are in the buffer depends on the order of all reports.", "anchors": ["src/sync.rs: _finished_bookkeeping_1, get_average_recent_task_runtime, background_serve", "src/simpleringbuffer.rs"]}
{"id": "C185", "title": "The launch rate over an execute", "statement": "At any moment of an execute later than its start and before its cleanup, the rate in the status is the sum, over all tasks the runners (local and remote) obtained so far, of exp(-age/30 s)/30 s, divided by 1 - exp(-T/30 s), T being the time since the start. It is 0 exactly as long as no task was obtained and never negative; in the first T seconds it is the number of tasks obtained per time up to a factor exp(T/30 s). Counting launches does not change what the execute can do.", "quantifier": "every graph, every schedule of runners and server, every time", "why_tests_cant": "A test sees one schedule; the statement is a closed form over all of them.", "anchors": ["src/sync.rs: ReadyTrackerClient::recv, get_launch_rate", "src/time/ratecounter.rs"]}
{"id": "C186", "title": "The rate shown under a rate limit", "statement": "With ratelimit_per_second = r (a divisor of 10^9), not changed during the execute, the launch rate shown in the status is at every moment at most r * exp((1 + H/r)/30), H being the largest number of local loops and requests of remote runners that wait for a task past the rate limiter at one moment; with local runners only H is at most num_parallel + 1. With r = 10 and 9 loops this is less than 7% above the limit, from the first moment on, whatever bursts there are. For other r up to 31622 the first factor r becomes 10^9 / ((r + 1) * floor(10^9/r) - 10^9), because the interval is rounded down (3.00000002 for 3). Not kept for large r: with r = 60000 a rate of 900 million can be shown just after the start.", "quantifier": "every schedule of loops, requests, server and limiter; every graph, number of runners and time", "why_tests_cant": "A bound on an exponentially weighted sum over all schedules.", "anchors": ["src/sync.rs: ReadyTrackerClient::recv, get_launch_rate", "src/time/gcra.rs: RateLimiter", "src/time/ratecounter.rs"]}
