{
 "claims": [
  {
   "property": "C01",
   "status": "proved",
   "theorems": [
    "Verif.Props.TaskGraph.add_task_idempotent",
    "Verif.Props.TaskGraph.add_task_fresh"
   ],
   "note": ""
  },
  {
   "property": "C02",
   "status": "proved",
   "theorems": [
    "Verif.Props.TaskGraph.rejected_leaves_no_trace",
    "Verif.Props.TaskGraph.rejected_iff",
    "Verif.Props.TaskGraph.accepted_edges"
   ],
   "note": ""
  },
  {
   "property": "C03",
   "status": "proved",
   "theorems": [
    "Verif.Props.TaskGraph.graph_acyclic"
   ],
   "note": ""
  },
  {
   "property": "C04",
   "status": "proved",
   "theorems": [
    "Verif.Props.TaskGraph.keys_identify_tasks"
   ],
   "note": ""
  },
  {
   "property": "C05",
   "status": "proved",
   "theorems": [
    "Verif.Props.GraphTheory.closure_is_reachability",
    "Verif.Props.GraphTheory.closure_multiplicity",
    "Verif.Props.GraphTheory.descendants_at_distance_correct"
   ],
   "note": ""
  },
  {
   "property": "C06",
   "status": "proved",
   "theorems": [
    "Verif.Props.GraphTheory.priority_is_longest_chain",
    "Verif.Props.GraphTheory.priority_increases",
    "Verif.Props.GraphTheory.priority_order_independent",
    "Verif.Props.GraphTheory.blevel_is_longest_chain"
   ],
   "note": ""
  },
  {
   "property": "C07",
   "status": "proved",
   "theorems": [
    "Verif.Props.Selection.target_only",
    "Verif.Props.Selection.unknown_target"
   ],
   "note": ""
  },
  {
   "property": "C08",
   "status": "proved",
   "theorems": [
    "Verif.Props.Selection.selection_exact",
    "Verif.Props.Selection.legal_choices_exist"
   ],
   "note": ""
  },
  {
   "property": "C09",
   "status": "proved",
   "theorems": [
    "Verif.Props.Selection.backrefs_exact",
    "Verif.Props.Selection.backrefs_once_per_session"
   ],
   "note": ""
  },
  {
   "property": "C34",
   "status": "proved",
   "theorems": [
    "Verif.Props.Log.reopen_reads_file",
    "Verif.Props.Log.success_iff_last_entry",
    "Verif.Props.Log.reopen_restores",
    "Verif.Props.Log.reopen_prefix"
   ],
   "note": ""
  },
  {
   "property": "C38",
   "status": "proved",
   "theorems": [
    "Verif.Props.Log.workflow_key_stable",
    "Verif.Props.Log.workflow_key_kept",
    "Verif.Props.Log.reopen_iff"
   ],
   "note": ""
  },
  {
   "property": "C39",
   "status": "proved",
   "theorems": [
    "Verif.Props.Log.success_directory_partial",
    "Verif.Props.Log.success_directory_violated",
    "Verif.Props.Log.success_directory_panics"
   ],
   "note": "The claim as users would state it is false; the part that holds and the two ways it fails are proved."
  },
  {
   "property": "C40",
   "status": "proved",
   "theorems": [
    "Verif.Props.Snapshot.current_exact",
    "Verif.Props.Snapshot.nothing_lost"
   ],
   "note": ""
  },
  {
   "property": "C41",
   "status": "proved",
   "theorems": [
    "Verif.Props.Snapshot.outdated_disjoint",
    "Verif.Props.Snapshot.reused_result_is_current"
   ],
   "note": ""
  },
  {
   "property": "C42",
   "status": "proved",
   "theorems": [
    "Verif.Props.Snapshot.panics_iff_duplicate_backref",
    "Verif.Props.Snapshot.written_log_never_panics"
   ],
   "note": ""
  },
  {
   "property": "C63",
   "status": "proved",
   "theorems": [
    "Verif.Props.Rate.rate_window",
    "Verif.Props.Rate.rate_no_initial_burst",
    "Verif.Props.Rate.rate_per_seconds",
    "Verif.Props.Rate.reset_is_fresh"
   ],
   "note": ""
  },
  {
   "property": "C64",
   "status": "proved",
   "theorems": [
    "Verif.Props.Rate.retry_granted",
    "Verif.Props.Rate.wait_at_most_one_interval",
    "Verif.Props.Rate.unlimited"
   ],
   "note": ""
  },
  {
   "property": "C65",
   "status": "proved",
   "theorems": [
    "Verif.Props.Rate.rate_readback",
    "Verif.Props.Rate.rate_readback_ge",
    "Verif.Props.Rate.rate_readback_violated"
   ],
   "note": "Exact read-back is false; the bound that holds and a witness are proved."
  },
  {
   "property": "C66",
   "status": "proved",
   "theorems": [
    "Verif.Props.Rate.launch_rate_violated",
    "Verif.Props.Rate.launch_rate_partial",
    "Verif.Props.Rate.launch_rate_window",
    "Verif.Props.Rate.accounting"
   ],
   "note": "The documented claim is false (for every number and rate); the bounds that hold, over the whole run and over any window, are proved."
  },
  {
   "property": "C72",
   "status": "proved",
   "theorems": [
    "Verif.Props.Selection.empty_key_skipped_violated",
    "Verif.Props.Selection.empty_key_deduplicated_violated"
   ],
   "note": "The documented claim is false; the violation is proved for every reachable graph."
  },
  {
   "property": "C10",
   "status": "proved",
   "theorems": [
    "Verif.Props.Tracker.dependencies_first",
    "Verif.Props.Tracker.dependencies_first_transitive",
    "Verif.Props.Tracker.ghosts_are_observations"
   ],
   "note": ""
  },
  {
   "property": "C11",
   "status": "proved",
   "theorems": [
    "Verif.Props.Tracker.obtained_once"
   ],
   "note": ""
  },
  {
   "property": "C12",
   "status": "proved",
   "theorems": [
    "Verif.Props.Tracker.affinity_respected",
    "Verif.Props.Tracker.runner_type_checked"
   ],
   "note": ""
  },
  {
   "property": "C13",
   "status": "proved",
   "theorems": [
    "Verif.Props.Tracker.highest_priority_first"
   ],
   "note": ""
  },
  {
   "property": "C14",
   "status": "proved",
   "theorems": [
    "Verif.Props.Tracker.failure_stops_downstream"
   ],
   "note": ""
  },
  {
   "property": "C15",
   "status": "proved",
   "theorems": [
    "Verif.Props.Tracker.nothing_forgotten",
    "Verif.Props.Tracker.all_succeed"
   ],
   "note": ""
  },
  {
   "property": "C16",
   "status": "proved",
   "theorems": [
    "Verif.Props.Tracker.order_topological"
   ],
   "note": ""
  },
  {
   "property": "C17",
   "status": "proved",
   "theorems": [
    "Verif.Props.Tracker.failure_count",
    "Verif.Props.Tracker.failure_count_drained"
   ],
   "note": ""
  },
  {
   "property": "C18",
   "status": "proved",
   "theorems": [
    "Verif.Props.Tracker.queue_counters",
    "Verif.Props.Tracker.queue_entry_exists"
   ],
   "note": ""
  },
  {
   "property": "C19",
   "status": "proved",
   "theorems": [
    "Verif.Props.Tracker.ready_zero_after_soft_shutdown_partial",
    "Verif.Props.Tracker.ready_after_soft_shutdown_violated"
   ],
   "note": "The claim is false; the witness and the part that holds are proved."
  },
  {
   "property": "C20",
   "status": "proved",
   "theorems": [
    "Verif.Props.Tracker.unready_exact"
   ],
   "note": ""
  },
  {
   "property": "C21",
   "status": "proved",
   "theorems": [
    "Verif.Props.Tracker.no_panic",
    "Verif.Props.Tracker.diamond_good"
   ],
   "note": ""
  },
  {
   "property": "C23",
   "status": "proved",
   "theorems": [
    "Verif.Props.Tracker.progress",
    "Verif.Props.Tracker.pop_possible"
   ],
   "note": ""
  },
  {
   "property": "C24",
   "status": "proved",
   "theorems": [
    "Verif.Props.Tracker.empty_affinity_hangs"
   ],
   "note": "The claim is false; proved for every run."
  },
  {
   "property": "C25",
   "status": "proved",
   "theorems": [
    "Verif.Props.Tracker.work_bounded"
   ],
   "note": ""
  },
  {
   "property": "C26",
   "status": "proved",
   "theorems": [
    "Verif.Props.Tracker.soft_shutdown_dispatches_nothing",
    "Verif.Props.Tracker.trigger_is_soft"
   ],
   "note": ""
  },
  {
   "property": "C27",
   "status": "proved",
   "theorems": [
    "Verif.Props.Tracker.serving_waits_for_started_partial",
    "Verif.Props.Tracker.soft_shutdown_waits_violated"
   ],
   "note": "The strong documented form is false (witness); the part about processed start reports is proved for every run."
  },
  {
   "property": "C28",
   "status": "proved",
   "theorems": [
    "Verif.Props.Tracker.idle_soft_shutdown_hangs",
    "Verif.Props.Tracker.idle_soft_reachable"
   ],
   "note": "The claim is false; proved for every continuation of every such state, and such a state is reachable."
  },
  {
   "property": "C29",
   "status": "proved",
   "theorems": [
    "Verif.Props.Tracker.soft_shutdown_iff_quick_failures",
    "Verif.Props.Tracker.unlimited_failures",
    "Verif.Props.Tracker.limit_as_given",
    "Verif.Props.Tracker.limit_fits",
    "Verif.Props.Tracker.quick_failures_le",
    "Verif.Props.Tracker.stop_after_failures_violated"
   ],
   "note": "The documented form is false (witness); the exact condition is proved."
  },
  {
   "property": "C30",
   "status": "proved",
   "theorems": [
    "Verif.Props.Tracker.drained_log_closed"
   ],
   "note": ""
  },
  {
   "property": "C31",
   "status": "proved",
   "theorems": [
    "Verif.Props.Tracker.listed_is_logged_partial",
    "Verif.Props.Tracker.logged_is_listed_violated"
   ],
   "note": "The claim is false in drain (witness); the other direction is proved."
  },
  {
   "property": "C35",
   "status": "proved",
   "theorems": [
    "Verif.Props.Tracker.started_after_dependencies",
    "Verif.Props.Tracker.ready_after_dependencies_violated"
   ],
   "note": "The Ready form is false (witness)."
  },
  {
   "property": "C33",
   "status": "proved",
   "theorems": [
    "Verif.Props.Log.reopen_iff",
    "Verif.Props.Log.reopen_panic",
    "Verif.Props.Log.write_iff",
    "Verif.Props.World.log_always_opens",
    "Verif.Props.World.open_succeeds",
    "Verif.Props.World.history_no_panic"
   ],
   "note": ""
  },
  {
   "property": "C32",
   "status": "proved",
   "theorems": [
    "Verif.Props.World.dependencies_succeeded_partial",
    "Verif.Props.World.dependencies_succeeded_violated",
    "Verif.Props.World.reused_failure_violated",
    "Verif.Props.Rerun.dependencies_settled"
   ],
   "note": "The claim is false over two execute calls (two witnesses); it is proved for the first execute of a session, in every history. For every execute the exact exceptions are proved (dependencies_settled)."
  },
  {
   "property": "C36",
   "status": "proved",
   "theorems": [
    "Verif.Props.World.success_never_rerun",
    "Verif.Props.World.success_not_obtained"
   ],
   "note": ""
  },
  {
   "property": "C37",
   "status": "proved",
   "theorems": [
    "Verif.Props.World.runcounts_increase_partial",
    "Verif.Props.World.runcounts_increase_violated",
    "Verif.Props.Rerun.runcounts_never_decrease",
    "Verif.Props.Rerun.runcount_at_most_attempts",
    "Verif.Props.Rerun.attempts_numbered",
    "Verif.Props.Rerun.logfile_runcount_counts",
    "Verif.Props.Rerun.runcount_shared_violated"
   ],
   "note": "False over several execute calls of a session (witnesses, also with the two attempts in different sessions); proved for every history with at most one execute per session, where attempts are numbered 0, 1, 2, … without gaps and logfile_runcount tells their number. In every history runcounts never decrease and are at most the number of attempts before (so they fit their 32 bits)."
  },
  {
   "property": "C73",
   "status": "proved",
   "theorems": [
    "Verif.Props.World.returned_is_durable_partial",
    "Verif.Props.World.returned_is_durable_violated"
   ],
   "note": "False if nothing had to be run (witness); proved for every execute that ran something."
  },
  {
   "property": "C60",
   "status": "proved",
   "theorems": [
    "Verif.Props.Token.cancels_cover",
    "Verif.Props.Token.cancel_atomic",
    "Verif.Props.Token.cancellation_grows_partial",
    "Verif.Props.Token.cancellation_grows_violated",
    "Verif.Props.Token.value_was_requested",
    "Verif.Props.Token.cancelled_future_returns",
    "Verif.Props.Token.future_returns_only_if_covered"
   ],
   "note": "Sequential part proved for all sequences; the concurrent form is false (witness), proved for calls that do not overlap."
  },
  {
   "property": "C61",
   "status": "proved",
   "theorems": [
    "Verif.Props.AsyncFlag.flag_no_lost_wakeup",
    "Verif.Props.AsyncFlag.flag_shows_last",
    "Verif.Props.AsyncFlag.flag_wait_means_set",
    "Verif.Props.AsyncFlag.counter_no_lost_wakeup",
    "Verif.Props.AsyncFlag.counter_wait_exceeds",
    "Verif.Props.AsyncFlag.counter_counts",
    "Verif.Props.AsyncFlag.sleeper_notified_or_pending"
   ],
   "note": ""
  },
  {
   "property": "C62",
   "status": "proved",
   "theorems": [
    "Verif.Props.Status.early_answer",
    "Verif.Props.Status.not_before_timemin",
    "Verif.Props.Status.answer_covers_etag",
    "Verif.Props.Status.nothing_missed",
    "Verif.Props.Status.repoll_answered",
    "Verif.Props.Status.one_larger_needs_two",
    "Verif.Props.Status.one_larger_violated",
    "Verif.Props.Status.totals_are_batches"
   ],
   "note": "The documented recipe is false (witness)."
  },
  {
   "property": "C67",
   "status": "proved",
   "theorems": [
    "Verif.Props.Ring.mean_eq",
    "Verif.Props.Ring.mean_between",
    "Verif.Props.Ring.mean_forgets",
    "Verif.Props.Ring.new_100",
    "Verif.Props.Ring.new_iff"
   ],
   "note": ""
  },
  {
   "property": "C55",
   "status": "proved",
   "theorems": [
    "Verif.Props.TimeWheel.silent_fires_at_255",
    "Verif.Props.TimeWheel.pinging_never_fires",
    "Verif.Props.TimeWheel.timeout_in_ticks"
   ],
   "note": "In ticks; real time only enters through the tick length."
  },
  {
   "property": "C56",
   "status": "proved",
   "theorems": [
    "Verif.Props.TimeWheel.wheel_refines",
    "Verif.Props.TimeWheel.fires_exactly",
    "Verif.Props.TimeWheel.ticks_for_delay",
    "Verif.Props.TimeWheel.wheel_panics_iff"
   ],
   "note": ""
  },
  {
   "property": "C57",
   "status": "proved",
   "theorems": [
    "Verif.Props.TimeWheel.wheel_refines",
    "Verif.Props.TimeWheel.cancelled_never_fires",
    "Verif.Props.TimeWheel.cancelled_id_not_reused",
    "Verif.Props.TimeWheel.cancel_after_fire_violated"
   ],
   "note": "An id cancelled before stays unused until its slot is ticked; after that it can be reused like that of a fired timer (witness)."
  },
  {
   "property": "C74",
   "status": "proved",
   "theorems": [
    "Verif.Props.World.result_agrees_with_log",
    "Verif.Props.World.nothing_to_run"
   ],
   "note": ""
  },
  {
   "property": "C75",
   "status": "proved",
   "theorems": [
    "Verif.Props.World.nothing_runs_twice_in_session"
   ],
   "note": ""
  },
  {
   "property": "C76",
   "status": "proved",
   "theorems": [
    "Verif.Props.Tracker.entries_have_origin",
    "Verif.Props.Tracker.started_entry_violated"
   ],
   "note": "Every entry has one of the listed origins (all runs); the claim about reported host and pid is false in drain (witness)."
  },
  {
   "property": "C77",
   "status": "proved",
   "theorems": [
    "Verif.Props.Tracker.reports_acknowledged",
    "Verif.Props.Tracker.over_is_cancelled",
    "Verif.Props.Tracker.acknowledged_is_processed"
   ],
   "note": ""
  },
  {
   "property": "C78",
   "status": "proved",
   "theorems": [
    "Verif.Props.Tracker.counter_counts_batches"
   ],
   "note": ""
  },
  {
   "property": "C45",
   "status": "proved",
   "theorems": [
    "Verif.Props.Lock.exclusive_partial",
    "Verif.Props.Lock.second_opener_refused",
    "Verif.Props.Lock.next_opener_succeeds",
    "Verif.Props.Lock.one_session_per_lock_file",
    "Verif.Props.Lock.exclusive_without_removal",
    "Verif.Props.Lock.exclusive_violated",
    "Verif.Props.Lock.exclusive_in_drop_violated"
   ],
   "note": "Proved under the proviso (slightly wider than first stated: also nobody may open the lock file while the holder is in drop), false without (two witnesses)."
  },
  {
   "property": "C79",
   "status": "proved",
   "theorems": [
    "Verif.Props.Lock.file_only_grows_partial",
    "Verif.Props.Lock.file_overwritten_violated"
   ],
   "note": "Proved under the proviso; false without (witness)."
  },
  {
   "property": "C46",
   "status": "proved",
   "theorems": [
    "Verif.Props.Fd3.success_iff_exit_zero",
    "Verif.Props.Fd3.recorded_number",
    "Verif.Props.Fd3.recorded_number_ambiguous"
   ],
   "note": "The path from the local runner to the tracker is in LocalRunner (C47)."
  },
  {
   "property": "C50",
   "status": "proved",
   "theorems": [
    "Verif.Props.Fd3.values_by_line",
    "Verif.Props.Fd3.lines_exist",
    "Verif.Props.Fd3.values_utf8",
    "Verif.Props.Fd3.value_of_key",
    "Verif.Props.Fd3.unclosed_quote",
    "Verif.Props.Shell.words_of_line",
    "Verif.Props.Shell.map_of_line"
   ],
   "note": "shell_words::split is an external crate, modelled from its documentation and source as known."
  },
  {
   "property": "C80",
   "status": "proved",
   "theorems": [
    "Verif.Props.Fd3.written_words_split",
    "Verif.Props.Fd3.laid_words_split",
    "Verif.Props.Fd3.values_round_trip_partial",
    "Verif.Props.Fd3.newline_value_lost_violated"
   ],
   "note": "Proved for words without newline; false with (witness)."
  },
  {
   "property": "C51",
   "status": "proved",
   "theorems": [
    "Verif.Props.Display.display_text",
    "Verif.Props.Display.pieces_exist",
    "Verif.Props.Display.display_clean",
    "Verif.Props.Display.display_verbatim",
    "Verif.Props.Display.display_panics_iff"
   ],
   "note": ""
  },
  {
   "property": "C68",
   "status": "proved",
   "theorems": [
    "Verif.Props.Codec.requests_round_trip_partial",
    "Verif.Props.Codec.responses_round_trip",
    "Verif.Props.Codec.unknown_refused",
    "Verif.Props.Codec.long_output_refused_violated"
   ],
   "note": "Requests: for bodies of at most 2 MiB; false for longer ones (C81). postcard is an external crate, its format is modelled; LZ4 is any lossless compression."
  },
  {
   "property": "C81",
   "status": "proved",
   "theorems": [
    "Verif.Props.Codec.requests_round_trip_partial",
    "Verif.Props.Codec.long_output_refused_violated"
   ],
   "note": "False by counting, for every lossless compression."
  },
  {
   "property": "C22",
   "status": "proved",
   "theorems": [
    "Verif.Props.System.repeated_begun_panics_violated",
    "Verif.Props.Tracker.second_start_report_panics"
   ],
   "note": "The claim is false: for every state with a processed start report."
  },
  {
   "property": "C47",
   "status": "proved",
   "theorems": [
    "Verif.Props.System.local_parallelism",
    "Verif.Props.System.no_local_without_parallel",
    "Verif.Props.System.no_more_loops",
    "Verif.Props.System.loop_protocol",
    "Verif.Props.System.loop_types",
    "Verif.Props.System.killed_only_if_hard"
   ],
   "note": ""
  },
  {
   "property": "C48",
   "status": "proved",
   "theorems": [
    "Verif.Props.System.cancelled_recently_started",
    "Verif.Props.System.not_cancelled_without_failures"
   ],
   "note": ""
  },
  {
   "property": "C49",
   "status": "proved",
   "theorems": [
    "Verif.Props.System.preamble_called_twice_violated",
    "Verif.Props.System.postamble_once"
   ],
   "note": "The first claim is false in every run (exactly two calls); the second holds."
  },
  {
   "property": "C52",
   "status": "proved",
   "theorems": [
    "Verif.Props.System.unauthorized_changes_nothing"
   ],
   "note": "Statement amended: a missing header or undecodable body is refused by the extractors, not with 401."
  },
  {
   "property": "C53",
   "status": "proved",
   "theorems": [
    "Verif.Props.System.reported_at_most_once",
    "Verif.Props.System.responsible_or_reported",
    "Verif.Props.System.connections_distinct",
    "Verif.Props.System.end_takes_connection"
   ],
   "note": ""
  },
  {
   "property": "C54",
   "status": "proved",
   "theorems": [
    "Verif.Props.System.foreign_end_abandons_violated",
    "Verif.Props.System.foreign_end_hangs_violated",
    "Verif.Props.System.abandoned_unreported",
    "Verif.Props.System.abandoned_hangs",
    "Verif.Props.System.abandoned_started_hangs"
   ],
   "note": "The claim is false (every state with a connection; witness and all its continuations)."
  },
  {
   "property": "C58",
   "status": "proved",
   "theorems": [
    "Verif.Props.System.marked_job_gets_no_task_partial",
    "Verif.Props.System.mark_reply",
    "Verif.Props.System.marked_start_refused",
    "Verif.Props.System.marked_waiting_start_violated",
    "Verif.Props.System.marked_next_task_violated"
   ],
   "note": "Holds if no request of the job is being handled; false otherwise (two witnesses)."
  },
  {
   "property": "C59",
   "status": "proved",
   "theorems": [
    "Verif.Props.System.reaper_dies_violated",
    "Verif.Props.System.dead_reaper_never_reports"
   ],
   "note": "The claim is false (witness, and what follows in all continuations)."
  },
  {
   "property": "C82",
   "status": "proved",
   "theorems": [
    "Verif.Props.System.loop_panic_abandons_violated",
    "Verif.Props.System.loop_panics_iff",
    "Verif.Props.System.fd3_input_hangs_violated",
    "Verif.Props.System.abandoned_unreported",
    "Verif.Props.System.abandoned_hangs"
   ],
   "note": "The claim is false."
  },
  {
   "property": "C83",
   "status": "proved",
   "theorems": [
    "Verif.Props.System.handler_panic_abandons_violated",
    "Verif.Props.System.abandoned_unreported",
    "Verif.Props.System.abandoned_hangs"
   ],
   "note": "The claim is false."
  },
  {
   "property": "C84",
   "status": "proved",
   "theorems": [
    "Verif.Props.System.txn_collision_abandons_violated",
    "Verif.Props.System.txn_collision_wrong_task_violated"
   ],
   "note": "The claim is false."
  },
  {
   "property": "C85",
   "status": "proved",
   "theorems": [
    "Verif.Props.System.silent_connection_reaped_partial",
    "Verif.Props.System.stalled_end_stops_watching_violated"
   ],
   "note": "Holds when handlers are prompt; false otherwise (witness)."
  },
  {
   "property": "C86",
   "status": "proved",
   "theorems": [
    "Verif.Props.System.disconnected_only_if_partial",
    "Verif.Props.System.pinging_not_disconnected_partial",
    "Verif.Props.System.stale_timer_disconnects_violated"
   ],
   "note": "Holds when transaction ids are distinct and handlers are prompt; false otherwise (witness)."
  },
  {
   "property": "C87",
   "status": "proved",
   "theorems": [
    "Verif.Props.System.disconnected_only_if_partial"
   ],
   "note": "With the provisos of the statement."
  },
  {
   "property": "C88",
   "status": "proved",
   "theorems": [
    "Verif.Props.System.finish_reports_true"
   ],
   "note": ""
  },
  {
   "property": "C89",
   "status": "proved",
   "theorems": [
    "Verif.Props.System.next_task_after_processing"
   ],
   "note": ""
  },
  {
   "property": "C90",
   "status": "proved",
   "theorems": [
    "Verif.Props.System.runners_ended",
    "Verif.Props.System.killed_only_if_hard",
    "Verif.Props.System.server_stops_only_if_hard"
   ],
   "note": ""
  },
  {
   "property": "C43",
   "status": "proved",
   "theorems": [
    "Verif.Props.LogBytes.entry_is_one_line",
    "Verif.Props.LogBytes.entry_round_trip",
    "Verif.Props.LogBytes.file_round_trip",
    "Verif.Props.LogBytes.file_injective"
   ],
   "note": "serde_json and the derived code are modelled (Model/Json.lean) from their documentation; paths are strings (a non-UTF-8 path is refused by serde)."
  },
  {
   "property": "C44",
   "status": "proved",
   "theorems": [
    "Verif.Props.LogBytes.cut_somewhere",
    "Verif.Props.LogBytes.torn_line_rejected_violated",
    "Verif.Props.LogBytes.torn_line_read",
    "Verif.Props.LogBytes.lost_newline_opens",
    "Verif.Props.LogBytes.glued_line_rejected_violated",
    "Verif.Props.LogBytes.reopen_after_crash_iff"
   ],
   "note": "The naive claim is false; the theorems prove which cuts can be reopened."
  },
  {
   "property": "C91",
   "status": "proved",
   "theorems": [
    "Verif.Props.LogBytes.read_any_order",
    "Verif.Props.LogBytes.read_older"
   ],
   "note": ""
  },
  {
   "property": "C69",
   "status": "proved",
   "theorems": [
    "Verif.Props.Remote.deadline_reserve",
    "Verif.Props.Remote.description_no_panic",
    "Verif.Props.Remote.description_true_partial",
    "Verif.Props.Remote.description_false_violated"
   ],
   "note": "Times are integers (nanoseconds); the overflow of Duration/Instant beyond one year is excluded by the min in the code."
  },
  {
   "property": "C70",
   "status": "proved",
   "theorems": [
    "Verif.Props.Remote.term_when_first_seen_partial",
    "Verif.Props.Remote.kill_only_after_term_partial",
    "Verif.Props.Remote.one_term_partial",
    "Verif.Props.Remote.kill_if_still_there_partial",
    "Verif.Props.Remote.cleanup_returns",
    "Verif.Props.Remote.reused_pid_killed_violated"
   ],
   "note": "Partial theorems assume what the statement's proviso says: no pid is reused during the cleanup; without it the claim is refuted."
  },
  {
   "property": "C71",
   "status": "proved",
   "theorems": [
    "Verif.Props.Remote.conversion_diverges_violated",
    "Verif.Props.Remote.stuck_forever_violated"
   ],
   "note": "The naive claim is false. Non-termination as exhaustion of every stack depth."
  },
  {
   "property": "C92",
   "status": "proved",
   "theorems": [
    "Verif.Props.Remote.protocol",
    "Verif.Props.Remote.end_reported",
    "Verif.Props.Remote.failed_start_reported",
    "Verif.Props.Remote.bad_task_panics_violated"
   ],
   "note": "Pings, stdout/stderr and the HTTP layer are not part of the runner's trace."
  },
  {
   "property": "C93",
   "status": "proved",
   "theorems": [
    "Verif.Props.Remote.no_more_tasks",
    "Verif.Props.Remote.asks_for_next"
   ],
   "note": ""
  },
  {
   "property": "C94",
   "status": "proved",
   "theorems": [
    "Verif.Props.Remote.sigterm_only",
    "Verif.Props.Remote.sigterm_storm_violated",
    "Verif.Props.Remote.sigterm_after_end_violated"
   ],
   "note": ""
  },
  {
   "property": "C95",
   "status": "proved",
   "theorems": [
    "Verif.Props.Remote.after_deadline_partial",
    "Verif.Props.Remote.black_hole_violated"
   ],
   "note": "The partial theorem carries the proviso of the statement."
  },
  {
   "property": "C96",
   "status": "proved",
   "theorems": [
    "Verif.Props.Remote.gives_up_before_server_partial",
    "Verif.Props.Remote.gives_up_after_server_violated",
    "Verif.Props.Remote.patient"
   ],
   "note": "The partial theorem carries the proviso (latency at most 5 s) of the statement."
  },
  {
   "property": "C97",
   "status": "proved",
   "theorems": [
    "Verif.Props.Remote.exit_leaves_nothing",
    "Verif.Props.Remote.panic_leaves_child_violated"
   ],
   "note": "The cleanup is abstracted to its exit condition (a snapshot without children, see C70); its exit by an unexpected error of waitpid is not modelled here."
  },
  {
   "property": "C98",
   "status": "proved",
   "theorems": [
    "Verif.Props.Remote.deaf_while_feeding_violated"
   ],
   "note": "The naive claim is false."
  },
  {
   "property": "C99",
   "status": "proved",
   "theorems": [
    "Verif.Props.Cluster.runners_polite",
    "Verif.Props.Cluster.server_does_not_panic"
   ],
   "note": "The runner's model is that of C92; retries inside reqwest/hyper and duplicated packets are not modelled."
  },
  {
   "property": "C100",
   "status": "proved",
   "theorems": [
    "Verif.Props.Cluster.finish_reports_true"
   ],
   "note": ""
  },
  {
   "property": "C101",
   "status": "proved",
   "theorems": [
    "Verif.Props.Cluster.start_reports_true"
   ],
   "note": "Host and process id of local loops are as passed by the loop (one action of the model)."
  },
  {
   "property": "C102",
   "status": "proved",
   "theorems": [
    "Verif.Props.Cluster.at_most_one_process",
    "Verif.Props.Cluster.runs_what_it_received"
   ],
   "note": ""
  },
  {
   "property": "C103",
   "status": "proved",
   "theorems": [
    "Verif.Props.Cluster.process_outlives_execute_violated",
    "Verif.Props.Cluster.reported_process_has_ended_partial"
   ],
   "note": "The naive claim is false."
  },
  {
   "property": "C104",
   "status": "proved",
   "theorems": [
    "Verif.Props.Cluster.answers_expected"
   ],
   "note": ""
  },
  {
   "property": "C105",
   "status": "proved",
   "theorems": [
    "Verif.Props.Deploy.deployment_is_history",
    "Verif.Props.Deploy.cluster_in_world"
   ],
   "note": "Processes on one log file do not overlap (the lock is C45); local children of a killed process are not followed."
  },
  {
   "property": "C106",
   "status": "proved",
   "theorems": [
    "Verif.Props.Deploy.dependencies_ended_first_partial",
    "Verif.Props.Deploy.dependencies_ended_first_violated"
   ],
   "note": "Holds for the first execute of a session; false for later ones (witness)."
  },
  {
   "property": "C107",
   "status": "proved",
   "theorems": [
    "Verif.Props.Deploy.success_not_started_partial",
    "Verif.Props.Deploy.durable_success_final_partial",
    "Verif.Props.Deploy.success_not_started_violated",
    "Verif.Props.Deploy.two_processes_at_once_violated"
   ],
   "note": "Holds for the execute in progress; false for remote runners of an earlier process (witnesses)."
  },
  {
   "property": "C108",
   "status": "proved",
   "theorems": [
    "Verif.Props.Deploy.logged_exit_true",
    "Verif.Props.Deploy.logged_success_true"
   ],
   "note": ""
  },
  {
   "property": "C109",
   "status": "proved",
   "theorems": [
    "Verif.Props.Deploy.deployment_no_panic"
   ],
   "note": "Panics of single local loops and HTTP handlers (failing preamble, empty command) are actions of the model, see C83; they do not end the process."
  },
  {
   "property": "C110",
   "status": "proved",
   "theorems": [
    "Verif.Props.Disk.session_is_history",
    "Verif.Props.Disk.flushed_is_read",
    "Verif.Props.Disk.success_never_rerun",
    "Verif.Props.Disk.bytes_no_panic"
   ],
   "note": "Numbers written are in the ranges of their types; values of fd 3 have distinct keys (Writable)."
  },
  {
   "property": "C111",
   "status": "proved",
   "theorems": [
    "Verif.Props.Disk.reopens_iff",
    "Verif.Props.Disk.opens_if_lines_whole",
    "Verif.Props.Disk.refused_forever"
   ],
   "note": ""
  },
  {
   "property": "C112",
   "status": "proved",
   "theorems": [
    "Verif.Props.Disk.lost_newline_dooms",
    "Verif.Props.Disk.lost_newline_violated"
   ],
   "note": "The naive claim is false."
  },
  {
   "property": "C113",
   "status": "proved",
   "theorems": [
    "Verif.Props.Terminate.work_bounded"
   ],
   "note": "Requests to the HTTP server are outside (no provisioner)."
  },
  {
   "property": "C114",
   "status": "proved",
   "theorems": [
    "Verif.Props.Terminate.never_stuck",
    "Verif.Props.Terminate.can_always_finish"
   ],
   "note": "The I/O of a child is one action (loopOutput): that the pipes of a child can block execgraph is outside this model, see C119."
  },
  {
   "property": "C115",
   "status": "proved",
   "theorems": [
    "Verif.Props.Terminate.execute_returns",
    "Verif.Props.Terminate.execute_returns_in_time",
    "Verif.Props.Terminate.fair_run_exists"
   ],
   "note": "Fairness is the weakest possible: some inside action happens if one stays possible."
  },
  {
   "property": "C116",
   "status": "proved",
   "theorems": [
    "Verif.Props.Terminate.everything_done"
   ],
   "note": ""
  },
  {
   "property": "C117",
   "status": "proved",
   "theorems": [
    "Verif.Props.ChildIo.report_exact",
    "Verif.Props.ChildIo.nothing_lost"
   ],
   "note": "A byte passes at a time; stdout and stderr of the console loop are not pipes."
  },
  {
   "property": "C118",
   "status": "proved",
   "theorems": [
    "Verif.Props.ChildIo.report_waits",
    "Verif.Props.ChildIo.never_reported",
    "Verif.Props.ChildIo.background_process_violated"
   ],
   "note": "The naive claim (reported when the child has ended) is false."
  },
  {
   "property": "C119",
   "status": "proved",
   "theorems": [
    "Verif.Props.ChildIo.stuck_iff",
    "Verif.Props.ChildIo.small_input_never_stuck_partial",
    "Verif.Props.ChildIo.large_input_deadlock_violated"
   ],
   "note": "The naive claim (never stuck) is false."
  },
  {
   "property": "C120",
   "status": "proved",
   "theorems": [
    "Verif.Props.ChildIo.reader_never_panics_partial",
    "Verif.Props.ChildIo.unread_input_violated"
   ],
   "note": "The naive claim (never panics) is false."
  },
  {
   "property": "C121",
   "status": "proved",
   "theorems": [
    "Verif.Props.ChildIo.parent_work_bounded",
    "Verif.Props.ChildIo.comes_to_end"
   ],
   "note": ""
  },
  {
   "property": "C122",
   "status": "proved",
   "theorems": [
    "Verif.Props.ChildIo.child_gone",
    "Verif.Props.ChildIo.descendants_survive_violated"
   ],
   "note": "The naive claim (a cancelled task leaves nothing behind) is false."
  },
  {
   "property": "C123",
   "status": "proved",
   "theorems": [
    "Verif.Props.RateCounter.rate_nonneg",
    "Verif.Props.RateCounter.rate_closed_form",
    "Verif.Props.RateCounter.rate_up",
    "Verif.Props.RateCounter.rate_decays"
   ],
   "note": "Over the real numbers, not f64."
  },
  {
   "property": "C124",
   "status": "proved",
   "theorems": [
    "Verif.Props.RateCounter.rate_at_most",
    "Verif.Props.RateCounter.rate_at_least",
    "Verif.Props.RateCounter.young_rate"
   ],
   "note": "Over the real numbers, not f64."
  },
  {
   "property": "C125",
   "status": "proved",
   "theorems": [
    "Verif.Props.Lifecycle.returned_clean"
   ],
   "note": "The local loops are in System, not here."
  },
  {
   "property": "C126",
   "status": "proved",
   "theorems": [
    "Verif.Props.Lifecycle.started_once",
    "Verif.Props.Lifecycle.cancelled_only_if",
    "Verif.Props.Lifecycle.provisioner_over"
   ],
   "note": "SIGINT is followed at once by SIGKILL (kill_on_drop), so a cancelled provisioner has no time to clean up."
  },
  {
   "property": "C127",
   "status": "proved",
   "theorems": [
    "Verif.Props.Lifecycle.no_server_no_provisioner",
    "Verif.Props.Lifecycle.bind_failure_violated"
   ],
   "note": "The naive claim (execute fails) is false."
  },
  {
   "property": "C128",
   "status": "proved",
   "theorems": [
    "Verif.Props.Lifecycle.waits_only_for_requests",
    "Verif.Props.Lifecycle.steps_bounded",
    "Verif.Props.Lifecycle.returns_in_time",
    "Verif.Props.Lifecycle.status_request_delays_violated"
   ],
   "note": "The naive claim (execute returns soon after the end) is false."
  },
  {
   "property": "C129",
   "status": "proved",
   "theorems": [
    "Verif.Props.Sockets.name_round_trip",
    "Verif.Props.Sockets.name_injective",
    "Verif.Props.Sockets.name_match"
   ],
   "note": "Process numbers below 2^22 (limit of Linux)."
  },
  {
   "property": "C130",
   "status": "proved",
   "theorems": [
    "Verif.Props.Sockets.reachable_partial",
    "Verif.Props.Sockets.pid_reuse_violated",
    "Verif.Props.Sockets.two_sessions_violated",
    "Verif.Props.Sockets.two_machines_violated"
   ],
   "note": "The claim without conditions is false (three witnesses)."
  },
  {
   "property": "C131",
   "status": "proved",
   "theorems": [
    "Verif.Props.Sockets.removes_only",
    "Verif.Props.Sockets.foreign_socket_violated"
   ],
   "note": "The naive claim (only files of sessions) is false."
  },
  {
   "property": "C132",
   "status": "proved",
   "theorems": [
    "Verif.Props.Sockets.pass",
    "Verif.Props.Sockets.pass_partial",
    "Verif.Props.Sockets.pass_stops_violated"
   ],
   "note": "read_dir is one action; concurrent passes are in C130 and C131."
  },
  {
   "property": "C133",
   "status": "proved",
   "theorems": [
    "Verif.Props.Progress.work_bounded",
    "Verif.Props.Progress.waits_bounded"
   ],
   "note": "For runs in which /begun is not repeated for a transaction."
  },
  {
   "property": "C134",
   "status": "proved",
   "theorems": [
    "Verif.Props.Progress.never_stuck",
    "Verif.Props.Progress.at_rest"
   ],
   "note": "Every task has a command line that can be started; what happens after panics is in C59, C82 and others."
  },
  {
   "property": "C135",
   "status": "proved",
   "theorems": [
    "Verif.Props.Fairly.execute_returns"
   ],
   "note": "For runs in which /begun is not repeated for a transaction. The provisos are the hypotheses Justly, ConnsEnd, Cooperative, Intact; what happens without Intact is in C59, C82, C88."
  },
  {
   "property": "C136",
   "status": "proved",
   "theorems": [
    "Verif.Props.Fairly.execute_returns_silent"
   ],
   "note": "As C135; without prompt handlers a connection may stay for ever, see C85."
  },
  {
   "property": "C137",
   "status": "proved",
   "theorems": [
    "Verif.Props.Fairly.everything_done"
   ],
   "note": "As C135."
  },
  {
   "property": "C138",
   "status": "proved",
   "theorems": [
    "Verif.Props.Print.lines_exact",
    "Verif.Props.Print.numbers_increase",
    "Verif.Props.Print.numbers_consecutive",
    "Verif.Props.Print.failures_named",
    "Verif.Props.Print.failures_named_violated",
    "Verif.Props.Print.total_bounded"
   ],
   "note": "The statement says what is hidden after a soft shutdown; failures_named_violated is the witness."
  },
  {
   "property": "C139",
   "status": "proved",
   "theorems": [
    "Verif.Props.Mirror.file_exact",
    "Verif.Props.Mirror.never_stuck",
    "Verif.Props.Mirror.succeeds_if_taken",
    "Verif.Props.Mirror.no_file_fails"
   ],
   "note": "One call of rawlog! at a time; the mutex is not modelled."
  },
  {
   "property": "C140",
   "status": "proved",
   "theorems": [
    "Verif.Props.Mirror.console_exact",
    "Verif.Props.Mirror.console_complete_partial",
    "Verif.Props.Mirror.console_loses_violated",
    "Verif.Props.Mirror.console_repeats_violated"
   ],
   "note": "The statement contains the exceptions; the violated theorems hold for all texts of that shape. For stdout on a terminal."
  },
  {
   "property": "C141",
   "status": "proved",
   "theorems": [
    "Verif.Props.Mirror.files_exact",
    "Verif.Props.Mirror.on_disk",
    "Verif.Props.Mirror.append_only",
    "Verif.Props.Mirror.execute_mirrored",
    "Verif.Props.Mirror.own_output_violated"
   ],
   "note": "Opening a mirror file is assumed to succeed."
  },
  {
   "property": "C142",
   "status": "proved",
   "theorems": [
    "Verif.Props.Abort.log_always_opens",
    "Verif.Props.Abort.success_never_rerun",
    "Verif.Props.Abort.nothing_lost",
    "Verif.Props.Abort.session_goes_on",
    "Verif.Props.Abort.returned_not_again",
    "Verif.Props.Abort.success_recorded_violated",
    "Verif.Props.Abort.own_backref_violated"
   ],
   "note": "The statement names what is not kept; the violated theorems are the witnesses. Failing writes to the log file itself are not part of these histories (C143)."
  },
  {
   "property": "C143",
   "status": "proved",
   "theorems": [
    "Verif.Props.LogIo.file_exact",
    "Verif.Props.LogIo.succeeds_if_taken",
    "Verif.Props.LogIo.memory_first",
    "Verif.Props.LogIo.ends_like_kill",
    "Verif.Props.LogIo.goes_on_violated",
    "Verif.Props.LogIo.one_refused_write_violated"
   ],
   "note": "The statement says what happens when the session goes on; goes_on_violated and one_refused_write_violated hold for all entries of that kind. The writer of crate bufreaderwriter is taken to be std's BufWriter."
  },
  {
   "property": "C144",
   "status": "proved",
   "theorems": [
    "Verif.Props.Roots.add_panics_iff",
    "Verif.Props.Roots.add_no_panic_partial",
    "Verif.Props.Roots.poisoned",
    "Verif.Props.Roots.no_such_root_violated",
    "Verif.Props.Roots.add_again_violated"
   ],
   "note": "The statement includes the proviso and the violation."
  },
  {
   "property": "C145",
   "status": "proved",
   "theorems": [
    "Verif.Props.Lifetime.return_is_safe",
    "Verif.Props.Lifetime.execute_is_over",
    "Verif.Props.Lifetime.use_is_noted",
    "Verif.Props.Lifetime.dangling_only_if",
    "Verif.Props.Lifetime.dangling_loop_violated",
    "Verif.Props.Lifetime.dangling_request_violated",
    "Verif.Props.Lifetime.dangling_violated"
   ],
   "note": "The statement includes the violation. What the program does after a use of freed memory is not defined; the model only notes that it happens."
  },
  {
   "property": "C146",
   "status": "proved",
   "theorems": [
    "Verif.Props.Copy.copy_exact",
    "Verif.Props.Copy.merge",
    "Verif.Props.Copy.write_to_itself",
    "Verif.Props.Copy.merge_violated",
    "Verif.Props.Copy.recover",
    "Verif.Props.Copy.compact",
    "Verif.Props.Copy.compact_file",
    "Verif.Props.Copy.compact_violated",
    "Verif.Props.Copy.compact_opened_violated"
   ],
   "note": "The statement includes the violations (`merge_violated`: a foreign log is written without an error; `compact_violated`, `compact_opened_violated`: successes missing in 'current'). Assumed: pythonize and depythonize keep the entries."
  },
  {
   "property": "C147",
   "status": "proved",
   "theorems": [
    "Verif.Props.WheelRace.serialisable",
    "Verif.Props.WheelRace.race_fires",
    "Verif.Props.WheelRace.race_on_time",
    "Verif.Props.WheelRace.race_cancelled",
    "Verif.Props.WheelRace.zero_delay_early",
    "Verif.Props.WheelRace.stalled_insert_late",
    "Verif.Props.WheelRace.not_linearizable"
   ],
   "note": "The statement includes the exceptions (last three theorems)."
  },
  {
   "property": "C148",
   "status": "proved",
   "theorems": [
    "Verif.Props.Watcher.messages_true",
    "Verif.Props.Watcher.no_false_alarm",
    "Verif.Props.Watcher.nothing_missed",
    "Verif.Props.Watcher.before_watch_missed",
    "Verif.Props.Watcher.early_message_violated",
    "Verif.Props.Watcher.split_character_violated"
   ],
   "note": "The statement includes the violations. The file is only appended to; errors of inotify and of reading are not modelled."
  },
  {
   "property": "C149",
   "status": "proved",
   "theorems": [
    "Verif.Props.Expand.message_expanded",
    "Verif.Props.Expand.logfile_expanded",
    "Verif.Props.Expand.double_percent_violated",
    "Verif.Props.Expand.value_with_percent_violated"
   ],
   "note": "The statement includes the violations."
  },
  {
   "property": "C150",
   "status": "proved",
   "theorems": [
    "Verif.Props.Expand.array_ids_distinct",
    "Verif.Props.Expand.ids_outside_arrays_violated",
    "Verif.Props.Expand.one_marked_all_refused"
   ],
   "note": "Array job ids without `_` (Slurm's are numbers). The statement includes the violation."
  },
  {
   "property": "C151",
   "status": "proved",
   "theorems": [
    "Verif.Props.Family.run_of_system",
    "Verif.Props.Family.report_is_of_process",
    "Verif.Props.Family.logged_end_true"
   ],
   "note": "Both components (system and pipes) run synchronised; see Model/Family."
  },
  {
   "property": "C152",
   "status": "proved",
   "theorems": [
    "Verif.Props.Family.work_bounded",
    "Verif.Props.Family.stuck_only_by_input",
    "Verif.Props.Family.execute_returns",
    "Verif.Props.Family.fair_run_exists",
    "Verif.Props.Family.everything_done"
   ],
   "note": "Local loops only (remote = false)."
  },
  {
   "property": "C153",
   "status": "proved",
   "theorems": [
    "Verif.Props.Family.one_task_blocks_execute_violated"
   ],
   "note": "The statement includes the violation."
  },
  {
   "property": "C154",
   "status": "proved",
   "theorems": [
    "Verif.Props.Admin.carried_out",
    "Verif.Props.Admin.soft_only_by_admin",
    "Verif.Props.Admin.settings_shown",
    "Verif.Props.Admin.others_answered",
    "Verif.Props.Admin.shutdown_iff",
    "Verif.Props.Admin.shutdown_works_partial",
    "Verif.Props.Admin.shutdown_ignored_violated"
   ],
   "note": "The statement includes the violation. That the time zone can be read (set_soundness at the import of the module, pylib.rs:425) is part of the model; localtime_r is assumed not to fail."
  },
  {
   "property": "C155",
   "status": "proved",
   "theorems": [
    "Verif.Props.Outcome.outcome_determined",
    "Verif.Props.Outcome.log_determined",
    "Verif.Props.Outcome.schedule_irrelevant",
    "Verif.Props.Outcome.schedule_matters_violated"
   ],
   "note": "The statement includes the violation."
  },
  {
   "property": "C156",
   "status": "proved",
   "theorems": [
    "Verif.Props.Complete.zero_failures_partial",
    "Verif.Props.Complete.all_done_means_zero",
    "Verif.Props.Complete.interrupted_violated",
    "Verif.Props.Complete.shut_down_violated",
    "Verif.Props.Complete.not_rerun_violated",
    "Verif.Props.Complete.second_execute_violated"
   ],
   "note": "The statement includes the provisos and the violations."
  },
  {
   "property": "C157",
   "status": "proved",
   "theorems": [
    "Verif.Props.Complete.entries_reported",
    "Verif.Props.Complete.result_unique",
    "Verif.Props.Complete.history_irrelevant"
   ],
   "note": "Lines torn by a kill are treated in C33 and the JSON properties; here the log is cut at entry boundaries."
  },
  {
   "property": "C158",
   "status": "proved",
   "theorems": [
    "Verif.Props.Program.program_has_one_result",
    "Verif.Props.Program.report_is_result",
    "Verif.Props.Program.log_computed",
    "Verif.Props.Program.execute_computes",
    "Verif.Props.Program.several_processes_violated"
   ],
   "note": "The statement includes the violation."
  },
  {
   "property": "C159",
   "status": "proved",
   "theorems": [
    "Verif.Props.Anywhere.log_determined_anywhere_partial",
    "Verif.Props.Anywhere.placement_irrelevant_partial",
    "Verif.Props.Anywhere.cut_off_runner_violated"
   ],
   "note": "The statement includes the proviso and the violation."
  },
  {
   "property": "C160",
   "status": "proved",
   "theorems": [
    "Verif.Props.LogRead.read_says",
    "Verif.Props.LogRead.opened_says",
    "Verif.Props.LogRead.snapshot_says",
    "Verif.Props.LogRead.accepted_iff",
    "Verif.Props.LogRead.line_accepted_iff"
   ],
   "note": "serde and serde_json are external; modelled as in C43."
  },
  {
   "property": "C161",
   "status": "proved",
   "theorems": [
    "Verif.Props.Codec.cut_messages_refused",
    "Verif.Props.Codec.compressed_iff"
   ],
   "note": "For the uncompressed form: of the compression only losslessness is known."
  },
  {
   "property": "C162",
   "status": "proved",
   "theorems": [
    "Verif.Props.Resume.resumption_partial",
    "Verif.Props.Resume.as_if_uninterrupted_partial",
    "Verif.Props.Resume.two_executes_violated"
   ],
   "note": "The proviso of one execute per session is part of the statement; without it the claim is refuted."
  },
  {
   "property": "C163",
   "status": "proved",
   "theorems": [
    "Verif.Props.Workflow.redeployment_partial",
    "Verif.Props.Workflow.as_if_in_one_place_partial"
   ],
   "note": "The provisos are part of the statement; that they are needed is shown at C162 (two executes per session) and C159 (a runner the server does not hear of)."
  },
  {
   "property": "C164",
   "status": "proved",
   "theorems": [
    "Verif.Props.CtrlC.cancelled_returns",
    "Verif.Props.CtrlC.over_returns",
    "Verif.Props.CtrlC.always_a_way_out",
    "Verif.Props.CtrlC.ctrl_c_gets_out"
   ],
   "note": "As everywhere, /begun is not repeated (C22) and the postamble of a task does not fail."
  },
  {
   "property": "C165",
   "status": "proved",
   "theorems": [
    "Verif.Props.Hooks.recorded_were_granted",
    "Verif.Props.Hooks.no_success_against_veto",
    "Verif.Props.Hooks.only_capsules",
    "Verif.Props.Hooks.consulted",
    "Verif.Props.Hooks.told_rightly",
    "Verif.Props.Hooks.objection_ends_execute",
    "Verif.Props.Hooks.like_panics",
    "Verif.Props.Hooks.only_the_task_violated"
   ],
   "note": "Histories of World with the results of the postambles as part of the actions. The results of preambles are in the system model (C49, C83)."
  },
  {
   "property": "C166",
   "status": "proved",
   "theorems": [
    "Verif.Props.Names.names_distinct",
    "Verif.Props.Names.paths_distinct",
    "Verif.Props.Names.absolute_keys_violated",
    "Verif.Props.Names.failure_names",
    "Verif.Props.Names.shown_iff",
    "Verif.Props.Names.misleading_violated"
   ],
   "note": "That the caller names the directory of a running attempt like the one of a recorded success is its own business; logfile_runcount gives only the latter."
  },
  {
   "property": "C167",
   "status": "proved",
   "theorems": [
    "Verif.Props.Grid.run_of_parts",
    "Verif.Props.Grid.logged_end_true",
    "Verif.Props.Grid.log_computed_anywhere",
    "Verif.Props.Grid.placement_of_programs_irrelevant",
    "Verif.Props.Grid.one_task_blocks_runner_violated",
    "Verif.Props.GridPanic.broken_input_panics"
   ],
   "note": "Hypotheses of the two theorems about programs: distinct transaction ids, fewer failures than allowed quick failures, no trouble (shutdown, Ctrl-C, failed start, kill, Slurm), and Heard (the server hears of every runner that has a task within 255 ticks)."
  },
  {
   "property": "C168",
   "status": "proved",
   "theorems": [
    "Verif.Props.Signals.always_own_group",
    "Verif.Props.Signals.sent_to_own_group",
    "Verif.Props.Signals.one_signal_each",
    "Verif.Props.SignalsSession.only_own_session",
    "Verif.Props.SignalsSession.no_handler_no_call",
    "Verif.Props.Signals.only_descendants_partial",
    "Verif.Props.Signals.descendants_ended_partial",
    "Verif.Props.Signals.survives_own_signal_partial",
    "Verif.Props.Signals.pipeline_violated",
    "Verif.Props.Signals.other_execute_violated",
    "Verif.Props.Signals.no_longer_ends_violated",
    "Verif.Props.Signals.own_handler_called_violated",
    "Verif.Props.Signals.handler_called_iff",
    "Verif.Props.Signals.ends_itself_violated"
   ],
   "note": "The provisos of the _partial theorems are the ones of the statement. Rests on what the documentation of tokio 1.32 and signal-hook-registry 1.4.1 says about handlers (installed once, never removed, calling the previous one)."
  },
  {
   "property": "C169",
   "status": "proved",
   "theorems": [
    "Verif.Props.Signals.ctrl_c_arrives_partial",
    "Verif.Props.Signals.ctrl_c_lost_violated",
    "Verif.Props.Signals.console_lost_violated"
   ],
   "note": ""
  },
  {
   "property": "C170",
   "status": "proved",
   "theorems": [
    "Verif.Props.Runners.execute_returns_runners",
    "Verif.Props.Runners.connections_end_or_silent"
   ],
   "note": "The assumptions are those of the statement; a runner that writes the input of a task for ever (C167) is excluded by them."
  },
  {
   "property": "C171",
   "status": "proved",
   "theorems": [
    "Verif.Props.Runners.report_accepted",
    "Verif.Props.Runners.no_connection_lost"
   ],
   "note": ""
  },
  {
   "property": "C172",
   "status": "proved",
   "theorems": [
    "Verif.Props.Runners.everything_done_runners",
    "Verif.Props.Runners.connections_end"
   ],
   "note": "The assumptions are those of the statement."
  },
  {
   "property": "C173",
   "status": "proved",
   "theorems": [
    "Verif.Props.JsonGrammar.read_iff_json",
    "Verif.Props.JsonGrammar.one_meaning",
    "Verif.Props.JsonGrammar.written_is_json",
    "Verif.Props.JsonGrammar.entry_iff_json",
    "Verif.Props.JsonGrammar.not_json_refused"
   ],
   "note": "serde_json itself is modelled from its documentation; its limit on nesting (128) is not modelled, and of numbers with fraction or exponent only the fact."
  },
  {
   "property": "C174",
   "status": "proved",
   "theorems": [
    "Verif.Props.Abort.goes_on_as_if_returned",
    "Verif.Props.Abort.failure_never_told_violated"
   ],
   "note": "The proviso is stated; C142's theorems are about the same histories."
  },
  {
   "property": "C175",
   "status": "proved",
   "theorems": [
    "Verif.Props.System.gone_means",
    "Verif.Props.System.not_sent_away_from_work",
    "Verif.Props.System.notFound_means",
    "Verif.Props.System.tooMany_means"
   ],
   "note": "The holding time itself (30 s) is not modelled: the timer of the request may fire at any time."
  },
  {
   "property": "C176",
   "status": "proved",
   "theorems": [
    "Verif.Props.Tracker.counters_divide",
    "Verif.Props.Tracker.queue_counters_fit",
    "Verif.Props.GraphTheory.priority_fits",
    "Verif.Props.Selection.priorities_fit"
   ],
   "note": "Run counts: Rerun.runcount_at_most_attempts (C37). Printed totals: Print.total_bounded (C138)."
  },
  {
   "property": "C177",
   "status": "proved",
   "theorems": [
    "Verif.Props.Greedy.no_idle_slots",
    "Verif.Props.Greedy.nobody_waits_in_vain",
    "Verif.Props.Greedy.time_at_most",
    "Verif.Props.Greedy.time_at_least",
    "Verif.Props.Greedy.at_most_twice"
   ],
   "note": "Time is the clock of the model; Swift is the assumption that execgraph's own actions take no time. With a soft shutdown request or a panic of a loop the bound is not claimed."
  },
  {
   "property": "C178",
   "status": "proved",
   "theorems": [
    "Verif.Props.Hold.held_for_30s",
    "Verif.Props.Hold.answered_in_time",
    "Verif.Props.Hold.client_does_not_give_up",
    "Verif.Props.Hold.timeout_can_happen",
    "Verif.Props.Hold.nothing_means_nothing",
    "Verif.Props.Hold.nothing_else_waits"
   ],
   "note": "The model of C47-C62 with a clock for the sleep in start_request_impl. The time a request and its answer are on the way is not modelled."
  },
  {
   "property": "C179",
   "status": "proved",
   "theorems": [
    "Verif.Props.Construct.succeeds_iff",
    "Verif.Props.Construct.what_it_makes",
    "Verif.Props.Construct.failed_leaves_log",
    "Verif.Props.Construct.retry",
    "Verif.Props.Construct.one_per_directory",
    "Verif.Props.Construct.second_check_is_dead",
    "Verif.Props.Construct.mirror_and_poison",
    "Verif.Props.Construct.poisoned_forever",
    "Verif.Props.Construct.print_panics_iff",
    "Verif.Props.MirrorDir.mirror_is_last",
    "Verif.Props.MirrorDir.mirror_none_iff",
    "Verif.Props.MirrorDir.other_graph_violated",
    "Verif.Props.Construct.others_untouched",
    "Verif.Props.Construct.reopen",
    "Verif.Props.Construct.no_panic"
   ],
   "note": "The mutex around the writers is held while log.txt is opened with unwrap (logging.rs:96-102). The demonstration (Construct.demo) shows all of it in one process."
  },
  {
   "property": "C180",
   "status": "proved",
   "theorems": [
    "Verif.Props.Piped.exact",
    "Verif.Props.Piped.succeeds_if_taken",
    "Verif.Props.Piped.flushed",
    "Verif.Props.Piped.console_exact",
    "Verif.Props.Piped.console_loses_violated"
   ],
   "note": "The exact text that comes through when nothing is refused is Piped.console_exact, also for long pieces."
  },
  {
   "property": "C181",
   "status": "proved",
   "theorems": [
    "Verif.Props.Lossy.shown_iff",
    "Verif.Props.Lossy.exact_iff",
    "Verif.Props.Lossy.unmarked_exact",
    "Verif.Props.Lossy.ascii_kept",
    "Verif.Props.Lossy.at_most_three",
    "Verif.Props.Lossy.local_exact",
    "Verif.Props.Lossy.remote_as_local",
    "Verif.Props.Lossy.slurm_text",
    "Verif.Props.Lossy.own_line_violated",
    "Verif.Props.Lossy.from_processes"
   ],
   "note": "from_utf8_lossy is modelled after the standard library's loop (core/str/lossy.rs). Requests longer than the server accepts: C68. from_processes composes it with C117: the bytes are all the child and its descendants wrote."
  },
  {
   "property": "C182",
   "status": "proved",
   "theorems": [
    "Verif.Props.Numbers.numbers_rise_partial",
    "Verif.Props.Numbers.numbers_continue",
    "Verif.Props.Numbers.total_exact",
    "Verif.Props.Numbers.repeated_violated",
    "Verif.Props.Numbers.total_violated"
   ],
   "note": "Rising numbers: proved under the proviso; false without (witness)."
  },
  {
   "property": "C183",
   "status": "proved",
   "theorems": [
    "Verif.Props.Limited.launches_window",
    "Verif.Props.Limited.launches_from_start",
    "Verif.Props.Limited.launches_after_change",
    "Verif.Props.Limited.local_launches",
    "Verif.Props.Limited.next_permit",
    "Verif.Props.Limited.unlimited",
    "Verif.Props.Limited.nothing_else_waits",
    "Verif.Props.Limited.is_an_execute",
    "Verif.Props.Limited.burst_violated"
   ],
   "note": "The limit on launches itself is false over short windows (witness); the bounds hold with the term for those who wait."
  },
  {
   "property": "C184",
   "status": "proved",
   "theorems": [
    "Verif.Props.Average.average_is_mean",
    "Verif.Props.Average.average_le_elapsed",
    "Verif.Props.Average.only_successes",
    "Verif.Props.Average.is_an_execute"
   ],
   "note": "The conversion to f32 seconds in the reply is not modelled."
  },
  {
   "property": "C185",
   "status": "proved",
   "theorems": [
    "Verif.Props.Launches.rate_is",
    "Verif.Props.Launches.launches_are_tasks",
    "Verif.Props.Launches.young_rate",
    "Verif.Props.Launches.zero_iff",
    "Verif.Props.Launches.is_an_execute"
   ],
   "note": "Over the real numbers; reading the clock and updating the counter are one step."
  },
  {
   "property": "C186",
   "status": "proved",
   "theorems": [
    "Verif.Props.Metered.shown_rate",
    "Verif.Props.Metered.shown_rate_local",
    "Verif.Props.Metered.shown_rate_any",
    "Verif.Props.Metered.shown_rate_local_any",
    "Verif.Props.Metered.high_rate_violated"
   ],
   "note": "Over the real numbers."
  }
 ]
}
