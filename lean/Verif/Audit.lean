import Verif.Props.Rate
import Verif.Props.TaskGraph
import Verif.Props.GraphTheory
import Verif.Props.Selection
import Verif.Props.Log
import Verif.Props.Snapshot
import Verif.Props.Tracker
import Verif.Props.TrackerRuns
import Verif.Props.World
import Verif.Props.Execute
import Verif.Props.Token
import Verif.Props.AsyncFlag
import Verif.Props.Status
import Verif.Props.Ring
import Verif.Props.TimeWheel
import Verif.Props.Lock
import Verif.Props.Display
import Verif.Props.Fd3
import Verif.Props.Shell
import Verif.Props.Codec
import Verif.Props.System
import Verif.Props.Faults
import Verif.Props.Reports
import Verif.Props.LogBytes
import Verif.Props.Remote
import Verif.Props.Cluster
import Verif.Props.Deploy
import Verif.Props.Disk
import Verif.Props.Terminate
import Verif.Props.ChildIo
import Verif.Props.RateCounter
import Verif.Props.Lifecycle
import Verif.Props.Sockets
import Verif.Props.Progress
import Verif.Props.Fairly
import Verif.Props.Print
import Verif.Props.Mirror
import Verif.Props.Abort
import Verif.Props.LogIo
import Verif.Props.Metered
import Verif.Props.Launches
import Verif.Props.Average
import Verif.Props.Limited
import Verif.Props.Numbers
import Verif.Props.Lossy
import Verif.Props.Piped
import Verif.Props.Construct
import Verif.Props.MirrorDir
import Verif.Props.Hold
import Verif.Props.Greedy
import Verif.Props.Range
import Verif.Props.SentAway
import Verif.Props.JsonGrammar
import Verif.Props.Runners2
import Verif.Props.Runners
import Verif.Props.Signals
import Verif.Props.SignalsSession
import Verif.Props.Grid
import Verif.Props.GridPanic
import Verif.Props.Names
import Verif.Props.Hooks
import Verif.Props.CtrlC
import Verif.Props.Workflow
import Verif.Props.Resume
import Verif.Props.LogRead
import Verif.Props.Accepted
import Verif.Props.Anywhere
import Verif.Props.Program
import Verif.Props.Rerun
import Verif.Props.Complete
import Verif.Props.Outcome
import Verif.Props.Admin
import Verif.Props.Family
import Verif.Props.Expand
import Verif.Props.Watcher
import Verif.Props.WheelRace
import Verif.Props.Copy
import Verif.Props.Lifetime
import Verif.Props.Roots

/-!
# Axioms of every property theorem

The build prints, for each theorem named in MANIFEST.json, the axioms it depends on.
-/

#print axioms Verif.Props.TaskGraph.add_task_idempotent
#print axioms Verif.Props.TaskGraph.add_task_fresh
#print axioms Verif.Props.TaskGraph.rejected_leaves_no_trace
#print axioms Verif.Props.TaskGraph.rejected_iff
#print axioms Verif.Props.TaskGraph.accepted_edges
#print axioms Verif.Props.TaskGraph.graph_acyclic
#print axioms Verif.Props.TaskGraph.keys_identify_tasks
#print axioms Verif.Props.GraphTheory.closure_is_reachability
#print axioms Verif.Props.GraphTheory.closure_multiplicity
#print axioms Verif.Props.GraphTheory.descendants_at_distance_correct
#print axioms Verif.Props.GraphTheory.priority_is_longest_chain
#print axioms Verif.Props.GraphTheory.priority_increases
#print axioms Verif.Props.GraphTheory.priority_order_independent
#print axioms Verif.Props.GraphTheory.blevel_is_longest_chain
#print axioms Verif.Props.Selection.target_only
#print axioms Verif.Props.Selection.unknown_target
#print axioms Verif.Props.Selection.selection_exact
#print axioms Verif.Props.Selection.legal_choices_exist
#print axioms Verif.Props.Selection.backrefs_exact
#print axioms Verif.Props.Selection.backrefs_once_per_session
#print axioms Verif.Props.Log.reopen_reads_file
#print axioms Verif.Props.Log.success_iff_last_entry
#print axioms Verif.Props.Log.reopen_restores
#print axioms Verif.Props.Log.reopen_prefix
#print axioms Verif.Props.Log.workflow_key_stable
#print axioms Verif.Props.Log.workflow_key_kept
#print axioms Verif.Props.Log.reopen_iff
#print axioms Verif.Props.Log.success_directory_partial
#print axioms Verif.Props.Log.success_directory_violated
#print axioms Verif.Props.Log.success_directory_panics
#print axioms Verif.Props.Snapshot.current_exact
#print axioms Verif.Props.Snapshot.nothing_lost
#print axioms Verif.Props.Snapshot.outdated_disjoint
#print axioms Verif.Props.Snapshot.reused_result_is_current
#print axioms Verif.Props.Snapshot.panics_iff_duplicate_backref
#print axioms Verif.Props.Snapshot.written_log_never_panics
#print axioms Verif.Props.Rate.rate_window
#print axioms Verif.Props.Rate.rate_no_initial_burst
#print axioms Verif.Props.Rate.rate_per_seconds
#print axioms Verif.Props.Rate.reset_is_fresh
#print axioms Verif.Props.Rate.retry_granted
#print axioms Verif.Props.Rate.wait_at_most_one_interval
#print axioms Verif.Props.Rate.unlimited
#print axioms Verif.Props.Rate.rate_readback
#print axioms Verif.Props.Rate.rate_readback_ge
#print axioms Verif.Props.Rate.rate_readback_violated
#print axioms Verif.Props.Rate.launch_rate_violated
#print axioms Verif.Props.Rate.launch_rate_partial
#print axioms Verif.Props.Rate.launch_rate_window
#print axioms Verif.Props.Rate.accounting
#print axioms Verif.Props.Selection.empty_key_skipped_violated
#print axioms Verif.Props.Selection.empty_key_deduplicated_violated
#print axioms Verif.Props.Tracker.dependencies_first
#print axioms Verif.Props.Tracker.dependencies_first_transitive
#print axioms Verif.Props.Tracker.ghosts_are_observations
#print axioms Verif.Props.Tracker.obtained_once
#print axioms Verif.Props.Tracker.affinity_respected
#print axioms Verif.Props.Tracker.runner_type_checked
#print axioms Verif.Props.Tracker.highest_priority_first
#print axioms Verif.Props.Tracker.failure_stops_downstream
#print axioms Verif.Props.Tracker.nothing_forgotten
#print axioms Verif.Props.Tracker.all_succeed
#print axioms Verif.Props.Tracker.order_topological
#print axioms Verif.Props.Tracker.failure_count
#print axioms Verif.Props.Tracker.failure_count_drained
#print axioms Verif.Props.Tracker.queue_counters
#print axioms Verif.Props.Tracker.queue_entry_exists
#print axioms Verif.Props.Tracker.ready_zero_after_soft_shutdown_partial
#print axioms Verif.Props.Tracker.ready_after_soft_shutdown_violated
#print axioms Verif.Props.Tracker.unready_exact
#print axioms Verif.Props.Tracker.no_panic
#print axioms Verif.Props.Tracker.diamond_good
#print axioms Verif.Props.Tracker.progress
#print axioms Verif.Props.Tracker.pop_possible
#print axioms Verif.Props.Tracker.empty_affinity_hangs
#print axioms Verif.Props.Tracker.work_bounded
#print axioms Verif.Props.Tracker.soft_shutdown_dispatches_nothing
#print axioms Verif.Props.Tracker.trigger_is_soft
#print axioms Verif.Props.Tracker.serving_waits_for_started_partial
#print axioms Verif.Props.Tracker.soft_shutdown_waits_violated
#print axioms Verif.Props.Tracker.idle_soft_shutdown_hangs
#print axioms Verif.Props.Tracker.idle_soft_reachable
#print axioms Verif.Props.Tracker.soft_shutdown_iff_quick_failures
#print axioms Verif.Props.Tracker.unlimited_failures
#print axioms Verif.Props.Tracker.limit_as_given
#print axioms Verif.Props.Tracker.limit_fits
#print axioms Verif.Props.Tracker.quick_failures_le
#print axioms Verif.Props.Tracker.stop_after_failures_violated
#print axioms Verif.Props.Tracker.drained_log_closed
#print axioms Verif.Props.Tracker.listed_is_logged_partial
#print axioms Verif.Props.Tracker.logged_is_listed_violated
#print axioms Verif.Props.Tracker.started_after_dependencies
#print axioms Verif.Props.Tracker.ready_after_dependencies_violated
#print axioms Verif.Props.Log.reopen_panic
#print axioms Verif.Props.Log.write_iff
#print axioms Verif.Props.World.log_always_opens
#print axioms Verif.Props.World.open_succeeds
#print axioms Verif.Props.World.history_no_panic
#print axioms Verif.Props.World.dependencies_succeeded_partial
#print axioms Verif.Props.World.dependencies_succeeded_violated
#print axioms Verif.Props.World.reused_failure_violated
#print axioms Verif.Props.Rerun.dependencies_settled
#print axioms Verif.Props.World.success_never_rerun
#print axioms Verif.Props.World.success_not_obtained
#print axioms Verif.Props.World.runcounts_increase_partial
#print axioms Verif.Props.World.runcounts_increase_violated
#print axioms Verif.Props.Rerun.runcounts_never_decrease
#print axioms Verif.Props.Rerun.runcount_at_most_attempts
#print axioms Verif.Props.Rerun.attempts_numbered
#print axioms Verif.Props.Rerun.logfile_runcount_counts
#print axioms Verif.Props.Rerun.runcount_shared_violated
#print axioms Verif.Props.World.returned_is_durable_partial
#print axioms Verif.Props.World.returned_is_durable_violated
#print axioms Verif.Props.Token.cancels_cover
#print axioms Verif.Props.Token.cancel_atomic
#print axioms Verif.Props.Token.cancellation_grows_partial
#print axioms Verif.Props.Token.cancellation_grows_violated
#print axioms Verif.Props.Token.value_was_requested
#print axioms Verif.Props.Token.cancelled_future_returns
#print axioms Verif.Props.Token.future_returns_only_if_covered
#print axioms Verif.Props.AsyncFlag.flag_no_lost_wakeup
#print axioms Verif.Props.AsyncFlag.flag_shows_last
#print axioms Verif.Props.AsyncFlag.flag_wait_means_set
#print axioms Verif.Props.AsyncFlag.counter_no_lost_wakeup
#print axioms Verif.Props.AsyncFlag.counter_wait_exceeds
#print axioms Verif.Props.AsyncFlag.counter_counts
#print axioms Verif.Props.AsyncFlag.sleeper_notified_or_pending
#print axioms Verif.Props.Status.early_answer
#print axioms Verif.Props.Status.not_before_timemin
#print axioms Verif.Props.Status.answer_covers_etag
#print axioms Verif.Props.Status.nothing_missed
#print axioms Verif.Props.Status.repoll_answered
#print axioms Verif.Props.Status.one_larger_needs_two
#print axioms Verif.Props.Status.one_larger_violated
#print axioms Verif.Props.Status.totals_are_batches
#print axioms Verif.Props.Ring.mean_eq
#print axioms Verif.Props.Ring.mean_between
#print axioms Verif.Props.Ring.mean_forgets
#print axioms Verif.Props.Ring.new_100
#print axioms Verif.Props.Ring.new_iff
#print axioms Verif.Props.TimeWheel.silent_fires_at_255
#print axioms Verif.Props.TimeWheel.pinging_never_fires
#print axioms Verif.Props.TimeWheel.timeout_in_ticks
#print axioms Verif.Props.TimeWheel.wheel_refines
#print axioms Verif.Props.TimeWheel.fires_exactly
#print axioms Verif.Props.TimeWheel.ticks_for_delay
#print axioms Verif.Props.TimeWheel.wheel_panics_iff
#print axioms Verif.Props.TimeWheel.cancelled_never_fires
#print axioms Verif.Props.TimeWheel.cancelled_id_not_reused
#print axioms Verif.Props.TimeWheel.cancel_after_fire_violated
#print axioms Verif.Props.World.result_agrees_with_log
#print axioms Verif.Props.World.nothing_to_run
#print axioms Verif.Props.World.nothing_runs_twice_in_session
#print axioms Verif.Props.Tracker.entries_have_origin
#print axioms Verif.Props.Tracker.started_entry_violated
#print axioms Verif.Props.Tracker.reports_acknowledged
#print axioms Verif.Props.Tracker.over_is_cancelled
#print axioms Verif.Props.Tracker.acknowledged_is_processed
#print axioms Verif.Props.Tracker.counter_counts_batches
#print axioms Verif.Props.Lock.exclusive_partial
#print axioms Verif.Props.Lock.second_opener_refused
#print axioms Verif.Props.Lock.next_opener_succeeds
#print axioms Verif.Props.Lock.one_session_per_lock_file
#print axioms Verif.Props.Lock.exclusive_without_removal
#print axioms Verif.Props.Lock.exclusive_violated
#print axioms Verif.Props.Lock.exclusive_in_drop_violated
#print axioms Verif.Props.Lock.file_only_grows_partial
#print axioms Verif.Props.Lock.file_overwritten_violated
#print axioms Verif.Props.Fd3.success_iff_exit_zero
#print axioms Verif.Props.Fd3.recorded_number
#print axioms Verif.Props.Fd3.recorded_number_ambiguous
#print axioms Verif.Props.Fd3.values_by_line
#print axioms Verif.Props.Fd3.lines_exist
#print axioms Verif.Props.Fd3.values_utf8
#print axioms Verif.Props.Fd3.value_of_key
#print axioms Verif.Props.Fd3.unclosed_quote
#print axioms Verif.Props.Shell.words_of_line
#print axioms Verif.Props.Shell.map_of_line
#print axioms Verif.Props.Fd3.written_words_split
#print axioms Verif.Props.Fd3.laid_words_split
#print axioms Verif.Props.Fd3.values_round_trip_partial
#print axioms Verif.Props.Fd3.newline_value_lost_violated
#print axioms Verif.Props.Display.display_text
#print axioms Verif.Props.Display.pieces_exist
#print axioms Verif.Props.Display.display_clean
#print axioms Verif.Props.Display.display_verbatim
#print axioms Verif.Props.Display.display_panics_iff
#print axioms Verif.Props.Codec.requests_round_trip_partial
#print axioms Verif.Props.Codec.responses_round_trip
#print axioms Verif.Props.Codec.unknown_refused
#print axioms Verif.Props.Codec.long_output_refused_violated
#print axioms Verif.Props.System.repeated_begun_panics_violated
#print axioms Verif.Props.Tracker.second_start_report_panics
#print axioms Verif.Props.System.local_parallelism
#print axioms Verif.Props.System.no_local_without_parallel
#print axioms Verif.Props.System.no_more_loops
#print axioms Verif.Props.System.loop_protocol
#print axioms Verif.Props.System.loop_types
#print axioms Verif.Props.System.killed_only_if_hard
#print axioms Verif.Props.System.cancelled_recently_started
#print axioms Verif.Props.System.not_cancelled_without_failures
#print axioms Verif.Props.System.preamble_called_twice_violated
#print axioms Verif.Props.System.postamble_once
#print axioms Verif.Props.System.unauthorized_changes_nothing
#print axioms Verif.Props.System.reported_at_most_once
#print axioms Verif.Props.System.responsible_or_reported
#print axioms Verif.Props.System.connections_distinct
#print axioms Verif.Props.System.end_takes_connection
#print axioms Verif.Props.System.foreign_end_abandons_violated
#print axioms Verif.Props.System.foreign_end_hangs_violated
#print axioms Verif.Props.System.abandoned_unreported
#print axioms Verif.Props.System.abandoned_hangs
#print axioms Verif.Props.System.abandoned_started_hangs
#print axioms Verif.Props.System.marked_job_gets_no_task_partial
#print axioms Verif.Props.System.mark_reply
#print axioms Verif.Props.System.marked_start_refused
#print axioms Verif.Props.System.marked_waiting_start_violated
#print axioms Verif.Props.System.marked_next_task_violated
#print axioms Verif.Props.System.reaper_dies_violated
#print axioms Verif.Props.System.dead_reaper_never_reports
#print axioms Verif.Props.System.loop_panic_abandons_violated
#print axioms Verif.Props.System.loop_panics_iff
#print axioms Verif.Props.System.fd3_input_hangs_violated
#print axioms Verif.Props.System.handler_panic_abandons_violated
#print axioms Verif.Props.System.txn_collision_abandons_violated
#print axioms Verif.Props.System.txn_collision_wrong_task_violated
#print axioms Verif.Props.System.silent_connection_reaped_partial
#print axioms Verif.Props.System.stalled_end_stops_watching_violated
#print axioms Verif.Props.System.disconnected_only_if_partial
#print axioms Verif.Props.System.pinging_not_disconnected_partial
#print axioms Verif.Props.System.stale_timer_disconnects_violated
#print axioms Verif.Props.System.finish_reports_true
#print axioms Verif.Props.System.next_task_after_processing
#print axioms Verif.Props.System.runners_ended
#print axioms Verif.Props.System.server_stops_only_if_hard
#print axioms Verif.Props.LogBytes.entry_is_one_line
#print axioms Verif.Props.LogBytes.entry_round_trip
#print axioms Verif.Props.LogBytes.file_round_trip
#print axioms Verif.Props.LogBytes.file_injective
#print axioms Verif.Props.LogBytes.cut_somewhere
#print axioms Verif.Props.LogBytes.torn_line_rejected_violated
#print axioms Verif.Props.LogBytes.torn_line_read
#print axioms Verif.Props.LogBytes.lost_newline_opens
#print axioms Verif.Props.LogBytes.glued_line_rejected_violated
#print axioms Verif.Props.LogBytes.reopen_after_crash_iff
#print axioms Verif.Props.LogBytes.read_any_order
#print axioms Verif.Props.LogBytes.read_older
#print axioms Verif.Props.Remote.deadline_reserve
#print axioms Verif.Props.Remote.description_no_panic
#print axioms Verif.Props.Remote.description_true_partial
#print axioms Verif.Props.Remote.description_false_violated
#print axioms Verif.Props.Remote.term_when_first_seen_partial
#print axioms Verif.Props.Remote.kill_only_after_term_partial
#print axioms Verif.Props.Remote.one_term_partial
#print axioms Verif.Props.Remote.kill_if_still_there_partial
#print axioms Verif.Props.Remote.cleanup_returns
#print axioms Verif.Props.Remote.reused_pid_killed_violated
#print axioms Verif.Props.Remote.conversion_diverges_violated
#print axioms Verif.Props.Remote.stuck_forever_violated
#print axioms Verif.Props.Remote.protocol
#print axioms Verif.Props.Remote.end_reported
#print axioms Verif.Props.Remote.failed_start_reported
#print axioms Verif.Props.Remote.bad_task_panics_violated
#print axioms Verif.Props.Remote.no_more_tasks
#print axioms Verif.Props.Remote.asks_for_next
#print axioms Verif.Props.Remote.sigterm_only
#print axioms Verif.Props.Remote.sigterm_storm_violated
#print axioms Verif.Props.Remote.sigterm_after_end_violated
#print axioms Verif.Props.Remote.after_deadline_partial
#print axioms Verif.Props.Remote.black_hole_violated
#print axioms Verif.Props.Remote.gives_up_before_server_partial
#print axioms Verif.Props.Remote.gives_up_after_server_violated
#print axioms Verif.Props.Remote.patient
#print axioms Verif.Props.Remote.exit_leaves_nothing
#print axioms Verif.Props.Remote.panic_leaves_child_violated
#print axioms Verif.Props.Remote.deaf_while_feeding_violated
#print axioms Verif.Props.Cluster.runners_polite
#print axioms Verif.Props.Cluster.server_does_not_panic
#print axioms Verif.Props.Cluster.finish_reports_true
#print axioms Verif.Props.Cluster.start_reports_true
#print axioms Verif.Props.Cluster.at_most_one_process
#print axioms Verif.Props.Cluster.runs_what_it_received
#print axioms Verif.Props.Cluster.process_outlives_execute_violated
#print axioms Verif.Props.Cluster.reported_process_has_ended_partial
#print axioms Verif.Props.Cluster.answers_expected
#print axioms Verif.Props.Deploy.deployment_is_history
#print axioms Verif.Props.Deploy.cluster_in_world
#print axioms Verif.Props.Deploy.dependencies_ended_first_partial
#print axioms Verif.Props.Deploy.dependencies_ended_first_violated
#print axioms Verif.Props.Deploy.success_not_started_partial
#print axioms Verif.Props.Deploy.durable_success_final_partial
#print axioms Verif.Props.Deploy.success_not_started_violated
#print axioms Verif.Props.Deploy.two_processes_at_once_violated
#print axioms Verif.Props.Deploy.logged_exit_true
#print axioms Verif.Props.Deploy.logged_success_true
#print axioms Verif.Props.Deploy.deployment_no_panic
#print axioms Verif.Props.Disk.session_is_history
#print axioms Verif.Props.Disk.flushed_is_read
#print axioms Verif.Props.Disk.success_never_rerun
#print axioms Verif.Props.Disk.bytes_no_panic
#print axioms Verif.Props.Disk.reopens_iff
#print axioms Verif.Props.Disk.opens_if_lines_whole
#print axioms Verif.Props.Disk.refused_forever
#print axioms Verif.Props.Disk.lost_newline_dooms
#print axioms Verif.Props.Disk.lost_newline_violated
#print axioms Verif.Props.Terminate.work_bounded
#print axioms Verif.Props.Terminate.never_stuck
#print axioms Verif.Props.Terminate.can_always_finish
#print axioms Verif.Props.Terminate.execute_returns
#print axioms Verif.Props.Terminate.execute_returns_in_time
#print axioms Verif.Props.Terminate.fair_run_exists
#print axioms Verif.Props.Terminate.everything_done
#print axioms Verif.Props.ChildIo.report_exact
#print axioms Verif.Props.ChildIo.nothing_lost
#print axioms Verif.Props.ChildIo.report_waits
#print axioms Verif.Props.ChildIo.never_reported
#print axioms Verif.Props.ChildIo.background_process_violated
#print axioms Verif.Props.ChildIo.stuck_iff
#print axioms Verif.Props.ChildIo.small_input_never_stuck_partial
#print axioms Verif.Props.ChildIo.large_input_deadlock_violated
#print axioms Verif.Props.ChildIo.reader_never_panics_partial
#print axioms Verif.Props.ChildIo.unread_input_violated
#print axioms Verif.Props.ChildIo.parent_work_bounded
#print axioms Verif.Props.ChildIo.comes_to_end
#print axioms Verif.Props.ChildIo.child_gone
#print axioms Verif.Props.ChildIo.descendants_survive_violated
#print axioms Verif.Props.RateCounter.rate_nonneg
#print axioms Verif.Props.RateCounter.rate_closed_form
#print axioms Verif.Props.RateCounter.rate_up
#print axioms Verif.Props.RateCounter.rate_decays
#print axioms Verif.Props.RateCounter.rate_at_most
#print axioms Verif.Props.RateCounter.rate_at_least
#print axioms Verif.Props.RateCounter.young_rate
#print axioms Verif.Props.Lifecycle.returned_clean
#print axioms Verif.Props.Lifecycle.started_once
#print axioms Verif.Props.Lifecycle.cancelled_only_if
#print axioms Verif.Props.Lifecycle.provisioner_over
#print axioms Verif.Props.Lifecycle.no_server_no_provisioner
#print axioms Verif.Props.Lifecycle.bind_failure_violated
#print axioms Verif.Props.Lifecycle.waits_only_for_requests
#print axioms Verif.Props.Lifecycle.steps_bounded
#print axioms Verif.Props.Lifecycle.returns_in_time
#print axioms Verif.Props.Lifecycle.status_request_delays_violated
#print axioms Verif.Props.Sockets.name_round_trip
#print axioms Verif.Props.Sockets.name_injective
#print axioms Verif.Props.Sockets.name_match
#print axioms Verif.Props.Sockets.reachable_partial
#print axioms Verif.Props.Sockets.pid_reuse_violated
#print axioms Verif.Props.Sockets.two_sessions_violated
#print axioms Verif.Props.Sockets.two_machines_violated
#print axioms Verif.Props.Sockets.removes_only
#print axioms Verif.Props.Sockets.foreign_socket_violated
#print axioms Verif.Props.Sockets.pass
#print axioms Verif.Props.Sockets.pass_partial
#print axioms Verif.Props.Sockets.pass_stops_violated
#print axioms Verif.Props.Progress.work_bounded
#print axioms Verif.Props.Progress.waits_bounded
#print axioms Verif.Props.Progress.never_stuck
#print axioms Verif.Props.Progress.at_rest
#print axioms Verif.Props.Fairly.execute_returns
#print axioms Verif.Props.Fairly.execute_returns_silent
#print axioms Verif.Props.Fairly.everything_done
#print axioms Verif.Props.Print.lines_exact
#print axioms Verif.Props.Print.numbers_increase
#print axioms Verif.Props.Print.numbers_consecutive
#print axioms Verif.Props.Print.failures_named
#print axioms Verif.Props.Print.failures_named_violated
#print axioms Verif.Props.Print.total_bounded
#print axioms Verif.Props.Mirror.file_exact
#print axioms Verif.Props.Mirror.never_stuck
#print axioms Verif.Props.Mirror.succeeds_if_taken
#print axioms Verif.Props.Mirror.no_file_fails
#print axioms Verif.Props.Mirror.console_exact
#print axioms Verif.Props.Mirror.console_complete_partial
#print axioms Verif.Props.Mirror.console_loses_violated
#print axioms Verif.Props.Mirror.console_repeats_violated
#print axioms Verif.Props.Mirror.files_exact
#print axioms Verif.Props.Mirror.on_disk
#print axioms Verif.Props.Mirror.append_only
#print axioms Verif.Props.Mirror.execute_mirrored
#print axioms Verif.Props.Mirror.own_output_violated
#print axioms Verif.Props.Abort.log_always_opens
#print axioms Verif.Props.Abort.success_never_rerun
#print axioms Verif.Props.Abort.nothing_lost
#print axioms Verif.Props.Abort.session_goes_on
#print axioms Verif.Props.Abort.returned_not_again
#print axioms Verif.Props.Abort.success_recorded_violated
#print axioms Verif.Props.Abort.own_backref_violated
#print axioms Verif.Props.LogIo.file_exact
#print axioms Verif.Props.LogIo.succeeds_if_taken
#print axioms Verif.Props.LogIo.memory_first
#print axioms Verif.Props.LogIo.ends_like_kill
#print axioms Verif.Props.LogIo.goes_on_violated
#print axioms Verif.Props.LogIo.one_refused_write_violated
#print axioms Verif.Props.Roots.add_panics_iff
#print axioms Verif.Props.Roots.add_no_panic_partial
#print axioms Verif.Props.Roots.poisoned
#print axioms Verif.Props.Roots.no_such_root_violated
#print axioms Verif.Props.Roots.add_again_violated
#print axioms Verif.Props.Lifetime.return_is_safe
#print axioms Verif.Props.Lifetime.execute_is_over
#print axioms Verif.Props.Lifetime.use_is_noted
#print axioms Verif.Props.Lifetime.dangling_only_if
#print axioms Verif.Props.Lifetime.dangling_loop_violated
#print axioms Verif.Props.Lifetime.dangling_request_violated
#print axioms Verif.Props.Lifetime.dangling_violated
#print axioms Verif.Props.Copy.copy_exact
#print axioms Verif.Props.Copy.merge
#print axioms Verif.Props.Copy.write_to_itself
#print axioms Verif.Props.Copy.merge_violated
#print axioms Verif.Props.Copy.recover
#print axioms Verif.Props.Copy.compact
#print axioms Verif.Props.Copy.compact_file
#print axioms Verif.Props.Copy.compact_violated
#print axioms Verif.Props.Copy.compact_opened_violated
#print axioms Verif.Props.WheelRace.serialisable
#print axioms Verif.Props.WheelRace.race_fires
#print axioms Verif.Props.WheelRace.race_on_time
#print axioms Verif.Props.WheelRace.race_cancelled
#print axioms Verif.Props.WheelRace.zero_delay_early
#print axioms Verif.Props.WheelRace.stalled_insert_late
#print axioms Verif.Props.WheelRace.not_linearizable
#print axioms Verif.Props.Watcher.messages_true
#print axioms Verif.Props.Watcher.no_false_alarm
#print axioms Verif.Props.Watcher.nothing_missed
#print axioms Verif.Props.Watcher.before_watch_missed
#print axioms Verif.Props.Watcher.early_message_violated
#print axioms Verif.Props.Watcher.split_character_violated
#print axioms Verif.Props.Expand.message_expanded
#print axioms Verif.Props.Expand.logfile_expanded
#print axioms Verif.Props.Expand.double_percent_violated
#print axioms Verif.Props.Expand.value_with_percent_violated
#print axioms Verif.Props.Expand.array_ids_distinct
#print axioms Verif.Props.Expand.ids_outside_arrays_violated
#print axioms Verif.Props.Expand.one_marked_all_refused
#print axioms Verif.Props.Family.run_of_system
#print axioms Verif.Props.Family.report_is_of_process
#print axioms Verif.Props.Family.logged_end_true
#print axioms Verif.Props.Family.work_bounded
#print axioms Verif.Props.Family.stuck_only_by_input
#print axioms Verif.Props.Family.execute_returns
#print axioms Verif.Props.Family.fair_run_exists
#print axioms Verif.Props.Family.everything_done
#print axioms Verif.Props.Family.one_task_blocks_execute_violated
#print axioms Verif.Props.Admin.carried_out
#print axioms Verif.Props.Admin.soft_only_by_admin
#print axioms Verif.Props.Admin.settings_shown
#print axioms Verif.Props.Admin.others_answered
#print axioms Verif.Props.Admin.shutdown_iff
#print axioms Verif.Props.Admin.shutdown_works_partial
#print axioms Verif.Props.Admin.shutdown_ignored_violated
#print axioms Verif.Props.Outcome.outcome_determined
#print axioms Verif.Props.Outcome.log_determined
#print axioms Verif.Props.Outcome.schedule_irrelevant
#print axioms Verif.Props.Outcome.schedule_matters_violated
#print axioms Verif.Props.Complete.zero_failures_partial
#print axioms Verif.Props.Complete.all_done_means_zero
#print axioms Verif.Props.Complete.interrupted_violated
#print axioms Verif.Props.Complete.shut_down_violated
#print axioms Verif.Props.Complete.not_rerun_violated
#print axioms Verif.Props.Complete.second_execute_violated
#print axioms Verif.Props.Complete.entries_reported
#print axioms Verif.Props.Complete.result_unique
#print axioms Verif.Props.Complete.history_irrelevant
#print axioms Verif.Props.Program.program_has_one_result
#print axioms Verif.Props.Program.report_is_result
#print axioms Verif.Props.Program.log_computed
#print axioms Verif.Props.Program.execute_computes
#print axioms Verif.Props.Program.several_processes_violated
#print axioms Verif.Props.Anywhere.log_determined_anywhere_partial
#print axioms Verif.Props.Anywhere.placement_irrelevant_partial
#print axioms Verif.Props.Anywhere.cut_off_runner_violated
#print axioms Verif.Props.LogRead.read_says
#print axioms Verif.Props.LogRead.opened_says
#print axioms Verif.Props.LogRead.snapshot_says
#print axioms Verif.Props.LogRead.accepted_iff
#print axioms Verif.Props.LogRead.line_accepted_iff
#print axioms Verif.Props.Codec.cut_messages_refused
#print axioms Verif.Props.Codec.compressed_iff
#print axioms Verif.Props.Resume.resumption_partial
#print axioms Verif.Props.Resume.as_if_uninterrupted_partial
#print axioms Verif.Props.Resume.two_executes_violated
#print axioms Verif.Props.Workflow.redeployment_partial
#print axioms Verif.Props.Workflow.as_if_in_one_place_partial
#print axioms Verif.Props.CtrlC.cancelled_returns
#print axioms Verif.Props.CtrlC.over_returns
#print axioms Verif.Props.CtrlC.always_a_way_out
#print axioms Verif.Props.CtrlC.ctrl_c_gets_out
#print axioms Verif.Props.Hooks.recorded_were_granted
#print axioms Verif.Props.Hooks.no_success_against_veto
#print axioms Verif.Props.Hooks.only_capsules
#print axioms Verif.Props.Hooks.consulted
#print axioms Verif.Props.Hooks.told_rightly
#print axioms Verif.Props.Hooks.objection_ends_execute
#print axioms Verif.Props.Hooks.like_panics
#print axioms Verif.Props.Hooks.only_the_task_violated
#print axioms Verif.Props.Names.names_distinct
#print axioms Verif.Props.Names.paths_distinct
#print axioms Verif.Props.Names.absolute_keys_violated
#print axioms Verif.Props.Names.failure_names
#print axioms Verif.Props.Names.shown_iff
#print axioms Verif.Props.Names.misleading_violated
#print axioms Verif.Props.Grid.run_of_parts
#print axioms Verif.Props.Grid.logged_end_true
#print axioms Verif.Props.Grid.log_computed_anywhere
#print axioms Verif.Props.Grid.placement_of_programs_irrelevant
#print axioms Verif.Props.Grid.one_task_blocks_runner_violated
#print axioms Verif.Props.GridPanic.broken_input_panics
#print axioms Verif.Props.Signals.always_own_group
#print axioms Verif.Props.Signals.sent_to_own_group
#print axioms Verif.Props.Signals.one_signal_each
#print axioms Verif.Props.SignalsSession.only_own_session
#print axioms Verif.Props.SignalsSession.no_handler_no_call
#print axioms Verif.Props.Signals.only_descendants_partial
#print axioms Verif.Props.Signals.descendants_ended_partial
#print axioms Verif.Props.Signals.survives_own_signal_partial
#print axioms Verif.Props.Signals.pipeline_violated
#print axioms Verif.Props.Signals.other_execute_violated
#print axioms Verif.Props.Signals.no_longer_ends_violated
#print axioms Verif.Props.Signals.own_handler_called_violated
#print axioms Verif.Props.Signals.handler_called_iff
#print axioms Verif.Props.Signals.ends_itself_violated
#print axioms Verif.Props.Signals.ctrl_c_arrives_partial
#print axioms Verif.Props.Signals.ctrl_c_lost_violated
#print axioms Verif.Props.Signals.console_lost_violated
#print axioms Verif.Props.Runners.execute_returns_runners
#print axioms Verif.Props.Runners.connections_end_or_silent
#print axioms Verif.Props.Runners.report_accepted
#print axioms Verif.Props.Runners.no_connection_lost
#print axioms Verif.Props.Runners.everything_done_runners
#print axioms Verif.Props.Runners.connections_end
#print axioms Verif.Props.JsonGrammar.read_iff_json
#print axioms Verif.Props.JsonGrammar.one_meaning
#print axioms Verif.Props.JsonGrammar.written_is_json
#print axioms Verif.Props.JsonGrammar.entry_iff_json
#print axioms Verif.Props.JsonGrammar.not_json_refused
#print axioms Verif.Props.Abort.goes_on_as_if_returned
#print axioms Verif.Props.Abort.failure_never_told_violated
#print axioms Verif.Props.System.gone_means
#print axioms Verif.Props.System.not_sent_away_from_work
#print axioms Verif.Props.System.notFound_means
#print axioms Verif.Props.System.tooMany_means
#print axioms Verif.Props.Tracker.counters_divide
#print axioms Verif.Props.Tracker.queue_counters_fit
#print axioms Verif.Props.GraphTheory.priority_fits
#print axioms Verif.Props.Selection.priorities_fit
#print axioms Verif.Props.Greedy.no_idle_slots
#print axioms Verif.Props.Greedy.nobody_waits_in_vain
#print axioms Verif.Props.Greedy.time_at_most
#print axioms Verif.Props.Greedy.time_at_least
#print axioms Verif.Props.Greedy.at_most_twice
#print axioms Verif.Props.Hold.held_for_30s
#print axioms Verif.Props.Hold.answered_in_time
#print axioms Verif.Props.Hold.client_does_not_give_up
#print axioms Verif.Props.Hold.timeout_can_happen
#print axioms Verif.Props.Hold.nothing_means_nothing
#print axioms Verif.Props.Hold.nothing_else_waits
#print axioms Verif.Props.Construct.succeeds_iff
#print axioms Verif.Props.Construct.what_it_makes
#print axioms Verif.Props.Construct.failed_leaves_log
#print axioms Verif.Props.Construct.retry
#print axioms Verif.Props.Construct.one_per_directory
#print axioms Verif.Props.Construct.second_check_is_dead
#print axioms Verif.Props.Construct.mirror_and_poison
#print axioms Verif.Props.Construct.poisoned_forever
#print axioms Verif.Props.Construct.print_panics_iff
#print axioms Verif.Props.MirrorDir.mirror_is_last
#print axioms Verif.Props.MirrorDir.mirror_none_iff
#print axioms Verif.Props.MirrorDir.other_graph_violated
#print axioms Verif.Props.Construct.others_untouched
#print axioms Verif.Props.Construct.reopen
#print axioms Verif.Props.Construct.no_panic
#print axioms Verif.Props.Piped.exact
#print axioms Verif.Props.Piped.succeeds_if_taken
#print axioms Verif.Props.Piped.flushed
#print axioms Verif.Props.Piped.console_exact
#print axioms Verif.Props.Piped.console_loses_violated
#print axioms Verif.Props.Lossy.shown_iff
#print axioms Verif.Props.Lossy.exact_iff
#print axioms Verif.Props.Lossy.unmarked_exact
#print axioms Verif.Props.Lossy.ascii_kept
#print axioms Verif.Props.Lossy.at_most_three
#print axioms Verif.Props.Lossy.local_exact
#print axioms Verif.Props.Lossy.remote_as_local
#print axioms Verif.Props.Lossy.slurm_text
#print axioms Verif.Props.Lossy.own_line_violated
#print axioms Verif.Props.Lossy.from_processes
#print axioms Verif.Props.Numbers.numbers_rise_partial
#print axioms Verif.Props.Numbers.numbers_continue
#print axioms Verif.Props.Numbers.total_exact
#print axioms Verif.Props.Numbers.repeated_violated
#print axioms Verif.Props.Numbers.total_violated
#print axioms Verif.Props.Limited.launches_window
#print axioms Verif.Props.Limited.launches_from_start
#print axioms Verif.Props.Limited.launches_after_change
#print axioms Verif.Props.Limited.local_launches
#print axioms Verif.Props.Limited.next_permit
#print axioms Verif.Props.Limited.unlimited
#print axioms Verif.Props.Limited.nothing_else_waits
#print axioms Verif.Props.Limited.is_an_execute
#print axioms Verif.Props.Limited.burst_violated
#print axioms Verif.Props.Average.average_is_mean
#print axioms Verif.Props.Average.average_le_elapsed
#print axioms Verif.Props.Average.only_successes
#print axioms Verif.Props.Average.is_an_execute
#print axioms Verif.Props.Launches.rate_is
#print axioms Verif.Props.Launches.launches_are_tasks
#print axioms Verif.Props.Launches.young_rate
#print axioms Verif.Props.Launches.zero_iff
#print axioms Verif.Props.Launches.is_an_execute
#print axioms Verif.Props.Metered.shown_rate
#print axioms Verif.Props.Metered.shown_rate_local
#print axioms Verif.Props.Metered.shown_rate_any
#print axioms Verif.Props.Metered.shown_rate_local_any
#print axioms Verif.Props.Metered.high_rate_violated
