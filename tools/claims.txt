C01 | proved | 
  IPP.Map.block_partitions_concat
C02 | proved | 
  IPP.Map.block_partition_size IPP.Map.block_partition_balanced IPP.Map.block_partition_rejects
C03 | proved | 
  IPP.Map.rr_partition_contents IPP.Map.rr_round_trip
C04 | proved | 
  IPP.Map.parMap_eq_map IPP.Map.parMap_single IPP.Map.pyMap_spec_length IPP.Map.pyMap_spec_get IPP.Map.pyMap_single
C05 | proved | 
  IPP.Map.parMap_rejects IPP.Map.call_unequal_rejected
C06 | proved | 
  IPP.Map.chunks_bounded IPP.Map.mapResult_len
C07 | proved | 
  IPP.Map.scatter_gather
C08 | partial | Iterating an ordered result equals get() for block-distributed list chunks; for round-robin results and tuple chunks the code violates the claim (proved on witnesses).
  IPP.Async.get_block IPP.Async.ordered_iter_eq_get_partial IPP.Async.ordered_iter_rr_violated IPP.Async.ordered_iter_tuple_violated IPP.Async.get_rr_perm IPP.Async.unordered_iter_perm IPP.Async.unordered_iter_perm_rr IPP.Async.ordered_iter_exceptions IPP.Async.ordered_iter_error_partial
C09 | proved | 
  IPP.Async.multi_future_done_iff IPP.Async.multi_future_result IPP.Async.multi_future_failure
C10 | partial | Exact for plain remote errors; nested/remote composites and aborted tasks violate the claim (proved on witnesses).
  IPP.Async.collect_exceptions_partial IPP.Async.collect_composite_violated IPP.Async.collect_remote_composite_violated IPP.Async.collect_aborted_violated IPP.Async.aborted_map_never_resolves
C11 | partial | progress = count of finished tasks, monotone; "complete iff ready" needs at least one task (an empty multi-task result is ready only later): witness proved.
  IPP.Async.progress_eq IPP.Async.progress_monotone IPP.Async.progress_complete_iff_partial IPP.Async.progress_empty_task_violated IPP.Async.get_dict_spec
C13 | proved | 
  IPP.check_iff IPP.check_none_iff IPP.mk_rejects IPP.dict_round_trip IPP.of_dict_defaults
C14 | proved | 
  IPP.unreachable_exact IPP.check_permanent IPP.unreachable_permanent IPP.not_check_and_unreachable
C15 | proved | For engines that only answer tasks sent to them (Faithful) and uuid identities (Fresh).
  IPP.Sched.hwm_never_exceeded IPP.Sched.hwm_now
C16 | partial | Registered, never tried before, follow dependency met: proved for all histories (placement_partial). The part about targets: for hwm = 1 or tasks without dependencies, engines answering only tasks assigned to them.
  IPP.Sched.placement_partial IPP.Sched.placement_targets_partial
C17 | proved | 
  IPP.Sched.after_before_send
C18 | proved | 
  IPP.Sched.failure_relayed_after_retries IPP.Sched.too_many_failures_relayed IPP.Sched.success_relayed_at_once IPP.Sched.retried_at_most IPP.Sched.at_most_one_relay
C21 | partial | Soundness for every history: the scheduler answers a task itself only for a documented reason. An invalid dependency is answered at once when no earlier task depends on the same ids. Completeness, with dependencies, at hwm = 1: when an engine registers or a registered engine answers, and an engine is idle afterwards, every waiting task that by then can never run (dependency hopeless, places to follow differ, targets gone or refused) is answered; a task that arrives with an invalid or hopeless dependency is answered at once, and one that arrives or is given back and can never run is answered if an engine is idle. Without these conditions 'never left waiting' and 'transitively' are false of the code (six violations proved on witnesses).
  IPP.Sched.fail_justified IPP.Sched.doomed_task_answered_partial IPP.Sched.doomed_subject_answered_partial IPP.Sched.hopeless_arrival_answered_partial IPP.Sched.invalid_arrival_answered_partial IPP.Sched.Violations.doomed_by_decision_waits IPP.Sched.invalid_answered_partial IPP.Sched.Violations.invalid_dependency_lost IPP.Sched.Violations.impossible_not_transitive IPP.Sched.Violations.blacklisted_waits IPP.Sched.Violations.follow_failed_lost IPP.Sched.Violations.gone_target_waits
C22 | proved | The floating point arithmetic of the `weighted` scheme is a parameter (`Arith`), with exact rationals as an instance.
  IPP.Sched.all_schemes_valid IPP.Sched.weighted_valid IPP.Sched.loads_exact IPP.Sched.leastload_minimal IPP.Sched.schemes_valid IPP.Sched.leastload_picks_least IPP.Sched.lru_picks_oldest
C26 | proved | 
  IPP.Heart.stopped_iff IPP.Heart.pong_notes IPP.Heart.answering_never_stopped IPP.Heart.silent_heart_dies
C27 | proved | 
  IPP.Heart.new_iff IPP.Heart.notes_alternate
C46 | proved | 
  IPP.Heart.eng_gives_up_iff IPP.Heart.misses_after_ping IPP.Heart.eng_disabled
C24 | proved | 
  IPP.Broadcast.broadcast_exactly_once IPP.Broadcast.broadcast_count
C25 | partial | One complete coalesced reply for every schedule: proved. The pairing of frames with engine metadata holds for the default depth 1 and is violated at depth 2; the reply's status is that of the last arriver, so errors can be hidden (witnesses proved).
  IPP.Broadcast.coalesced_complete IPP.Broadcast.treeOrder_perm IPP.Broadcast.coalesced_arrives IPP.Broadcast.coalesced_pairing_partial IPP.Broadcast.coalesced_pairing_violated IPP.Broadcast.coalesced_error_hidden_violated
C33 | proved | Records stored under their own id (as the hub does).
  IPP.DB.get_like_map IPP.DB.get_culled IPP.DB.add_raises_iff IPP.DB.update_raises_iff IPP.DB.drop_raises_iff IPP.DB.no_eviction_below_limits IPP.DB.readd_after_eviction_violated
C34 | partial | Exact for queries without $gt whose plain conditions agree with the last condition; $gt and several conditions with a plain one are answered wrongly by the code (witnesses proved). $all and $glob not modelled.
  IPP.DB.find_exact_partial IPP.DB.find_total IPP.DB.find_keys IPP.DB.gt_violated IPP.DB.two_plain_violated IPP.DB.plain_not_last_violated IPP.DB.null_compare_raises
C35 | partial | Accounting, size limit, termination and oldest-first proved; the record limit needs int(cull_fraction*record_limit) >= 1 (else violated, witness) and submission times on all records (else a call spins for ever, witness).
  IPP.DB.bytes_exact IPP.DB.size_limit_kept IPP.DB.record_limit_kept_partial IPP.DB.calls_return IPP.DB.evicts_oldest IPP.DB.record_limit_violated IPP.DB.unstamped_hangs_violated
C36 | partial | Both agree with the meaning of queries on a fragment; outside it they disagree (witnesses proved).
  IPP.DB.Sql.sqlite_find_exact_partial IPP.DB.Sql.find_agree_partial IPP.DB.Sql.render_wellFormed IPP.DB.Sql.reads_back IPP.DB.Sql.drop_matching_raises IPP.DB.Sql.drop_matching_exact_partial IPP.DB.Sql.sqlite_like_map IPP.DB.Sql.raises_iff IPP.DB.Sql.empty_query_violated IPP.DB.Sql.ne_null_violated IPP.DB.Sql.empty_in_violated IPP.DB.Sql.gt_disagree_violated IPP.DB.Sql.update_unknown_violated
C28 | proved | For one controller run; restart is C29.
  IPP.Hub.ids_unique IPP.Hub.uuids_unique IPP.Hub.auto_id_fresh IPP.Hub.requested_id_granted IPP.Hub.taken_id_replaced IPP.Hub.register_refused_iff IPP.Hub.notifications_describe_engines IPP.Hub.ident_lookup IPP.Hub.stopped_heart_unregisters IPP.Hub.stalled_can_retry
C29 | partial | A restart restores exactly the registered engines and later ids are fresh; a crash during the restoring can lose engines and the next id (witnesses proved).
  IPP.Hub.restart_restores IPP.Hub.restarts_restore_partial IPP.Hub.next_id_lost_violated IPP.Hub.crash_while_loading_violated
C30 | partial | Exclusive, permanent and exact for ordered histories, queue status exact for well-behaved ones; violated otherwise (witnesses proved).
  IPP.Hub.pending_completed_disjoint_partial IPP.Hub.completed_stays_partial IPP.Hub.known_iff_requested IPP.Hub.queue_status_exact_partial IPP.Hub.unassigned_exact IPP.Hub.unanswered_pending IPP.Hub.task_pending IPP.Hub.result_before_request_violated IPP.Hub.pending_and_completed_violated IPP.Hub.stranded_queue_violated IPP.Hub.reused_id_violated IPP.Hub.retried_task_listed_twice_violated
C31 | partial | Exact for ids the hub knows; ids found only in the database are classified by a stale variable, purged ids are inconsistent (witnesses proved).
  IPP.Hub.get_results_exact_partial IPP.Hub.get_status_exact_partial IPP.Hub.get_results_stored_partial IPP.Hub.get_results_unfinished_partial IPP.Hub.get_results_rejects IPP.Hub.fetched_result_genuine IPP.Hub.fetch_known_partial IPP.Hub.stale_record_violated IPP.Hub.stale_record_completed_violated IPP.Hub.purged_status_violated IPP.Hub.request_recorded
C32 | partial | Never a pending record; exact for ids and for 'all'; by engine only with SQLite and a non-empty id list (else violated, proved for all states).
  IPP.Hub.purge_never_pending IPP.Hub.purge_ids_accepted_iff IPP.Hub.purge_ids_exact IPP.Hub.purge_all_exact IPP.Hub.purge_unknown_engine IPP.Hub.purge_engines_exact_partial IPP.Hub.purge_engines_dict_violated IPP.Hub.purge_engines_only_sql_violated IPP.DB.dict_drop_ids IPP.DB.dict_drop_completed IPP.DB.dict_drop_engine_nothing IPP.DB.Sql.sql_drop_ids IPP.DB.Sql.sql_drop_completed IPP.DB.Sql.sql_drop_engine
C49 | partial | Exact for histories that never bind a key or a value twice; otherwise stale reverse entries remain (witnesses proved).
  IPP.Util.lookup_exact_partial IPP.Util.lookup_involutive_partial IPP.Util.pop_removes_both_partial IPP.Util.set_refused_iff IPP.Util.rebinding_violated IPP.Util.same_value_violated IPP.Util.pop_value_violated
C40 | partial | Proved for every interleaving of whole calls. A broadcast without coalescing leaves its own id outstanding for ever, and late replies refill the cache (violations proved).
  IPP.Client.outstanding_iff IPP.Client.outcome_final IPP.Client.first_reply_is_outcome IPP.Client.outcome_cause IPP.Client.wait_returns_iff IPP.Client.broadcast_stays_outstanding_violated IPP.Client.broadcast_wait_never_returns_violated IPP.Client.late_reply_recached_violated IPP.Client.second_reply_overwrites_cache_violated IPP.Client.history_exact
C41 | partial | For requests sent while the client knew the engine. A request sent after the removal, or during it, never gets an outcome (violations proved).
  IPP.Client.stranded_resolved_partial IPP.Client.others_untouched IPP.Client.unknown_unregister IPP.Client.sent_after_death_violated IPP.Client.death_during_send_violated
C42 | proved | 
  IPP.Client.ids_exact IPP.Client.targets_registered IPP.Client.targets_no_engines IPP.Client.targets_all IPP.Client.targets_int IPP.Client.targets_negative IPP.Client.targets_list IPP.Client.targets_slice IPP.Client.mem_pyRange IPP.Client.targets_slice_between IPP.Client.targets_slice_last IPP.Client.targets_slice_reverse IPP.Client.targets_slice_zero
C43 | partial | By ids and 'all': exact. By targets the code never removes anything, raises TypeError after the first request and does not accept engine 0 (violations proved for all states).
  IPP.Client.purge_ids_exact IPP.Client.purge_all_exact IPP.Client.purge_nothing IPP.Client.purge_engine_zero_violated IPP.Client.purge_targets_violated IPP.Client.purge_targets_type_error_violated
C12 | proved | For every interleaving of the input thread, the cluster and the iterating thread; termination by a decreasing measure and absence of deadlock. Not in the statement: after a raised task error the map can stay recorded as outstanding for ever (violation proved).
  IPP.Imap.window IPP.Imap.yields IPP.Imap.complete IPP.Imap.complete_cancelled IPP.Imap.steps_decrease IPP.Imap.no_deadlock IPP.Imap.map_outstanding_forever_violated
C44 | partial | Restored whenever the temporary values were accepted; when one of several is refused the accepted ones stay set, and a refused dependency is stored (violations proved).
  IPP.View.set_flags_ok_iff IPP.View.set_flags_exact IPP.View.flags_by_name IPP.View.all_flags_settable IPP.View.flags_restored_partial IPP.View.exception_kept IPP.View.no_exception_added IPP.View.entry_failure_leaks_violated IPP.View.refused_dependency_stored_violated
C45 | partial | Exact for every history of requests and aborts with ids; abort() with nothing outstanding aborts everybody's waiting requests (violations proved).
  IPP.Engine.answered_in_order IPP.Engine.aborted_never_runs IPP.Engine.aborted_only_if_asked IPP.Engine.others_run IPP.Engine.all_answered IPP.Engine.abort_with_ids_replies IPP.Engine.abort_replies_only IPP.Engine.abort_nothing_aborts_all_violated IPP.Engine.abort_without_ids_no_reply_violated IPP.Engine.abort_table_grows_violated IPP.Engine.client_abort_exact
C48 | partial | Distinct unless the operating system offers an unused configured port or a deprecated pair option is given (violations proved).
  IPP.Ports.parse_written IPP.Ports.validate_written IPP.Ports.ports_in_order IPP.Ports.deprecated_hb_pair IPP.Ports.ports_at_most_once IPP.Ports.only_configured IPP.Ports.ports_distinct_partial IPP.Ports.ephemeral_collides_violated IPP.Ports.deprecated_pair_violated
C51 | partial | Exact for every call that sends something and is not interleaved with others; a call that sends nothing re-adds the whole client history (violation proved). With several threads: recorded ids were sent, and a call's own ids are recorded if nobody sends between its last two steps; otherwise its id is lost, and ids of other views are recorded (violations proved).
  IPP.View.save_ids_exact_partial IPP.SaveIds.recorded_was_sent IPP.SaveIds.history_grows IPP.SaveIds.own_recorded_partial IPP.View.save_ids_nothing_violated IPP.SaveIds.lost_id_violated IPP.SaveIds.foreign_id_violated
C37 | partial | Every value tree (pickle abstract), every buffer threshold, item thresholds up to 64; sets of byte strings and uncanned values. Violated for item thresholds above 64, sets of partials, dicts with mixed keys (witnesses proved).
  IPP.Ser.frames_large IPP.Ser.data_frame_iff IPP.Ser.roundtrip_partial IPP.Ser.roundtrip_references_partial IPP.Ser.set_roundtrip_partial IPP.Ser.data_serializes IPP.Ser.item_threshold_violated IPP.Ser.set_of_partials_violated IPP.Ser.mixed_keys_violated IPP.Ser.dict_order_violated
C38 | partial | For arguments without references and sets, item thresholds up to 64 (see C37 for what happens otherwise); keyword arguments as a mapping.
  IPP.Ser.apply_roundtrip_partial
C39 | partial | For every value that canning accepts, with references resolved as specified by `seen`; violated for arrays in defaults or closures and for references in keyword-only defaults and nested lists (witnesses proved).
  IPP.Ser.uncan_can_partial IPP.Ser.uncan_can_closed_partial IPP.Ser.array_default_violated IPP.Ser.keyword_default_reference_violated IPP.Ser.nested_reference_violated
C47 | partial | For stop callbacks that do not raise and non-empty engine sets all of whose engines started; in the other cases the claim is false (violations proved).
  IPP.Launcher.callbacks_exactly_once_partial IPP.Launcher.raising_callback_violated IPP.Launcher.set_stops_iff_partial IPP.Launcher.set_callbacks_exactly_once_partial IPP.Launcher.set_exit_code_partial IPP.Launcher.failed_start_never_stops_violated IPP.Launcher.empty_set_never_stops_violated
C52 | partial | Restarting is the same only when every host is configured with a number; a dict's `n` is popped by the first start (violation proved).
  IPP.Launcher.place_first IPP.Launcher.start_slots IPP.Launcher.place_count IPP.Launcher.restart_same_partial IPP.Launcher.restart_forgets_violated
C53 | proved | Every depth.
  IPP.Tree.addresses_exact IPP.Tree.identities_unique IPP.Tree.leaves_cover IPP.Tree.one_parent
C50 | proved | pyzmq's monitored queue and ROUTER sockets are modelled from their documentation.
  IPP.Mux.delivered_exactly IPP.Mux.answers_exactly IPP.Mux.answers_only_own IPP.Mux.hub_sees
C19 | partial | At most one reply / one place: for hwm = 1 (the default) or tasks without dependencies. Nothing lost: for tasks without dependencies, or hwm = 1 and all dependencies that need all of their tasks (or at most one, or any of several if the task has no targets), follow not accepting failures, and tasks refused on arrival mentioning nothing that others wait for. Each restriction is necessary (witnesses proved).
  IPP.Sched.at_most_one_reply_partial IPP.Sched.one_place_partial IPP.Sched.task_not_lost_partial IPP.Sched.Violations.sent_twice IPP.Sched.Violations.executed_twice IPP.Sched.Violations.invalid_dependency_lost IPP.Sched.Violations.follow_failed_lost IPP.Sched.Violations.any_target_lost IPP.Sched.Violations.late_reply_twice
C20 | partial | For hwm = 1 or tasks without dependencies; that a retried task is not lost afterwards: under the same restrictions as in C19.
  IPP.Sched.stranded_handler_scheduled IPP.Sched.no_task_stranded_partial IPP.Sched.stranded_task_resolved_partial IPP.Sched.stranded_dealt_at_once
C54 | proved | 
  IPP.Sched.fuel_suffices
C55 | partial | For lists of different ids; a list that names a task twice is refused although all records exist (violation proved).
  IPP.Hub.resubmit_refused_iff_partial IPP.Hub.resubmit_exact_partial IPP.Hub.resubmit_duplicates_violated
C56 | partial | For histories in which no task has dependencies on other tasks (targets, retries, refusals, deaths and timeouts included), after every event. With dependencies, at hwm = 1: whenever an engine registers or a registered engine answers, no waiting task that can run on an engine idle afterwards is left, and a task that arrives or is given back never waits if it can run on an engine that is idle. After other events it is false of the code (violation proved).
  IPP.Sched.no_engine_idles_partial IPP.Sched.runnable_task_sent_partial IPP.Sched.runnable_subject_sent_partial IPP.Sched.Violations.engine_idles
C23 | partial | For histories of plain tasks (no targets, dependencies, retries or refusals); with targets the queue is put back in reverse order (violation proved).
  IPP.Sched.fifo_partial IPP.Sched.Violations.fifo_violated IPP.Sched.sortByTime_sorted
C57 | partial | Answered when the timer expires: for the histories in which no task is lost (restrictions of C19; a task that is lost cannot be timed out either). Only then, only if waiting, and stale timers: for hwm = 1 or tasks without dependencies.
  IPP.Sched.timeout_answers_partial IPP.Sched.timeout_only_from_timer_partial IPP.Sched.timeout_only_waiting_partial IPP.Sched.stale_timer_harmless_partial
C58 | partial | The wire format: for every list of records, without restriction but that dates are in date fields. With the databases: for the queries of C33/C34 and non-empty key lists; an empty list of keys is treated as no list by DictDB and gives empty dictionaries with SQLite (violations proved for every database).
  IPP.Query.db_query_faithful IPP.Query.db_query_error IPP.Query.db_query_dictdb_partial IPP.Query.db_query_sqlite_partial IPP.Query.empty_keys_dict_violated IPP.Query.empty_keys_sqlite_violated IPP.Query.sqlite_keys_error
C59 | partial | For tasks that are neither purged nor evicted (violations proved for these), with the in-memory database and, for every history without empty error or result contents, with SQLite (sql_*). Rich output is recorded but never part of a fetched result, and records made by output alone are never evicted (violations proved). With SQLite rich output is not recorded at all, and errors and results read back as text (violations proved).
  IPP.Capture.streams_complete IPP.Capture.output_recorded IPP.Capture.last_report_kept_partial IPP.Capture.output_does_not_interfere_partial IPP.Capture.output_leaves_tables IPP.Capture.fetched_streams_complete IPP.Capture.output_only_unbounded_violated IPP.Capture.display_not_fetched_violated IPP.Capture.output_after_purge_violated IPP.Capture.output_after_eviction_violated IPP.Capture.sql_same IPP.Capture.sql_streams_complete IPP.Capture.sql_output_recorded IPP.Capture.sql_last_input_partial IPP.Capture.sql_output_does_not_interfere_partial IPP.Capture.sql_error_as_text_violated IPP.Capture.sql_display_lost_violated
C60 | partial | Proved for requests whose output arrives before they are complete and that are not purged; it is false of retried tasks, of coalescing broadcasts, when the idle message is lost, and when a result is purged before its output has arrived (violations proved; those for lost idle messages and coalescing broadcasts for every history). Collapsing of carriage returns depends on the division into messages (violation proved), but agrees after collapsing once more.
  IPP.Output.output_shown_partial IPP.Output.stdout_shown_partial IPP.Output.stderr_shown_partial IPP.Output.stdout_collapsed_partial IPP.Output.stream_exact IPP.Output.displays_shown_partial IPP.Output.ar_stdout_partial IPP.Output.ar_wait_for_output_partial IPP.Output.wait_for_output_sound IPP.Output.wait_for_output_done_partial IPP.Output.output_frozen IPP.Output.caches_emptied IPP.Cr.sub_cr IPP.Cr.sub_plain IPP.Cr.sub_lines IPP.Output.chunk_boundary_violated IPP.Output.retry_output_violated IPP.Output.late_output_leak_violated IPP.Output.lost_idle_violated IPP.Output.coalescing_output_violated IPP.Output.purge_output_violated IPP.Output.data_shown_partial IPP.Output.error_result_shown_partial IPP.Output.input_shown_partial IPP.Output.completion_drops_result IPP.Output.purge_forgets
C61 | partial | With the in-memory database and with SQLite (sql_*; an empty list of buffers reads as None). The first result stays for tasks of the load-balanced queue; a second reply of a direct queue replaces it (violation proved).
  IPP.Capture.request_recorded IPP.Capture.result_recorded_partial IPP.Capture.destination_recorded IPP.Capture.result_engine_recorded IPP.Capture.second_result_replaces_violated IPP.Capture.sql_request_recorded IPP.Capture.sql_result_recorded_partial IPP.Capture.sql_destination_recorded IPP.Capture.sql_result_engine_recorded
C62 | partial | Provided an explicit engine_set_id is not that of a running set, and (for loading) no process id is used again. A start that fails leaves a component that counts as running: the file then exists although nothing runs, and engines of a partly failed start are not in it (violations proved).
  IPP.Cluster.file_exists_partial IPP.Cluster.file_iff_running_partial IPP.Cluster.file_lists_running_partial IPP.Cluster.load_restores_partial IPP.Cluster.file_loadable IPP.Cluster.stop_removes_set IPP.Cluster.stop_removes_controller IPP.Cluster.running_is_alive IPP.Cluster.notice_counts IPP.Cluster.file_full IPP.Cluster.failed_start_keeps_file_violated IPP.Cluster.reused_pid_violated IPP.Cluster.partial_start_unsaved_violated IPP.Cluster.started_set_runs IPP.Cluster.pending_kept
C63 | partial | For operations on one component that do not overlap; false when a set is stopped during its start, when two restarts overlap, and when an explicit engine_set_id is used twice (violations proved).
  IPP.Cluster.no_process_forgotten_partial IPP.Cluster.stopped_cluster_partial IPP.Cluster.set_size_kept IPP.Cluster.loaded_set_size IPP.Cluster.stopped_is_dead IPP.Cluster.generated_id_new IPP.Cluster.duplicate_id_violated IPP.Cluster.stop_during_start_violated IPP.Cluster.overlapping_restarts_violated
C64 | partial | Names that push uses for itself (`_IP_PUSH_TMP_` and with underscores) cannot be pushed (violation proved); names that are not identifiers (dotted names, expressions) are outside of the model.
  IPP.Namespace.apply_effect IPP.Namespace.apply_clean IPP.Namespace.temps_identifiers IPP.Namespace.apply_reference IPP.Namespace.push_effect_partial IPP.Namespace.push_failure IPP.Namespace.pull_values IPP.Namespace.pull_one IPP.Namespace.pull_missing IPP.Namespace.push_tmp_violated
C65 | partial | Through one queue. Requests through different queues of the same client are not ordered: a clear (control queue) may overtake an earlier push, and so may a pull through a broadcast view (violations proved).
  IPP.Namespace.executed_in_order IPP.Namespace.engine_sequential IPP.Namespace.read_your_writes IPP.Namespace.clear_overtakes_violated IPP.Namespace.other_queue_violated
C66 | partial | For an engine that lives everything is proved; a request under way when the engine dies (even one it has executed) is never answered, so a blocking clear/abort/shutdown/send_signal waits for ever (violations proved).
    IPP.Nanny.hub_told_once IPP.Nanny.hub_told IPP.Nanny.executed_in_order IPP.Nanny.signals_in_order IPP.Nanny.replies_right IPP.Nanny.replies_once IPP.Nanny.all_answered_partial IPP.Nanny.answered_while_alive_partial IPP.Nanny.lost_reply_violated IPP.Nanny.late_request_violated
C67 | partial | For hwm=1 (default), or tasks without message dependencies, and engines whose late replies arrive before the scheduler gives them up (5 s); otherwise a task without retries may be started twice (violation proved).
    IPP.Sched.tries_at_most_partial IPP.Sched.started_at_most_partial IPP.Sched.started_twice_violated
C68 | partial | Correctness of executions and replies, @depend/@require, persistence: all histories. At most one reply and at most retries+1 calls: for hwm=1 or no message dependencies, and late replies arriving within 5 s; the body must not itself raise UnmetDependency (else it is run on every engine without using retries and never answered: violation proved). No task forgotten, also when engines die: without message dependencies.
    IPP.LB.execution_right IPP.LB.call_right IPP.LB.namespace_persists IPP.LB.reply_right IPP.LB.result_right IPP.LB.one_answer_partial IPP.LB.called_at_most_partial IPP.LB.answered_or_tried_partial IPP.LB.answered_or_tried_deaths_partial IPP.LB.require_args IPP.LB.require_right IPP.LB.require_missing IPP.LB.unmet_from_body_violated
C69 | partial | Everything for get/wait with return_when None, ALL_COMPLETED, FIRST_COMPLETED; with FIRST_EXCEPTION a spurious TimeoutError is possible between the last result and its callbacks, return_exceptions loses the shape of the result, and results from the hub raise TypeError; join fails for load-balanced and map results (violations proved). Map results containing aborted tasks are never resolved (C10).
    IPP.Async.Wait.wait_sets IPP.Async.Wait.wait_when IPP.Async.Wait.wait_all IPP.Async.Wait.get_complete IPP.Async.Wait.get_complete_map IPP.Async.Wait.get_raises IPP.Async.Wait.first_exception_timeout_partial IPP.Async.Wait.wait_ends IPP.Async.Wait.first_exception_prompt IPP.Async.Wait.join_split IPP.Async.Wait.spurious_timeout_violated IPP.Async.Wait.first_exception_shape_violated IPP.Async.Wait.hub_first_exception_violated IPP.Async.Wait.join_load_balanced_violated IPP.Async.Wait.join_map_violated
C70 | partial | For lists of different ids that the hub knows and that are all alike for the client (all under way, all cached, or all remote), without aborted tasks. Mixed lists drop the local tasks or raise, repeated ids raise TypeError, aborted tasks KeyError, wait()/ready() raise the task's failure, and result_status skips every second local result (violations proved).
    IPP.Client.Fetch.result_status_exact_partial IPP.Client.Fetch.hub_get_exact_partial IPP.Client.Fetch.hub_get_answers_partial IPP.Client.Fetch.hub_get_owner_partial IPP.Client.Fetch.hub_get_again IPP.Client.Fetch.get_result_ids_partial IPP.Client.Fetch.get_result_drops_violated IPP.Client.Fetch.get_result_mixed_violated IPP.Client.Fetch.fetch_duplicate_violated IPP.Client.Fetch.fetch_duplicate_cached_violated IPP.Client.Fetch.fetch_aborted_violated IPP.Client.Fetch.result_status_skips_violated IPP.Client.Fetch.hub_wait_raises_violated IPP.Client.Fetch.hub_wait_ready
C71 | proved | Also shown as violations of what one might expect beyond the statement: a blocking call raises the first error without waiting for the other engines; the value of a non-blocking call's future holds errors as values; an engine that never answers blocks the call (and shutdown) for ever.
    IPP.Control.request_asks IPP.Control.request_all_engines IPP.Control.request_returns IPP.Control.request_raises IPP.Control.request_ends IPP.Control.request_async IPP.Control.request_future IPP.Control.request_raises_early_violated IPP.Control.request_future_hides_errors_violated IPP.Control.request_silent_engine_violated IPP.Control.shutdown_asks IPP.Control.shutdown_returns IPP.Control.shutdown_raises IPP.Control.hub_last IPP.Control.closed_only_after_success IPP.Control.shutdown_ends IPP.Control.shutdown_restart IPP.Control.shutdown_no_engines IPP.Control.shutdown_silent_engine_violated IPP.Control.shutdown_async_silent_violated
C72 | partial | Everything but the last clause holds for all histories; the last needs registrations that arrive either before the call or after its callback is installed, no unregistration in between and no two waiters removing callbacks at once: a registration between the check and the installation of the callback is never noticed, and removing a callback while the list is iterated skips the next waiter (violations proved).
    IPP.WaitEngines.ids_known IPP.WaitEngines.success_means_enough IPP.WaitEngines.timeout_means_too_few IPP.WaitEngines.error_means_gone IPP.WaitEngines.enough_at_once IPP.WaitEngines.timer_ends IPP.WaitEngines.not_left_waiting_partial IPP.WaitEngines.loop_ends IPP.WaitEngines.lost_wakeup_violated IPP.WaitEngines.second_waiter_skipped_violated IPP.WaitEngines.unregister_skips_violated
C73 | partial | Scatter/gather as stated (lists, without flatten). BroadcastView.map for sequences of equal length while the set of engines does not change during the call: sequences of unequal length are silently mispaired, an engine lost between the scatter and the call silently drops its part, a new engine makes the whole map fail (violations proved). Other requests must not assign the variables used.
    IPP.Namespace.gather_reply IPP.Namespace.scatter_then_gather IPP.Namespace.map_reply IPP.Namespace.broadcast_map_partial IPP.Namespace.map_unequal_violated IPP.Namespace.map_lost_engine_violated IPP.Namespace.map_new_engine_violated
C74 | partial | For hwm = 1 or tasks without message dependencies, and late replies of a dead engine arriving within the grace delay. With hwm = 0 and dependencies a task can be sent twice to the same engine (violation proved).
    IPP.Sched.sent_once_partial IPP.Sched.not_sent_after_reply_partial IPP.Sched.sent_accounted_partial IPP.LB.executed_once_partial IPP.Sched.sent_twice_same_violated
C75 | partial | The first time the outputs of a result are displayed; for groupby type and engine, and for order if all tasks are on different engines and have the same number of outputs. Otherwise groupby='order' drops the outputs of every engine that has fewer than another one; displayed again, a header may be missing; headers begin a line on a terminal, not necessarily in a file that stdout is redirected to (violations proved).
    IPP.Display.display_outputs_page IPP.Display.display_outputs_bodies IPP.Display.display_outputs_files IPP.Display.display_single_files IPP.Display.display_outputs_rich IPP.Display.display_order_partial IPP.Display.display_result_only IPP.Display.display_single IPP.Display.display_order_drops_violated IPP.Display.display_again_violated IPP.Display.header_in_line_violated
C76 | partial | All output is shown for every interleaving; exactly once if no message of the request is handled while stream_output is being entered, else exactly the stated part is repeated (violation proved). Text without carriage returns (in a notebook: with). An error that arrived before entering is not shown; in a notebook text captured before is overwritten by that of the next engine; results of load-balanced views raise TypeError (violations proved). Callbacks are atomic in the model.
    IPP.Stream.streamed_text IPP.Stream.streamed_once IPP.Stream.streamed_outputs IPP.Stream.streamed_result IPP.Stream.streamed_live IPP.Stream.streamed_received IPP.Stream.streamed_left IPP.Stream.terminal_files IPP.Stream.terminal_rich IPP.Stream.terminal_page IPP.Stream.terminal_body IPP.Stream.notebook_display IPP.Stream.streamed_twice_violated IPP.Stream.captured_error_violated IPP.Stream.notebook_captured_violated IPP.Stream.load_balanced_violated
C77 | partial | For directories spelled as absolute paths, cluster files where their cluster wrote them, ids without colon. A relative directory replaces a running object by a second one, colons make keys collide; a dead cluster whose file is found is listed for ever, as is one stopped with stop_cluster (its controller is forgotten: load_keeps); clean_cluster_files without a log fails at the first stale file (violations proved).
    IPP.Manager.load_lists IPP.Manager.load_keeps IPP.Manager.load_only IPP.Manager.load_removes IPP.Manager.load_spares IPP.Manager.load_usual IPP.Manager.load_again IPP.Manager.new_adds IPP.Manager.remove_removes IPP.Manager.key_inj IPP.Manager.clean_outcome IPP.Manager.clean_spares IPP.Manager.dead_listed_violated IPP.Manager.relative_dir_violated IPP.Manager.colon_violated IPP.Manager.clean_no_log_violated IPP.Manager.new_usual
C78 | partial | For transports other than ipc (with ipc the controller separates the port by '-', engines and clients by ':': nobody ever connects), and not one ip with two transports. The first start is exact; a restart with reuse keeps addresses and key under every configuration, but not curve keys, packer or scheme; it does not listen for registrations of engines if their ip is no longer configured, loses leaves with a smaller depth, does not start with a larger one or after a crash while the file was written; get_connection_info returns stale files of a killed controller (violations proved). ssh tunnels and the operating system's rules for binding are not modelled.
    IPP.Conn.fresh_start_serves_partial IPP.Conn.client_served_partial IPP.Conn.engine_served_partial IPP.Conn.files_agree IPP.Conn.restart_same_addresses IPP.Conn.restart_same_sockets IPP.Conn.restart_after_crash IPP.Conn.start_fails_iff IPP.Conn.pools_suffice IPP.Conn.leaf_is_right IPP.Conn.inner_loopback IPP.Conn.info_is_new IPP.Conn.info_found IPP.Conn.info_waits IPP.Conn.clean_exit IPP.Conn.clean_exit_reuse IPP.Conn.file_names_agree IPP.Conn.file_names_differ IPP.Conn.ipc_never_reached_violated IPP.Conn.registration_unbound_violated IPP.Conn.smaller_depth_violated IPP.Conn.larger_depth_violated IPP.Conn.reuse_curve_violated IPP.Conn.half_written_violated IPP.Conn.stale_info_violated
C79 | partial | Holds except: a blocking cell with --local whose execution fails never shows its outputs; %pxresult of a failed cell shows none; --verbose of %%px is ignored; a single engine's error is shown in full although already streamed; %autopx with a suffix cannot be turned off by its own magic, and a cell with code before %autopx turns it on but not off (violations proved). Ctrl-C during the first wait, during the progress bar and during get are covered; during the final wait for outputs it is raised and nothing is displayed.
    IPP.Magics.cell_leaves_configuration IPP.Magics.cell_submitted_once IPP.Magics.cell_records_result IPP.Magics.blocking_cell_raises_iff_failed IPP.Magics.blocking_cell_shown_once IPP.Magics.interrupt_signals_targets IPP.Magics.noblock_returns_result IPP.Magics.local_after_submit IPP.Magics.px_is_cell_without_arguments IPP.Magics.pxresult_shows_last IPP.Magics.pxconfig_changes_exactly IPP.Magics.autopx_session IPP.Magics.autopx_on_sends_everything IPP.Magics.local_failure_hides_outputs_violated IPP.Magics.pxresult_of_failure_hides_outputs_violated IPP.Magics.cell_verbose_ignored_violated IPP.Magics.single_engine_error_shown_twice_violated IPP.Magics.autopx_suffix_cannot_turn_off_violated IPP.Magics.autopx_mixed_cell_violated IPP.Magics.autopx_agrees
C80 | partial | Holds for one run of the controller in which no engine asks for a particular id (agreement, uniqueness, removal of silent engines and finality hold also otherwise). Violations proved: an engine that asked for an id and gives up waiting removes the living engine that has that id; one that gave up without asking leaves its registration pending; an engine that starts too slowly, or that misses max + 1 beats and resumes, runs on and is never listed again; an engine that died while the controller was down is restored and listed for ever.
    IPP.Life.listed_agrees IPP.Life.listed_unique IPP.Life.announced_once IPP.Life.removed_stays_removed IPP.Life.silent_removed IPP.Life.goodbye_removes IPP.Life.removed_only_by_own_death IPP.Life.responsive_announced IPP.Life.responsive_listed IPP.Life.stopped_means_silent IPP.Life.requested_granted IPP.Life.given_up_never_listed IPP.Life.stalled_never_listed IPP.Life.timeout_removes_other_violated IPP.Life.timeout_removes_other_for_ever_violated IPP.Life.timeout_keeps_pending_violated IPP.Life.slow_engine_lost_violated IPP.Life.resumed_engine_lost_violated IPP.Life.restored_dead_listed_for_ever_violated
C81 | partial | For requests that can be packed and deserialized. A request whose content cannot be packed raises in the client's IO thread, one that the hub cannot deserialize makes its error reply raise: the call waits for ever (violation proved). The hub does not exit and no messages are lost in the model; registrations of engines are C80.
    IPP.HubQ.one_answer IPP.HubQ.ok_iff_succeeds IPP.HubQ.own_answer IPP.HubQ.every_call_answered_partial IPP.HubQ.answered_once IPP.HubQ.outcome_final IPP.HubQ.unanswered_call_violated
C82 | partial | For hosts other than Windows, for strings without a high surrogate directly before a low one, and for a remote shell that prints whole lines before the answer. Violations proved: kill without a signal (its default) always fails; a surrogate pair given as two characters arrives as one; a line without its end before the answer can hide the pid; a shell without OSTYPE is taken for the sender's own platform; a message with a semicolon makes recognising the shell fail.
    IPP.Shell.command_arrives IPP.Shell.start_exact IPP.Shell.running_exact IPP.Shell.exists_exact IPP.Shell.kill_exact IPP.Shell.remove_exact IPP.Shell.pid_read IPP.Shell.unix_recognised IPP.Shell.windows_recognised IPP.Shell.loads_dumps IPP.Shell.encode_decode IPP.Shell.kill_without_signal_violated IPP.Shell.surrogates_merged_violated IPP.Shell.partial_line_violated IPP.Shell.no_ostype_violated IPP.Shell.message_of_the_day_violated
C83 | partial | For load-balanced views. It returns unless the iterator of an unfinished map was closed or raised before; then it never returns (violation proved: a failing task in `with view.executor` hangs). Violations proved: a map cancelled with an input in hand submits a task after shutdown has returned; direct and broadcast views raise AttributeError. Ids lost by concurrent calls: C51.
    IPP.Exec.shutdown_waits_partial IPP.Exec.shutdown_ends_partial IPP.Exec.closed_early_hangs_violated IPP.Exec.break_hangs_violated IPP.Exec.cancelled_map_late_task_violated IPP.Exec.direct_view_shutdown_violated
C84 | partial | For blocks whose import statements are in the block's own frame and not caught, without `import a.b` and without repeated statements (for what is bound; for what is sent with them); local=True, no `as`. Violations proved: after an import in another frame (a called function, another thread) or a caught failing one nothing more is sent, for all programs; an inner block hides the outer view; `import a.b` does not bind a; star imports always raise; repeated statements can leave a different binding.
    IPP.Imports.restored IPP.Imports.ordinary_again IPP.Imports.numbered IPP.Imports.forwarded_partial IPP.Imports.no_error_all_engines IPP.Imports.remote_failure_raised IPP.Imports.same_names_partial IPP.Imports.lost_violated IPP.Imports.inner_hides_outer_violated IPP.Imports.dotted_unbound_violated IPP.Imports.star_fails_violated IPP.Imports.repeated_stale_violated
C85 | partial | For AsyncResults of the client's own tasks (not AsyncHubResult). Violation proved, for all histories: if one task was never started (aborted, dependency failed, its engine died), `serial_time` of the whole ready result raises AttributeError ("no attribute 'serial_time'").
    IPP.Timing.wall_exact IPP.Timing.elapsed_exact IPP.Timing.elapsed_never_decreases IPP.Timing.serial_exact IPP.Timing.early_timeout IPP.Timing.speedup_at_most_engines IPP.Timing.times_final IPP.Timing.compare_exact IPP.Timing.compare_naive IPP.Timing.serial_missing_violated IPP.Timing.serial_of_died_violated
C86 | partial | Ends for every cause, provided no stop fails. Violations proved: a failed stop or a failed start leaves `ipcluster start` running forever (the latter until a signal, even with --daemonize); a start is refused although all processes are dead (once); `ipcluster engines` overwrites the running cluster's file, so that `ipcluster stop` no longer reaches the cluster, and removes it when its engines end; `ipcluster stop a b` stops nothing if one of the files is missing. The loop of `ipcluster engines` never stops its cluster itself (it is left to atexit).
    IPP.Ipcluster.stops_at_most_once IPP.Ipcluster.start_ends_stopped IPP.Ipcluster.start_goes_on IPP.Ipcluster.signal_ends_partial IPP.Ipcluster.controller_stop_ends IPP.Ipcluster.early_stop_ends IPP.Ipcluster.daemonize_leaves_running IPP.Ipcluster.daemonize_ends IPP.Ipcluster.exit_code IPP.Ipcluster.engines_goes_on IPP.Ipcluster.engines_stop_ends IPP.Ipcluster.engines_notice_ends IPP.Ipcluster.signals_relayed IPP.Ipcluster.engines_never_stops IPP.Ipcluster.failed_stop_never_ends_violated IPP.Ipcluster.failed_start_never_ends_violated IPP.Cluster.start_refused_iff IPP.Cluster.start_refused_dead_violated IPP.Cluster.engines_hide_cluster_violated IPP.Cluster.engines_end_removes_file_violated IPP.Cluster.stop_stops_named IPP.Cluster.stop_nothing IPP.Cluster.stop_missing_violated
C87 | partial | Refusal, order and termination of close() hold in general. Violations proved: a future that is not done when close() returns is never done (get() without a timeout waits forever); a request made by another thread during close() may be accepted and never sent; a shutdown notification closes the sockets before requests that are queued are sent.
    IPP.ClientClose.refused_after_close IPP.ClientClose.nothing_after_close IPP.ClientClose.sent_in_order IPP.ClientClose.sent_before_close_partial IPP.ClientClose.close_returns IPP.ClientClose.pending_forever_violated IPP.ClientClose.lost_in_race_violated IPP.ClientClose.lost_at_shutdown_violated
C88 | partial | Script, job id, stop and signal hold in general. The environment only for PBS, Slurm and SGE. Violations proved: LSF jobs do not get the profile directory nor `environment`, and a submit command of several words does not submit the script; HTCondor scripts do not pass the environment on, have no signal command, and quote arguments for a shell; SGE's output file lines are those of PBS; Slurm's `options` is never used; if the submit command prints no number the job runs but cannot be stopped; a queue set after the first start is ignored.
    IPP.Batch.script_exact IPP.Batch.restart_exact IPP.Batch.user_template IPP.Batch.format_field IPP.Batch.job_id_exact IPP.Batch.start_commands IPP.Batch.start_commands_lsf IPP.Batch.start_result IPP.Batch.stop_right_job IPP.Batch.stop_announces_once IPP.Batch.job_env_partial IPP.Batch.lsf_profile_violated IPP.Batch.lsf_submit_violated IPP.Batch.condor_env_violated IPP.Batch.sge_output_violated IPP.Batch.slurm_options_violated IPP.Batch.condor_signal_violated IPP.Batch.lost_job_violated IPP.Batch.late_queue_violated IPP.Batch.condor_arguments_violated
C89 | proved | For words as the shell reads a simple command; a first word with `=` would be an assignment (the first word is the program).
    IPP.Batch.shlex_join_words IPP.Batch.shlex_join_injective IPP.Batch.quote_word IPP.Batch.quote_plain
C90 | partial | Positions, slices, iteration, successful, metadata and abort hold in general. Violations proved: what an iteration gives before a failure depends on whether the result was ready at its start; get_dict() of a map result attributes items to engines that did not compute them. Also proved: one failure makes the results of the other tasks unreadable by position.
    IPP.Async.Access.not_finished IPP.Async.Access.successful_iff_get IPP.Async.Access.successful_iff IPP.Async.Access.getitem_int IPP.Async.Access.getitem_slice IPP.Async.Access.getitem_other_failed IPP.Async.Access.getitem_single IPP.Async.Access.metadata_access IPP.Async.Access.iter_prefix IPP.Async.Access.iter_complete IPP.Async.Access.iter_raises IPP.Async.Access.iter_prompt IPP.Async.Access.iter_single IPP.Async.Access.iter_readiness_violated IPP.Async.Access.get_dict_list IPP.Async.Access.get_dict_map_violated IPP.Async.Access.abort_exact IPP.Async.Access.abort_jobs
C91 | proved | A wait of pyzmq without limit (in fact a week) counts as unlimited.
    IPP.Async.Access.wait_for_send IPP.Async.Access.wait_for_output
C92 | partial | Hosts, users, slots, identifiers and files hold in general; ports only if all entries that use the set's arguments name the same. Violations proved: with different ports all engines are looked for at the first (the launchers share one list), and the set keeps that port; a `location` that was set directly is lost on restore; an emptied user leaves an `@`.
    IPP.Ssh.parse_written IPP.Ssh.start_location IPP.Ssh.start_slots IPP.Ssh.start_where IPP.Ssh.identifiers_distinct IPP.Ssh.ports_partial IPP.Ssh.wanted_spelled IPP.Ssh.ports_violated IPP.Ssh.ports_kept_violated IPP.Ssh.restore_location_partial IPP.Ssh.restore_location_violated IPP.Ssh.empty_user_violated
C93 | partial | Announced at most once and only after the end. Violations proved: after one failure of ssh the end is never announced; the exit code is always -1.
    IPP.Ssh.announced_sound IPP.Ssh.announced_live_partial IPP.Ssh.link_failure_violated IPP.Ssh.exit_code_violated
C94 | partial | For views whose calls all send something (outstanding, abort, return of wait) and which do not gather (history, indices); completeness of history/outstanding and soundness of wait hold always. Violations proved: a call that fails before sending, or has no targets, claims all pending messages of the client, so that abort() aborts other views' tasks and wait() waits for them; gather records its messages twice; after a broadcast without coalescing wait() never returns; BroadcastView.run always raises TypeError. Calls in several threads: C51.
    IPP.ViewCalls.direct_one_each IPP.ViewCalls.direct_all IPP.ViewCalls.direct_one IPP.ViewCalls.direct_no_targets IPP.ViewCalls.history_exact_partial IPP.ViewCalls.history_complete IPP.ViewCalls.gather_twice_violated IPP.ViewCalls.outstanding_own_partial IPP.ViewCalls.outstanding_complete IPP.ViewCalls.outstanding_current IPP.ViewCalls.outstanding_exact_partial IPP.ViewCalls.abort_all_own IPP.ViewCalls.abort_only_own_partial IPP.ViewCalls.abort_named IPP.ViewCalls.abort_after_failure_violated IPP.ViewCalls.wait_sound IPP.ViewCalls.wait_returns_partial IPP.ViewCalls.wait_broadcast_violated IPP.ViewCalls.wait_after_failure_violated IPP.ViewCalls.get_result_index_partial IPP.ViewCalls.get_result_ids IPP.ViewCalls.get_result_violated IPP.ViewCalls.run_broadcast_violated
C95 | partial | Soundness of every outcome and termination hold for all interleavings; success is proved for a controller that writes each file once and quickly and does not end, and currency if nothing of another controller lies there. Violations proved: files of an earlier controller are taken at once, even from a controller that has ended; one file may be of an earlier controller and one of this one; a write that takes over half a second ends in ValueError; engines and clients fail if they come during the write, however long they may wait.
    IPP.ConnFiles.info_whole IPP.ConnFiles.timeout_means_missing IPP.ConnFiles.stopped_means_ended IPP.ConnFiles.steady_ok_partial IPP.ConnFiles.info_current_partial IPP.ConnFiles.ends IPP.ConnFiles.dead_ends IPP.ConnFiles.dead_reported IPP.ConnFiles.stale_violated IPP.ConnFiles.mixed_violated IPP.ConnFiles.slow_writer_violated IPP.ConnFiles.no_limit_waits IPP.ConnFiles.single_sound IPP.ConnFiles.single_files IPP.ConnFiles.single_ends IPP.ConnFiles.single_partial_violated IPP.ConnFiles.single_stale_violated
C96 | partial | All clauses but the last hold for all histories and crash points. The last is violated: nothing calls SQLiteDB.close, so that a regular stop loses what was recorded since the last commit (witness). Trusted: SQLite's journal; two controllers on one file at the same time are not modelled.
    IPP.DB.Persist.start_finds IPP.DB.Persist.start_exact IPP.DB.Persist.candidate_names IPP.DB.Persist.fits_iff IPP.DB.Persist.foreign_tables_untouched IPP.DB.Persist.session_sees IPP.DB.Persist.crash_keeps_prefix IPP.DB.Persist.close_keeps_all IPP.DB.Persist.stop_loses_violated
C97 | partial | Listing, reading, creating, starting and deleting hold for all histories, in the usual circumstances of C77 (absolute directories, ids without colon). Violations proved: JupyterLab does not escape ids, so that clusters of profile directories outside $IPYTHONDIR are listed but cannot be started or stopped; a cluster whose controller has died is started with success but without controller; of two overlapping deletions the second fails with 500, as does a deletion during which the clusters are listed at the wrong moment; engines started during a deletion survive it.
    IPP.Manager.list_exact IPP.Manager.list_sorted IPP.Manager.listed_readable IPP.Manager.list_complete IPP.Manager.list_only IPP.Manager.unknown_404 IPP.Manager.known_read IPP.Manager.create_exact IPP.Manager.create_refused IPP.Manager.web_inv IPP.Manager.start_refused IPP.Manager.start_exact IPP.Manager.delete_exact IPP.Manager.delete_answer IPP.Manager.lab_reaches IPP.Manager.lab_cannot_reach_violated IPP.Manager.start_dead_violated IPP.Manager.delete_twice_violated IPP.Manager.list_during_delete_violated IPP.Manager.start_during_delete_violated
C98 | partial | When it returns, the number of rounds and the bar hold for every interleaving. Violations proved: no TimeoutError is raised when the timeout has passed; a timeout shorter than the interval (1 s for the client's method) is late by the interval; for results from the hub the bar is full at once; ids that are twice in a result are counted once; client.wait_interactive() raises RuntimeError if a reply comes while it goes through its futures.
    IPP.Async.Wait.Interactive.returns_when IPP.Async.Wait.Interactive.returns_in_time IPP.Async.Wait.Interactive.rounds_bounded IPP.Async.Wait.Interactive.noticed_ends IPP.Async.Wait.Interactive.ready_returns IPP.Async.Wait.Interactive.value_error_only IPP.Async.Wait.Interactive.other_refused IPP.Async.Wait.Interactive.bar_ascends IPP.Async.Wait.Interactive.bar_full IPP.Async.Wait.Interactive.progress_counts IPP.Async.Wait.Interactive.bar_true IPP.Async.Wait.Interactive.client_waits_for IPP.Async.Wait.Interactive.no_timeout_error_violated IPP.Async.Wait.Interactive.interval_before_timeout_violated IPP.Async.Wait.Interactive.hub_bar_violated IPP.Async.Wait.Interactive.twice_violated IPP.Async.Wait.Interactive.client_race_violated
C99 | partial | The server is taken from its documentation. Proved for times in whole milliseconds and outside the cases in which MongoDB's operators differ. Violations proved: times lose their microseconds (records of one millisecond cannot be told apart); an update of an unknown id is silently lost; an empty list of keys gives records without msg_id; $exists counts None as there; $glob with another operator raises; deleting by $glob fails; get_record gives a field _id that was never stored.
    IPP.DB.Mongo.mongo_like_map IPP.DB.Mongo.run_uniq IPP.DB.Mongo.mongo_raises_iff IPP.DB.Mongo.translate_same IPP.DB.Mongo.translate_noGlob IPP.DB.Mongo.translate_cond IPP.DB.Mongo.translate_enc IPP.DB.Mongo.mongo_find_exact IPP.DB.Mongo.mongo_glob_exact IPP.DB.Mongo.mongo_keys IPP.DB.Mongo.mongo_agrees_partial IPP.DB.Mongo.mongo_drop_exact IPP.DB.Mongo.mongo_history IPP.DB.Mongo.microseconds_violated IPP.DB.Mongo.same_ms_violated IPP.DB.Mongo.mongo_update_unknown_violated IPP.DB.Mongo.mongo_no_keys_violated IPP.DB.Mongo.mongo_exists_violated IPP.DB.Mongo.mongo_glob_and_violated IPP.DB.Mongo.mongo_drop_glob_violated IPP.DB.Mongo.mongo_get_extra_violated
C100 | partial | Saving and loading is proved for running controllers and for classes registered in the group they are used in (so for all shipped ones, shipped_reload). Violations proved: the file of a cluster with a launcher class that is not registered cannot be loaded; find_launcher_class refuses full names; a subclass inherits entrypoint_name and is replaced by its base; a class with two names is not found; a name registered again replaces the class of old files; the class of the wrong group is accepted and changes on loading; the class of a controller that does not run is forgotten.
    IPP.Cluster.Classes.abbreviation_class IPP.Cluster.Classes.full_name_class IPP.Cluster.Classes.class_itself IPP.Cluster.Classes.validate_sound IPP.Cluster.Classes.case_insensitive IPP.Cluster.Classes.find_errors IPP.Cluster.Classes.abbreviate_registered IPP.Cluster.Classes.reload_class IPP.Cluster.Classes.reload_cluster_partial IPP.Cluster.Classes.saved_again IPP.Cluster.Classes.shipped_distinct IPP.Cluster.Classes.shipped_well IPP.Cluster.Classes.shipped_reload IPP.Cluster.Classes.unregistered_lost_violated IPP.Cluster.Classes.find_full_name_violated IPP.Cluster.Classes.inherited_name_violated IPP.Cluster.Classes.two_names_violated IPP.Cluster.Classes.shadowed_violated IPP.Cluster.Classes.wrong_group_violated IPP.Cluster.Classes.controller_forgotten_violated
C101 | partial | Names, results and once-only are proved for all interleavings; no own errors is proved for calls one after the other (no_error_serial) and for all calls once the loop is there (no_error_later); returning is proved for coroutines that return or raise an Exception and without calls from inside the background thread. Violations proved: CancelledError and other BaseExceptions hang the caller for ever; a _sync call inside the background thread waits for ever together with all calls that depend on the thread; two first calls at the same time fail with AttributeError or RuntimeError; so does a single one when the thread needs more than five seconds to start.
    IPP.Async.SyncWrap.call_own_result IPP.Async.SyncWrap.same_both_ways IPP.Async.SyncWrap.call_runs_once IPP.Async.SyncWrap.failed_runs_nothing IPP.Async.SyncWrap.no_error_later IPP.Async.SyncWrap.no_error_serial IPP.Async.SyncWrap.call_can_end IPP.Async.SyncWrap.free_always IPP.Async.SyncWrap.first_call_runs IPP.Async.SyncWrap.first_call_good IPP.Async.SyncWrap.wrapper_iff IPP.Async.SyncWrap.dir_exact IPP.Async.SyncWrap.dir_usable IPP.Async.SyncWrap.cancelled_hangs_violated IPP.Async.SyncWrap.inside_deadlock IPP.Async.SyncWrap.inside_deadlock_violated IPP.Async.SyncWrap.first_calls_race_violated IPP.Async.SyncWrap.first_calls_twice_violated IPP.Async.SyncWrap.slow_start_violated
C102 | partial | What the file says is determined for all jobs (job_file_reads: every value with the _X_ patterns taken out; job_file_partial: the job itself if there are none; both for variables that are not blank). Number of tasks, command and directory for all n; the id is the first run of digits of any output. Violations proved: a value with an _X_ in it (C:\my_A_dir) is changed; cluster id and environment are not passed; an argument with a space comes out as two; a number in the scheduler's output before the id is taken for it.
    IPP.Cluster.WinHPC.job_file_reads IPP.Cluster.WinHPC.job_file_partial IPP.Cluster.WinHPC.engine_job_tasks IPP.Cluster.WinHPC.command_line_words_partial IPP.Cluster.WinHPC.job_id_iff IPP.Cluster.WinHPC.job_id_none_iff IPP.Cluster.WinHPC.underscore_letter_violated IPP.Cluster.WinHPC.environment_lost_violated IPP.Cluster.WinHPC.command_line_space_violated IPP.Cluster.WinHPC.job_id_host_violated
C103 | partial | Proved for all values whose strings do not look like dates and whose datetimes have a zone; which strings are changed and which raise is determined exactly (pat_iff against a description of the timestamps, extract_same_iff, extract_error_iff). Violations proved: a string that is a timestamp comes back as a datetime, and to the client with a zone added; one record with a timestamp that does not exist (month 13) makes every query of its column raise; naive datetimes come back local.
    IPP.DB.Dates.stored_same_partial IPP.DB.Dates.rows_same_partial IPP.DB.Dates.stored_local IPP.DB.Dates.pat_iff IPP.DB.Dates.extract_same_iff IPP.DB.Dates.extract_error_iff IPP.DB.Dates.readRows_error IPP.DB.Dates.string_becomes_date_violated IPP.DB.Dates.text_with_zone_violated IPP.DB.Dates.bad_date_ruins_query_violated IPP.DB.Dates.naive_changed_violated
C104 | partial | Proved for all targets but negative numbers; with C30's bookkeeping (status_end_to_end_partial) for well-behaved histories. Violation proved: a negative number always raises KeyError after the hub has answered, although the targets of other calls may be negative.
    IPP.Client.QStat.status_all IPP.Client.QStat.status_targets IPP.Client.QStat.status_one_partial IPP.Client.QStat.status_end_to_end_partial IPP.Client.QStat.status_bad_target IPP.Client.QStat.finish_reports IPP.Client.QStat.finish_one IPP.Client.QStat.status_negative_violated
C105 | partial | Proved for a watcher that decodes the frames (which the code does not do): a record with a subtopic is shown at its level, under its sender, for all ids, levels and texts. Violations proved of the code as it is: the watcher's constructor raises TypeError (str as subscription), every message would raise TypeError (str looked for in bytes), without a subtopic every level is lost (INFO), and with a pyzmq whose PUBHandler sets root_topic the engine's handler cannot be made.
    IPP.Apps.LogWatch.shown_subtopic_partial IPP.Apps.LogWatch.level_lost_violated IPP.Apps.LogWatch.watcher_fails_violated IPP.Apps.LogWatch.message_fails_violated IPP.Apps.LogWatch.engine_handler_fails_violated
C106 | partial | Proved over all histories: terminate releases the backend's client and cluster for good, given views stay open and always take work, the default cluster keeps its engines. Violations proved: a backend with its own client is unusable after terminate (so joblib's second Parallel call in one context fails), a raising constructor leaves cluster and client, engines started in a running cluster without engines stay.
    IPP.Client.Joblib.terminate_releases IPP.Client.Joblib.others_untouched IPP.Client.Joblib.given_view_always IPP.Client.Joblib.own_view_until_partial IPP.Client.Joblib.second_parallel_fails_violated IPP.Client.Joblib.raising_leaks_violated IPP.Client.Joblib.engines_stay_violated
C107 | proved | For engine infos as engines send them (id and method, or none); `splitlines` is any function.
    IPP.Async.ErrorText.str_shows IPP.Async.ErrorText.str_short IPP.Async.ErrorText.render_shows IPP.Async.ErrorText.shown_and_announced IPP.Async.ErrorText.index_spec IPP.Async.ErrorText.by_index IPP.Async.ErrorText.bad_index IPP.Async.ErrorText.stream_shows
C108 | partial | Proved when nothing raises, for `async with` always and for `with` if an engine is registered at the end. Violations proved: `with` leaves rc open when no engine is registered at the end (truth of a client is its number of engines), a raising entry (engines too late) leaves controller, engines and client, a raising stop of one engine set leaves the controller, a nested block leaves the outer client.
    IPP.Cluster.Context.block_gives_back_partial IPP.Cluster.Context.exit_stops IPP.Cluster.Context.client_left_open_violated IPP.Cluster.Context.enter_raises_violated IPP.Cluster.Context.stop_raises_violated IPP.Cluster.Context.nested_violated
