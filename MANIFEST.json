{
 "claims": [
  {
   "property": "C01",
   "status": "proved",
   "theorems": [
    "TM.group_deps_are_reads",
    "TM.group_outs_are_writes",
    "TM.CheckDag.checkDag_ok_iff",
    "TM.CheckDag.checkDag_ok_executable",
    "TM.CheckDag.checkDag_error_sound",
    "TM.CheckDag.checkDag_cycle_error_imprecise"
   ],
   "note": "Model of check_dag loop by loop; total function, so no panic. checkDag_cycle_error_imprecise: the reported kind of error can be CycleDetected although the DAG is acyclic and a file is missing upstream."
  },
  {
   "property": "C02",
   "status": "proved",
   "theorems": [
    "TM.status_classified",
    "TM.status_success_iff",
    "TM.status_not_internal",
    "TM.status_success_mono"
   ],
   "note": ""
  },
  {
   "property": "C03",
   "status": "proved",
   "theorems": [
    "TM.group_deps_are_reads",
    "TM.group_outs_are_writes",
    "TM.Sched.job_inputs_exist"
   ],
   "note": "Every job message in every reachable trace, including the keys attached to it."
  },
  {
   "property": "C04",
   "status": "partial",
   "theorems": [
    "TM.Sched.group_ends_once_partial",
    "TM.Sched.group_ends_bounded",
    "TM.Sched.group_not_done_and_skipped",
    "TM.Sched.group_ends_twice"
   ],
   "note": "Exactly-once holds for groups with a dependency or with one execution. A dependency-free group of n executions is queued n times by the code and can be reported up to n times: group_ends_twice is a concrete run, group_ends_bounded the general bound."
  },
  {
   "property": "C05",
   "status": "partial",
   "theorems": [
    "TM.Sched.skipped_only_if_blocked",
    "TM.Sched.dependents_never_run_partial",
    "TM.Sched.dependents_run_after_failure"
   ],
   "note": "The first half holds in full. The second half fails for the duplicated groups of C04 (dependents_run_after_failure is a concrete run); proved for all other groups."
  },
  {
   "property": "C06",
   "status": "proved",
   "theorems": [
    "TM.Sched.outcome_determined",
    "TM.Sched.outcome_schedule_independent"
   ],
   "note": ""
  },
  {
   "property": "C07",
   "status": "partial",
   "theorems": [
    "TM.Sched.announced_only_when_finished_partial",
    "TM.Sched.announced_too_early"
   ],
   "note": "Full for DAGs without dependency-free multi-execution groups; announced_too_early is a concrete run where the announcement precedes a job of such a group."
  },
  {
   "property": "C08",
   "status": "partial",
   "theorems": [
    "TM.Sched.end_announced_partial",
    "TM.Sched.end_not_announced"
   ],
   "note": "Holds unless the last group was completed from the cache in the handler of another message; end_not_announced is a concrete run where the client is never told."
  },
  {
   "property": "C09",
   "status": "partial",
   "theorems": [
    "TM.Sched.work_conserving_partial",
    "TM.Sched.idle_and_ready",
    "TM.Sched.no_deadlock"
   ],
   "note": "Holds unless a worker disconnected since the last round of assignments; idle_and_ready is a concrete run."
  },
  {
   "property": "C10",
   "status": "proved",
   "theorems": [
    "TM.Sched.lost_job_requeued",
    "TM.Sched.queued_until_handled",
    "TM.Sched.round_assigns_all"
   ],
   "note": ""
  },
  {
   "property": "C11",
   "status": "proved",
   "theorems": [
    "TM.Sched.job_only_to_idle_worker",
    "TM.Sched.waiting_not_ready_nor_running",
    "TM.Sched.running_once",
    "TM.Sched.orphan_jobs_stopped"
   ],
   "note": ""
  },
  {
   "property": "C12",
   "status": "proved",
   "theorems": [
    "TM.group_priority_is_max",
    "TM.Sched.job_has_max_priority",
    "TM.Sched.queue_priorities"
   ],
   "note": "Maximality with respect to the recorded priorities; queue_priorities says which priority is recorded: groups unlocked by a dependency or retried get HIGH_PRIORITY as DAG priority."
  },
  {
   "property": "C13",
   "status": "proved",
   "theorems": [
    "TM.Sched.gone_client_left_alone",
    "TM.Sched.client_leaves_cleanly"
   ],
   "note": ""
  },
  {
   "property": "C15",
   "status": "proved",
   "theorems": [
    "TM.Sched.cache_used_only_if_allowed",
    "TM.Sched.cache_insert_only_results",
    "TM.cacheMode_tryFrom_spec"
   ],
   "note": ""
  },
  {
   "property": "C14",
   "status": "proved",
   "theorems": [
    "TM.Sched.never_panics_event",
    "TM.Sched.never_panics_step",
    "TM.Sched.message_handled",
    "TM.Sched.wrong_answer_fatal"
   ],
   "note": "For messages satisfying EventOk (shape assumptions on workers and clients, see DESIGN); wrong_answer_fatal shows that a worker answering with the wrong number of results stops the scheduler."
  },
  {
   "property": "C40",
   "status": "proved",
   "theorems": [
    "TM.Sched.watched_execution_notified",
    "TM.Sched.watched_execution_once",
    "TM.Sched.unwatched_execution_silent",
    "TM.Sched.watched_output_delivered",
    "TM.Sched.output_delivered_once",
    "TM.Sched.watched_provided_delivered"
   ],
   "note": ""
  },
  {
   "property": "C41",
   "status": "proved",
   "theorems": [
    "TM.Sched.handling_terminates",
    "TM.Sched.handling_completes",
    "TM.Sched.message_handled"
   ],
   "note": ""
  },
  {
   "property": "C16",
   "status": "partial",
   "theorems": [
    "TM.Cache.key_eq_iff_partial",
    "TM.Cache.key_order_independent",
    "TM.Cache.key_defined_iff",
    "TM.Cache.key_collision"
   ],
   "note": "Exact characterisation when no argument is literally tm_fifo_<n>; key_collision is a concrete pair of different requests with the same key."
  },
  {
   "property": "C17",
   "status": "partial",
   "theorems": [
    "TM.Cache.served_limits_partial",
    "TM.Cache.served_limits_fails"
   ],
   "note": "For every history of insertions. Missing: mount_proc is ignored by the code and the readable directories are compared only as 'not a strict superset'; served_limits_fails is a concrete run."
  },
  {
   "property": "C18",
   "status": "partial",
   "theorems": [
    "TM.Cache.served_status_partial",
    "TM.Cache.served_status_wrong"
   ],
   "note": "Holds unless the cached run exceeded a limit and the extra time/memory differ; served_status_wrong is a concrete run where a killed program is reported as a success."
  },
  {
   "property": "C19",
   "status": "partial",
   "theorems": [
    "TM.Cache.inserted_found",
    "TM.Cache.entries_are_latest",
    "TM.Cache.entries_distinct",
    "TM.Cache.inserted_returned_partial",
    "TM.Cache.older_entry_served"
   ],
   "note": "A lookup after an insertion is always a hit, and one entry per set of limits (the latest) is kept. With several sets of limits an older compatible entry may be returned (older_entry_served)."
  },
  {
   "property": "C20",
   "status": "partial",
   "theorems": [
    "TM.Cache.hit_outputs_partial",
    "TM.Cache.capture_missing"
   ],
   "note": "Every declared output is delivered. Captured streams are not part of the key: capture_missing is a concrete run."
  },
  {
   "property": "C21",
   "status": "proved",
   "theorems": [
    "TM.Store.held_file_survives",
    "TM.Store.held_file_survives_history"
   ],
   "note": "Every interleaving of the steps of store/get/clone/drop/flush/close, with failures and crashes."
  },
  {
   "property": "C22",
   "status": "proved",
   "theorems": [
    "TM.Store.total_is_sum",
    "TM.Store.saved_total_is_sum",
    "TM.Store.store_bounds_total",
    "TM.Store.eviction_only_when_full",
    "TM.Store.flush_is_minimal"
   ],
   "note": ""
  },
  {
   "property": "C23",
   "status": "partial",
   "theorems": [
    "TM.Store.eviction_order_partial",
    "TM.Store.lru_fails"
   ],
   "note": "The statement is false of the code: lru_fails is a reachable state where a flush removes a more recently used file and keeps an older unused one. eviction_order_partial proves the order the code does follow (most recent first)."
  },
  {
   "property": "C24",
   "status": "proved",
   "theorems": [
    "TM.Store.content_is_complete",
    "TM.Store.content_is_stored_content",
    "TM.Store.stored_file_visible",
    "TM.Store.store_existing_keeps_content",
    "TM.Store.content_changes_only_by_race",
    "TM.Store.race_overwrites",
    "TM.Store.paths_distinct"
   ],
   "note": "Under the assumption that keys are hashes (ContentAddressed). race_overwrites: with a wrong key two concurrent stores overwrite each other, the content is never checked against the key."
  },
  {
   "property": "C25",
   "status": "proved",
   "theorems": [
    "TM.Store.refcounts_exact",
    "TM.Store.drop_never_panics",
    "TM.Store.failed_store_never_panics"
   ],
   "note": ""
  },
  {
   "property": "C42",
   "status": "partial",
   "theorems": [
    "TM.Store.stored_file_visible",
    "TM.Store.get_handle_valid_partial",
    "TM.Store.get_uninterrupted",
    "TM.Store.get_missing",
    "TM.Store.get_race"
   ],
   "note": "Full for handles returned by store. A get interrupted by a flush of another thread returns a handle to a removed file: get_race is a concrete interleaving; proved when the file is still there when the handle is made."
  },
  {
   "property": "C43",
   "status": "partial",
   "theorems": [
    "TM.Store.total_is_disk_usage_partial",
    "TM.Store.crash_leaks_file",
    "TM.Store.version_change_leaks_files"
   ],
   "note": "Holds as long as the process goes on without failures; a crash between rename and index, or a change of version, leaves files no index knows (concrete runs)."
  },
  {
   "property": "C26",
   "status": "proved",
   "theorems": [
    "TM.Storage.save_load_roundtrip",
    "TM.Storage.crash_leaves_old_or_new",
    "TM.Storage.load_after_any_history",
    "TM.Storage.indexCodec_lawful",
    "TM.Storage.truncated_index_detected",
    "TM.Storage.flush_error_loses_content"
   ],
   "note": "Process crashes at any system call. The bincode format is modelled for the index and a lawful-codec hypothesis elsewhere. flush_error_loses_content: a write error in the implicit final flush of the BufWriter is ignored and destroys the file (outside the statement, which is about crashes)."
  },
  {
   "property": "C27",
   "status": "proved",
   "theorems": [
    "TM.Proto.file_transfer_lossless",
    "TM.Proto.data_transfer_lossless",
    "TM.Proto.session_lossless",
    "TM.Proto.interrupted_session",
    "TM.Proto.read_error_prefix",
    "TM.Proto.read_error_truncates"
   ],
   "note": "Every content, chunking and sequence of transfers. Outside the statement: if reading the source file fails midway the sender ends the transfer normally, so the receiver gets a truncated file (read_error_truncates, read_error_prefix)."
  },
  {
   "property": "C28",
   "status": "partial",
   "theorems": [
    "TM.Client.content_callback_exact",
    "TM.Client.content_callback_absent",
    "TM.Client.chunk_callback_exact",
    "TM.Client.dest_written_partial",
    "TM.Client.dest_untouched",
    "TM.Client.others_untouched",
    "TM.Client.empty_content_two_terminators",
    "TM.Client.stale_executable_bit",
    "TM.Client.failure_chmods_old_file"
   ],
   "note": "Contents are exact. The executable flag is wrong when the destination already exists (stale_executable_bit, failure_chmods_old_file); an empty content provided from memory gives two terminators."
  },
  {
   "property": "C29",
   "status": "proved",
   "theorems": [
    "TM.Exec.forwarded_in_order",
    "TM.Exec.late_files_delivered",
    "TM.Exec.done_lists_files",
    "TM.Exec.unknown_client_ignored"
   ],
   "note": ""
  },
  {
   "property": "C44",
   "status": "partial",
   "theorems": [
    "TM.Proto.disciplined_never_broken",
    "TM.Proto.disciplined_delivers",
    "TM.Proto.client_disciplined",
    "TM.Proto.client_status_poller_safe_partial",
    "TM.Proto.stop_breaks_client_transfer",
    "TM.Proto.status_breaks_server_transfer",
    "TM.Proto.kill_breaks_worker_transfer"
   ],
   "note": "Proved when every sender follows the locking discipline, as the client's own threads do. The control-C handler, the status messages of the server and the kill requests to the workers do not: three concrete interleavings break the channel."
  },
  {
   "property": "C45",
   "status": "proved",
   "theorems": [
    "TM.Client.done_asks_missing",
    "TM.Client.client_gets_every_file",
    "TM.Client.execution_callbacks_once",
    "TM.Client.content_callback_once",
    "TM.Client.second_done_loses_files"
   ],
   "note": "For one announcement of the end per evaluation; second_done_loses_files shows why."
  },
  {
   "property": "C47",
   "status": "partial",
   "theorems": [
    "TM.Exec.disconnect_told_once",
    "TM.Exec.scheduler_gets_valid_dags",
    "TM.Exec.evaluate_provided_files",
    "TM.Exec.provided_file_forwarded",
    "TM.Exec.asked_file_sent",
    "TM.Exec.local_executor_exits_partial",
    "TM.Exec.stop_then_file_hangs_executor"
   ],
   "note": "All but termination hold for every message sequence. A file or DAG received after Stop makes the manager panic before telling the scheduler to exit: stop_then_file_hangs_executor."
  },
  {
   "property": "C30",
   "status": "proved",
   "theorems": [
    "TM.Worker.job_starts_once_complete",
    "TM.Worker.missing_key_fails",
    "TM.Worker.unasked_file_fails",
    "TM.Worker.busy_worker_fails"
   ],
   "note": ""
  },
  {
   "property": "C31",
   "status": "partial",
   "theorems": [
    "TM.Worker.capture_none",
    "TM.Worker.capture_bounded_partial",
    "TM.Worker.capture_rounds_up",
    "TM.Worker.capture_exceeds_limit"
   ],
   "note": "The code reads whole buffers: up to 1023 bytes more than the limit can be returned (capture_exceeds_limit). Proved: a prefix of the stream, at least min(n, length) and less than n + 1024 bytes."
  },
  {
   "property": "C46",
   "status": "proved",
   "theorems": [
    "TM.Worker.protocol_never_fails",
    "TM.Worker.rounds_well_formed",
    "TM.Worker.no_deadlock",
    "TM.Worker.rounds_terminate",
    "TM.Worker.quiescent_is_free",
    "TM.Worker.one_report_per_job",
    "TM.Worker.kill_hits_current_job",
    "TM.Worker.kill_lost_while_fetching",
    "TM.Worker.evicted_dependency_loses_worker"
   ],
   "note": "Assuming no I/O errors, whole file transfers and that the server's store keeps the dependencies; evicted_dependency_loses_worker and kill_lost_while_fetching show the outcomes outside these assumptions."
  },
  {
   "property": "C48",
   "status": "proved",
   "theorems": [
    "TM.Worker.group_results",
    "TM.Worker.group_report_ok",
    "TM.Worker.group_kills",
    "TM.Worker.single_same",
    "TM.Worker.sandbox_error_is_internal",
    "TM.Worker.exit_code_status",
    "TM.Worker.killed_never_success",
    "TM.Worker.signal_status",
    "TM.Worker.result_reports"
   ],
   "note": ""
  },
  {
   "property": "C49",
   "status": "proved",
   "theorems": [
    "TM.Sched.status_answer",
    "TM.Sched.status_always_answered"
   ],
   "note": "The number of ready groups is exact when every group runs once; a group without inputs and with several executions is queued more than once (C04)."
  },
  {
   "property": "C32",
   "status": "proved",
   "theorems": [
    "TM.Score.subtask_scored_once",
    "TM.Score.subtask_score_value",
    "TM.Score.task_scored_once",
    "TM.Score.task_score_value",
    "TM.Score.testcase_scores_relayed",
    "TM.Score.numeric_never_panics",
    "TM.Score.scores_order_independent",
    "TM.Score.subtask_score_bounds",
    "TM.Score.nan_score_panics",
    "TM.Score.no_subtasks_no_score"
   ],
   "note": "Scores are exact rationals. A checker printing nan makes the manager panic (nan_score_panics)."
  },
  {
   "property": "C33",
   "status": "proved",
   "theorems": [
    "TM.Score.score_status",
    "TM.Score.score_status_monotone",
    "TM.Score.zero_maximum_is_wrong"
   ],
   "note": "zero_maximum_is_wrong: with a maximum of 0 a full score is a wrong answer."
  },
  {
   "property": "C39",
   "status": "proved",
   "theorems": [
    "TM.Text.span_correct",
    "TM.Text.span_ok_iff"
   ],
   "note": "Offsets are in characters."
  },
  {
   "property": "C50",
   "status": "proved",
   "theorems": [
    "TM.Score.communication_score",
    "TM.Score.communication_answers",
    "TM.Score.nan_hides_failure"
   ],
   "note": ""
  },
  {
   "property": "C34",
   "status": "proved",
   "theorems": [
    "TM.Solution.check_minimal",
    "TM.Solution.check_requires",
    "TM.Solution.outcome_order",
    "TM.Solution.check_set",
    "TM.Solution.better_outcome_irrelevant",
    "TM.Solution.one_of_three"
   ],
   "note": ""
  },
  {
   "property": "C35",
   "status": "proved",
   "theorems": [
    "TM.Solution.chosen_check",
    "TM.Solution.chosen_check_holds",
    "TM.Solution.chosen_check_iff",
    "TM.Solution.check_names",
    "TM.Solution.checks_to_write"
   ],
   "note": ""
  },
  {
   "property": "C51",
   "status": "proved",
   "theorems": [
    "TM.Solution.extract_ok_iff",
    "TM.Solution.extract_checks",
    "TM.Solution.extract_diagnostics",
    "TM.Solution.wall_check_not_read",
    "TM.Solution.two_checks_drop_solution"
   ],
   "note": "The regular expressions are modelled by what they match. wall_check_not_read: wall-time-limit-exceeded is missing in the reader; two_checks_drop_solution is a concrete file."
  },
  {
   "property": "C52",
   "status": "partial",
   "theorems": [
    "TM.Solution.rewrite_lines",
    "TM.Solution.rewrite_roundtrip_partial",
    "TM.Solution.tool_checks_hold_partial",
    "TM.Solution.wall_check_lost",
    "TM.Solution.check_on_shebang_line"
   ],
   "note": "Proved when no wall-time check is written, the names are words without @check- and the #! line has no check. wall_check_lost and check_on_shebang_line are concrete cases of the rest."
  },
  {
   "property": "C36",
   "status": "proved",
   "theorems": [
    "TM.Format.load_closure",
    "TM.Format.load_order_independent",
    "TM.Format.load_testcase_first",
    "TM.Format.load_without_orig"
   ],
   "note": "For entries numbered as the readers of gen/GEN do (gen_wellNumbered). load_testcase_first and load_without_orig are the other outcomes."
  },
  {
   "property": "C37",
   "status": "proved",
   "theorems": [
    "TM.Format.gen_iff",
    "TM.Format.gen_numbered",
    "TM.Format.gen_subtask",
    "TM.Format.gen_testcases",
    "TM.Format.gen_order",
    "TM.Format.gen_wellNumbered",
    "TM.Format.name_accepted",
    "TM.Format.gen_names_clean",
    "TM.Format.gen_score_read"
   ],
   "note": "gen_iff is a complete specification of the reader on the parsed lines; the text grammar is modelled rule by rule. Unicode tables, path joining and validator lookup are parameters."
  },
  {
   "property": "C38",
   "status": "proved",
   "theorems": [
    "TM.Format.cases_accepts",
    "TM.Format.cases_never_panics",
    "TM.Format.cases_constraints",
    "TM.Format.cases_numbered",
    "TM.Format.cases_order",
    "TM.Format.cases_testcase",
    "TM.Format.cases_subtask",
    "TM.Format.cases_wellNumbered",
    "TM.Format.int_read",
    "TM.Format.int_out_of_range",
    "TM.Format.int_refused",
    "TM.Format.score_read"
   ],
   "note": "cases_accepts is a complete specification of the accepted files on the parsed lines; the text grammar is modelled rule by rule. The condition that all the operands are known is needed (unknown_hides_comparison); unspaced_constraint_ignored and blank_line_is_testcase are surprising consequences of the grammar. shell_words::split, file existence, language detection and path joining are parameters; scores are exact decimals."
  },
  {
   "property": "C53",
   "status": "proved",
   "theorems": [
    "TM.Format.static_inputs",
    "TM.Format.static_gap",
    "TM.Format.inputName_injective",
    "TM.Format.static_wellNumbered"
   ],
   "note": "File existence does not change while the iterator runs; the u32 index does not overflow."
  },
  {
   "property": "C54",
   "status": "proved",
   "theorems": [
    "TM.Format.gen_syntax",
    "TM.Format.gen_syntax_unique",
    "TM.Format.gen_text_iff",
    "TM.Format.refused_texts"
   ],
   "note": "The pest grammar is modelled rule by rule as ordered choice on lists of characters; pest itself is not modelled. A comment without a blank after the # is refused (refused_texts)."
  },
  {
   "property": "C55",
   "status": "proved",
   "theorems": [
    "TM.Format.cases_syntax",
    "TM.Format.cases_syntax_unique",
    "TM.Format.cases_text_iff",
    "TM.Format.cases_refused_texts"
   ],
   "note": "As C54, for cases.gen.pest."
  },
  {
   "property": "C56",
   "status": "proved",
   "theorems": [
    "TM.Build.dag_accepted",
    "TM.Build.dag_executable",
    "TM.Build.only_missing_files"
   ],
   "note": "Hypotheses (Fits): the uuids made are fresh, source files are identified by their instance, testcases carry their own number and are owned by one subtask. Booklets and sanity checks are not modelled."
  },
  {
   "property": "C57",
   "status": "proved",
   "theorems": [
    "TM.Build.testcase_prepared",
    "TM.Build.inherited_validated"
   ],
   "note": "The specification is Build/Spec.lean: Prepared, Validated, EvaluatedBatch, EvaluatedComm."
  },
  {
   "property": "C58",
   "status": "proved",
   "theorems": [
    "TM.Build.reported_once",
    "TM.Build.announced",
    "TM.Build.one_execution_each"
   ],
   "note": "one_execution_each needs different subtask identifiers and no repeated testcase in a subtask."
  },
  {
   "property": "C59",
   "status": "proved",
   "theorems": [
    "TM.Build.compilations",
    "TM.Build.compiled_once"
   ],
   "note": "Source files are identified by their instance: two instances of the same path (official solution and the same evaluated solution) are compiled twice, as in the code."
  },
  {
   "property": "C60",
   "status": "proved",
   "theorems": [
    "TM.Build.dry_run",
    "TM.Build.io_written",
    "TM.Build.executable_written",
    "TM.Build.nothing_else_written"
   ],
   "note": "Destinations are strings; what is done with them by the client is C45."
  },
  {
   "property": "C61",
   "status": "proved",
   "theorems": [
    "TM.Build.batch_scores",
    "TM.Build.communication_scores",
    "TM.Build.failing_process",
    "TM.Build.manager_decides",
    "TM.Build.only_evaluations_scored",
    "TM.Build.scored_at_most_once",
    "TM.Build.told_exactly",
    "TM.Build.errors_shown",
    "TM.Build.completes_iff"
   ],
   "note": "History (an execution is done only if the producers of its inputs succeeded) is what C63 proves of every server; notices may be repeated, the closures are drained. Communication scores are numbers (a NaN is C50). A custom checker that crashes or prints no score gives no score at all."
  },
  {
   "property": "C62",
   "status": "proved",
   "theorems": [
    "TM.Build.scores_schedule_independent",
    "TM.Build.solution_score_schedule_independent"
   ],
   "note": "Numbers, not messages: with ties the message of a communication testcase depends on the order. Exact arithmetic."
  },
  {
   "property": "C63",
   "status": "proved",
   "theorems": [
    "TM.Whole.task_groups_end_once",
    "TM.Whole.task_executions_notified",
    "TM.Whole.task_history"
   ],
   "note": "The client asks for the DAG of C56 with its callbacks; the server is Verif.Sched. The message of a result to the client is read by a parameter that keeps the status. The groups for which C04 and C07 fail do not occur in the DAGs of tasks (built_runs_once)."
  },
  {
   "property": "C64",
   "status": "proved",
   "theorems": [
    "TM.Whole.same_outcomes",
    "TM.Whole.same_scores",
    "TM.Whole.same_completion"
   ],
   "note": "The two evaluations have the same DAG, uuids included. Scores are numbers. Deterministic: the client reads the same in the result of an execution whenever it is done."
  },
  {
   "property": "C65",
   "status": "partial",
   "theorems": [
    "TM.Clean.clean_removes_only_generated_partial",
    "TM.Clean.clean_keeps_inputs",
    "TM.Clean.clean_keeps_outputs_partial",
    "TM.Clean.clean_keeps_tree",
    "TM.Clean.clean_removes_needed_output",
    "TM.Clean.clean_outside_the_task"
   ],
   "note": "The code violates it: the output file of a testcase whose input is a file too is removed (clean_removes_needed_output), and wildcards in the path of the task make clean remove files of other directories (clean_outside_the_task; the theorems assume a path without wildcards). Everything else is proved. Links are not modelled."
  },
  {
   "property": "C66",
   "status": "partial",
   "theorems": [
    "TM.Clean.clean_removes_all_generated_partial",
    "TM.Clean.clean_restores_partial",
    "TM.Clean.load_then_clean_partial",
    "TM.Clean.clean_leaves_manager"
   ],
   "note": "The code violates it for communication tasks: the compiled manager is left (clean_leaves_manager). clean_restores_partial also leaves out the tasks of C65 in which a needed file is lost."
  },
  {
   "property": "C67",
   "status": "proved",
   "theorems": [
    "TM.Clean.dry_load",
    "TM.Clean.load_writes_only_made",
    "TM.Clean.load_marks",
    "TM.Clean.history_keeps_sources",
    "TM.Clean.history_keeps_unmarked"
   ],
   "note": "The contents of the two files after the header are parameters. The path of the task has no wildcards."
  },
  {
   "property": "C68",
   "status": "partial",
   "theorems": [
    "TM.Clean.terry_removes_only_generated_partial",
    "TM.Clean.terry_removes_all_generated",
    "TM.Clean.terry_removes_hidden"
   ],
   "note": "The code violates it for hidden files: managers/.NAME.Z is removed although nothing else has that name (terry_removes_hidden)."
  },
  {
   "property": "C69",
   "status": "partial",
   "theorems": [
    "TM.Lang.deps_terminates",
    "TM.Lang.deps_bound",
    "TM.Lang.deps_once",
    "TM.Lang.deps_sound",
    "TM.Lang.deps_direct",
    "TM.Lang.deps_complete_partial",
    "TM.Lang.deps_misses_alias"
   ],
   "note": "The code violates the last part: a file imported with two names is given with one of them only (deps_misses_alias). Proved if each file has one name."
  },
  {
   "property": "C70",
   "status": "partial",
   "theorems": [
    "TM.Lang.includes_found",
    "TM.Lang.imports_found",
    "TM.Lang.include_with_blank_missed",
    "TM.Lang.import_as_missed"
   ],
   "note": "The forms of the property only: `# include` and `import x as y` are not found (the last two theorems)."
  },
  {
   "property": "C71",
   "status": "partial",
   "theorems": [
    "TM.Whole.task_notices_in_order",
    "TM.Whole.task_status_shown_partial",
    "TM.Ui.status_shown_partial",
    "TM.Ui.results_recorded",
    "TM.Ui.communication_status_lost"
   ],
   "note": "The code violates it for communication tasks: the status is the one of the last process that ended (communication_status_lost). Proved for batch tasks. The texts shown are those of the outcome."
  },
  {
   "property": "C72",
   "status": "proved",
   "theorems": [
    "TM.Ui.checks_exact",
    "TM.Ui.checks_once",
    "TM.Ui.checks_total",
    "TM.Ui.checks_schedule_independent",
    "TM.Whole.task_checks_same"
   ],
   "note": "Independence of the schedule for batch tasks (the statuses of communication tasks depend on it, C71). The normalisation of the patterns is a parameter."
  },
  {
   "property": "C73",
   "status": "proved",
   "theorems": [
    "TM.Ui.ui_never_panics",
    "TM.Ui.evaluation_followed",
    "TM.Ui.managers_made"
   ],
   "note": "The messages of the tasks that are not IOI tasks are not modelled. When a closure aborts the evaluation is the subject of C62."
  },
  {
   "property": "C74",
   "status": "proved",
   "theorems": [
    "TM.Ui.subtask_score_shown",
    "TM.Ui.solution_score_shown"
   ],
   "note": "Exact arithmetic instead of floating point, scores are numbers."
  },
  {
   "property": "C75",
   "status": "partial",
   "theorems": [
    "TM.Ui.generation_shown_partial",
    "TM.Ui.compilation_shown",
    "TM.Ui.generation_status_by_chance"
   ],
   "note": "The code violates it: the status of a testcase that is not solved and has not failed depends on the order of the notices (generation_status_by_chance). The input file of the task is not called wait_for_validation; compilation_shown needs that the file is compiled once."
  },
  {
   "property": "C76",
   "status": "partial",
   "theorems": [
    "TM.Sanity.new_line_warnings_exact",
    "TM.Sanity.new_line_warnings_same",
    "TM.Sanity.att_new_line_partial",
    "TM.Sanity.att_binary_listed",
    "TM.Sanity.att_directory_stops"
   ],
   "note": "The part about inputs and outputs is proved. The code violates the one about the attachments: binary files are in the warning and a directory stops the check (the last two theorems)."
  },
  {
   "property": "C77",
   "status": "partial",
   "theorems": [
    "TM.Sanity.equal_outputs_warned_partial",
    "TM.Sanity.equal_outputs_panic"
   ],
   "note": "The code violates it: it panics if all the outputs of a subtask are empty (equal_outputs_panic). The hash is injective."
  },
  {
   "property": "C78",
   "status": "partial",
   "theorems": [
    "TM.Sanity.order_warning_exact",
    "TM.Sanity.same_warnings_exact",
    "TM.Sanity.alike_warned_partial",
    "TM.Sanity.alike_some_warning",
    "TM.Sanity.alike_not_warned",
    "TM.Sanity.unlike_warned"
   ],
   "note": "The code violates the second part if the checks of a solution do not mention all the subtasks (the last two theorems). Proved if they do."
  },
  {
   "property": "C79",
   "status": "partial",
   "theorems": [
    "TM.Sanity.samples_exact",
    "TM.Sanity.input_accounted",
    "TM.Sanity.output_accounted",
    "TM.Sanity.sample_pair_partial",
    "TM.Sanity.sample_pair_mixed"
   ],
   "note": "The code violates it for names that contain both `input` and `output` (sample_pair_mixed)."
  },
  {
   "property": "C80",
   "status": "partial",
   "theorems": [
    "TM.Sanity.language_exact",
    "TM.Sanity.grader_given",
    "TM.Sanity.no_grader_missing",
    "TM.Sanity.grader_missing_partial",
    "TM.Sanity.grader_false_alarm"
   ],
   "note": "The code violates it: there may be an error although there is the grader (grader_false_alarm). Proved if the graders have the usual names."
  },
  {
   "property": "C81",
   "status": "partial",
   "theorems": [
    "TM.Sanity.oii_found",
    "TM.Sanity.new_found",
    "TM.Sanity.ois_found",
    "TM.Sanity.statement_accepted",
    "TM.Sanity.statement_errors_exact",
    "TM.Sanity.booklet_errors_exact",
    "TM.Sanity.statement_comment_counted"
   ],
   "note": "The code also counts the lines that are comments (statement_comment_counted). A subtask is on a line; the digits are ASCII, the scores exact."
  },
  {
   "property": "C82",
   "status": "proved",
   "theorems": [
    "TM.Sanity.checks_all_run",
    "TM.Sanity.checks_skip_more",
    "TM.Sanity.missing_names_exact",
    "TM.Sanity.invalid_names_exact",
    "TM.Sanity.no_checks_exact",
    "TM.Sanity.max_score_exact"
   ],
   "note": "A check is what it shows and how it ends. The score of the task is an exact sum."
  },
  {
   "property": "C83",
   "status": "partial",
   "theorems": [
    "TM.Sandbox.sandbox_files_exact",
    "TM.Sandbox.output_over_input_fails",
    "TM.Sandbox.executable_bit_partial",
    "TM.Sandbox.executable_bit_lost"
   ],
   "note": "The code violates it for the executable bit, which is of the inode shared by all the sandboxes (executable_bit_lost): proved if each stored file is always given as executable or never. Programs are assumed to change the mode only of files they may write."
  },
  {
   "property": "C84",
   "status": "partial",
   "theorems": [
    "TM.Sandbox.store_unchanged_partial",
    "TM.Sandbox.store_unchanged_read_only",
    "TM.Sandbox.store_changed_by_program"
   ],
   "note": "The code violates it for sandboxes that are not read only: the program may change the mode of a hard link to the store (store_changed_by_program)."
  },
  {
   "property": "C85",
   "status": "proved",
   "theorems": [
    "TM.Sandbox.program_isolated",
    "TM.Sandbox.others_not_seen"
   ],
   "note": "The file system and its permissions are modelled, not the isolation of the processes. Other programs are assumed to change the mode only of files they may write."
  },
  {
   "property": "C86",
   "status": "partial",
   "theorems": [
    "TM.Sandbox.killed_is_timeout_partial",
    "TM.Sandbox.killed_within_limits",
    "TM.Sandbox.time_given",
    "TM.Sandbox.memory_detected",
    "TM.Sandbox.stack_and_calls",
    "TM.Sandbox.limits_not_imposed"
   ],
   "note": "The code violates it: the solutions have no limit on the system time, so a killed one may be within its limits (killed_within_limits); nofile, fsize and memlock are ignored (limits_not_imposed)."
  },
  {
   "property": "C87",
   "status": "partial",
   "theorems": [
    "TM.Sandbox.streams_exact",
    "TM.Sandbox.redirect_outside"
   ],
   "note": "The code violates it for relative paths that are not fifos (redirect_outside)."
  },
  {
   "property": "C88",
   "status": "proved",
   "theorems": [
    "TM.Sandbox.sees_only",
    "TM.Sandbox.sees_all"
   ],
   "note": "The directory seen at a path is the last mounted over it (assumed of tabox and the kernel)."
  },
  {
   "property": "C89",
   "status": "partial",
   "theorems": [
    "TM.Sandbox.command_exact",
    "TM.Sandbox.env_exact",
    "TM.Sandbox.env_twice"
   ],
   "note": "Proved for executions that do not name a variable twice; the code sets a variable twice otherwise (env_twice), and which one the program sees is not decided by this code."
  },
  {
   "property": "C90",
   "status": "proved",
   "theorems": [
    "TM.Terry.dag_accepted",
    "TM.Terry.only_missing_files",
    "TM.Terry.evaluated",
    "TM.Terry.separate"
   ],
   "note": "Hypotheses (Fits): as in C56. The seeds are parameters (the code draws them at random or takes the one of the configuration). The specification is Terry/Spec.lean. The statement and the sanity checks of Terry are not modelled."
  },
  {
   "property": "C91",
   "status": "proved",
   "theorems": [
    "TM.Terry.reported_once",
    "TM.Terry.announced",
    "TM.Terry.one_execution_each",
    "TM.Terry.outcome_once",
    "TM.Terry.written",
    "TM.Terry.io_written"
   ],
   "note": "As C90."
  },
  {
   "property": "C92",
   "status": "proved",
   "theorems": [
    "TM.Terry.ui_never_panics",
    "TM.Terry.executions_exist",
    "TM.Terry.results_shown",
    "TM.Terry.ending_shown",
    "TM.Terry.compilation_shown"
   ],
   "note": "Hypotheses: the notices come in an order a server can produce (Ordered, proved of the server in notices_in_order) and the checkers that were run gave their output (Captured): without it the client aborts, see C93. The parser of the checker output is a parameter."
  },
  {
   "property": "C93",
   "status": "partial",
   "theorems": [
    "TM.Terry.status_shown_partial",
    "TM.Terry.completes_iff",
    "TM.Terry.status_by_chance",
    "TM.Terry.one_checker_stops_all"
   ],
   "note": "The code violates it: with a checker that does not compile the final status is solved or skipped by chance (status_by_chance), and a checker whose sandbox fails aborts the evaluation of all the solutions (one_checker_stops_all)."
  },
  {
   "property": "C94",
   "status": "proved",
   "theorems": [
    "TM.Terry.executions_notified",
    "TM.Terry.notices_in_order",
    "TM.Terry.same_outcomes",
    "TM.Terry.same_shown"
   ],
   "note": "same_shown assumes that checkers give their output, see C93; the other statuses (solved/skipped) may differ, see C93."
  },
  {
   "property": "C95",
   "status": "partial",
   "theorems": [
    "TM.BadCase.reported_is_bad",
    "TM.BadCase.error_is_real",
    "TM.BadCase.errors_reported",
    "TM.BadCase.statuses_shown",
    "TM.BadCase.batches_shown",
    "TM.BadCase.found_stops",
    "TM.BadCase.found_is_reported_partial",
    "TM.BadCase.Sample.lost_by_race",
    "TM.BadCase.Sample.panic_by_race"
   ],
   "note": "The code violates the last part: the main thread goes on with the next batch before the UI has handled the messages of the previous one, so a bad case may be lost (lost_by_race) and the UI may panic (panic_by_race). Proved if the UI keeps up. Soundness of what is reported, and the statuses, hold for every interleaving."
  },
  {
   "property": "C96",
   "status": "partial",
   "theorems": [
    "TM.BadCase.batch_task",
    "TM.BadCase.no_batch",
    "TM.BadCase.batch_prepared",
    "TM.BadCase.patch_succeeds",
    "TM.BadCase.patched_io",
    "TM.BadCase.patched_answer_partial",
    "TM.BadCase.patched_elsewhere",
    "TM.BadCase.patched_dag",
    "TM.BadCase.patched_accepted",
    "TM.BadCase.Sample.two_processes_fail",
    "TM.BadCase.Sample.outfile_not_saved"
   ],
   "note": "The code violates it: it always stops with an error if the solutions are two processes or more (two_processes_fail; patch_succeeds says exactly when it works), and the output of the solution is saved only if it is the standard output (outfile_not_saved). Hypotheses: those of C56 on the task (Fits), the executables are not saved among the inputs and outputs (Places)."
  },
  {
   "property": "C97",
   "status": "partial",
   "theorems": [
    "TM.Fuzz.corpus_exact",
    "TM.Fuzz.corpus_complete_partial",
    "TM.Fuzz.failure_exact",
    "TM.Fuzz.failures_complete",
    "TM.Fuzz.output_name",
    "TM.Fuzz.readme_partial",
    "TM.Fuzz.Sample.shared_testcase_stops",
    "TM.Fuzz.Sample.stale_failures_shown",
    "TM.Fuzz.Sample.readme_wrong"
   ],
   "note": "The code violates it: testcases shared by subtasks are counted twice and the tool stops (shared_testcase_stops), failures of a previous run stay if there are none now (stale_failures_shown), the README always says output-crash.txt (readme_wrong). libFuzzer and the compilation are not modelled; a little endian machine."
  },
  {
   "property": "C98",
   "status": "partial",
   "theorems": [
    "TM.Booklet.statement_lines",
    "TM.Booklet.Spec.Line.unique",
    "TM.Booklet.statement_text",
    "TM.Booklet.booklet_text",
    "TM.Booklet.no_package_in_statement_partial",
    "TM.Booklet.escaped_package",
    "TM.Booklet.split_package",
    "TM.Booklet.commented_package"
   ],
   "note": "The text is proved exactly (statement_lines, statement_text, booklet_text). The last part is violated by the code: a \\usepackage after a backslash becomes active (escaped_package), one whose argument is on another line stays where it is (split_package), and one the author commented out is loaded (commented_package)."
  },
  {
   "property": "C99",
   "status": "partial",
   "theorems": [
    "TM.Booklet.shown_iff",
    "TM.Booklet.every_error_shown_partial",
    "TM.Booklet.errors_sorted",
    "TM.Booklet.warned_iff",
    "TM.Booklet.error_hidden"
   ],
   "note": "The code violates it: an error without a line in the log hides the next one and takes its line (error_hidden). shown_iff says exactly what is shown."
  },
  {
   "property": "C100",
   "status": "proved",
   "theorems": [
    "TM.Booklet.booklets_accepted",
    "TM.Booklet.booklets_compiled",
    "TM.Booklet.sandbox_file",
    "TM.Booklet.sandbox_only",
    "TM.Booklet.booklets_only_missing_files",
    "TM.Booklet.statement_overridden"
   ],
   "note": "Specification: Booklet/Spec.lean (Compiles, Entry, Needed, Draws, Crops, Before). Two files of the sandbox with the same path are possible (statement_overridden: a file statement.tex in the statement's directory replaces the generated one); the sandbox then holds one of them, and sandbox_file says which when there is only one."
  },
  {
   "property": "C101",
   "status": "proved",
   "theorems": [
    "TM.Booklet.task_undisturbed",
    "TM.Booklet.booklets_reported"
   ],
   "note": "Exact list of the added executions and of the messages."
  },
  {
   "property": "C102",
   "status": "partial",
   "theorems": [
    "TM.Booklet.own_pdf_not_copied_partial",
    "TM.Booklet.picture_uses_old_pdf"
   ],
   "note": "Holds for the sandbox of LaTeX; false for the sandbox of Asymptote, which receives every file of its directory, the old pdf of the booklet included (picture_uses_old_pdf)."
  },
  {
   "property": "C103",
   "status": "partial",
   "theorems": [
    "TM.Format.written_gen_partial",
    "TM.Format.written_header",
    "TM.Format.whole_expressible",
    "TM.Format.written_unreadable",
    "TM.Format.written_deps_lost"
   ],
   "note": "Proved for every cases.gen that gen/GEN can express (Expressible: whole points, names the other reader accepts, words for copied paths and program names). False in general, with witnesses: points with a fraction, copied paths with a blank, names with a star make the written file unreadable (written_unreadable), dependencies are never written (written_deps_lost), and the name of the generator program becomes the first argument (SameEntry.command)."
  },
  {
   "property": "C104",
   "status": "partial",
   "theorems": [
    "TM.Find.ioi_solutions_partial",
    "TM.Find.terry_solutions_partial",
    "TM.Find.graders_left_out_partial",
    "TM.Find.solution_dropped",
    "TM.Find.grader_evaluated",
    "TM.Find.bad_filter_panics"
   ],
   "note": "The list is characterised exactly (ioi_solutions_partial, terry_solutions_partial: Candidate, Selected, Loadable of Find/Spec.lean). False in general, with witnesses: a solution whose checks cannot be read is silently dropped (solution_dropped), a grader may be evaluated as a solution (grader_evaluated), a filter without a file name panics (bad_filter_panics). graders_left_out_partial says when graders are left out."
  },
  {
   "property": "C105",
   "status": "partial",
   "theorems": [
    "TM.Find.find_task_exact",
    "TM.Find.search_goes_up_partial",
    "TM.Find.broken_task_skipped",
    "TM.Find.dotdot_goes_down"
   ],
   "note": "find_task_exact says exactly what is found. False in general: a broken task is skipped for one above it (broken_task_skipped), and a path with .. makes the search go down (dotdot_goes_down)."
  },
  {
   "property": "C106",
   "status": "partial",
   "theorems": [
    "TM.Find.task_booklets_partial",
    "TM.Find.contest_booklets_partial",
    "TM.Find.contest_tool",
    "TM.Find.same_contest_refused",
    "TM.Find.contest_yaml_breaks_task"
   ],
   "note": "Exact, without hidden .tex files. False in general: the same contest written in two ways is refused (same_contest_refused), a malformed contest.yaml next to a task makes it unusable (contest_yaml_breaks_task)."
  },
  {
   "property": "C107",
   "status": "partial",
   "theorems": [
    "TM.Find.copy_files_exact",
    "TM.Find.competition_files_partial",
    "TM.Find.statement_replaced",
    "TM.Find.other_task_copied",
    "TM.Find.old_file_stays"
   ],
   "note": "copy_files_exact: the copy of a task, exactly; competition_files_partial: a whole contest, for contests where directories have the names of the tasks and no attachment has the name of a statement (TidyContest). False in general, with witnesses: an attachment with the name of a statement replaces it (statement_replaced), the files are taken from the directory with the name of the task even if the task is elsewhere (other_task_copied), old files stay (old_file_stays)."
  },
  {
   "property": "C108",
   "status": "proved",
   "theorems": [
    "TM.Build.samples_accepted",
    "TM.Build.samples_tested",
    "TM.Build.samples_events",
    "TM.Build.samples_undisturbed",
    "TM.Build.samples_nothing_else",
    "TM.Build.samples_silent",
    "TM.Build.samples_only_missing_files",
    "TM.Build.samples_only_batch",
    "TM.Build.invalid_shown",
    "TM.Build.failure_shown",
    "TM.Build.difference_shown",
    "TM.Build.score_shown",
    "TM.Build.samples_no_score"
   ],
   "note": "SampleTested (Build/SamplesSpec.lean) says what is done with a pair. The booklets, added to the DAG between the testcases and the hook, are left out; the texts of the diagnostics are not modelled, only what they are about; an error of the hook gives no state."
  },
  {
   "property": "C109",
   "status": "proved",
   "theorems": [
    "TM.Parse.validator_found",
    "TM.Parse.official_found",
    "TM.Parse.generators_found",
    "TM.Parse.manager_found",
    "TM.Parse.checker_found",
    "TM.Parse.kind_exact",
    "TM.Parse.kind_error",
    "TM.Parse.no_extension_ignored",
    "TM.Parse.backup_refused"
   ],
   "note": "Parts are sources with the name, a dot and an extension: the patterns without an extension that the code also tries never match a known language (no_extension_ignored). A backup such as solution.old.cpp makes the task refused (backup_refused). The file system has no links; the path of the task has no glob characters."
  },
  {
   "property": "C110",
   "status": "proved",
   "theorems": [
    "TM.Parse.yaml_exact",
    "TM.Parse.orig_exact",
    "TM.Parse.written_yaml",
    "TM.Parse.yaml_refused",
    "TM.Parse.orig_stricter"
   ],
   "note": "From the parsed mapping (serde_yaml is a parameter; numbers are exact). A null for a field with a default is refused, for an optional field is the same as a missing field."
  },
  {
   "property": "C111",
   "status": "partial",
   "theorems": [
    "TM.Parse.parse_sound",
    "TM.Parse.parse_total",
    "TM.Parse.parse_order",
    "TM.Parse.written_task",
    "TM.Parse.written_params",
    "TM.Parse.parse_wf",
    "TM.Parse.orig_panics",
    "TM.Parse.validators_of_cases_refused",
    "TM.Parse.batch_orders"
   ],
   "note": "Exact (parse_sound and parse_total) with the hypothesis in parse_total that there are not two validators: two of them are refused even when gen/cases.gen does not use them (validators_of_cases_refused); a task with task.yaml.orig cannot be loaded from a path that ends with .. (orig_panics). The booklets are C106, the files written are C65-C68 and C103."
  },
  {
   "property": "C112",
   "status": "proved",
   "theorems": [
    "TM.Report.report_never_panics",
    "TM.Report.report_printed",
    "TM.Report.report_parts"
   ],
   "note": "For every sequence of messages about the task, and for every run of the client."
  },
  {
   "property": "C113",
   "status": "partial",
   "theorems": [
    "TM.Report.summary_exact",
    "TM.Report.summary_aligned",
    "TM.Report.letter_shown_partial"
   ],
   "note": "The lines, the scores and the letters are proved for all the tasks; what a letter means in terms of the executions is proved for the batch tasks (for the communication tasks see Ui.communication_status_lost)."
  },
  {
   "property": "C114",
   "status": "proved",
   "theorems": [
    "TM.Report.table_exact",
    "TM.Report.table_aligned"
   ],
   "note": "With C72 for what the checks are."
  },
  {
   "property": "C115",
   "status": "proved",
   "theorems": [
    "TM.Report.generations_exact",
    "TM.Report.generated_shown"
   ],
   "note": "With C75."
  },
  {
   "property": "C116",
   "status": "proved",
   "theorems": [
    "TM.Report.evaluations_exact"
   ],
   "note": "The resources of a process are a text given by the view."
  },
  {
   "property": "C117",
   "status": "partial",
   "theorems": [
    "TM.Report.from_cache_partial",
    "TM.Report.cache_claimed_always",
    "TM.Report.cache_claimed"
   ],
   "note": "False for the testcases without results: they are always reported as coming from the cache (cache_claimed); proved when at least one execution ended."
  },
  {
   "property": "C118",
   "status": "partial",
   "theorems": [
    "TM.Remote.detect_iff",
    "TM.Remote.magic_unique",
    "TM.Remote.unknown_iff_partial",
    "TM.Remote.err_iff",
    "TM.Remote.unknown_not_documented",
    "TM.Remote.validate_iff"
   ],
   "note": "Recognition is exact; the documented Ok(None) is not given for unrecognised files shorter than 5 bytes, which are read errors (unknown_not_documented)."
  },
  {
   "property": "C119",
   "status": "partial",
   "theorems": [
    "TM.Remote.connect_tcp",
    "TM.Remote.connect_unix",
    "TM.Remote.connect_other",
    "TM.Remote.password_used",
    "TM.Remote.bare_address_partial",
    "TM.Remote.host_port_refused",
    "TM.Remote.bare_address_not_always"
   ],
   "note": "The grammar of URLs after the scheme, name resolution and sockets are parameters. False for host:port with a name as host: it is taken for a scheme and refused (host_port_refused)."
  },
  {
   "property": "C120",
   "status": "partial",
   "theorems": [
    "TM.Remote.delivered_iff",
    "TM.Remote.answer_iff",
    "TM.Remote.one_answer",
    "TM.Remote.both_agree",
    "TM.Remote.all_served_partial",
    "TM.Remote.silent_blocks",
    "TM.Remote.not_always_served",
    "TM.Remote.bind_key",
    "TM.Remote.worker_number_lost"
   ],
   "note": "A peer that stays silent blocks all the ones after it (silent_blocks, not_always_served); proved when no peer stays silent. The number of a worker does not reach the server (worker_number_lost)."
  },
  {
   "property": "C121",
   "status": "proved",
   "theorems": [
    "TM.Dot.graph_none_iff",
    "TM.Dot.graph_of_accepted",
    "TM.Dot.nodes_spec",
    "TM.Dot.edges_spec",
    "TM.Dot.edges_closed",
    "TM.Dot.nodes_sorted"
   ],
   "note": ""
  },
  {
   "property": "C122",
   "status": "partial",
   "theorems": [
    "TM.Dot.label_roundtrip_partial",
    "TM.Dot.label_backslash_breaks"
   ],
   "note": "Proved for labels without backslashes; false with one (label_backslash_breaks)."
  },
  {
   "property": "C123",
   "status": "partial",
   "theorems": [
    "TM.Known.starts_partial",
    "TM.Known.starts_no_args",
    "TM.Known.wrong_program",
    "TM.Known.starts_not_always",
    "TM.Known.compiled_exe_there",
    "TM.Known.script_there",
    "TM.Known.langName_inj"
   ],
   "note": "The code violates it for C# and JavaScript programs with arguments: starts_not_always is the witness on a whole task, wrong_program says what happens."
  },
  {
   "property": "C124",
   "status": "proved",
   "theorems": [
    "TM.Known.sourceName_notOption",
    "TM.Known.compile_output",
    "TM.Known.compile_eval",
    "TM.Known.compile_source",
    "TM.Known.compile_flags",
    "TM.Known.config_spec",
    "TM.Known.fpcCfg_first"
   ],
   "note": ""
  },
  {
   "property": "C125",
   "status": "partial",
   "theorems": [
    "TM.Session.shown_in_order",
    "TM.Session.returned_complete",
    "TM.Session.no_panic",
    "TM.Session.executor_failure",
    "TM.Session.report_not_always",
    "TM.Session.report_at_end_partial"
   ],
   "note": "The code panics without the final report when the local executor fails (report_not_always); otherwise proved."
  },
  {
   "property": "C126",
   "status": "proved",
   "theorems": [
    "TM.Session.never_stuck",
    "TM.Session.terminates",
    "TM.Session.can_end",
    "TM.Session.told_before_wait",
    "TM.Session.ctrlC_stops",
    "TM.Session.no_spurious_stop"
   ],
   "note": "That the client and the executor themselves end is C45 and C08."
  },
  {
   "property": "C127",
   "status": "proved",
   "theorems": [
    "TM.Build.junk_accepted",
    "TM.Build.junk_tried",
    "TM.Build.junk_events",
    "TM.Build.junk_undisturbed",
    "TM.Build.junk_nothing_else",
    "TM.Build.junk_silent",
    "TM.Build.junk_only_missing_files",
    "TM.Build.junk_only_custom",
    "TM.Build.junk_shown"
   ],
   "note": ""
  },
  {
   "property": "C128",
   "status": "partial",
   "theorems": [
    "TM.Diag.diagnostic_rows_partial",
    "TM.Diag.rows_not_always",
    "TM.Diag.lines_of_text",
    "TM.Diag.attachment_short",
    "TM.Diag.nothing_lost",
    "TM.Diag.report_order"
   ],
   "note": "The rows are not those when the note is the empty text (rows_not_always); otherwise proved."
  },
  {
   "property": "C129",
   "status": "partial",
   "theorems": [
    "TM.Diag.marks_partial",
    "TM.Diag.marks_not_always"
   ],
   "note": "The code violates it for lines with characters of more than one byte (marks_not_always)."
  },
  {
   "property": "C130",
   "status": "proved",
   "theorems": [
    "TM.Terry.fuzz_no_outputs",
    "TM.Terry.fuzz_accepted",
    "TM.Terry.fuzz_tried",
    "TM.Terry.fuzz_events",
    "TM.Terry.fuzz_no_outcome",
    "TM.Terry.fuzz_undisturbed",
    "TM.Terry.fuzz_nothing_else",
    "TM.Terry.fuzz_silent",
    "TM.Terry.fuzz_only_missing_files",
    "TM.Terry.fuzz_shown"
   ],
   "note": ""
  },
  {
   "property": "C131",
   "status": "proved",
   "theorems": [
    "TM.Parse.Terry.loaded_exact",
    "TM.Parse.Terry.refused_exact",
    "TM.Parse.Terry.only_sources",
    "TM.Parse.Terry.executables_apart",
    "TM.Parse.Terry.platforms",
    "TM.Parse.Terry.loaded_is_valid"
   ],
   "note": "An old version of a manager beside it (generator.old.py) makes the task be refused: backup_refused."
  },
  {
   "property": "C132",
   "status": "partial",
   "theorems": [
    "TM.Terry.Report.summary_exact",
    "TM.Terry.Report.evaluations_exact",
    "TM.Terry.Report.final_summary",
    "TM.Terry.Report.summary_unique",
    "TM.Terry.Report.cases_all_shown_partial",
    "TM.Terry.Report.scores_differ",
    "TM.Terry.Report.cases_lost"
   ],
   "note": "All but the last sentence holds: the points of the summary are cut and those of the evaluations are rounded (scores_differ: 28 and 29.00), and the cases that are in only one of the lists of the checker are left out (cases_lost); cases_all_shown_partial: if the lists have the same length there is a letter for each case."
  },
  {
   "property": "C133",
   "status": "partial",
   "theorems": [
    "TM.Sanity.Bits.reported_partial",
    "TM.Sanity.Bits.find_exact",
    "TM.Sanity.Bits.other_directory",
    "TM.Sanity.Bits.split_directive"
   ],
   "note": "Proved when task-maker is started in the directory of the task and no directive has a new line inside. Otherwise it is false: the files are read relative to the current directory, so that from another one (also a subdirectory of the task) nothing is reported (other_directory), and a directive split on two lines makes the check fail (split_directive)."
  },
  {
   "property": "C134",
   "status": "proved",
   "theorems": [
    "TM.Sanity.Pdf.valid_exact",
    "TM.Sanity.Pdf.compiled_exact",
    "TM.Sanity.Pdf.git_exact",
    "TM.Sanity.Pdf.official_good"
   ],
   "note": "The disk has directories, files and links with absolute targets; permissions are not in the model. The hypothesis Roomy says that the limit of the kernel on links is never reached; it is proved for disks whose links are to files (roomy_files). The name of a file of git has no NUL byte. The output of git is an input."
  },
  {
   "property": "C135",
   "status": "partial",
   "theorems": [
    "TM.Sanity.Att.samples_exact",
    "TM.Sanity.Att.missing_exact_partial",
    "TM.Sanity.Att.samples_same",
    "TM.Sanity.Att.missing_false_alarm"
   ],
   "note": "Missing: the exactness of the missing files when the real name of an input does not contain input; the code looks at the name of the file the link leads to, so that a sample of the task linked in att/ under a name of input is said to be missing (missing_false_alarm). The order of the files inside a message is not in the model; Roomy is as in C134."
  },
  {
   "property": "C136",
   "status": "partial",
   "theorems": [
    "TM.Sanity.Att.directories_exact_partial",
    "TM.Sanity.Att.directory_hidden",
    "TM.Sanity.Att.templates_exact",
    "TM.Sanity.Att.templates_none",
    "TM.Sanity.Att.templates_task",
    "TM.Sanity.Att.solTemplates_exact",
    "TM.Sanity.Att.brokenLinks_exact"
   ],
   "note": "Missing: the directories when an attachment leads nowhere; the check stops there with an error and the directories after it are not reported (directory_hidden). The names of the directories and the files of the task, as listed, are inputs."
  },
  {
   "property": "C137",
   "status": "partial",
   "theorems": [
    "TM.Reset.only_confirmed",
    "TM.Reset.removed_iff",
    "TM.Reset.wiped_partial",
    "TM.Reset.not_wiped",
    "TM.Reset.outside_partial",
    "TM.Reset.outside_changed",
    "TM.Reset.left_before"
   ],
   "note": "removed_iff is exact. Missing: the removal when a directory that cannot be listed has a read-only directory inside (not_wiped: WalkDir opens a directory before its mode is changed; the tool succeeds anyway), and the directories outside of the storage when a link leads to one (outside_changed: metadata and set_permissions follow links). The listing before the closure is the documented order of the walkdir crate, whose source is not in the repository. Only the permissions of the owner are in the model; links to directories of the storage and a storage that is a link are left out."
  },
  {
   "property": "C138",
   "status": "proved",
   "theorems": [
    "TM.TaskInfo.subtasks_exact",
    "TM.TaskInfo.order_free",
    "TM.TaskInfo.max_reached",
    "TM.TaskInfo.fields_exact"
   ],
   "note": "The scores are exact rationals, in the code they are floats: a sum of floats can depend on the order. The statements and the attachments of the information are in C107. max_reached is about the ScoreManager of Score.Model."
  },
  {
   "property": "C139",
   "status": "partial",
   "theorems": [
    "TM.Sandbox.shell_sees_only",
    "TM.Sandbox.shell_sees_all",
    "TM.Sandbox.shell_program",
    "TM.Sandbox.shell_limits_partial",
    "TM.Sandbox.limit_wraps",
    "TM.Sandbox.shell_users"
   ],
   "note": "Everything holds but the limits of 2^54 KiB or more, which wrap (limit_wraps: 2^54+1 KiB become 1024 bytes, in the release build). A directory asked for that is /etc, /box or above them hides those. A relative directory is mounted at a relative path: what tabox does with it is not in the model."
  },
  {
   "property": "C140",
   "status": "partial",
   "theorems": [
    "TM.Kill.signal_number",
    "TM.Kill.signal_reaches_partial",
    "TM.Kill.another_only_late",
    "TM.Kill.hits_another",
    "TM.Kill.hits_another_race",
    "TM.Kill.known_not_lost_partial",
    "TM.Kill.call_lost",
    "TM.Kill.kill_bounded",
    "TM.Kill.kill_free"
   ],
   "note": "The code violates it twice: the number of a process is kept after it has been waited for, so the signal may reach a process that got the number later (hits_another, hits_another_race; only then: another_only_late); a request is lost if the process takes more than a second to start (call_lost). What tabox does when it gets the signal is not in the model."
  }
 ]
}