{"id": "C01", "title": "DAG validation accepts exactly the well-formed acyclic DAGs", "statement": "Checking an execution DAG before evaluating it returns Ok if and only if: no group is empty, no two FIFOs share a uuid, no two executions share a uuid, no file is defined twice (as provided file or execution output), every execution that captures a standard stream also declares that stream as an output, every file read by an execution is defined, every callback refers to a known execution or file, and there is an order of the groups in which every file is produced before it is read. It never panics.", "quantifier": "every DAG (any number of groups, executions, files and callbacks) and every iteration order of the hash maps inside it", "why_tests_cant": "soundness and completeness of a topological-sort validator range over all graphs and all hash-map iteration orders", "anchors": ["task-maker-exec/src/check_dag.rs:check_dag", "task-maker-dag/src/execution.rs:Execution::dependencies", "task-maker-dag/src/execution.rs:Execution::outputs"]}
{"id": "C02", "title": "Exit status classification honours limits in a fixed precedence", "statement": "The status computed from the exit code, the signal and the used resources is: time limit exceeded iff a cpu limit is set and exceeded; else system-time limit; else wall-time limit; else memory limit; else signal iff killed by one; else return code iff non-zero; else success. In particular Success is returned iff no limit is exceeded, there was no signal and the exit code is zero; raising limits never turns Success into a failure.", "quantifier": "every combination of limits, exit code, signal and resource usage", "why_tests_cant": "the limits and the measured resources are unbounded numbers", "anchors": ["task-maker-dag/src/execution.rs:Execution::status", "task-maker-dag/src/execution.rs:ExecutionLimits"]}
{"id": "C03", "title": "A job is sent to a worker only when all its inputs exist", "statement": "Whenever the scheduler sends a job to a worker, every file the group depends on was either provided by the client or produced by a group of the same client which finished successfully, and the dependency list attached to the job maps each of those files to the content key recorded for that file.", "quantifier": "every accepted DAG, every number of clients and workers, every sequence of scheduler messages, every hash-map iteration order and every cache content", "why_tests_cant": "needs every interleaving of worker results, file arrivals, disconnections and cache hits", "anchors": ["task-maker-exec/src/scheduler.rs:Scheduler::assign_jobs", "task-maker-exec/src/scheduler.rs:Scheduler::file_success", "task-maker-exec/src/scheduler.rs:Scheduler::handle_evaluate_dag"]}
{"id": "C04", "title": "Every group ends exactly once, as done or as skipped", "statement": "Within one evaluation each execution group is completed (its results are reported) or skipped at most once, and never both.", "quantifier": "every accepted DAG, every history of scheduler messages, every iteration order", "why_tests_cant": "a double report only shows up for particular DAG shapes and interleavings", "anchors": ["task-maker-exec/src/scheduler.rs:Scheduler::exec_completed", "task-maker-exec/src/scheduler.rs:Scheduler::file_failed", "task-maker-exec/src/scheduler.rs:Scheduler::handle_evaluate_dag"]}
{"id": "C05", "title": "Failures propagate exactly to the transitive dependents", "statement": "A group is skipped only if one of the files it depends on, directly or through other skipped groups, comes from a group that did not succeed; and once a group has not succeeded none of the groups depending on its outputs is ever sent to a worker.", "quantifier": "every accepted DAG, every history, every iteration order", "why_tests_cant": "reachability in arbitrary graphs under arbitrary interleavings", "anchors": ["task-maker-exec/src/scheduler.rs:Scheduler::file_failed", "task-maker-exec/src/scheduler.rs:Scheduler::exec_completed"]}
{"id": "C06", "title": "The final outcome does not depend on the schedule", "statement": "If the success of each group is a function of the DAG only, then in any two complete runs of the same DAG (different workers, orders of results, disconnections) exactly the same groups are completed and exactly the same groups are skipped: the completed ones are those all of whose inputs are provided or produced, transitively, by successful groups.", "quantifier": "every accepted DAG, every success function and every pair of complete runs", "why_tests_cant": "confluence over all schedules", "anchors": ["task-maker-exec/src/scheduler.rs:Scheduler"]}
{"id": "C07", "title": "Completion is announced only when nothing is left", "statement": "When the scheduler announces to a client that the evaluation is done because the work is finished, no group of that client is waiting for inputs, is ready, or is being run by a worker.", "quantifier": "every history of scheduler messages and iteration order", "why_tests_cant": "depends on the interleaving of all clients' messages", "anchors": ["task-maker-exec/src/scheduler.rs:Scheduler::check_completion", "task-maker-exec/src/scheduler.rs:SchedulerClientData::is_done"]}
{"id": "C08", "title": "Completion is announced whenever nothing is left", "statement": "After each scheduler event, every connected client whose evaluation has nothing waiting, ready or running has been told that the evaluation is done.", "quantifier": "every history of scheduler messages, cache content and iteration order", "why_tests_cant": "needs the exact cache state and cross-client interaction", "anchors": ["task-maker-exec/src/scheduler.rs:Scheduler::handle_evaluate_dag", "task-maker-exec/src/scheduler.rs:Scheduler::schedule_cached"]}
{"id": "C09", "title": "The scheduler is work conserving", "statement": "After each scheduler event there is not both an idle connected worker and a group ready to run.", "quantifier": "every history of scheduler messages and iteration order", "why_tests_cant": "needs the interleaving of disconnections and results", "anchors": ["task-maker-exec/src/scheduler.rs:Scheduler::assign_jobs", "task-maker-exec/src/scheduler.rs:Scheduler::handle_worker_disconnected"]}
{"id": "C10", "title": "A job of a lost worker is not lost", "statement": "If a worker disconnects while running a group of a connected client, that group is put back among the ready ones (with its inputs), and the next time jobs are assigned to enough workers it is sent again.", "quantifier": "every history", "why_tests_cant": "crash points of workers are arbitrary", "anchors": ["task-maker-exec/src/scheduler.rs:Scheduler::handle_worker_disconnected"]}
{"id": "C11", "title": "No worker runs two jobs and no running group is ready", "statement": "At any time each connected worker has at most one job, a group is never at the same time waiting for inputs and ready or running, and jobs only belong to connected clients or have been told to stop.", "quantifier": "every history", "why_tests_cant": "global invariant over all interleavings", "anchors": ["task-maker-exec/src/scheduler.rs:Scheduler::assign_jobs", "task-maker-exec/src/scheduler.rs:ConnectedWorker"]}
{"id": "C12", "title": "Jobs are dispatched by priority", "statement": "Among the groups ready when a job is assigned, the assigned one has the maximal pair (DAG priority, priority); the recorded pair is (priority of the DAG, priority of one of its executions) for a group without inputs, and (the maximal DAG priority, the largest priority of its executions) for a group unlocked by its last input or requeued after its worker was lost.", "quantifier": "every ready set", "why_tests_cant": "all heap contents", "anchors": ["task-maker-exec/src/scheduler.rs:Scheduler::assign_jobs"]}
{"id": "C13", "title": "A disconnected client leaves no work behind", "statement": "After a client disconnects or asks to stop, none of its groups is ready, every worker running one of its groups has been told to stop, and no later event dispatches a group of that client or sends it a message; the state of the other clients is unchanged.", "quantifier": "every history", "why_tests_cant": "all crash points of clients", "anchors": ["task-maker-exec/src/scheduler.rs:Scheduler::handle_client_disconnected"]}
{"id": "C14", "title": "The scheduler never hits an internal lookup panic", "statement": "Processing any sequence of messages, starting from accepted DAGs, never indexes a missing client, group or file handle.", "quantifier": "every history and every accepted DAG", "why_tests_cant": "panic freedom over all interleavings", "anchors": ["task-maker-exec/src/scheduler.rs:Scheduler::assign_jobs", "task-maker-exec/src/scheduler.rs:Scheduler::cache_execution"]}
{"id": "C15", "title": "Only cacheable groups use the cache", "statement": "A group is looked up in the cache only if the client's cache mode allows it (Everything, or Except(tags) with the tag of the group not listed), and with cache mode Nothing no result is ever taken from the cache.", "quantifier": "every cache mode, DAG and history", "why_tests_cant": "history dependent", "anchors": ["task-maker-exec/src/scheduler.rs:Scheduler::is_cacheable", "task-maker-exec/src/scheduler.rs:Scheduler::schedule_cached", "task-maker-dag/src/dag.rs:CacheMode"]}
{"id": "C16", "title": "A cache hit needs the same command, inputs and environment", "statement": "Two groups have the same cache key iff they have the same number of executions and, position by position, the same command, arguments (up to a consistent renaming of the group's FIFOs), standard input content, environment, and input files (path, content, executable flag); the key does not depend on hash-map iteration order.", "quantifier": "all pairs of groups", "why_tests_cant": "injectivity over unbounded inputs", "anchors": ["task-maker-cache/src/key.rs:CacheKey", "task-maker-cache/src/key.rs:CacheKeyItem"]}
{"id": "C17", "title": "A cached result is served only when the limits allow it", "statement": "If a cached success is served then no limit of the new request is stricter than the limits it ran with (extra time/memory accounted), and if a cached failure is served no limit of the new request is looser; the sandbox permissions are compatible.", "quantifier": "all pairs of limit records", "why_tests_cant": "all unbounded limit combinations", "anchors": ["task-maker-cache/src/entry.rs:CacheEntry::is_compatible"]}
{"id": "C18", "title": "A served result is the one a fresh run would give", "statement": "For a deterministic program whose resource usage is fixed, if a cached result is served for a request with the same key, the status reported is the status a fresh run under the requested limits would report.", "quantifier": "all pairs of limits, every resource usage", "why_tests_cant": "unbounded numbers, two runs compared", "anchors": ["task-maker-cache/src/lib.rs:Cache::get", "task-maker-cache/src/entry.rs:CacheEntry::is_compatible", "task-maker-dag/src/execution.rs:Execution::status"]}
{"id": "C19", "title": "What is inserted in the cache can be found again", "statement": "After a result is inserted for a group, a lookup of the same group with the same limits, while the output files are still in the store, is a hit that returns the stored outcome and output files marked as coming from the cache; and each key keeps at most one entry per set of limits, the most recent one.", "quantifier": "every sequence of inserts and lookups", "why_tests_cant": "unbounded histories", "anchors": ["task-maker-cache/src/lib.rs:Cache::insert", "task-maker-cache/src/lib.rs:Cache::get", "task-maker-cache/src/entry.rs:CacheEntry::same_limits"]}
{"id": "C20", "title": "A cache hit delivers every requested output", "statement": "A lookup is a hit only if every output file of the group (files, stdout, stderr) that the DAG declares is recorded in the entry and present in the store; the keys returned are exactly the recorded ones and every declared output has one; requested captured streams are present too.", "quantifier": "every entry, every store content", "why_tests_cant": "depends on arbitrary earlier evictions", "anchors": ["task-maker-cache/src/entry.rs:CacheEntry::outputs", "task-maker-cache/src/lib.rs:Cache::get"]}
{"id": "C21", "title": "A file in use is never evicted", "statement": "While at least one handle to a file is alive the file is not removed by any flush of the store.", "quantifier": "every sequence of store operations (store, get, clone and drop of handles, flush)", "why_tests_cant": "history dependent", "anchors": ["task-maker-store/src/index.rs:FileStoreIndex::flush", "task-maker-store/src/lib.rs:FileStoreHandle"]}
{"id": "C22", "title": "Flushing brings the store below its target", "statement": "After a flush either the recorded total size is at most the target or every remaining indexed file is in use; the total size recorded always equals the sum of the sizes of the indexed files, and a flush is started only when the total reaches the maximum.", "quantifier": "every sequence of store operations, every size", "why_tests_cant": "history dependent, unbounded", "anchors": ["task-maker-store/src/index.rs:FileStoreIndex::flush", "task-maker-store/src/index.rs:FileStoreIndex::add"]}
{"id": "C23", "title": "Eviction is least-recently-used", "statement": "A flush removes the least recently used files first: no removed file was accessed more recently than an unlocked file which is kept.", "quantifier": "every index content", "why_tests_cant": "all access histories", "anchors": ["task-maker-store/src/index.rs:FileStoreIndex::flush"]}
{"id": "C24", "title": "Stored content is immutable and found again", "statement": "After storing content under its key (the hash of the content), the file of that key has exactly the bytes stored under it, until it is evicted; storing again under the same key or any crash in the middle of a store never changes or truncates visible content; different keys use different paths.", "quantifier": "every sequence of operations and every crash point", "why_tests_cant": "crash points", "anchors": ["task-maker-store/src/lib.rs:FileStore::store", "task-maker-store/src/lib.rs:FileStore::get", "task-maker-store/src/lib.rs:FileStoreKey::suffix"]}
{"id": "C25", "title": "Handle reference counts are exact", "statement": "The number of references kept for a file always equals the number of live handles, and the bookkeeping entry disappears with the last one.", "quantifier": "every sequence of handle creations, clones and drops", "why_tests_cant": "history dependent", "anchors": ["task-maker-store/src/lib.rs:FileStoreHandle"]}
{"id": "C26", "title": "Index and cache files survive crashes", "statement": "Saving and loading the index or the cache is a round trip; a crash at any point of a save leaves either the old or the new content; a file written by a different version is read as empty.", "quantifier": "every content and every crash point", "why_tests_cant": "crash points", "anchors": ["task-maker-store/src/index.rs:FileStoreIndex::store", "task-maker-store/src/index.rs:FileStoreIndex::load", "task-maker-cache/src/storage.rs:CacheFile"]}
{"id": "C27", "title": "File transfer is lossless", "statement": "Sending a file (in chunks, or from memory) over a channel and iterating over it on the other side yields exactly the bytes sent and consumes exactly the messages of that transfer, also when transfers follow one another on the same channel.", "quantifier": "every content, every chunking, every sequence of transfers", "why_tests_cant": "unbounded data and framing", "anchors": ["task-maker-exec/src/proto.rs:ChannelFileSender", "task-maker-exec/src/proto.rs:ChannelFileIterator", "task-maker-store/src/read_file_iterator.rs:ReadFileIterator"]}
{"id": "C28", "title": "Client file callbacks receive exactly the requested content", "statement": "A content callback with limit n receives exactly the first n bytes of the file; a chunk callback receives all the bytes in order followed by one empty chunk; a destination path is written iff the file was produced successfully or failures are allowed for it, with the complete content and the executable flag requested.", "quantifier": "every content, chunking, limit and callback combination", "why_tests_cant": "unbounded data", "anchors": ["task-maker-exec/src/client.rs:process_provided_file", "task-maker-exec/src/client.rs:ExecutorClient::evaluate"]}
{"id": "C29", "title": "The executor delivers every ready file exactly once", "statement": "Urgent files are sent as soon as they are ready, the others when the evaluation ends, in order; no ready file is lost or duplicated and the evaluation-done message comes before the remaining files.", "quantifier": "every sequence of scheduler messages", "why_tests_cant": "histories", "anchors": ["task-maker-exec/src/executor.rs:Executor::handle_scheduler_messages"]}
{"id": "C30", "title": "A worker starts a job only when all the files are there", "statement": "A worker asks for exactly the missing dependencies of the job, starts the sandbox exactly once and only when all of them have been received, and ends up holding a handle for every dependency.", "quantifier": "every job, every local store content, every order of arriving files", "why_tests_cant": "arrival orders", "anchors": ["task-maker-exec/src/worker.rs:Worker::work"]}
{"id": "C31", "title": "The output capture is bounded as requested", "statement": "Capturing a stream with limit n returns exactly its first n bytes, or all of it if it is shorter; with no limit given nothing is captured.", "quantifier": "every stream content, chunking and limit", "why_tests_cant": "unbounded data", "anchors": ["task-maker-exec/src/worker.rs:capture_stream"]}
{"id": "C32", "title": "Scores are emitted once, when complete, and with the right value", "statement": "For each solution the score of a subtask is emitted exactly once, when the last of its testcases is scored, and equals max_score times the aggregation (minimum or average) of its testcases' scores; the score of the task is emitted exactly once, when the last subtask is scored, and equals the sum of the subtask scores; neither depends on the order in which the testcases complete.", "quantifier": "every task structure (shared testcases included) and every order of testcase scores", "why_tests_cant": "all completion orders", "anchors": ["task-maker-format/src/ioi/mod.rs:ScoreManager::score", "task-maker-format/src/ioi/mod.rs:TestcaseScoreAggregator::aggregate"]}
{"id": "C33", "title": "Score classification is exhaustive and monotone", "statement": "A score is Accepted iff within the tolerance of the maximum, WrongAnswer iff zero, Partial otherwise.", "quantifier": "every score and maximum", "why_tests_cant": "real-valued domain", "anchors": ["task-maker-format/src/testcase_score_status.rs:ScoreStatus::from_score"]}
{"id": "C34", "title": "Solution checks follow the minimal-outcome semantics", "statement": "A @check holds for a subtask iff some minimal outcome of its testcases (in the order accepted > partial > failures, failures not comparable) is one the check allows, a subtask without testcases counting as accepted; that is: accepted = all accepted, partial-score = some partial and the others accepted, a failure = some testcase with it, zero = some failure. Only the set of outcomes matters and a better outcome than one already there never changes the verdict.", "quantifier": "every multiset of outcomes", "why_tests_cant": "unbounded outcome lists", "anchors": ["task-maker-format/src/solution.rs:SolutionCheckResult::check", "task-maker-format/src/solution.rs:TestcaseEvaluationResult"]}
{"id": "C35", "title": "Suggested checks hold and are the tightest", "statement": "The check suggested for a subtask by the add-solution-checks tool always exists, holds for the observed results and is the first check in the documented order that does; its textual name parses back to the same check.", "quantifier": "every list of outcomes", "why_tests_cant": "unbounded outcome lists", "anchors": ["src/tools/add_solution_checks.rs:choose_check_for_subtask", "task-maker-format/src/solution.rs:SolutionCheckResult"]}
{"id": "C36", "title": "Subtask testcases are the transitive closure of the dependencies", "statement": "After loading a task the testcases of each subtask are exactly its own plus those of every subtask reachable through the dependency relation (cycles allowed), independently of the hash-map iteration order, and loading terminates.", "quantifier": "every dependency graph and iteration order", "why_tests_cant": "fixpoint iteration over arbitrary graphs and orders", "anchors": ["task-maker-format/src/ioi/format/italian_yaml/mod.rs:parse_task"]}
{"id": "C37", "title": "gen/GEN parsing numbers subtasks and testcases consecutively", "statement": "A successfully parsed gen/GEN gives subtasks numbered 0,1,2,... and testcases numbered 0,1,2,... in file order, every testcase after some subtask, the default 100-point subtask iff a testcase precedes any #ST, no two subtasks with the same name, and dependencies that only refer to subtasks defined in the file, sorted and without duplicates.", "quantifier": "every sequence of lines", "why_tests_cant": "all files", "anchors": ["task-maker-format/src/ioi/format/italian_yaml/gen_gen.rs:parse_gen_gen"]}
{"id": "C38", "title": "cases.gen constraints are enforced on every testcase", "statement": "If a cases.gen is accepted, each testcase produced by a generator with declared parameters satisfies every global constraint and every constraint of its subtask defined before it whose operands are all known; numbering is consecutive, generators and validators referenced are defined, and each subtask starts with the default generator and validator.", "quantifier": "every sequence of lines and every argument value", "why_tests_cant": "all files", "anchors": ["task-maker-format/src/ioi/format/italian_yaml/cases_gen.rs:CasesGen", "task-maker-format/src/ioi/format/italian_yaml/cases_gen.rs:Constraint"]}
{"id": "C39", "title": "Code spans point at the right text", "statement": "A code span built from a file content, an offset and a length either fails or denotes exactly the len bytes at that offset, which lie on one line, with the right 1-based line number; it fails iff the offset is on a newline or past the end or the span crosses a line end.", "quantifier": "every content, offset and length", "why_tests_cant": "all inputs", "anchors": ["task-maker-diagnostics/src/span.rs:CodeSpan::from_str"]}
{"id": "C40", "title": "Watched executions and files are notified exactly once", "statement": "A client is told that a watched execution started, is done or is skipped exactly each time its group is sent to a worker, completed or skipped, hence at most one final notification (exactly one once the group ended) for groups scheduled once; once a message has been handled every watched file of a connected client has been delivered exactly each time it was provided or its producer completed, marked with the outcome of the producer; unwatched executions are never mentioned.", "quantifier": "every history of the scheduler", "why_tests_cant": "all interleavings of clients, workers, cache answers and disconnections", "anchors": ["task-maker-exec/src/scheduler.rs:Scheduler::exec_completed", "task-maker-exec/src/scheduler.rs:Scheduler::file_failed", "task-maker-exec/src/scheduler.rs:Scheduler::send_file", "task-maker-exec/src/scheduler.rs:Scheduler::assign_jobs"]}
{"id": "C41", "title": "The scheduler always gets back to its messages", "statement": "The handling of each message terminates, whatever the answers of the cache and the iteration orders of the hash maps, although the functions called are mutually recursive.", "quantifier": "every reachable state, message, cache behaviour and iteration order", "why_tests_cant": "termination for all DAGs", "anchors": ["task-maker-exec/src/scheduler.rs:Scheduler::file_success", "task-maker-exec/src/scheduler.rs:Scheduler::file_failed", "task-maker-exec/src/scheduler.rs:Scheduler::schedule_cached", "task-maker-exec/src/scheduler.rs:Scheduler::exec_completed"]}
{"id": "C42", "title": "A handle gives access to its file", "statement": "The file of a handle returned by store or get exists for as long as the handle (or a clone of it) is alive; get returns a handle iff the file is in the store.", "quantifier": "every interleaving of store, get, clone, drop and flush in several threads", "why_tests_cant": "interleavings", "anchors": ["task-maker-store/src/lib.rs:FileStore::get", "task-maker-store/src/lib.rs:FileStore::store", "task-maker-store/src/lib.rs:FileStoreHandle"]}
{"id": "C43", "title": "The index accounts for the files on disk", "statement": "The total size recorded by the index is the number of bytes of the files in the store, so that the size limits bound the space used.", "quantifier": "every history of operations, failures and crash points", "why_tests_cant": "histories and crash points", "anchors": ["task-maker-store/src/index.rs:FileStoreIndex", "task-maker-store/src/lib.rs:FileStore"]}
{"id": "C44", "title": "Files and messages sharing a channel never mix", "statement": "When several threads send messages and files on the same channel, the receiver gets an interleaving of what each thread sent with every file whole; it never takes a part of a file for a message or vice versa.", "quantifier": "every schedule of the threads sharing a channel, every content", "why_tests_cant": "interleavings of threads", "anchors": ["task-maker-exec/src/client.rs:ExecutorClient::evaluate", "task-maker-exec/src/worker_manager.rs:WorkerManager::worker_thread", "src/context.rs", "task-maker-exec/src/executor.rs:Executor::handle_scheduler_messages"]}
{"id": "C45", "title": "The client gets every announced file and ends", "statement": "When the server announces the end of the evaluation the client asks exactly for the announced files it does not have, each once; whatever other messages arrive meanwhile it ends exactly when the last one has arrived and every announced file has then been processed exactly once with its content. Each callback of an execution is called exactly once per kind of event, the content callbacks at most once.", "quantifier": "every sequence of messages of the server", "why_tests_cant": "all message sequences", "anchors": ["task-maker-exec/src/client.rs:ExecutorClient::evaluate"]}
{"id": "C46", "title": "The worker protocol never gets stuck or fails", "statement": "A worker and the server's manager of that worker, exchanging messages over FIFO channels with kill requests at any time, never reach a failed assertion, an unexpected message or a deadlock; the worker is given work only when it asked for it, and for every job the scheduler receives exactly one result, with one handle for each declared output.", "quantifier": "every interleaving of the worker's threads, the manager, the scheduler and the kill requests; every job", "why_tests_cant": "interleavings of five threads", "anchors": ["task-maker-exec/src/worker.rs:Worker::work", "task-maker-exec/src/worker.rs:sandbox_group_manager", "task-maker-exec/src/worker_manager.rs:WorkerManager::worker_thread"]}
{"id": "C47", "title": "The client manager tells the scheduler what it must know", "statement": "Whatever a client sends, the scheduler only gets DAGs that passed the validation, each provided file of the DAG is either announced as ready or asked to the client, a file provided by the client is announced, the disconnection is announced exactly once as the last thing, and a local executor terminates when its client leaves.", "quantifier": "every sequence of messages of a client", "why_tests_cant": "all message sequences", "anchors": ["task-maker-exec/src/executor.rs:Executor::handle_client_messages"]}
{"id": "C48", "title": "The report of a group is the one of its executions", "statement": "Whatever the order in which the executions of a group end, the worker reports for each of them, in the order of the group, the result of its own sandbox, and for each declared output the hash of what its sandbox left (the empty content if nothing); when an execution fails exactly the executions that have not ended yet are killed; a failure of the sandbox itself is an internal error; a killed execution is never a success.", "quantifier": "every group, every completion order and every outcome of the sandboxes", "why_tests_cant": "completion orders of concurrent processes", "anchors": ["task-maker-exec/src/worker.rs:sandbox_group_manager", "task-maker-exec/src/worker.rs:compute_execution_result", "task-maker-exec/src/worker.rs:get_result_outputs", "task-maker-exec/src/sandbox.rs:Sandbox::run"]}
{"id": "C49", "title": "Status requests are answered with the truth", "statement": "A status request is always answered, only to the client that asked and without other effects: the answer lists once each worker that is waiting for a job or has one, with the group it is executing if its client is still connected, and gives the number of groups of connected clients that wait for an input and the number of groups that are ready to run.", "quantifier": "every reachable state of the scheduler between two messages", "why_tests_cant": "all histories of clients, workers and results", "anchors": ["task-maker-exec/src/scheduler.rs:Scheduler::handle_status_request"]}
{"id": "C50", "title": "A communication testcase has one score, the worst of its processes", "statement": "For a testcase evaluated by several processes and a manager exactly one score is given to the score manager, when the last of them has answered and not before, and it is the smallest score answered, with its message; answering more often than expected is a failed assertion.", "quantifier": "every number of processes and every order of the answers", "why_tests_cant": "all completion orders", "anchors": ["task-maker-format/src/ioi/dag/task_type/communication.rs:ScoreSender"]}
{"id": "C51", "title": "The checks of a solution are read from its comments", "statement": "The checks read from a source file are exactly one for each word following a @check-NAME: in a line, with the line's number and the text from @check- on as span; a line with a @check- that is not understood gets an error; if a check is followed by another @check- on the same line no check is read and the solution is ignored.", "quantifier": "every source file", "why_tests_cant": "all files", "anchors": ["task-maker-format/src/solution.rs:SolutionCheck::extract_check_list"]}
{"id": "C52", "title": "Writing the checks keeps the solution and replaces its checks", "statement": "When the tool writes the checks of a solution every line of the file is kept in order except those with the old checks, the comments are inserted at the beginning or after the #! line, and reading the file again gives exactly the new checks: every subtask has its check and every check holds for the results it comes from.", "quantifier": "every source file, every results, every subtask names", "why_tests_cant": "all files", "anchors": ["src/tools/add_solution_checks.rs:write_comments_to_file", "src/tools/add_solution_checks.rs:process_solution", "task-maker-format/src/solution.rs:SolutionCheck::extract_check_list"]}
{"id": "C53", "title": "Static inputs are the consecutive input files", "statement": "A task without gen/GEN and gen/cases.gen has one default subtask worth 100 points and one testcase for each input/input{i}.txt, i = 0, 1, ..., up to the first missing one, each reading its own file; the files after a gap are not used.", "quantifier": "every set of files in the input directory", "why_tests_cant": "all directories", "anchors": ["task-maker-format/src/ioi/format/italian_yaml/static_inputs.rs:StaticInputIter", "task-maker-format/src/ioi/format/italian_yaml/static_inputs.rs:static_inputs"]}
{"id": "C54", "title": "The texts accepted as gen/GEN", "statement": "The reader of gen/GEN accepts exactly the texts whose lines are a score, a name, a list of dependencies, a file to copy, a comment, a command line or blank, each optionally followed by a comment, with any newline convention; every text has at most one reading and the whole result, from text to entries, is determined by it.", "quantifier": "every text", "why_tests_cant": "all texts", "anchors": ["task-maker-format/src/ioi/format/italian_yaml/GEN.pest", "task-maker-format/src/ioi/format/italian_yaml/gen_gen.rs:parse_gen_gen"]}
{"id": "C55", "title": "The texts accepted as gen/cases.gen", "statement": "The reader of gen/cases.gen accepts exactly the texts whose lines are a comment, one of the commands GEN, VAL, CONSTRAINT, SUBTASK, STDEP, COPY, RUN with its arguments, a testcase or nothing, with any newline convention; every text has at most one reading, and a text is read exactly when it has the syntax and its lines are accepted.", "quantifier": "every text", "why_tests_cant": "all texts", "anchors": ["task-maker-format/src/ioi/format/italian_yaml/cases.gen.pest", "task-maker-format/src/ioi/format/italian_yaml/cases_gen.rs:CasesGen::new"]}
{"id": "C56", "title": "The DAG of a task is well formed", "statement": "If building the evaluation of an IOI task succeeds, the DAG it gives, with all the callbacks registered on it, is accepted by check_dag: inputs and dependencies are defined, nothing is duplicated, there is no cycle. If it fails it is only because a file of the task is missing or not readable: it never panics.", "quantifier": "every batch or communication task, every set of solutions, every configuration, every file system", "why_tests_cant": "all tasks, testcases, dependencies between subtasks and source files", "anchors": ["task-maker-format/src/ioi/mod.rs:IOITask::build_dag", "task-maker-format/src/ioi/dag/*", "task-maker-lang/src/source_file.rs:SourceFile::execute", "task-maker-exec/src/check_dag.rs:check_dag"]}
{"id": "C57", "title": "Every testcase is generated, validated, solved and evaluated", "statement": "For every testcase owned by a subtask the DAG has the executions that generate the input, validate it, make the official output with the official solution on the validated input, run every solution on the same validated input with the limits of the task, and check its output; for a communication task the manager and all the processes run together through the fifos. A testcase inherited from another subtask is validated again by the validator of the inheriting subtask, on the file generated in the owner.", "quantifier": "every task, testcase and solution", "why_tests_cant": "all tasks", "anchors": ["task-maker-format/src/ioi/dag/input_generator.rs:InputGenerator::generate_and_bind", "task-maker-format/src/ioi/dag/input_validator.rs:InputValidator::validate_and_bind", "task-maker-format/src/ioi/dag/output_generator.rs:OutputGenerator::generate_and_bind", "task-maker-format/src/ioi/dag/task_type/batch.rs:evaluate", "task-maker-format/src/ioi/dag/task_type/communication.rs:evaluate"]}
{"id": "C58", "title": "Every execution is reported once to the UI", "statement": "Every execution of the DAG has exactly one report to the UI, a compilation as the compilation of a source file, the others as one of the generations, validations, outputs, evaluations and checks of the task; there is exactly one execution for each of them; before anything runs exactly these are announced.", "quantifier": "every task, every set of solutions", "why_tests_cant": "all tasks", "anchors": ["task-maker-format/src/ioi/ui_state.rs", "task-maker-format/src/ui/mod.rs:UIMessage", "task-maker-format/src/lib.rs:bind_exec_callbacks!"]}
{"id": "C59", "title": "A source file is compiled once", "statement": "Every compilation in the DAG is of a source file of the task, with its dependencies and its grader; a source file is compiled at most once however many executions use it, all of them use the executable it produces, and different source files have different executables.", "quantifier": "every task, every set of solutions", "why_tests_cant": "all tasks", "anchors": ["task-maker-lang/src/source_file.rs:SourceFile::executable", "task-maker-lang/src/source_file.rs:SourceFile::prepare"]}
{"id": "C60", "title": "Only the expected files are written in the task directory", "statement": "In a dry run no file is written. Otherwise the input and the official output of every testcase are written in their place, the executable of a source file is written when it is asked for, and nothing else is.", "quantifier": "every task, every configuration", "why_tests_cant": "all tasks", "anchors": ["task-maker-format/src/ioi/dag/input_generator.rs", "task-maker-format/src/ioi/dag/output_generator.rs", "task-maker-lang/src/source_file.rs:SourceFile::prepare", "task-maker-dag/src/dag.rs:ExecutionDAG::write_file_to"]}
{"id": "C61", "title": "A score is decided by the executions of its evaluation", "statement": "For every solution and testcase: in a batch task the score is 0 if the solution fails, otherwise what the checker says, and there is none before that; in a communication task it is the least of the scores answered by the processes and the manager, once all of them have ended. At most one score is given for a solution and a testcase, none for anything that is not an evaluation of the task. The UI is told the progress of every execution in the order of the notices, and the failures to be shown are. The evaluation is aborted exactly when a diff dies, a custom checker cannot be run or a successful manager prints no score.", "quantifier": "every task, every set of solutions, every history of notices of the server", "why_tests_cant": "all tasks and all the orders in which the executions end", "anchors": ["task-maker-format/src/ioi/dag/task_type/batch.rs:evaluate", "task-maker-format/src/ioi/dag/task_type/communication.rs:evaluate", "task-maker-format/src/ioi/dag/checker.rs:Checker::check_and_bind", "task-maker-exec/src/client.rs:ExecutorClient::evaluate"]}
{"id": "C62", "title": "The scores do not depend on the schedule", "statement": "Two evaluations in which the executions end in the same way, in whatever order, give every solution the same score on every testcase, on every subtask and in all.", "quantifier": "every task, every set of solutions, every two histories with the same outcomes, all orders of iteration over hash maps", "why_tests_cant": "all pairs of schedules", "anchors": ["task-maker-format/src/ioi/dag/task_type/communication.rs:ScoreSender", "task-maker-format/src/ioi/mod.rs:ScoreManager::score", "task-maker-exec/src/client.rs:ExecutorClient::evaluate"]}
{"id": "C63", "title": "Every execution of a task ends once for the client", "statement": "For the DAG of any task, on any server: a group is completed or skipped at most once whatever happens to the workers; when the end of the evaluation is announced every execution has been notified to the client as done or as skipped, exactly once; an execution is done only if the executions that make its inputs were done and succeeded.", "quantifier": "every task, every set of solutions, every reachable state of the server: other clients, workers lost, cached results", "why_tests_cant": "all tasks and all the executions of the server", "anchors": ["task-maker-format/src/ioi/mod.rs:IOITask::build_dag", "task-maker-exec/src/scheduler.rs:Scheduler", "task-maker-exec/src/client.rs:ExecutorClient::evaluate"]}
{"id": "C64", "title": "The result of an evaluation does not depend on the server", "statement": "If executions are deterministic, two complete evaluations of the DAG of a task, by whatever servers and workers, end every execution in the same way for the client, give every solution the same score on every testcase, and are both aborted or both not.", "quantifier": "every task, every set of solutions, every two reachable states of servers that announced the end of the evaluation", "why_tests_cant": "all pairs of executions of the server", "anchors": ["task-maker-format/src/ioi/mod.rs:IOITask::build_dag", "task-maker-exec/src/scheduler.rs:Scheduler", "task-maker-exec/src/client.rs:ExecutorClient::evaluate", "task-maker-format/src/ioi/dag/task_type/mod.rs:TaskType::evaluate"]}
{"id": "C65", "title": "Cleaning a task removes only generated files", "statement": "Cleaning a task, even when it fails half way, never changes or creates a file and removes only generated files of that task: the inputs and outputs no testcase is read from, bin/, the compiled checker, and a gen/GEN or task.yaml that has a source next to it and contains tm-allow-delete. Files that are the input or the output of a testcase stay. No file is left without its directory.", "quantifier": "every task, every content of its directory, every failure of the file system", "why_tests_cant": "all directories and all points of failure", "anchors": ["task-maker-format/src/ioi/mod.rs:IOITask::clean", "task-maker-format/src/ioi/format/italian_yaml/mod.rs:is_tm_deletable"]}
{"id": "C66", "title": "Cleaning a task gives back what the authors wrote", "statement": "When cleaning a task works no generated file is left (inputs, outputs, their directories unless something else is in them, bin/, compiled checker or manager, gen/GEN, task.yaml), so that cleaning a directory in which only generated files were added gives back the original.", "quantifier": "every task, every directory, every set of generated files", "why_tests_cant": "all directories", "anchors": ["task-maker-format/src/ioi/mod.rs:IOITask::clean"]}
{"id": "C67", "title": "Loading and cleaning never touch the files of the authors", "statement": "After any sequence of loads and cleans of a task, whatever fails, the files out of the generated places are what they were, and so are a gen/GEN and a task.yaml that do not contain tm-allow-delete. Loading only writes gen/GEN next to gen/cases.gen and task.yaml next to task.yaml.orig, nothing in a dry run, and what it writes contains tm-allow-delete.", "quantifier": "every directory, every sequence of loads and cleans, every failure of the file system", "why_tests_cant": "all histories", "anchors": ["task-maker-format/src/ioi/format/italian_yaml/cases_gen.rs:CasesGen::write_gen_gen", "task-maker-format/src/ioi/format/italian_yaml/mod.rs:parse_task", "task-maker-format/src/ioi/mod.rs:IOITask::clean", "task-maker-format/src/ioi/format/italian_yaml/mod.rs:is_tm_deletable"]}
{"id": "C68", "title": "Cleaning a terry task removes exactly the compiled managers", "statement": "Cleaning a terry task removes bin/ and the files managers/NAME.Y.Z for which another file managers/NAME.X exists, all of them if it works, and never touches anything else.", "quantifier": "every directory, every failure of the file system", "why_tests_cant": "all directories and all points of failure", "anchors": ["task-maker-format/src/terry/mod.rs:TerryTask::clean", "task-maker-format/src/lib.rs:list_files"]}
{"id": "C69", "title": "The files a source imports are provided", "statement": "For every source file, the files given with it to the sandbox are found by a search that ends even if the files import each other. Every file given exists and is imported by the source file, directly or through other imported files; no two are given with the same name; every existing file that the source file itself imports is given with the name it is imported with; and so is every existing file imported indirectly.", "quantifier": "every set of files and every relation of imports between them, cyclic or not", "why_tests_cant": "a test has a few files; cycles, diamonds and aliases of any size are possible", "anchors": ["task-maker-lang/src/languages/mod.rs:find_dependencies", "task-maker-lang/src/lib.rs:Dependency"]}
{"id": "C70", "title": "The imports written in a source are found", "statement": "The files included by a C++ source with #include <x> or #include \"x\" and those imported by a Python source with import a, b and from a import b are exactly the imports found, in the order they are written, whatever the rest of the text is, and a Python module a is looked for in a.py.", "quantifier": "every text of a source made of such imports and of other text that does not contain the keywords", "why_tests_cant": "texts are unbounded; a test has a few files", "anchors": ["task-maker-lang/src/languages/cpp.rs:extract_includes", "task-maker-lang/src/languages/python.rs:extract_imports"]}
{"id": "C71", "title": "The UI shows the result of each testcase of each solution", "statement": "Whatever the server, its workers and the other clients do, and in whatever order their news arrive, at any moment the status the UI shows for a testcase of a solution is the one its executions call for: pending, running, checking or skipped while they are going on; the kind of failure (time, wall time or memory limit, runtime error, internal error) if the solution failed; otherwise wrong, partial or accepted as the checker says, with its score and message.", "quantifier": "every task, every reachable state of the server, every order of the notices", "why_tests_cant": "the news arrive in any order the scheduler allows; a test sees a few", "anchors": ["task-maker-format/src/ioi/ui_state.rs:UIState::apply", "task-maker-format/src/lib.rs:bind_exec_callbacks", "task-maker-exec/src/scheduler.rs:Scheduler::run"]}
{"id": "C72", "title": "The checks of the solutions are run once, on complete results, and do not depend on the schedule", "statement": "At the end of an evaluation there is one outcome for each solution, each of its checks and each subtask whose name matches the pattern of the check, as soon as all the testcases of the subtask have a final result, and it succeeds exactly if the results are what the check asks for. Computing them never panics and two complete evaluations of the same task with deterministic programs have the same outcomes.", "quantifier": "every task, every set of checks, every schedule", "why_tests_cant": "all the schedules and all the tasks", "anchors": ["task-maker-format/src/ioi/ui_state.rs:UIState::run_solution_checks", "task-maker-format/src/ioi/mod.rs:IOITask::find_subtasks_by_pattern_name", "task-maker-format/src/solution.rs:SolutionCheckResult::check"]}
{"id": "C73", "title": "The UI and the score managers do not panic", "statement": "The messages of an evaluation are all about subtasks and testcases the UI knows, so that it never panics; and if no closure of the client aborts the evaluation and the scores are numbers the score managers do not panic either and the evaluation is followed up to its end.", "quantifier": "every task, every sequence of notices, every order of iteration over the maps", "why_tests_cant": "all the sequences of notices", "anchors": ["task-maker-format/src/ioi/ui_state.rs:UIState::apply", "task-maker-format/src/ioi/mod.rs:ScoreManager"]}
{"id": "C74", "title": "The UI shows the scores when they are known", "statement": "The UI shows the score of a solution on a subtask as soon as all the testcases of the subtask are scored and not before, and it is the maximum score of the subtask times the aggregate of the scores of its testcases; it shows the score of a solution as soon as all the subtasks have one and not before, and it is their sum.", "quantifier": "every task, every sequence of notices, every order of iteration over the maps", "why_tests_cant": "all the sequences of notices", "anchors": ["task-maker-format/src/ioi/mod.rs:ScoreManager::score", "task-maker-format/src/ioi/ui_state.rs:UIState::apply"]}
{"id": "C75", "title": "The UI shows how the generation of the testcases goes", "statement": "The UI shows how the generator, the validator and the official solution of a testcase ended, and a status that depends only on how they ended: failed if and only if one of them failed, solved if and only if the official output was produced. It shows whether a source file was compiled.", "quantifier": "every task, every order of the notices the server may send", "why_tests_cant": "all the orders of the notices", "anchors": ["task-maker-format/src/ioi/ui_state.rs:UIState::apply", "task-maker-format/src/ui/mod.rs:CompilationStatus::apply_status"]}
{"id": "C76", "title": "Missing final new lines are reported", "statement": "The inputs and the official outputs that do not end with a new line are exactly the ones of the two warnings about them, whatever the order in which the files arrive and the way they are split in chunks. A text file of the attachments is in the warning if and only if it does not end with a new line.", "quantifier": "every task, every content of the files, every order and every way of splitting them", "why_tests_cant": "all the orders and all the ways of splitting the files", "anchors": ["task-maker-format/src/ioi/sanity_checks/io.rs:IOEndWithNewLine", "task-maker-format/src/ioi/sanity_checks/att.rs:AttEndWithNewLine"]}
{"id": "C77", "title": "Subtasks with equal outputs are reported", "statement": "There is a warning about a subtask if and only if it has more than one testcase and all its official outputs are equal; nothing else depends on the way the outputs are split or on their order.", "quantifier": "every task, every content of the outputs, every order and every way of splitting them", "why_tests_cant": "all the orders and all the ways of splitting the outputs", "anchors": ["task-maker-format/src/ioi/sanity_checks/subtasks.rs:AllOutputsEqual", "task-maker-format/src/ioi/sanity_checks/subtasks.rs:OutputHasher"]}
{"id": "C78", "title": "The checks of the solutions tell the subtasks apart", "statement": "The warning about the order of difficulty has exactly the pairs of subtasks where each solution that solves the first solves the second and some solution only the second; two subtasks are in the same warning about subtasks that look the same if and only if no solution tells them apart.", "quantifier": "every task, every list of solutions with their checks", "why_tests_cant": "all the tables of the solutions and the subtasks", "anchors": ["task-maker-format/src/ioi/sanity_checks/task.rs:SubtaskDependencies"]}
{"id": "C79", "title": "The samples are paired by their number", "statement": "The sample files of the statement and of the attachments that are checked are pairs of an input and an output with the same number; no file with a number is left out without an error.", "quantifier": "every set of file names", "why_tests_cant": "all the sets of names", "anchors": ["task-maker-format/src/ioi/sanity_checks/att.rs:get_sample_files"]}
{"id": "C80", "title": "Every solution gets the grader of its language", "statement": "The language of a file is the one its extension is of. A solution gets exactly one of the graders of its language if there is one, and none otherwise. If a task has a grader, an error is shown if and only if there is a solution in a language that has no grader.", "quantifier": "every set of files in the sol directory", "why_tests_cant": "all the sets of names", "anchors": ["task-maker-lang/src/lib.rs:LanguageManager::detect_language", "task-maker-lang/src/grader_map.rs:GraderMap", "task-maker-format/src/ioi/sanity_checks/mod.rs:check_missing_graders"]}
{"id": "C81", "title": "The subtasks of the statement are those of the task", "statement": "The subtasks of a statement in one of the three known formats are found, with their numbers and scores. No error is shown if and only if they are those of the task, numbered from 0 or from 1, with the same scores; otherwise the error is about the first one that differs, or about their number.", "quantifier": "every statement, every task", "why_tests_cant": "all the texts and all the lists of subtasks", "anchors": ["task-maker-format/src/ioi/sanity_checks/statement.rs:StatementSubtasks", "task-maker-format/src/ioi/sanity_checks/statement.rs:extract_subtasks"]}
{"id": "C82", "title": "A sanity check is run unless it is disabled", "statement": "What is shown is what each enabled check shows, and a warning for each check that fails: a check that fails does not stop the others, a check that is disabled (by name or by category) shows nothing. The checks about missing names, names that no subtask has, solutions with no checks and the score of the task show exactly those.", "quantifier": "every set of checks, every way they end, every task", "why_tests_cant": "all the combinations of checks, failures and tasks", "anchors": ["task-maker-format/src/sanity_checks.rs:SanityChecks", "task-maker-format/src/ioi/sanity_checks/mod.rs:get_sanity_check_list", "task-maker-format/src/ioi/sanity_checks/subtasks.rs:MissingSubtaskNames", "task-maker-format/src/ioi/sanity_checks/subtasks.rs:InvalidSubtaskName", "task-maker-format/src/ioi/sanity_checks/sol.rs:SolutionsWithNoChecks", "task-maker-format/src/ioi/sanity_checks/task.rs:TaskMaxScore"]}
{"id": "C83", "title": "A sandbox has exactly the files of its execution", "statement": "When the sandbox of an execution is ready, however its preparation was interleaved with that of other sandboxes, with running programs and with the use of the store, its directory has each input file and the standard input, with the content they have in the store, not writable, executable exactly if the execution asks for it; an empty writable file for each output and each stream to capture; nothing else. An output with the path of an input makes the preparation fail.", "quantifier": "every execution, every interleaving of any number of sandboxes, programs and store operations, stores with or without hard links", "why_tests_cant": "all the interleavings of the operations of concurrent workers on shared inodes", "anchors": ["task-maker-exec/src/sandbox.rs:Sandbox::setup", "task-maker-exec/src/sandbox.rs:write_sandbox_file", "task-maker-exec/src/sandbox.rs:touch_file"]}
{"id": "C84", "title": "Running programs does not change the files of the store", "statement": "A file that was put in the store and was not removed from it keeps the content it was stored with, whatever sandboxes are made and whatever the programs in them do, although the sandboxes have hard links to it.", "quantifier": "every history of sandboxes, programs and store operations", "why_tests_cant": "all the histories of concurrent programs", "anchors": ["task-maker-exec/src/sandbox.rs:write_sandbox_file", "task-maker-store/src/lib.rs:FileStore::store", "task-maker-store/src/lib.rs:remove_file"]}
{"id": "C85", "title": "A program sees and writes only the files of its sandbox", "statement": "While a program runs in a read only sandbox the set of its files does not change, its inputs keep their content, its outputs have what it wrote last and nothing that others wrote; what is done in other sandboxes is not seen.", "quantifier": "every program, every interleaving with other sandboxes and the store", "why_tests_cant": "all the interleavings", "anchors": ["task-maker-exec/src/sandbox.rs:Sandbox::setup", "task-maker-exec/src/sandbox.rs:build_command"]}
{"id": "C86", "title": "The limits of an execution are imposed and reported", "statement": "The sandbox gives to a program the processor time, the wall time and the memory of its limits and the extra ones, rounded up to less than a second; a program killed by the sandbox is reported as over a time limit; one that uses more memory than its limit is reported so; every limit of the execution is imposed.", "quantifier": "every execution, every measured usage", "why_tests_cant": "all the limits and usages", "anchors": ["task-maker-exec/src/sandbox.rs:build_command", "task-maker-exec/src/sandbox.rs:Sandbox::run", "task-maker-dag/src/execution.rs:Execution::status"]}
{"id": "C87", "title": "The standard streams of a program are where they should", "statement": "A stream redirected to a fifo of the group is that fifo; a stream that is a file is the one prepared in the sandbox, and the worker reads what was written from there; a stream redirected to another path is that path in the sandbox; any other stream is /dev/null.", "quantifier": "every execution, sandbox directory and fifo", "why_tests_cant": "all the paths", "anchors": ["task-maker-exec/src/sandbox.rs:build_command", "task-maker-exec/src/sandbox.rs:sandbox_to_host_path", "task-maker-exec/src/sandbox.rs:stdout_path"]}
{"id": "C88", "title": "A program sees only what it is given and writes only in its box", "statement": "The directories of the host a program may write are only those of its own sandbox; those it may read are the fifos of its group, the directories of the system, those that the execution asks for and that of the executable, each at its own path and mounted once; all the directories asked for that exist are seen, and so is the box where none of them hides it.", "quantifier": "every execution, machine, sandbox directory and path", "why_tests_cant": "all the sets of directories, nested in each other in any way", "anchors": ["task-maker-exec/src/sandbox.rs:build_command", "task-maker-exec/src/sandbox.rs:READABLE_DIRS"]}
{"id": "C89", "title": "The program that is run is the one asked for", "statement": "The executable is the one of the system the host finds, and the program can reach it, or the file of the box; it has the arguments of the execution in their order; its environment has the variables of the execution, the copied ones that exist and PATH, each once, and nothing else; it is not root; if the executable is not there it is an error.", "quantifier": "every execution and machine", "why_tests_cant": "all the environments and commands", "anchors": ["task-maker-exec/src/sandbox.rs:build_command", "task-maker-exec/src/sandbox.rs:validate_local_executable"]}
{"id": "C90", "title": "The evaluation of a Terry task is what the task asks for", "statement": "If the evaluation DAG of a Terry task is built, the server accepts it; for every solution it runs the generator with the seed, the validator (if any) on that input, the solution on that input with its 20 seconds and only when the input is valid, and the checker on that input and on the output of the solution, with the official solution in the sandboxes that need it; solutions never share inputs or outputs; the construction fails only because a file is missing.", "quantifier": "every Terry task (any validator, official solution, languages, graders), any list of solutions and seeds, any configuration", "why_tests_cant": "all the tasks and all the lists of solutions", "anchors": ["task-maker-format/src/terry/mod.rs:TerryTask::build_dag", "task-maker-format/src/terry/dag/mod.rs:InputGenerator", "task-maker-format/src/terry/dag/mod.rs:Checker"]}
{"id": "C91", "title": "Everything done for a Terry task is shown once, and only what is asked is written", "statement": "Every execution of the DAG of a Terry task is reported to the UI exactly once, as what it is; before starting, the UI is told about all of them; the outcome of each solution is asked once, of its checker; files are written only if asked and never in a dry run, and if asked the input and the output of every solution are.", "quantifier": "every Terry task, list of solutions, seeds and configuration", "why_tests_cant": "all the tasks and all the lists of solutions", "anchors": ["task-maker-format/src/terry/mod.rs:TerryTask::build_dag", "task-maker-format/src/terry/dag/mod.rs:bind_exec_callbacks", "task-maker-format/src/lib.rs"]}
{"id": "C92", "title": "The UI of a Terry task shows what happened", "statement": "Whatever the server says the UI never panics and has a state for every solution; of each it shows the seed, the results of exactly the executions that were done and what the checker said; it says that a solution is done if and only if its checker succeeded, and that it failed, naming the step, if and only if that step failed.", "quantifier": "every Terry task, list of solutions and seeds, every order of the notices a server can send", "why_tests_cant": "all the interleavings of the notices of all the solutions", "anchors": ["task-maker-format/src/terry/ui_state.rs:UIState::apply", "task-maker-format/src/terry/ui_state.rs:process_event", "task-maker-format/src/terry/dag/mod.rs"]}
{"id": "C93", "title": "The status of a Terry solution is how far its evaluation went, and the evaluation goes on", "statement": "At any moment the status the UI shows for a solution is how far its evaluation went, and at the end it does not depend on the order in which the executions ended; what happens to a solution does not stop the evaluation of the others.", "quantifier": "every Terry task, list of solutions and seeds, every order of the notices a server can send", "why_tests_cant": "the status depends on the interleaving of notices", "anchors": ["task-maker-format/src/terry/ui_state.rs:UIState::apply", "task-maker-format/src/terry/dag/mod.rs:Checker::bind"]}
{"id": "C94", "title": "A Terry task is evaluated in the same way by every server", "statement": "Whatever workers and clients the server has, and whichever of them fail: no group of the DAG of a Terry task ends twice; when the end is announced every execution was notified exactly once; notices come in an order the UI can follow; and if executions are deterministic two complete evaluations show for every solution the same results and the same outcome, and the same end.", "quantifier": "every Terry task, list of solutions and seeds, every reachable state of two servers", "why_tests_cant": "all the schedules of the server, the failures of workers and the other clients", "anchors": ["task-maker-format/src/terry/mod.rs:TerryTask::build_dag", "task-maker-format/src/terry/ui_state.rs:UIState::apply", "task-maker-exec/src/scheduler.rs"]}
{"id": "C95", "title": "The search of a bad case reports real failures, and does not lose them", "statement": "While searching for a bad case: the case reported is one on which the solution did not get the full score, with the message of that score, and the generator arguments and the seed shown are those of that testcase (the placeholder replaced by its seed); the error reported is a real failure of the generator or of the validator on the testcase shown; the UI shows of each testcase the last thing that happened to it; once a bad score is handled no further batch follows the current one; and when the search is over a case is reported if, and only if, one was found.", "quantifier": "every list of generator arguments, batch size, seeds, every sequence of messages of the evaluations, every interleaving of the main thread, the UI thread and ctrl-C", "why_tests_cant": "interleavings of three threads over unboundedly many batches", "anchors": ["src/tools/find_bad_case/mod.rs:main_find_bad_case", "src/tools/find_bad_case/state.rs:UIState::apply", "src/tools/find_bad_case/dag.rs:patch_task_for_batch"]}
{"id": "C96", "title": "A batch of the search of a bad case tests the solution on what is reported and leaves the task alone", "statement": "Each batch of find-bad-case is made of as many new testcases as asked, whose inputs are made by a generator of the task run with the arguments given, the placeholder replaced by the seed (these are the arguments and the seed shown later); each is validated, and the solution is evaluated on it exactly as on the testcases of the task; the input, the correct output and the output of the solution are saved, whatever fails, in a directory of that testcase named after its seed, and nothing is written in the task besides the executables asked for; the executions are those of the task, evaluations coming before generations, and the server accepts the DAG.", "quantifier": "every IOI task, generator arguments, batch size and number, seeds, every name of the solution", "why_tests_cant": "every task and every batch; the tool finds the testcase of a file or of an execution by parsing paths and descriptions", "anchors": ["src/tools/find_bad_case/dag.rs:patch_task_for_batch", "src/tools/find_bad_case/dag.rs:patch_dag", "task-maker-dag/src/dag.rs:write_file_to_allow_fail"]}
{"id": "C97", "title": "The failures shown by the fuzzer of the checker are those of the checker", "statement": "fuzz-checker starts the fuzzer from one file for each testcase, that gives to the checker the testcase with its official output; when the fuzzer finds failures there is a directory for each of them, and no other, with the input and the official output of the testcase and the output of the contestant the checker was given when it failed; the command shown to repeat the failure works.", "quantifier": "every task, every content of the outputs, every list of artifacts the fuzzer can leave", "why_tests_cant": "every artifact: the testcase is encoded in its first bytes by one program and decoded by two others", "anchors": ["src/tools/fuzz_checker.rs:write_initial_corpus", "src/tools/fuzz_checker.rs:organize_failures", "src/tools/fuzz_checker/fuzzer.cpp:LLVMFuzzerTestOneInput"]}
{"id": "C98", "title": "The text of a booklet is the text of its statements", "statement": "The LaTeX source compiled for a booklet imports every statement once, in the order of the booklet; a statement has its heading and then exactly the author's lines, except that the text from the first \\usepackage of a line is commented out; the preamble has exactly these packages, each once, sorted; LaTeX finds no \\usepackage in the middle of the document", "quantifier": "every booklet, every list of statements and every text of them", "why_tests_cant": "the text of a statement is arbitrary; the rewriting is a regular expression over the whole text", "anchors": ["task-maker-format/src/ioi/statement/statement.rs: Statement::tex, Statement::packages", "task-maker-format/src/ioi/statement/booklet.rs: Booklet::make_tex"]}
{"id": "C99", "title": "The errors of LaTeX are shown", "statement": "When a booklet is compiled the errors that LaTeX prints in its log are shown to the user, each once, with the line given by the log, sorted by line; there is no warning if there are none", "quantifier": "every log of LaTeX", "why_tests_cant": "the log is arbitrary text; the errors are found by a search over it that carries state between lines", "anchors": ["task-maker-format/src/ioi/statement/booklet.rs: emit_warnings, find_errors"]}
{"id": "C100", "title": "Booklets: what is compiled", "statement": "When the booklets of a task (or of a contest) are added to the evaluation, the resulting DAG is accepted by the server, and for every booklet it contains one run of latexmk whose sandbox holds exactly: the generated booklet.tex; for each statement its generated statement.tex and, in a directory named after the task, the files of the statement's directory (the Asymptote sources replaced by the drawn and cropped pictures that the statement mentions, the pdf files that have a source left out unless one is the logo), the constants of the generator; and the files of the template. The pdf is written to the destination of the booklet, the logs to bin/logs when asked. The only possible failure is a file that cannot be read.", "quantifier": "all booklets, statements, directories, configurations, and all tasks whose DAG is extended", "why_tests_cant": "The number of statements, files and pictures is unbounded and the claim is about every sandbox path; a test checks a handful of tasks.", "anchors": ["task-maker-format/src/ioi/statement/booklet.rs: Booklet::build", "task-maker-format/src/ioi/statement/statement.rs: Statement::build_deps, process_possible_dependency", "task-maker-format/src/ioi/statement/asy.rs: AsyFile::compile", "task-maker-format/src/ioi/mod.rs: build_dag"]}
{"id": "C101", "title": "Booklets: the rest of the evaluation is left alone and the UI knows about every step", "statement": "Adding booklets does not change any execution, input file, destination or callback of the task; the executions added are exactly two for each picture mentioned and one for each booklet, in that order, with distinct identifiers; each is announced to the UI before anything runs and its progress is reported under its own name only.", "quantifier": "all evaluations and all lists of booklets", "why_tests_cant": "It is a frame property of every evaluation the booklets may be added to.", "anchors": ["task-maker-format/src/ioi/statement/booklet.rs: Booklet::build", "task-maker-format/src/ioi/statement/asy.rs: AsyFile::compile", "task-maker-format/src/lib.rs: bind_exec_callbacks!"]}
{"id": "C102", "title": "Booklets: compiling again does not depend on the previous pdf", "statement": "The pdf that a previous evaluation left beside the source of a booklet is not an input of the new compilation, so evaluating twice without changes gives the same executions (and cache hits).", "quantifier": "all booklets whose destination is next to its source, all directories", "why_tests_cant": "It concerns every content of the directory left by any earlier run.", "anchors": ["task-maker-format/src/ioi/statement/statement.rs: is_valid_pdf_dependency", "task-maker-format/src/ioi/statement/asy.rs: find_asy_deps"]}
{"id": "C103", "title": "The gen/GEN written from cases.gen says the same thing", "statement": "When a task has a gen/cases.gen, the gen/GEN file that task-maker writes from it is accepted by task-maker's own reader of gen/GEN and describes the same task: the same subtasks with the same numbers, points and names, the same testcases in the same subtasks and order, copying the same files or running a generator with the same arguments, and the same dependencies; the file carries the mark that lets task-maker rewrite or remove it, and it is written whenever cases.gen is accepted.", "quantifier": "all texts of gen/cases.gen, all constraints, names, points, arguments and paths in it", "why_tests_cant": "It is a round trip through two grammars over every text; the cases that break it depend on single characters of names, paths and numbers.", "anchors": ["task-maker-format/src/ioi/format/italian_yaml/cases_gen.rs: write_gen_gen, fmt for Constraint, ConstraintOperand, ConstraintOperator", "task-maker-format/src/ioi/format/italian_yaml/gen_gen.rs: parse_gen_gen", "task-maker-format/src/ioi/format/italian_yaml/GEN.pest"]}
{"id": "C104", "title": "Which solutions are evaluated", "statement": "The solutions that are evaluated are exactly the source files directly in the directory of the solutions (sol/ for IOI tasks, solutions/ for Terry tasks) or, if paths are given on the command line, the given ones, that match one of the filters (if there are filters), are not graders and are written in a known language; each is evaluated with the checks written in its text. Without explicit paths they come in the order of their paths and each once; with explicit paths, in the order given.", "quantifier": "all file trees, all lists of filters and paths on the command line, all contents of the sources", "why_tests_cant": "It is about every tree of files and every command line; the cases that break it are combinations of names, languages and contents.", "anchors": ["task-maker-format/src/lib.rs: find_solutions, list_files, SolutionConfig", "task-maker-format/src/solution.rs: Solution::new", "task-maker-format/src/ioi/format/italian_yaml/mod.rs: parse_task", "task-maker-format/src/terry/format/mod.rs"]}
{"id": "C105", "title": "Which task is found", "statement": "The task that is evaluated is the one in the given directory, or in the nearest directory above it among the allowed number of them; if no format or more than one accepts that directory it is an error. A directory that was meant as a task but cannot be read is reported and never replaced by another task.", "quantifier": "all file trees, all starting paths (relative, absolute, with ..), all depths, all outcomes of the parsers", "why_tests_cant": "It ranges over every path and every tree; unit tests only use a few fixed directories.", "anchors": ["task-maker-format/src/detect_format.rs: find_task", "task-maker-format/src/ioi/task.rs, terry/mod.rs: is_valid, new"]}
{"id": "C106", "title": "The booklets that are made", "statement": "For a task there is one booklet for every statement it has, in the language named by the file, written next to the statement. For a contest there is one booklet for every language, in the directory of the contest, with the statements of all the tasks that have one in that language, in the order of the tasks. Tasks of the same contest are always accepted together, and a file that is not part of the task cannot make the task unusable.", "quantifier": "all file trees, all lists of tasks and ways to write their paths, all contents of contest.yaml", "why_tests_cant": "It is a statement about every tree of files and every list of directories.", "anchors": ["task-maker-format/src/ioi/statement/mod.rs: make_task_booklets, make_contest_booklets, find_statements, statement_contest_config", "src/tools/booklet.rs: main_booklet, get_booklets_from_contest_dir, get_booklets_from_task_dirs"]}
{"id": "C107", "title": "The files given to the contestants", "statement": "After task-maker-tools copy-competition-files succeeds, for every task of the contest the directory competition-files/TASK has exactly the statements of the task, as they have just been compiled, and its attachments, each with its content; nothing else outside the directories of the tasks is created or changed.", "quantifier": "all disks, all contests, all names of tasks, statements and attachments, whatever the evaluation of the statements does in the directories of the tasks", "why_tests_cant": "It is about every tree of files, every list of tasks and every outcome of the evaluations; the cases that break it are coincidences of names.", "anchors": ["src/tools/copy_competition_files.rs: copy_competition_files_main, copy_files", "task-maker-format/src/ioi/task_info.rs: IOITaskInfo::new", "task-maker-format/src/ioi/mod.rs: path_of"]}
{"id": "C108", "title": "The sample files are tested and nothing else changes", "statement": "When the check of the sample files has added its executions to the DAG of a batch task, for every pair of sample files the input is validated by the validator of the task (as testcase 0 of subtask 0, called att), if there is an official solution it is run on the sample input after the validation, and the sample output is compared with its answer by the checker of the task; the DAG is still accepted by the server; the executions of the task with their callbacks, the provided files and the files to write are as before, and only compilations, executables and the executions of the samples are added. An error is shown exactly when a validation or the official solution fails, a warning with the score exactly when the score of the check is not 1; scores and messages of the evaluation do not change. Only a missing or unreadable file makes it fail, and for other kinds of task it does nothing.", "quantifier": "all batch tasks, solutions, validators, official solutions, checkers, lists of sample files, file systems and outcomes of the executions", "why_tests_cant": "It is about the DAG of every task with every list of samples; a unit test runs one task and looks at the diagnostics.", "anchors": ["task-maker-format/src/ioi/sanity_checks/att.rs: AttSampleFilesValid", "task-maker-format/src/ioi/dag/input_validator.rs: validate", "task-maker-format/src/ioi/dag/output_generator.rs: generate", "task-maker-format/src/ioi/dag/checker.rs: check"]}
{"id": "C109", "title": "The parts of a task are found by their names, and ambiguities are refused", "statement": "When an IOI task is loaded its validator, official solution, checker, manager and generator are exactly the sources in a known language with the expected name and an extension in the expected directories (gen/validator.* or gen/valida.*, sol/solution.* or sol/soluzione.*, check/checker.* or cor/correttore.*, check/manager.* or cor/manager.*, gen/generator.* or gen/generatore.*); when two of them are there the task is refused with the error about that part, in a fixed order of the parts; the task is a communication task exactly when it has a manager, with the number of processes and the kind of user i/o of its yaml; checkers and managers are compiled statically and copied next to their source.", "quantifier": "all file systems, task directories and contents of the yaml", "why_tests_cant": "The set of files of a directory is arbitrary; a unit test has one directory.", "anchors": ["task-maker-format/src/lib.rs: find_source_file, list_files", "task-maker-format/src/ioi/format/italian_yaml/mod.rs: detect_validator, detect_output_generator, parse_batch_task_data, parse_communication_task_data", "task-maker-format/src/ioi/format/italian_yaml/gen_gen.rs"]}
{"id": "C110", "title": "What task.yaml says is what the task is", "statement": "A task.yaml is accepted exactly when each of its known fields is given at most once (under any of its names) with a value of its type and the mandatory ones are there, and the result has for each field the value of the file, or the documented default when it is missing or null; unknown fields are ignored. The same for task.yaml.orig, which has its own defaults, requires the limits and takes the name from the directory. The task.yaml written from a task.yaml.orig is read back with the same values.", "quantifier": "all yaml mappings and directory names", "why_tests_cant": "It is about every mapping, including repeated and null fields; a unit test parses a few.", "anchors": ["task-maker-format/src/ioi/format/italian_yaml/mod.rs: TaskYAML, TaskYAMLOrig, into_task_yaml, cms_serialize_score_type, parse_task", "task-maker-format/src/ioi/dag/mod.rs: TestcaseScoreAggregator"]}
{"id": "C111", "title": "A task directory is loaded exactly as it is described", "statement": "Loading an IOI task succeeds when its directory describes a task (a valid task.yaml.orig, or task.yaml without it; no ambiguous part; valid gen/cases.gen, or gen/GEN without it, or else the consecutive files of input/; no dependencies between subtasks without task.yaml.orig), and then the task has the name, title, limits, files, aggregator (sum for one subtask, min otherwise, unless it is given), precision, kind, validators, graders, subtasks and testcases that the directory describes, whatever the iteration order of the hash maps; conversely a loaded task comes from such a directory. The task.yaml written for a task.yaml.orig describes the same task and lists, in order, the points and the testcases of its subtasks.", "quantifier": "all file systems, task directories, yaml parsers, iteration orders of the hash maps", "why_tests_cant": "It composes all the readers over all the directories and all the orders of the maps; a unit test loads one directory.", "anchors": ["task-maker-format/src/ioi/format/italian_yaml/mod.rs: parse_task", "task-maker-format/src/ioi/mod.rs: IOITask::new, IOITask"]}
{"id": "C112", "title": "The final report is always printed", "statement": "At the end of an evaluation, whatever the messages received so far (complete or not), the text report is printed without panicking, and it has all its parts: the generations, then for the solutions the evaluations, the table of the checks if all the subtasks have a name, and the summary.", "quantifier": "every task whose subtasks are numbered from 0 and whose testcases are consistent, every sequence of messages about that task, every behaviour of the server", "why_tests_cant": "The report indexes maps built by another component from an arbitrary stream of messages; a test shows one stream.", "anchors": ["task-maker-format/src/ioi/finish_ui.rs: FinishUI::print", "task-maker-format/src/ioi/ui_state.rs: UIState::apply"]}
{"id": "C113", "title": "The summary shows every solution and every testcase", "statement": "The summary has exactly one line for each evaluated solution, in the order of the paths; it shows the score of the solution, the score of each subtask in increasing order, and between brackets one letter for each testcase owned by the subtask, with the colours of the outcome; the columns are aligned with the header. For a batch task the letter is A iff the solution succeeded and the checker gave 1, W iff it gave 0, T, M, R, F iff the solution exceeded a limit, crashed or could not be run, S iff it was skipped.", "quantifier": "every task, every set of solutions, every order of the notices of the server", "why_tests_cant": "The letters are the result of the whole chain DAG - server - callbacks - UI state - report, for any schedule.", "anchors": ["task-maker-format/src/ioi/finish_ui.rs: FinishUI::print_summary"]}
{"id": "C114", "title": "The table of the checks is exact and aligned", "statement": "The table has one line for each solution that is not a symbolic link and one cell for each subtask; the cell lists exactly the checks of the solution whose pattern matches the name of the subtask and that have a result, in green if they hold and in red if not, and a question mark if there is none; all the lines have the same number of characters, also when the names are not ASCII.", "quantifier": "every task with named subtasks, every set of checks, every reachable state of the UI", "why_tests_cant": "Column widths are computed in bytes and used in characters, with an unchecked subtraction: it must be right for all names and all numbers of checks.", "anchors": ["task-maker-format/src/ioi/finish_ui.rs: FinishUI::print_subtask_checks_table"]}
{"id": "C115", "title": "The report of the generation says what succeeded", "statement": "The report lists the subtasks in increasing order and in each one its testcases in increasing order; the line of a testcase says Generated, Validated, Solved in green if and only if the generator, the validator, the official solution succeeded, and in yellow how the others failed.", "quantifier": "every task, every order of the notices of the server, every outcome of the executions", "why_tests_cant": "It depends on the interleaving of the notices of all the executions.", "anchors": ["task-maker-format/src/ioi/finish_ui.rs: FinishUI::print_generations"]}
{"id": "C116", "title": "The report of the evaluations lists every testcase", "statement": "The report lists the solutions in the order of their paths with their score, in each one the subtasks in increasing order with their score, and in each one exactly the testcases it owns, in order: number, score (green if 1, red if 0), the resources of each process or [???] if it did not end, the message of the checker or what happened, how each process failed, and whether one was killed.", "quantifier": "every task, every reachable state of the UI", "why_tests_cant": "It quantifies over all the reachable states and all the shapes of tasks.", "anchors": ["task-maker-format/src/ioi/finish_ui.rs: FinishUI::print_evaluations, print_evaluation, print_testcase_outcome, print_score_frac"]}
{"id": "C117", "title": "A testcase is said to come from the cache only if it does", "statement": "The line of a testcase in the report ends with (from cache) only if the executions of the solution on that testcase came from the cache.", "quantifier": "every reachable state of the UI, including the testcases that were skipped or never evaluated", "why_tests_cant": "The flag starts from true and is and-ed over the results: it is wrong exactly when there is none, which tests do not try.", "anchors": ["task-maker-format/src/ioi/finish_ui.rs: FinishUI::print_testcase_outcome"]}
{"id": "C118", "title": "Executables are recognised by their first bytes", "statement": "A local executable is started by the sandbox only if it is a regular file that begins with the magic bytes of a known format (MZ, #!, Mach-O, little endian fat Mach-O, ELF 32 or 64 bit), and the reported platform is the one of those bytes; a file of any length and content that does not begin with them is refused. A file that is not recognised is reported as such (not as a read error).", "quantifier": "every content of the file, of any length, every thing that can be at the path", "why_tests_cant": "It ranges over all the contents, including those shorter than a header, where the answer changes from not recognised to an error.", "anchors": ["task-maker-exec/src/detect_exe.rs: detect_exe, PATTERNS", "task-maker-exec/src/sandbox.rs: validate_local_executable"]}
{"id": "C119", "title": "Connecting to a server", "statement": "The address of a server is a tcp or unix URL, or an address without scheme, which means tcp. Anything else is refused without opening a connection. For tcp the addresses of the host are tried in order and the first that answers is used; a failure that is not of the network stops the search; the failure reported is the last one. All the attempts use the key of the password of the URL, if there is one: with a password nothing is sent in clear over tcp.", "quantifier": "every address string, every resolution of names, every outcome of every attempt", "why_tests_cant": "It ranges over all the strings and all the sequences of outcomes of the attempts.", "anchors": ["src/remote.rs: connect_to_remote_server"]}
{"id": "C120", "title": "Only peers of the same version reach the executor", "statement": "A server hands a connection to its executor only after a welcome message with the version of the server, and under the name in it; the peer is told Accepted in that case and Rejected when the version differs, once; the peer goes on exactly when the server does. Every such connection is served, whatever the other peers do, in the order of arrival. Both ends of a connection use the same encryption when they are given the same password.", "quantifier": "every sequence of connections, whatever each of them sends first or does not send, every moment the executor stops", "why_tests_cant": "It ranges over all the sequences of well and badly behaved peers.", "anchors": ["task-maker-exec/src/executors/remote_executor.rs: client_listener, worker_listener, validate_welcome", "src/context.rs: RuntimeContext::connect_executor", "src/tools/worker.rs: main_worker"]}
{"id": "C121", "title": "The exported graph is the DAG", "statement": "The graph written by --copy-dag has one node for each execution and one for each file (provided or written by an execution), an arrow from an execution to every file it writes and from a file to every execution that reads it, and nothing else; the nodes are in the order of their labels. It is written for every DAG the server accepts.", "quantifier": "every DAG", "why_tests_cant": "It ranges over all the DAGs and visiting orders of their maps.", "anchors": ["src/copy_dag.rs: render_dag, render_graph"]}
{"id": "C122", "title": "The labels of the exported graph are escaped", "statement": "In the file written by --copy-dag the label of a node is a well formed DOT string that ends where the node's attributes begin and shows exactly the description, command and arguments of the execution (or the description of the file).", "quantifier": "every description, command and argument", "why_tests_cant": "It ranges over all the strings: the escapes miss one character.", "anchors": ["src/copy_dag.rs: render_graph, node_label"]}
{"id": "C123", "title": "A program of a known language is started with its arguments", "statement": "In the DAG built for any task, an execution of a source file in C, C++, Python, shell, Pascal or Rust starts the program itself (the compiled executable or the script, present and executable in the sandbox under the name that is started) with exactly the arguments given, in order. For C# and JavaScript an interpreter of the machine is started: with no arguments on the program. With arguments the code puts the program after them, so the interpreter is started on the first argument instead (a violation, shown on a real task). Different languages have different names, so a grader of a language is never used for another.", "quantifier": "all tasks, source files, file names, arguments, graders, imports, environments", "why_tests_cant": "the command line depends on the language, on the arguments and on what else is put in the sandbox; the tests of the languages never run a program with arguments", "anchors": [{"file": "task-maker-lang/src/language.rs", "symbols": ["Language", "executable_name", "runtime_command", "runtime_args"]}, {"file": "task-maker-lang/src/languages/javascript.rs", "symbols": ["runtime_args"]}, {"file": "task-maker-lang/src/languages/csharp.rs", "symbols": ["runtime_args"]}]}
{"id": "C124", "title": "A compiler is told what to compile, where to write it and how", "statement": "Every compilation in the DAG of a task writes the binary exactly in the file collected as its output, defines EVAL, passes the source as the last argument under the name it has in the sandbox, never taken for an option even if it begins with a dash, preceded by the grader if there is one (in Rust only the grader is passed, the source is source.rs), and passes the flags of the environment to gcc and g++ in order, -static exactly when asked, with compiler, standard and flags taken from the TM_ variables, then the usual ones, then the defaults; the configuration of the Pascal compiler is the first existing of the documented places.", "quantifier": "all source files, names, graders, static-link requests and environments", "why_tests_cant": "file names and environments are unbounded and the command line is assembled in three places; tests look at a few names in one environment", "anchors": [{"file": "task-maker-lang/src/languages/c.rs", "symbols": ["LanguageCConfiguration::from_env", "compilation_builder"]}, {"file": "task-maker-lang/src/languages/cpp.rs", "symbols": ["compilation_builder"]}, {"file": "task-maker-lang/src/languages/pascal.rs", "symbols": ["find_fpc_cfg", "compilation_builder"]}, {"file": "task-maker-lang/src/languages/rust.rs", "symbols": ["compilation_builder"]}, {"file": "task-maker-lang/src/language.rs", "symbols": ["SimpleCompiledLanguageBuilder"]}]}
{"id": "C125", "title": "Everything is shown, in order, before the final report", "statement": "For every interleaving of the main thread, the UI thread, the executor and ctrl-C: at any time the UI has shown exactly a prefix of the messages sent by the evaluation and by the final sanity checks, in the order they were sent; the UI is finished at most once and shows nothing afterwards; when the evaluation returns, all the messages have been shown and the UI has been finished, and the result is that of the client, or of the sanity checks if the client succeeded. There is no panic when the local executor ends well and the UI does not panic. If the local executor fails the evaluation panics instead of returning and the final report may be missing (a witness is given).", "quantifier": "all interleavings of the threads, all lists of messages, all results of client, sanity checks, executor and UI", "why_tests_cant": "the order of the steps of four threads cannot be controlled by a test", "anchors": [{"file": "src/context.rs", "symbols": ["ConnectedExecutor::start_ui", "ConnectedExecutorWithUI::execute"]}, {"file": "src/local.rs", "symbols": ["run_evaluation"]}]}
{"id": "C126", "title": "An evaluation always ends, and can be stopped", "statement": "For every interleaving: until the evaluation has returned (or panicked) some thread can go on, and the threads make a bounded number of steps in all, so the evaluation ends once the client and the executor do; before the executor is waited for, it has been told to stop or the channel of the client is closed; ctrl-C sends Stop exactly once while the evaluation is going on; the executor is told to stop only by ctrl-C or by a client that failed.", "quantifier": "all interleavings of the threads, any number of ctrl-C at any time, all results of client, sanity checks, executor and UI", "why_tests_cant": "deadlocks depend on the interleaving", "anchors": [{"file": "src/context.rs", "symbols": ["ConnectedExecutor::start_ui", "ConnectedExecutorWithUI::execute"]}]}
{"id": "C127", "title": "A custom checker is tried on junk outputs", "statement": "For a batch task with a custom checker, once the DAG of the task is built: if some subtask has a testcase, the checker is run on exactly four junk outputs (the empty file, all the 256 bytes, the ASCII characters from 32 to 127, \"wibble monster\"), all against the input and the official output of one testcase of the task; an error is shown for each junk output exactly when the checker fails, gives no valid score, or gives a score other than 0 (NaN included). The DAG is still accepted by the server; the executions, the provided files, the writes and the callbacks of the task are as before, and no message but those of compilations is sent. Other tasks are left as they are, and the only possible failure is a missing file.", "quantifier": "all tasks, filesystems, sets of solutions, configurations, outcomes of the checker", "why_tests_cant": "the tasks and the outcomes of a checker are unboundedly many", "anchors": [{"file": "task-maker-format/src/ioi/sanity_checks/checker.rs", "symbols": ["FuzzCheckerWithJunkOutput", "JUNK_OUTPUTS"]}, {"file": "task-maker-format/src/ioi/dag/checker.rs", "symbols": ["Checker::check"]}]}
{"id": "C128", "title": "What a diagnostic says is all shown", "statement": "For every diagnostic: the message, every line of the note and the help are printed. If the message and the help are on one line and the note is not empty, the rows printed are exactly: the level with the message; the lines of the note, the first one labelled and the others aligned with it; the help; the attachment, all of it with the right line numbers if it has at most 11 lines, and otherwise the first five lines, a row of dots and the last five; then for each code span its place, the line and the marks. With an empty note what follows is glued to the label of the note (witness). The final report prints all the diagnostics received: the warnings in the order they came, then the errors in the order they came.", "quantifier": "all diagnostics (any note, help, attachment, code spans), all lists of diagnostics", "why_tests_cant": "texts and lists of any length", "anchors": [{"file": "task-maker-diagnostics/src/lib.rs", "symbols": ["Diagnostic::print", "DiagnosticLevel"]}, {"file": "task-maker-diagnostics/src/span.rs", "symbols": ["CodeSpan::to_string"]}, {"file": "task-maker-format/src/ui/mod.rs", "symbols": ["FinishUIUtils::print_diagnostic_messages"]}]}
{"id": "C129", "title": "The marks of a code span are under the code", "statement": "When a code span is printed, the marks are exactly under the characters of the span, in the row after that of the line. It holds when these characters and those before them on the line are ASCII; after characters of more bytes the marks are too far to the right (witness).", "quantifier": "all code spans, all lines, all line numbers", "why_tests_cant": "lines of any content and length", "anchors": [{"file": "task-maker-diagnostics/src/span.rs", "symbols": ["CodeSpan::to_string"]}, {"file": "task-maker-diagnostics/src/lib.rs", "symbols": ["Diagnostic::print"]}]}
{"id": "C130", "title": "The checker of a Terry task is tried on the bad outputs", "statement": "The executions that try the checker of a Terry task on bad outputs are a correct addition to its DAG: if there is at least one file in the directory of the bad outputs, an input is generated from the seed 42, and the checker is run on each bad output with that input; the DAG is still accepted by the server; the executions of the task, their callbacks, the provided files and the files to write are as before; no outcome of a solution and no message is added (except for compilations). Without the directory it is an error and nothing is added; without files nothing is added. It fails only when a file is missing. Nothing is shown about a bad output exactly when the checker succeeds on it and gives a valid outcome.", "quantifier": "all Terry tasks with the files and sets of solutions they fit, all lists of bad outputs", "why_tests_cant": "tasks of any shape and any number of bad outputs", "anchors": [{"file": "task-maker-format/src/terry/sanity_checks/checker.rs", "symbols": ["FuzzChecker::pre_hook"]}, {"file": "task-maker-format/src/terry/dag/mod.rs", "symbols": ["Checker::check", "InputGenerator::generate"]}]}
{"id": "C131", "title": "A Terry task is loaded as it is", "statement": "A directory is loaded as a Terry task exactly when its task.yaml has the three fields (name, description, max_score, each once and of the right kind), managers/ has exactly one generator and exactly one checker, and at most one validator and one official solution, in a known language; and then the task is that one: each manager is compiled statically, without graders, and its executable is always copied to managers/ with the name of the platform. Otherwise it is refused for the first thing that is wrong, and nothing panics. Nothing else in the directory matters. The executables left by an evaluation are never taken for managers, never overwrite a source, and are different for different managers.", "quantifier": "all directories (file systems with real names, paths without glob characters), all contents of task.yaml, all platforms", "why_tests_cant": "directories with any files", "anchors": [{"file": "task-maker-format/src/terry/format/mod.rs", "symbols": ["parse_task", "get_manager", "TaskYAML"]}, {"file": "task-maker-format/src/lib.rs", "symbols": ["find_source_file", "WriteBinTo"]}]}
{"id": "C132", "title": "The final report of a Terry task", "statement": "The final report lists every solution of the task once, in the order of the paths. The summary says of each the points, as an integer, in green for all of them, red for none and yellow otherwise, and a letter for each case that the checker evaluated, in order (missing, correct, wrong, invalid); if the checker refused the output it says why, and if it was not run it names the step that failed. The evaluations say the points with two decimals out of those of the task, the seed, what became of each step (the resources, how it ended, whether it was cached or killed, the standard error if any), and each case with its number and its messages. What is said of the points is the same in both, and no case is left out.", "quantifier": "all tasks and solutions, all sequences of notices of the server, all outputs of the checker", "why_tests_cant": "any order of the events and any output of the checker", "anchors": [{"file": "task-maker-format/src/terry/finish_ui.rs", "symbols": ["FinishUI", "print_evaluations", "print_summary", "print_feedback"]}, {"file": "task-maker-format/src/ui/mod.rs", "symbols": ["FinishUIUtils", "get_max_len"]}]}
{"id": "C133", "title": "The inclusion of bits/stdc++.h is reported", "statement": "When the sanity check runs, it warns exactly when some C++ file of the task (.cpp or .cc, at any depth) that can be read has a line that starts with an #include of bits/stdc++.h, with any white space and either kind of quotes; the warning shows for each such file, in order, its first directive, with the number and the text of its line, and no other file. The check never fails. It does not depend on the directory task-maker is started from.", "quantifier": "all sets of files with any contents, all directories", "why_tests_cant": "any text of the sources", "anchors": [{"file": "task-maker-format/src/ioi/sanity_checks/task.rs", "symbols": ["NoBitsStdCpp"]}, {"file": "task-maker-diagnostics/src/span.rs", "symbols": ["CodeSpan::from_str"]}]}
{"id": "C134", "title": "The official statement is checked", "statement": "When the sanity checks of the statement run, an official statement that is missing (neither statement/statement.pdf nor testo/testo.pdf is there), that is a link that leads nowhere, or that does not begin like a PDF is reported as such, exactly in that case, and nothing is said exactly when it is a PDF (maybe through links). With some booklets, a warning that the official statement is not a compiled one is there exactly when none of the booklets is the same file as the statement (after the links), and it names exactly the compiled files that are there. With git, the error that the statement is not known is there exactly when git knows some file of the task and not that one.", "quantifier": "all disks with links of files and directories, all lists of booklets, all lists of files of git", "why_tests_cant": "any layout of links", "anchors": [{"file": "task-maker-format/src/ioi/sanity_checks/statement.rs", "symbols": ["StatementValid", "StatementCompiled", "StatementGit", "find_statement_pdf"]}]}
{"id": "C135", "title": "The samples among the attachments are checked", "statement": "When the check of the sample files runs, a file of att/ named like a sample (*input*.txt or *output*.txt) that is a link that leads nowhere is reported as broken with its target, one that is not a link is reported as such, and that there is none is reported, exactly in these cases. When the testcases of the first subtask are all files, a file of them that no input of att/ leads to is said to be missing in att/, and an input of att/ that leads to none of them is said to be missing in the task, exactly; if nothing is said the two sets of files are the same.", "quantifier": "all disks with links, all names in att/, all lists of testcases of the first subtask", "why_tests_cant": "any layout of links", "anchors": [{"file": "task-maker-format/src/ioi/sanity_checks/att.rs", "symbols": ["AttSampleFiles", "extract_sample_files_from_task"]}]}
{"id": "C136", "title": "Directories, templates and links of a task are checked", "statement": "The directories among the attachments (maybe through links) are reported exactly. For each grader of a task, the missing template att/{task}.{extension} is reported exactly, and the check never fails. The templates among the solutions that are not links are reported exactly, with the file they should point to. The links of the task that lead nowhere, but those in fuzz, are reported exactly with their targets.", "quantifier": "all disks with links, all names in the directories, all tasks and graders", "why_tests_cant": "any layout of links", "anchors": [{"file": "task-maker-format/src/ioi/sanity_checks/att.rs", "symbols": ["AttTemplates", "AttNoDirectory"]}, {"file": "task-maker-format/src/ioi/sanity_checks/sol.rs", "symbols": ["SolTemplateSymlink"]}, {"file": "task-maker-format/src/ioi/sanity_checks/task.rs", "symbols": ["BrokenSymlinks"]}]}
{"id": "C137", "title": "Wiping the storage needs a yes, and wipes only the storage", "statement": "task-maker-tools reset changes nothing unless the answer is y or Y, up to white space around it. After such an answer and without a storage it says so; with one, the storage is removed with all its entries, even with read-only directories in it, and no directory outside of it has its mode changed. If the removal fails no directory is created: what is left was there.", "quantifier": "all answers, all trees of directories, files and links with any modes", "why_tests_cant": "any tree with any modes", "anchors": [{"file": "src/tools/reset.rs", "symbols": ["main_reset"]}]}
{"id": "C138", "title": "The information on the scores of a task is right", "statement": "task-maker-tools task-info says of an IOI task: its name, its title and its limits as they are; the subtasks, each once, in the order of their numbers, with their maximum score and how many testcases they have; and as maximum score the greatest score a solution can get: no solution whose testcases score between 0 and 1 gets more, and one whose testcases all score 1 gets it. What it says does not depend on the order in which the task is kept in memory.", "quantifier": "all tasks, all scores of the testcases between 0 and 1, all orders in which the scores come and all orders of the maps", "why_tests_cant": "any task and any history of scores", "anchors": [{"file": "task-maker-format/src/ioi/task_info.rs", "symbols": ["IOITaskInfo::new"]}, {"file": "task-maker-format/src/ioi/mod.rs", "symbols": ["ScoreManager::score"]}]}
{"id": "C139", "title": "The sandbox opened by hand is the one asked for", "statement": "The program of task-maker-tools sandbox writes, of the host, only in the directory it is given (the current one if none is), seen as /box, and in a new directory seen as /etc, whose passwd and group have root and nobody with the ids asked for; it reads at their own path, protected from writing, the directories of the system and those asked for, if they exist, and nothing else. It is the first word of the command with the others as its arguments, or bash; its environment is PATH, LANG and LC_ALL; its limits, if any, are those asked for, in KiB; it is kept from forking exactly when that is asked.", "quantifier": "all options, all hosts (which directories exist, the environment), all paths the program looks at", "why_tests_cant": "any options, any host and any path", "anchors": [{"file": "src/tools/sandbox.rs", "symbols": ["main_sandbox", "SandboxOpt"]}, {"file": "task-maker-exec/src/sandbox.rs", "symbols": ["READABLE_DIRS"]}]}
{"id": "C140", "title": "Stopping a sandbox stops that sandbox", "statement": "When a running sandbox is stopped (its job is killed, the server is gone, or another program of its group failed) the signal goes to the process of that sandbox and to no other process of the machine, in every interleaving of the thread that runs the sandbox, the one that stops it and the processes that start and end in the meanwhile; once the sandbox has started no request to stop it is lost; a request never blocks and ends after a bounded number of steps.", "quantifier": "all interleavings of the two threads and the other processes, all process numbers, any number of requests", "why_tests_cant": "any interleaving, any reuse of process numbers", "anchors": [{"file": "task-maker-exec/src/sandbox.rs", "symbols": ["Sandbox::kill"]}, {"file": "src/sandbox.rs", "symbols": ["tools_sandbox_internal"]}]}
