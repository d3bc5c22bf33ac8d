# Formal model of task-maker-rust in Lean 4

See `properties.jsonl` for the property list, `MANIFEST.json` for the theorem(s) proving each.

## Trusted base

* Lean 4.33.0's kernel. No axiom is declared here; every property theorem depends at most on
  `propext`, `Classical.choice`, `Quot.sound`.
* The reading of the Rust source that each definition cites (file:lines in its doc comment). The
  code is not compiled or run; the link between model and code is this reading.
* Environment assumptions, stated as explicit hypotheses of the theorems that need them: channels
  between threads are FIFO, reliable and open; uuids are fresh; a worker answers a job with one
  result per execution and a handle for every declared output; `f64` is exact; BLAKE3 has no collisions
  where a theorem says so; `rename(2)` is atomic.

## What is modelled, and how each property is proved (plan)

| property | model | proof |
|---|---|---|
| C01 | `CheckDag`: the validator loop by loop, hash-map iteration order = list order, quantified | loop invariants of Kahn's algorithm; soundness and completeness against an independent `WellFormed` + `Acyclic` spec |
| C02 | `Dag.Model.Execution.status` | case analysis against a rule-per-status relation |
| C03-C15 | `Scheduler`: the whole scheduler as a machine with an explicit stack of pending calls; every iteration order and every cache answer is a quantified choice; panics are error values | inductive invariants over all reachable states (conservation law per group, availability of inputs, resolution of missing files), measure for termination, negation theorems with concrete witnesses where the code violates a property |
| C16-C20 | `Cache`: key construction, entry compatibility, get/insert | algebra over unbounded limits; refinement to a map |
| C21-C26 | `Store`: index, handles, flush, on-disk files, save/load with crash points | invariants over operation sequences |
| C27-C31 | `Proto`: framing, client callbacks, executor binder, worker job state machine | round-trip laws, invariants over message sequences |
| C32-C36 | `Score`, `Solution`, `Format`: score manager, classification, checks, subtask closure | invariants, order independence, fixpoint characterisation |
| C37-C38 | `Format`: the gen/GEN and cases.gen grammars and interpreters | refinement to a specification without state; invariants of the fold over lines |
| C39 | `Text`: lines and code spans | induction over the lines |
| C40-C41, C49 | `Scheduler`: notifications, termination of the handling of a message, status requests | invariants of the machine, measure |
| C42-C43 | `Store`: handles and index as a concurrent transition system | invariants over all interleavings and crash points |
| C44 | `Proto`: several threads sharing a sender | invariant over interleavings |
| C45 | `Client`: message loop | invariant over message sequences |
| C46, C48 | `Worker`: worker, manager and group threads | global invariant over interleavings, deadlock freedom |
| C47 | `Exec`: forwarding of client messages | induction over message sequences |
| C50 | `Score`: the sender of communication scores | invariant over answer orders |
| C51-C52 | `Solution`: reading and writing of checks | induction over lines, round trip |
| C53 | `Format`: static inputs | induction |
| C54-C55 | `Format`: the two pest grammars as ordered choice; inductive syntax without parser | soundness and completeness of every rule, then of lines and files |
| C56-C60 | `Build`: the whole construction of the evaluation DAG of an IOI task as a state and error monad; handlers as data | one invariant over the construction (well formed, acyclic by construction order, handlers on existing executions), then a specification of the result that does not mention the construction |
| C61-C62 | `Build`: the closures registered on the DAG, run on a history of notices; `Score` | every closure is called once per notice; the closures of an evaluation are identified through C57-C58; permutations of the answers of a sender |
| C63-C64 | `Whole`: the DAG of `Build` evaluated by a server of `Sched`, whose notices are handled by the client of `Build` | every group of a built DAG has inputs or one execution (invariant of the construction), so it ends once; notices come from completions of groups; composition with C06, C61, C62 |
| C65-C68 | `Clean`: file systems as finite maps from paths to nodes; `clean` of IOI and terry tasks, the cookie, the files written by a load, globs; any operation may fail (`Faults`) | each step only removes what is in a given set (composition of `Shrinks`); success of a step empties its places; induction on histories; the or-pattern bug, the wildcard bug, the manager that is left and the hidden files are theorems with witnesses |
| C69-C70 | `Lang`: `find_dependencies` over any relation of imports; the two regular expressions that find the imports of C++ and Python sources, as functions on texts | invariant of the search (each name pushed once) gives termination, soundness, completeness; induction on the lines of the text for the scanners |
| C71-C75 | `Ui`: `UIState::apply` and `run_solution_checks`, the messages the client sends while it follows the notices (`Live`: closures of `Build.Callbacks`, score managers of `Score`); `Whole.Order`, `Whole.Shown`: the notices of any reachable server of `Sched` come in order | the state of a testcase is a fold over the messages about it; induction on the notices with the specification of the status as invariant; order of the notices from the history invariants of the scheduler; counterexamples for communication tasks and for the generation status by evaluation of a sample |
| C76-C82 | `Sanity`: the sanity checks about final new lines, equal outputs, dependencies of the subtasks, samples, graders, subtasks of the statement, names, scores, and how they are run; the language detection and the `GraderMap` | the result of a chunked reader is a function of the concatenated chunks (induction on the chunks), then the warnings are a function of the contents; exact characterisations of the warnings by induction on the lists; counterexamples by evaluation |
| C118-C120 | `Remote`: the loop of `detect_exe` on the bytes of a file; `connect_to_remote_server` over a `World` (rest of the URL grammar, name resolution, sockets, key derivation) with the list of the attempts; the loop of the listeners over the connections in order, each with what the peer sends first | induction over the patterns, the addresses, the connections; equivalences with a specification on bytes, strings, positions |
| C121, C122 | `Dot`: `render_dag` over the same `DagData` as C01; labels as lists of characters, a reader of DOT strings in the specification | induction over executions; equivalences; round trip of the escapes |
| C123, C124 | `Lang.Known`: the eight known languages as the `Lang` the construction of the DAG takes | by cases on the language, over `Runs` and `Compilation` of C57 and C59, so that they hold of every DAG that is built; `starts_not_always` from a whole task |
| C125, C126 | `Session`: the main thread, the UI thread, the executor thread and the ctrl-C handler as a transition system whose steps are chosen by an arbitrary schedule; what the client, the hooks, the executor do is a parameter | an invariant relating what was sent, queued and shown; a decreasing measure for termination; `report_not_always` by evaluation of a schedule |
| C127 | `Build.Junk`: the hook that tries the custom checker on junk, on the same builder as the task | the invariants of the builder (`Inv`, `Step`, `Tame`, `Safe`) are kept by the added executions |
| C128, C129 | `Text.Diag`: `Diagnostic::print` and `CodeSpan::to_string` as functions to lists of characters, without the colours; `str::lines` | the output is split back into rows; the stable sort by level is the two filters |
| C130 | `Terry.Fuzz`: the hook that tries the checker of a Terry task on the bad outputs of a directory, whose list of files is a parameter | the invariants of the builder (`Inv`, `Step`, `Tame`, `Safe`) are kept by the added executions |
| C131 | `Parse.Terry`: `parse_task` of the Terry format and `get_manager`, on the `find_source_file` and the yaml decoders of `Parse`; the name of the platform is a parameter | exactness of the search of each manager (as in C109), of the reader (as in C110), then case analysis |
| C132 | `Terry.Report`: `FinishUI` of the Terry tasks as lines of coloured text, over the UI state of C92; scores are exact numbers | a relation says what each row may be, and it leaves no choice; case analysis, sortedness of the sort, and with C92 what the rows say at the end of any evaluation |
| C133 | `Sanity.Bits`: `NoBitsStdCpp` with its regular expression as a reader and the search of the first match, on a disk that is a function of the path; the spans are those of C39 | the search is exact for a specification of the directive by its parts; then induction on the files, with `span_ok_iff` and `span_correct` |
| C134 | `Disk.Model`: a disk with directories, files and symbolic links, resolved with a bound on the steps; `Sanity.Pdf`: `StatementValid`, `StatementCompiled`, `StatementGit` | the resolution with a bound is the relation `Leads` (no bound) on a disk where the bound is not reached; then cases for the first and last check, induction on the booklets for the second |
| C135 | `Sanity.Att`: `AttSampleFiles` on the disk of C134 | membership in the two lists of files is the specification in terms of `LeadsTo`; then the filters; partial with a witness: the input is recognised by the name of the target |
| C136 | `Sanity.Att`: `AttTemplates`, `AttNoDirectory`, `SolTemplateSymlink`, `BrokenSymlinks`, with the graders of C80 | inductions on the names; what a path leads to leads to itself (`leads_real`); partial with a witness: a broken link stops the check of the directories |
| C137 | `Reset.Model`: `main_reset` on a tree with the modes of the directories; the pass that changes the modes, the removal that stops at the first error | the removal works exactly on trees whose directories can all be used, the first pass makes so exactly the trees of `Fine`; inductions on the tree; partial with two witnesses |
| C138 | `TaskInfo.Model`: the scoring and the limits of `IOITaskInfo::new`, with the `ScoreManager` of `Score.Model` | a stable insertion sort gives the one list sorted by ids with the same members; the maximum is the sum of the maxima of the subtasks, and the bounds of each subtask (C32) sum up |
| C139 | `Sandbox.Shell`: the configuration of `main_sandbox` and the files of `/etc` | what is seen is that of the last mount (`Sees`, C88); the files are read back as records |
| C140 | `Kill.Model`: the threads of `Sandbox::kill` and `tools_sandbox_internal` with the table of the processes, one action per step; all interleavings | an invariant that ties the number that was read to the process of the sandbox; a measure of the steps left of a call |
| C112-C117 | `Report`: the final report (`FinishUI`) of an IOI task as lines of coloured text, over the UI state of `Ui`; a panic is `none` | an invariant on the keys of the maps of the UI state (`Exact`), preserved by every message; then each part of the report is computed explicitly; composition with C71, C72, C73, C75; `cache_claimed` by evaluation |
| C109-C111 | `Parse`: `parse_task` over the file system of `Find`, with the readers of `Format`; `find_source_file`, the fields of `task.yaml` and `task.yaml.orig`, the task | exactness of each search from the exactness of the glob patterns, inversion of the decoders field by field, then composition with C36-C40; order independence from C36; witnesses by evaluation |
| C108 | `Build.Samples`: the hook of `AttSampleFilesValid` in the same monad as `buildDag`; the closures as `Handler.sample` events with what they show | the invariants of C56 kept by each piece, a small Hoare logic for what is left alone (`Tame`), the one of C56 for errors |
| C107 | `Find.Copy`: a disk as a finite map, `create_dir`, `fs::copy`, the loops of `copy_competition_files.rs`; the evaluation of the statements is any change of the directory of the task | what each copy changes, induction on the files and on the tasks with a frame (nothing else changes); witnesses for coinciding names and old files |
| C104, C105, C106 | `Find`: paths as lists of components, the file tree as a finite map, globs; `find_solutions`, `find_task`, the booklets of a task and of a contest | induction on the lists of files, on the depth of the search and on the tasks; exact characterisations; witnesses for what the code does differently |
| C103 | `Format.WriteGen`: the text written by `write_gen_gen` and the two readers already modelled; `Format.WriteGenSpec` says what is the same | every line written has its reading in the syntax of C54; simulation of the reader by induction on the entries, with an invariant of the reader of cases.gen (numbers, names, words); witnesses for what the file cannot express |
| C100, C101, C102 | `Booklet.Model`: the executions and files added for a booklet (Asymptote, pdfcrop, latexmk), `Booklet.Spec` says what the sandboxes must contain | the invariant of `Build.Inv` extended through every step, plus an exact trace (`Booklet.Trace`) of reports and executions; own output: proved for LaTeX, refuted for Asymptote |
| C98, C99 | `Booklet.Tex`, `Booklet.Warnings`: the text of a booklet and of its statements, the errors found in the log of LaTeX | induction on the lines; regular expressions written as functions and characterised by decompositions of the line; counterexamples |
| C97 | `Fuzz.Model`: the corpus and the failures of `fuzz_checker.rs`, and what `fuzzer.cpp` gives to the checker | induction on the artifacts and on the testcases; counterexamples for shared testcases, stale failures and the README |
| C96 | `BadCase.Patch`: `patch_task_for_batch` and `patch_dag` (the parsing of paths and descriptions as functions on lists of characters) on top of `Build` | the invariants of `Build` for the task of the batch (`batch_fits`), the executions counted by a bijection with their topics (`processed_count`), `rfind` on the paths and descriptions by induction; counterexamples for two processes and for tasks with an output file |
| C95 | `BadCase.Model`: the loop of `main_find_bad_case`, the queue of messages and `UIState::apply` of find_bad_case/state.rs as a transition system of two threads and ctrl-C with a shared state; ghost: the messages are tagged with their batch | invariant over all the interleavings (`Inv`); with the hypothesis that the UI keeps up (`Run true`) a second invariant (`Prompt`); counterexamples for the code as it is (`Run false`) |
| C92-C94 | `Terry.Ui`: `UIState::apply`, `process_event` of terry/ui_state.rs and the closures the client runs on the notices (terry/dag/mod.rs); the server is the scheduler of `Sched` | induction over the notices with an invariant that says what is known of each solution (`Knows`); for C94 the theorems of `Whole`, that hold of any DAG whose executions are all watched; counterexamples on the sample task |
| C90, C91 | `Terry.Model`: `TerryTask::build_dag` and the steps of terry/dag/mod.rs over the evaluation state of `Build` (dag, executables, closures, messages, writes); seeds are a parameter | the invariants of `Build` (`Done`, `Step`) kept by every step, induction over the solutions; specification in `Terry/Spec.lean` |
| C88, C89 | `Sandbox.Command`: the rest of the configuration given to tabox (mounted directories, environment, executable, arguments) for any machine (`Host`: which directories, variables, executables there are) | the mounts as a list whose last covering entry is seen; induction over the directories. C89 is violated if a variable is named twice |
| C83-C87 | `Sandbox`: the file system with its inodes, hard links and modes; the operations of `Sandbox::setup`, of the programs and of the store, interleaved in any order; the configuration given to tabox (limits, streams) | invariant over all the histories (stored inodes are read only, a writable inode has one name), frame lemmas per operation; linear arithmetic for the limits. C83, C84, C86, C87 are violated by the code: counterexamples and `_partial` theorems |

## Modules

* `Base` association maps (hash maps) and sorting.
* `Dag`, `CheckDag` execution DAG data types, result classification, DAG validation.
* `Sched` the scheduler. `Model` is the machine, `Spec` the vocabulary of the statements, `Props*` the
  properties. `EventOk` collects the assumptions about messages: a client evaluates a DAG accepted by the
  validator, a worker answers with one result per execution and one handle per declared output, uuids are
  fresh; `wrong_answer_fatal` shows what happens otherwise.
* `Cache` the cache key, entries and lookups, over all histories of insertions.
* `Store` the file store as a concurrent transition system: each step is a piece of `store`, `get`,
  `clone`, `drop`, `close` between two points where another thread can run or the process can crash.
  Contents are lists of bytes, times are arbitrary naturals, the mutexes give the atomicity of a step.
* `Storage` saving and loading of the index and of the cache file: system calls, crash after any of
  them, the magic line; bincode is modelled for the index and is a hypothesis (`Codec.Lawful`) in general.
* `Proto` channels: framing of messages and file transfers, several threads sharing a sender.
* `Client` the client: processing of a received file, the message loop.  Times and UI are dropped.
* `Exec` the executor's two forwarding threads (scheduler to client, client to scheduler).
* `Worker` the worker: reception of jobs and files, the protocol with its manager on the server
  (three threads and four channels), the group of sandboxes, the capture of the streams.  A file
  transfer is one message here (`Proto` proves that transfers are lossless).  The scheduler's assumption
  that a result has a handle for every output is `group_report_ok`; it needs every output left by a
  sandbox to be readable.
* `Score` the score manager of a solution, the aggregation, the sender of the communication scores, the
  classification of a score.  Floating point numbers are exact rationals or NaN.
* `Text` lines of a text and code spans.
* `Solution` the checks of the solutions: outcomes and checks, the choice of the check for a subtask, the
  reading of the `@check` comments and the rewriting of the source file.
* `Format` the italian_yaml task format: the grammar of `gen/GEN` (rule by rule, on characters), the
  interpretation of its lines, the grammar and the interpreter of `gen/cases.gen` with its generators,
  validators and constraints, the static inputs, the grouping of testcases and the closure of the
  dependencies in `parse_task`.  Paths and their existence, `shell_words::split`, language detection,
  Unicode tables and the lookup of validators and official solutions are parameters; scores are exact
  rationals.
* `Build` the construction of the evaluation DAG of an IOI task (batch and communication): source files and
  their compilation, generators, validators, official outputs, evaluations, checkers, the callbacks
  registered, the files written.  A callback is the data it needs (what it reports, which score it
  gives).  `Spec` has the vocabulary of the statements.  Uuids are made by a counter (so they are distinct);
  a language is its compilation and run commands; times are integers; booklets and the other sanity checks are left
  out.  `Callbacks` runs the callbacks on the notices of the server, with `ScoreSpec` as vocabulary; the parsing of
  what a checker prints is a parameter of the outcome.  `Samples` is the hook of `AttSampleFilesValid` (`SamplesSpec`,
  `SamplesLemmas`, `SamplesTame`, `SamplesBridge`, `PropsSamples`: C108).
* `Whole` the composition: a client that builds the DAG with `Build` and a server that is any reachable state of
  `Sched`; the notices in the trace of the server are the ones the client handles.  How the client reads a result
  (`Reading`) is a parameter that keeps the status.
* `Clean` what cleaning and loading a task do to the files of its directory (`Model`, `Spec`, `Props`, `PropsLoad`, `Terry`,
  `Demo` with the counterexamples). Not modelled: links, concurrent changes, `**` in a path, contents of the written files after the header.
* `Lang` the imports of source files (`Deps`, `DepsProps`, `Imports`, `ImportsProps`, `PyProps`).
* `Ui` the state of the UI: `Model` (`UIState`), `Live` (the messages of an evaluation), `Spec`, `Checks` (C72), `Props` (C71, C73), `PropsScores` (C72, C74), `PropsGen` (C75), `Sample`, `Examples`; the other files are lemmas.
* `Whole.Order`, `Whole.Shown` the order of the notices of a server and what follows for the UI.
* `Sanity` the sanity checks: `Chunks` (how a file arrives), `NewLine` (C76), `Outputs` (C77), `Deps`, `PropsDeps` (C78), `Samples`, `PropsSamples` (C79), `Graders`, `PropsGraders` (C80), `Statement`, `PropsStatement` (C81), `Hooks` (C82). File names are lists of characters, contents lists of bytes, the hash a parameter.
* `Sandbox` the files of the sandboxes: `Model` (inodes, operations, `setup`), `Lemmas`, `SetupLemmas`, `Props` (C83), `PropsStore` (C83-C85), `Limits` (C86, C87), `Command` and `PropsCommand` (C86, C88, C89). Assumed: the permissions of the kernel, tabox kills only when a limit is used up.
* `Terry` Terry tasks: `Model` (DAG), `Spec`, `Steps`, `Whole` (invariants), `Sample`, `Props` (C90, C91), `Ui`, `UiSpec`, `UiLemmas`, `UiChain`, `PropsUi`, `UiSample` (C92, C93), `PropsComp` (C92), `PropsWhole` (C94).
* `BadCase` the tool that searches for a bad case (`Model`, `Spec`, `Lemmas`, `Props`, `Sample`; task and DAG of a batch: `Patch`, `PatchLemmas`, `PropsPatch`, `PatchCount`, `PatchDag`, `PropsPatched`, `PatchSample`).
* `Fuzz` the tool that fuzzes the checker (`Model`, `Props`, `Sample`).
* `Format.WriteGen`, `WriteGenSpec`, `WriteGenLemmas`, `WriteGenMain`, `WriteGenCases`, `PropsWriteGen` (C103): the `gen/GEN` written from `gen/cases.gen`; the `Display` of points and `strip_prefix` are parameters.
* `Booklet` the statements: `Tex`, `TexSpec`, `TexLemmas`, `PropsTex` (C98), `Warnings`, `WarnSpec`, `PropsWarn` (C99), `Model`, `Spec`, `Lemmas`, `Asy`, `Deps`, `Trace`, `Whole`, `Finish`, `PropsDag` (C100, C101, C102). The names of tasks are assumed to be non-empty relative paths and the descriptions of files and executions are left out; `glob` is a function of the directory. Assumed: the two regular expressions do what the regex crate documents (leftmost match, `.` is not a newline).
* `Find` what task-maker works on: `Model`, `Spec`, `TaskLemmas`, `PropsTask` (C105), `SolLemmas`, `PropsSol` (C104), `Contest`, `ContestSpec`, `ContestLemmas`, `PropsContest` (C106), `Copy`, `CopyLemmas`, `PropsCopy` (C107). No symbolic links; the parsers of tasks and of contest.yaml are parameters; patterns with brackets are not modelled.
* `Parse` loading an IOI task: `Model`, `Spec`, `PartLemmas`, `PropsParts` (C109), `YamlLemmas`, `PropsYaml` (C110), `TaskLemmas`, `EntryLemmas`, `PropsTask` (C111), `Sample`. The text of a yaml file is parsed by a parameter; numbers are exact; no links.
* `Report` the final report: `Model`, `Spec`, `Exact` (the invariant), `Lemmas`, `Summary`, `Table`, `Lines`, `Props`, `PropsLive` (C112-C116), `PropsCache` (C117, sample). Parameters: how numbers, resources and failures are written, the order and the names of the solutions. Left out: the basic information, the compilations, the booklets, the diagnostics, the stderr of the generators and the name at the right of the screen.

* `Remote` executables and connections: `Exe`, `PropsExe` (C118), `Connect`, `PropsConnect` (C119), `PropsListen` (C120).
* `Dot` the graph of `--copy-dag`: `Model`, `Props` (C121, C122).

* `Lang/Known`, `Lang/PropsKnown`: the configuration of the compilers from the environment, the command lines of the known languages, task-maker-lang/src/languages/*.rs. Parameters: `shell_words::split`, the imports found, the files that exist.
* `Session` the threads of an evaluation, src/context.rs: `Model`, `Lemmas`, `Props` (C125, C126).
* `Build.Junk`, `Build.PropsJunk` the junk given to a custom checker, ioi/sanity_checks/checker.rs (C127).
* `Text.Diag`, `Text.PropsDiag` what a diagnostic prints, task-maker-diagnostics (C128, C129).
* `Terry.Fuzz`, `Terry.PropsFuzz` the bad outputs given to the checker of a Terry task, terry/sanity_checks/checker.rs (C130).
* `Parse.Terry`, `Parse.PropsTerry` loading a Terry task, terry/format/mod.rs (C131).
* `Terry.Report`, `Terry.ReportLemmas`, `Terry.PropsReport` the final report of a Terry task, terry/finish_ui.rs (C132).
* `Sanity.Bits`, `Sanity.BitsLemmas`, `Sanity.PropsBits` the inclusion of all the standard library, ioi/sanity_checks/task.rs (C133).
* `Disk.Model` a disk with symbolic links; `Sanity.Pdf`, `Sanity.PropsPdf` the official statement, ioi/sanity_checks/statement.rs (C134).
* `Sanity.Att`, `Sanity.AttLemmas`, `Sanity.PropsAtt` the files of the attachments, ioi/sanity_checks/att.rs, sol.rs, task.rs (C135, C136); `Disk.Listed` disks for the examples.
* `Reset.Model`, `Reset.Props` the tool that wipes the storage, src/tools/reset.rs (C137).
* `TaskInfo.Model`, `TaskInfo.Props` the scores in the information on a task, ioi/task_info.rs (C138).
* `Sandbox.Shell`, `Sandbox.PropsShell` the sandbox opened by hand, src/tools/sandbox.rs (C139).
* `Kill.Model`, `Kill.Props` stopping a sandbox while it runs, task-maker-exec/src/sandbox.rs and src/sandbox.rs (C140).

Not modelled: the isolation of the processes in the sandbox (tabox, namespaces, system call filters), the rendering of the other UIs, what LaTeX does,
serde (de)serialisation of arbitrary types, real threads (the scheduler is single threaded and its
messages are quantified over).
