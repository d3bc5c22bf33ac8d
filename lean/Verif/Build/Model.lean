import Verif.Build.Monad
/-!
# Building the DAG of an IOI task

Model of `task-maker-lang/src/source_file.rs`, `task-maker-lang/src/language.rs`,
`task-maker-format/src/source_file.rs`, `task-maker-format/src/ioi/dag/*` and of
`IOITask::build_dag` (`task-maker-format/src/ioi/mod.rs:264-408`) without the booklets and the
sanity checks.  Human readable descriptions of files and executions are left out.
-/
namespace TM.Build
open TM

/-- The file system: which paths exist, and `FileStoreKey::from_file`
(`task-maker-store/src/lib.rs`), `none` being an error. -/
structure FS where
  present : String → Bool
  key : String → Option FileStoreKey

/-- `Path::join` for relative and absolute second arguments (the first one has no trailing slash). -/
def joinPath (base arg : String) : String :=
  if arg.toList.head? = some '/' then arg else base ++ "/" ++ arg

/-- A file to put in a sandbox, without its `File`: `Dependency`, task-maker-lang/src/lib.rs:48-61. -/
structure DepSpec where
  localPath : String
  sandboxPath : String
  executable : Bool := false
deriving DecidableEq, Repr

/-- A `Dependency` whose `File` already exists: the graders, task-maker-lang/src/grader_map.rs:40-49. -/
structure Grader where
  file : FileUuid
  localPath : String
  sandboxPath : String
  executable : Bool := false
deriving DecidableEq, Repr

/-- What `Language::compilation_builder` prepares: the fields of `SimpleCompiledLanguageBuilder`,
task-maker-lang/src/language.rs:134-171.  `callback` is the last customization of the execution: only
its environment and its limits, which is all the known languages touch. -/
structure Compiler where
  command : ExecutionCommand
  args : List String
  deps : List DepSpec
  sourceName : String
  binaryName : String := "__compiled"
  graderOnly : Bool := false
  env : AMap String String → AMap String String := id
  limits : ExecutionLimits → ExecutionLimits := id

/-- A `Language` (task-maker-lang/src/language.rs:17-91) as seen by one source file: its methods
evaluated at the path of the file. -/
structure Lang where
  name : String
  /-- `compilation_builder`; `none` also when `need_compilation` is false -/
  compiler : Option Compiler
  command : ExecutionCommand
  runArgs : List String → List String := id
  addFile : List String → String → List String := fun args _ => args
  deps : List DepSpec := []
  limits : ExecutionLimits → ExecutionLimits := id
  exeName : String

/-- `SourceFile`, task-maker-lang/src/source_file.rs:24-45; `id` identifies the instance, that is the
cell `executable` shared by its clones. -/
structure Src where
  id : Nat
  path : String
  basePath : String
  lang : Lang
  graders : Option (AMap String Grader) := none
  copyExe : Bool := false
  writeBinTo : Option String := none

/-- task-maker-lang/src/source_file.rs:18. -/
def COMPILATION_CONTENT_LENGTH : Nat := 10 * 1024
/-- task-maker-lang/src/source_file.rs:19. -/
def COMPILATION_PRIORITY : Priority := 1000000000
/-- task-maker-format/src/ioi/dag/mod.rs:17. -/
def GENERATION_PRIORITY : Priority := 1000000
/-- task-maker-format/src/ioi/dag/mod.rs:19. -/
def EVALUATION_PRIORITY : Priority := 1000
/-- task-maker-format/src/ioi/dag/mod.rs:24. -/
def STDERR_CONTENT_LENGTH : Nat := 10 * 1024
/-- task-maker-format/src/ioi/dag/input_validator.rs:17. -/
def TM_VALIDATION_FILE_NAME : String := "tm_validation_file"

/-- `ExecutionLimits::default`, task-maker-dag/src/execution.rs:379-399. -/
def defaultLimits : ExecutionLimits := { fsize := some (1024 ^ 3) }

/-! ## Executions and the DAG -/

/-- `Execution::new`, task-maker-dag/src/execution.rs. -/
def newExecution (command : ExecutionCommand) : B Execution := do
  let u ← fresh
  return { uuid := u, command := command, limits := defaultLimits }

/-- `Execution::input`. -/
def addInput (e : Execution) (file : FileUuid) (path : String) (executable : Bool) : Execution :=
  { e with inputs := e.inputs.insert path ⟨file, executable⟩ }

/-- `Execution::stdout`: the file is created at the first call. -/
def stdoutOf (e : Execution) : B (FileUuid × Execution) :=
  match e.stdout with
  | some f => return (f, e)
  | none => do
    let f ← fresh
    return (f, { e with stdout := some f })

/-- `Execution::stderr`. -/
def stderrOf (e : Execution) : B (FileUuid × Execution) :=
  match e.stderr with
  | some f => return (f, e)
  | none => do
    let f ← fresh
    return (f, { e with stderr := some f })

/-- `Execution::output`: `entry(path).or_insert(file)`. -/
def outputOf (e : Execution) (path : String) : B (FileUuid × Execution) := do
  let f ← fresh
  match e.outputs.get? path with
  | some old => return (old, e)
  | none => return (f, { e with outputs := e.outputs.insert path f })

/-- `Execution::capture_stdout`. -/
def captureStdout (e : Execution) (n : Nat) : B Execution := do
  let (_, e) ← stdoutOf e
  return { e with captureStdout := some n }

/-- `Execution::capture_stderr`. -/
def captureStderr (e : Execution) (n : Nat) : B Execution := do
  let (_, e) ← stderrOf e
  return { e with captureStderr := some n }

/-- `ExecutionDAG::provide_file`, task-maker-dag/src/dag.rs:126-138. -/
def provideFile (fs : FS) (file : FileUuid) (path : String) : B Unit :=
  match fs.key path with
  | none => fail (.missingFile path)
  | some k => upd (fun ev => { ev with dag := ev.dag.provide file ⟨k, none, some path⟩ })

/-- `ExecutionDAG::provide_content`, task-maker-dag/src/dag.rs:140-149; the key of the content is a
parameter. -/
def provideContent (file : FileUuid) (key : FileStoreKey) (content : List Nat) : B Unit :=
  upd (fun ev => { ev with dag := ev.dag.provide file ⟨key, some content, none⟩ })

/-- `ExecutionDAG::add_execution`, task-maker-dag/src/dag.rs:151-157. -/
def addExec (e : Execution) : B Unit := do
  let g ← fresh
  upd (fun ev => { ev with dag := ev.dag.addExecution g e })

/-- `ExecutionDAG::add_execution_group`, task-maker-dag/src/dag.rs:159-165. -/
def addGroup (g : ExecutionGroup) : B Unit :=
  upd (fun ev => { ev with dag := ev.dag.addExecutionGroup g })

/-- `ExecutionDAG::write_file_to`, task-maker-dag/src/dag.rs:171-184: nothing in a dry run. -/
def writeFileTo (file : FileUuid) (dest : String) (executable : Bool) : B Unit :=
  upd (fun ev =>
    if ev.dag.config.dryRun then ev
    else { ev with writes := ev.writes.insert file ⟨dest, executable, false⟩ })

/-- `ExecutionDAG::on_execution_done` and the like. -/
def onExec (u : ExecutionUuid) (h : Handler) : B Unit :=
  upd (fun ev => { ev with handlers := ev.handlers ++ [(u, h)] })

/-- `bind_exec_callbacks!`, task-maker-format/src/lib.rs:316-358: the `Pending` message is sent now,
the others by the callbacks. -/
def bindCallbacks (u : ExecutionUuid) (t : Topic) : B Unit := do
  upd (fun ev => { ev with pending := ev.pending ++ [t] })
  onExec u (.report t)

/-! ## Source files -/

/-- Providing a dependency to an execution under construction: the body of the loops at
task-maker-lang/src/language.rs:230-234 and source_file.rs:170-174. -/
def addDep (fs : FS) (e : Execution) (d : DepSpec) : B Execution := do
  let f ← fresh
  provideFile fs f d.localPath
  return addInput e f d.sandboxPath d.executable

/-- `GraderMap::get_compilation_deps`, task-maker-lang/src/grader_map.rs:66-72. -/
def compilationGrader (s : Src) : Option Grader :=
  match s.graders with
  | none => none
  | some m => if s.lang.compiler.isNone then none else m.get? s.lang.name

/-- `GraderMap::get_runtime_deps`, task-maker-lang/src/grader_map.rs:87-93. -/
def runtimeGrader (s : Src) : Option Grader :=
  match s.graders with
  | none => none
  | some m => if s.lang.compiler.isSome then none else m.get? s.lang.name

/-- Writing the executable when `copy_exe` is set, task-maker-lang/src/language.rs:261-265 and
task-maker-lang/src/source_file.rs:279-283. -/
def writeBin (s : Src) (copy : Bool) (exe : FileUuid) : B Unit :=
  match copy, s.writeBinTo with
  | true, some dest => writeFileTo exe dest true
  | _, _ => pure ()

/-- `SimpleCompiledLanguageBuilder::finalize`, task-maker-lang/src/language.rs:223-277, after
`use_grader`. -/
def finalize (fs : FS) (s : Src) (c : Compiler) (copyExe : Bool) : B (Execution × FileUuid) := do
  let comp ← newExecution c.command
  let comp := { comp with args := c.args }
  let comp ← eachWith (addDep fs) c.deps comp
  let source ← fresh
  let comp := addInput comp source c.sourceName false
  provideFile fs source s.path
  let comp ← (match compilationGrader s with
    | some g => do
      provideFile fs g.file g.localPath
      let comp := addInput { comp with args := comp.args ++ [g.sandboxPath] }
        g.file g.sandboxPath g.executable
      return if c.graderOnly then comp
        else { comp with args := comp.args ++ [c.sourceName] }
    | none => return { comp with args := comp.args ++ [c.sourceName] })
  let (exe, comp) ← outputOf comp c.binaryName
  writeBin s copyExe exe
  return ({ comp with env := c.env comp.env, limits := c.limits comp.limits }, exe)

/-- `SourceFile::prepare`, task-maker-lang/src/source_file.rs:243-290; the result is the uuid of the
compilation if it was added now. -/
def prepare (fs : FS) (s : Src) : B (Option ExecutionUuid) := do
  let cell ← look (fun ev => ev.exes.get? s.id)
  let copy ← look (fun ev => ev.dag.config.copyExe || s.copyExe)
  match cell with
  | some _ => return none
  | none =>
    match s.lang.compiler with
    | some c => do
      let (comp, exe) ← finalize fs s c copy
      let comp := { comp with tag := some "compilation", priority := COMPILATION_PRIORITY }
      let comp ← captureStdout comp COMPILATION_CONTENT_LENGTH
      let comp ← captureStderr comp COMPILATION_CONTENT_LENGTH
      let comp := { comp with limits := { comp.limits with
        allowMultiprocess := true, readOnly := false, mountTmpfs := true, mountProc := true } }
      addExec comp
      upd (fun ev => { ev with exes := ev.exes.insert s.id exe })
      return some comp.uuid
    | none => do
      let exe ← fresh
      writeBin s copy exe
      upd (fun ev => { ev with exes := ev.exes.insert s.id exe })
      provideFile fs exe s.path
      return none

/-- `bind_compilation_exe`, task-maker-format/src/source_file.rs:80-115. -/
def bindCompilation (s : Src) : Option ExecutionUuid → B Unit
  | none => pure ()
  | some u => do
    bindCallbacks u (.compilation s.path)
    onExec u (.failureDiagnostic (.compilation s.path))

/-- `SourceFile::prepare`, task-maker-format/src/source_file.rs:66-70. -/
def prepareBound (fs : FS) (s : Src) : B Unit := do
  let comp ← prepare fs s
  bindCompilation s comp

/-- The body of the loop over the arguments, task-maker-lang/src/source_file.rs:149-160: an argument
that is an existing path is put in the sandbox. -/
def addArg (fs : FS) (s : Src) (e : Execution) (arg : String) : B Execution :=
  let path := joinPath s.basePath arg
  if fs.present path then addDep fs e ⟨path, arg, false⟩ else return e

/-- `SourceFile::execute`, task-maker-lang/src/source_file.rs:137-188 and
task-maker-format/src/source_file.rs:50-63. -/
def execute (fs : FS) (s : Src) (args : List String) : B Execution := do
  let comp ← prepare fs s
  let e ← newExecution s.lang.command
  let e ← eachWith (addArg fs s) args e
  let e := { e with args := s.lang.runArgs args }
  let exe ← look (fun ev => (ev.exes.get? s.id).getD 0)
  let e := addInput e exe s.lang.exeName true
  let e ← eachWith (addDep fs) s.lang.deps e
  let e ← (match runtimeGrader s with
    | some g => do
      provideFile fs g.file g.localPath
      let e := addInput e g.file g.sandboxPath g.executable
      return { e with args := s.lang.addFile e.args g.sandboxPath }
    | none => return e)
  let e := { e with limits := s.lang.limits e.limits, copyEnv := e.copyEnv ++ ["LANG", "LC_ALL"] }
  bindCompilation s comp
  return e

/-! ## The task -/

/-- `InputGenerator`, task-maker-format/src/ioi/dag/input_generator.rs:19-24. -/
inductive InputGenerator where
  | staticFile (path : String)
  | custom (source : Src) (args : List String)

/-- `InputValidator`, task-maker-format/src/ioi/dag/input_validator.rs:22-29. -/
inductive InputValidator where
  | assumeValid
  | custom (source : Src) (args : List String)

/-- `OutputGenerator`, task-maker-format/src/ioi/dag/output_generator.rs:18-26. -/
inductive OutputGenerator where
  | notAvailable
  | staticFile (path : String)
  | custom (source : Src) (args : List String)

/-- `Checker`, task-maker-format/src/ioi/dag/checker.rs:19-29. -/
inductive Checker where
  | whiteDiff
  | custom (source : Src)

/-- `UserIo`, task-maker-format/src/ioi/dag/task_type/communication.rs:16-21. -/
inductive UserIo where
  | stdIo
  | fifoIo
deriving DecidableEq, Repr

/-- `TaskType`, task-maker-format/src/ioi/dag/task_type/mod.rs:20-30. -/
inductive TaskType where
  | batch (checker : Checker)
  | communication (manager : Src) (numProcesses : Nat) (userIo : UserIo)
  | none

/-- `SubtaskInfo`, task-maker-format/src/ioi/mod.rs:157-181: what `build_dag` reads of it. -/
structure Subtask where
  id : Nat
  name : Option String := .none
  testcases : List Nat
  owned : List Nat
  validator : InputValidator

/-- `TestcaseInfo`, task-maker-format/src/ioi/mod.rs:188-199. -/
structure Testcase where
  id : Nat
  input : InputGenerator
  output : OutputGenerator

/-- `IOITask`, task-maker-format/src/ioi/mod.rs:84-150: what `build_dag` reads of it.  The order of
`subtasks` is the iteration order of the hash map.  Times are in a unit in which one second is
`second`; `x * 1.5` is `x * 3 / 2`. -/
structure Task where
  path : String
  infile : Option String
  outfile : Option String
  timeLimit : Option Int
  memoryLimit : Option Nat
  second : Int := 2000000
  subtasks : AMap Nat Subtask
  testcases : AMap Nat Testcase
  type : TaskType

/-- `time_limit * 1.5 + 1.0`. -/
def Task.margin (t : Task) (x : Int) : Int := x * 3 / 2 + t.second

/-- `bind_exec_io!`, task-maker-format/src/ioi/dag/mod.rs:51-70. -/
def bindExecIo (task : Task) (e : Execution) (input : FileUuid) (handle : Option FileUuid) :
    B (FileUuid × Execution) :=
  let e := match task.infile with
    | none => { e with stdin := some input }
    | some infile => addInput e input infile false
  let e := match handle with
    | none => e
    | some f => addInput e f "wait_for_validation" false
  match task.outfile with
  | none => stdoutOf e
  | some outfile => outputOf e outfile

/-- `InputGenerator::generate`, input_generator.rs:30-62. -/
def InputGenerator.generate (fs : FS) (tc : Nat) :
    InputGenerator → B (FileUuid × Option Execution)
  | .staticFile path =>
    if fs.present path then do
      let f ← fresh
      provideFile fs f path
      return (f, none)
    else fail (.missingFile path)
  | .custom src args => do
    let e ← execute fs src args
    let e := { e with
      limits := { e.limits with allowMultiprocess := true }
      tag := some "generation"
      priority := GENERATION_PRIORITY - tc }
    let (f, e) ← stdoutOf e
    return (f, some e)

/-- The end of `generate_and_bind` and `validate_and_bind`: if there is an execution its stderr is
captured, its callbacks bound and it is added, input_generator.rs:93-117, input_validator.rs:91-113
and output_generator.rs:99-118. -/
def addOptional (t : Topic) : Option Execution → B Unit
  | none => pure ()
  | some e => do
    let e ← captureStderr e STDERR_CONTENT_LENGTH
    bindCallbacks e.uuid t
    onExec e.uuid (.failureDiagnostic t)
    addExec e

/-- `InputGenerator::generate_and_bind`, input_generator.rs:66-119. -/
def InputGenerator.generateAndBind (fs : FS) (root : String) (st tc : Nat) (g : InputGenerator) :
    B FileUuid := do
  let (input, gen) ← g.generate fs tc
  writeFileTo input (root ++ "/input/input" ++ toString tc ++ ".txt") false
  addOptional (.generation st tc) gen
  return input

/-- `InputValidator::validate`, input_validator.rs:35-67. -/
def InputValidator.validate (fs : FS) (st : Nat) (name : Option String) (tc : Nat)
    (input : FileUuid) : InputValidator → B (Option FileUuid × Option Execution)
  | .assumeValid => return (none, none)
  | .custom src args => do
    let e ← execute fs src args
    let e := addInput e input TM_VALIDATION_FILE_NAME false
    let e := { e with
      tag := some "generation"
      priority := GENERATION_PRIORITY - tc
      env := (e.env.insert "TM_SUBTASK" (toString st)).insert "TM_TESTCASE" (toString tc) }
    let e := match name with
      | some n => { e with env := e.env.insert "TM_SUBTASK_NAME" n }
      | none => e
    let e := { e with limits := { e.limits with allowMultiprocess := true } }
    let (f, e) ← stdoutOf e
    return (some f, some e)

/-- `InputValidator::validate_and_bind`, input_validator.rs:72-116. -/
def InputValidator.validateAndBind (fs : FS) (st : Nat) (name : Option String) (tc : Nat)
    (input : FileUuid) (v : InputValidator) : B (Option FileUuid) := do
  let (handle, val) ← v.validate fs st name tc input
  addOptional (.validation st tc) val
  return handle

/-- The key of the empty content: `FileStoreKey::from_content(&[])`. -/
def emptyKey : FileStoreKey := ⟨"empty"⟩

/-- `OutputGenerator::generate`, output_generator.rs:32-77. -/
def OutputGenerator.generate (fs : FS) (task : Task) (tc : Nat) (input : FileUuid)
    (handle : Option FileUuid) : OutputGenerator → B (Option FileUuid × Option Execution)
  | .notAvailable => do
    let f ← fresh
    provideContent f emptyKey []
    return (some f, none)
  | .staticFile path =>
    if fs.present path then do
      let f ← fresh
      provideFile fs f path
      return (some f, none)
    else fail (.missingFile path)
  | .custom src args => do
    let e ← execute fs src args
    let e := { e with tag := some "generation", priority := GENERATION_PRIORITY - tc }
    let (f, e) ← bindExecIo task e input handle
    return (some f, some e)

/-- output_generator.rs:119-127. -/
def writeOutput (dest : String) : Option FileUuid → B Unit
  | none => pure ()
  | some f => writeFileTo f dest false

/-- `OutputGenerator::generate_and_bind`, output_generator.rs:81-130. -/
def OutputGenerator.generateAndBind (fs : FS) (task : Task) (st tc : Nat) (input : FileUuid)
    (handle : Option FileUuid) (g : OutputGenerator) : B (Option FileUuid) := do
  let (output, sol) ← g.generate fs task tc input handle
  addOptional (.officialOutput st tc) sol
  writeOutput (task.path ++ "/output/output" ++ toString tc ++ ".txt") output
  return output

/-- `Checker::check`, checker.rs:35-149, with the testcase of the evaluation. -/
def Checker.check (fs : FS) (st tc sol : Nat) (input correct test : FileUuid) :
    Checker → B Execution
  | .whiteDiff => do
    let e ← newExecution (.system "diff")
    let e := { e with args :=
      ["--brief", "--speed-large-files", "--ignore-blank-lines", "--ignore-space-change",
       "correct", "test"] }
    let e := addInput e correct "correct" false
    let e := addInput e test "test" false
    let e := { e with tag := some "checking", priority := EVALUATION_PRIORITY - tc }
    onExec e.uuid (.whiteDiff st tc sol)
    return e
  | .custom src => do
    let e ← execute fs src ["input", "correct_output", "test_output"]
    let e := addInput e input "input" false
    let e := addInput e correct "correct_output" false
    let e := addInput e test "test_output" false
    let e := { e with tag := some "checking" }
    let e ← captureStdout e 128
    let e ← captureStderr e STDERR_CONTENT_LENGTH
    let e := { e with
      priority := EVALUATION_PRIORITY - tc
      limits := { e.limits with allowMultiprocess := true } }
    onExec e.uuid (.customChecker st tc sol)
    return e

/-- `Checker::check_and_bind`, checker.rs:154-199. -/
def Checker.checkAndBind (fs : FS) (st tc sol : Nat) (input correct test : FileUuid)
    (c : Checker) : B Unit := do
  let e ← c.check fs st tc sol input correct test
  bindCallbacks e.uuid (.checker st tc sol)
  addExec e

/-- The limits of a solution, batch.rs:53-60 and communication.rs:145-152. -/
def solutionLimits (task : Task) (l : ExecutionLimits) : ExecutionLimits :=
  let l := match task.timeLimit with
    | some t => { l with cpuTime := some t, wallTime := some (task.margin t) }
    | none => l
  match task.memoryLimit with
  | some m => { l with memory := some (m * 1024) }
  | none => l

/-- `batch::evaluate`, batch.rs:28-108. -/
def batchEvaluate (fs : FS) (task : Task) (st tc sol : Nat) (src : Src) (input : FileUuid)
    (handle correct : Option FileUuid) (checker : Checker) : B Unit :=
  match correct with
  | none => fail .noOfficial
  | some correct => do
    let e ← execute fs src []
    let e := { e with tag := some "evaluation", priority := EVALUATION_PRIORITY - tc }
    let (output, e) ← bindExecIo task e input handle
    let e := { e with limits := solutionLimits task e.limits }
    bindCallbacks e.uuid (.evaluation st tc sol 0 1)
    onExec e.uuid (.scoreZeroOnFailure st tc sol)
    addExec e
    checker.checkAndBind fs st tc sol input correct output

/-- `Fifo::sandbox_path`, task-maker-dag/src/execution_group.rs:50-52. -/
def fifoPath (f : FifoUuid) : String := "tm_pipes/" ++ toString f

/-- The FIFOs of the processes, communication.rs:86-103: (manager to solution, solution to manager),
in creation order. -/
def newFifos : Nat → B (List (FifoUuid × FifoUuid))
  | 0 => return []
  | n + 1 => do
    let a ← fresh
    let b ← fresh
    let rest ← newFifos n
    return (a, b) :: rest

/-- The arguments of one process of a solution, communication.rs:115-124. -/
def procArgs (io : UserIo) (n i : Nat) (man2sol sol2man : FifoUuid) : List String :=
  let args := match io with
    | .fifoIo => [fifoPath man2sol, fifoPath sol2man]
    | .stdIo => []
  if n > 1 then args ++ [toString i] else args

/-- The execution of one process of a solution, communication.rs:125-176. -/
def processExec (fs : FS) (task : Task) (st tc sol : Nat) (src : Src) (io : UserIo)
    (n sender : Nat) (p : Nat × (FifoUuid × FifoUuid)) : B Execution := do
  let (i, man2sol, sol2man) := p
  let e ← execute fs src (procArgs io n i man2sol sol2man)
  let e ← (match io with
    | .fifoIo => return e
    | .stdIo =>
      if e.stdin.isSome then fail .panicStdin
      else return { e with
        stdinRedirectPath := some (fifoPath man2sol)
        stdoutRedirectPath := some (fifoPath sol2man) })
  let e := { e with tag := some "evaluation", priority := EVALUATION_PRIORITY - tc }
  let e := { e with limits := solutionLimits task e.limits }
  bindCallbacks e.uuid (.evaluation st tc sol i n)
  onExec e.uuid (.processOutcome sender)
  return e

/-- The limits of the manager, communication.rs:203-212. -/
def managerLimits (task : Task) (n : Nat) (l : ExecutionLimits) : ExecutionLimits :=
  let l := match task.timeLimit with
    | some t =>
      let cpu := (t + task.second) * n
      { l with cpuTime := some cpu, wallTime := some (task.margin cpu) }
    | none => l
  match task.memoryLimit with
  | some m => { l with memory := some (m * 1024) }
  | none => l

/-- `enumerate`. -/
def enumFrom : Nat → List α → List (Nat × α)
  | _, [] => []
  | i, x :: xs => (i, x) :: enumFrom (i + 1) xs

/-- `communication::evaluate`, communication.rs:67-246.  The uuid of the group is drawn when the group is
added, not when it is created: no other uuid depends on it. -/
def commEvaluate (fs : FS) (task : Task) (st tc sol : Nat) (src : Src) (input : FileUuid)
    (handle : Option FileUuid) (manager : Src) (n : Nat) (io : UserIo) : B Unit := do
  let fifos ← newFifos n
  let sender ← look (fun ev => ev.senders.length)
  upd (fun ev => { ev with senders := ev.senders ++ [⟨sender, st, tc, sol, n + 1⟩] })
  let execs ← eachWith (fun acc p => do
    let e ← processExec fs task st tc sol src io n sender p
    return acc ++ [e]) (enumFrom 0 fifos) []
  let e ← execute fs manager (fifos.flatMap (fun p => [fifoPath p.2, fifoPath p.1]))
  let e := { e with tag := some "evaluation", priority := EVALUATION_PRIORITY - tc }
  let e ← captureStdout e 128
  let e ← captureStderr e 1024
  let (_, e) ← bindExecIo task e input handle
  let e := { e with limits := managerLimits task n e.limits }
  bindCallbacks e.uuid (.checker st tc sol)
  onExec e.uuid (.managerOutcome sender)
  let g ← fresh
  addGroup { uuid := g, executions := execs ++ [e],
             fifo := fifos.flatMap (fun p => [p.1, p.2]) }

/-- `TaskType::evaluate`, task_type/mod.rs:34-78. -/
def TaskType.evaluate (fs : FS) (task : Task) (st tc sol : Nat) (src : Src) (input : FileUuid)
    (handle correct : Option FileUuid) : TaskType → B Unit
  | .batch checker => batchEvaluate fs task st tc sol src input handle correct checker
  | .communication manager n io => commEvaluate fs task st tc sol src input handle manager n io
  | .none => pure ()

/-- `TaskType::prepare_dag`, task_type/mod.rs:81-94. -/
def TaskType.prepareDag (fs : FS) : TaskType → B Unit
  | .batch (.custom src) => prepareBound fs src
  | .batch .whiteDiff => pure ()
  | .communication manager _ _ => prepareBound fs manager
  | .none => pure ()

/-- `generated_io`, ioi/mod.rs:308: the input and the official output of the testcases. -/
abbrev GeneratedIo := AMap Nat (FileUuid × Option FileUuid)

/-- The body of the loop over the testcases of a subtask, ioi/mod.rs:313-367. -/
def buildTestcase (fs : FS) (root : String) (task : Task) (sols : List Src) (st : Subtask)
    (io : GeneratedIo) (tcId : Nat) : B GeneratedIo :=
  match task.testcases.get? tcId with
  | none => fail .panicNoTestcase
  | some tc => do
    let input ← tc.input.generateAndBind fs root st.id tc.id
    let handle ← st.validator.validateAndBind fs st.id st.name tc.id input
    let output ← tc.output.generateAndBind fs task st.id tc.id input handle
    each (fun p => task.type.evaluate fs task st.id tc.id p.1 p.2 input handle output)
      (enumFrom 0 sols)
    return io.insert tc.id (input, output)

/-- The body of the second loop over the subtasks, ioi/mod.rs:378-398. -/
def revalidate (fs : FS) (task : Task) (io : GeneratedIo) (st : Subtask) : B Unit :=
  each (fun tcId =>
    if tcId ∈ st.owned then pure ()
    else match task.testcases.get? tcId with
      | none => fail .panicNoTestcase
      | some tc =>
        match io.get? tcId with
        | none => fail .panicNoInput
        | some (input, _) => do
          let _ ← st.validator.validateAndBind fs st.id st.name tc.id input
          return ()) st.testcases

/-- `IOITask::build_dag`, ioi/mod.rs:264-408, for the solutions found; the result is what is stored in
`TestcaseInfo::input_file` and `official_output_file`.  Booklets and sanity checks are left out. -/
def buildDag (fs : FS) (root : String) (task : Task) (sols : List Src) : B GeneratedIo := do
  task.type.prepareDag fs
  let io ← eachWith (fun io (st : Subtask) =>
      eachWith (buildTestcase fs root task sols st) st.owned io) task.subtasks.values []
  each (fun p => if task.testcases.contains p.1 then pure () else fail .panicNoGenerated) io
  each (revalidate fs task io) task.subtasks.values
  return io

end TM.Build
