import Verif.Build.Model
import Verif.CheckDag.Spec
/-!
# What the DAG of a task has to be (C56-C61), independent of how it is built

Everything is said about the executions, the provided files and the callbacks of the final
`EvaluationData`.
-/
namespace TM.Build.Spec
open TM TM.Build DagSpec

/-- An `EvaluationData` with an empty DAG; the uuids below `n` are already in use. -/
def start (n : Uuid) (cfg : DagConfig) : Eval := { next := n, dag := { config := cfg } }

/-- The callbacks registered on the DAG, as sent to the server with it. -/
def callbacks (ev : Eval) : WatchSet :=
  { executions := ev.handlers.map (·.1), files := ev.writes.keys }

/-! ## The source files of a task -/

def inputSources : InputGenerator → List Src
  | .staticFile _ => []
  | .custom s _ => [s]

def validatorSources : InputValidator → List Src
  | .assumeValid => []
  | .custom s _ => [s]

def outputSources : OutputGenerator → List Src
  | .notAvailable => []
  | .staticFile _ => []
  | .custom s _ => [s]

def typeSources : TaskType → List Src
  | .batch .whiteDiff => []
  | .batch (.custom s) => [s]
  | .communication s _ _ => [s]
  | .none => []

/-- All the source files a task and its solutions are made of. -/
def sources (task : Task) (sols : List Src) : List Src :=
  typeSources task.type ++ sols ++
  task.subtasks.values.flatMap (fun st => validatorSources st.validator) ++
  task.testcases.values.flatMap (fun tc => inputSources tc.input ++ outputSources tc.output)

/-- The graders a source file may be linked with. -/
def gradersOf (s : Src) : List Grader := (s.graders.getD []).map (·.2)

/-- A task as the loaders make it: an identifier is one instance of `SourceFile`, a grader file is one
file on disk, whose uuid is already taken when the DAG is built, the testcases are stored under their
number and no two subtasks own the same testcase. -/
structure Fits (n : Uuid) (task : Task) (sols : List Src) : Prop where
  instances : ∀ s ∈ sources task sols, ∀ t ∈ sources task sols, s.id = t.id → s = t
  graders : ∀ s ∈ sources task sols, ∀ g ∈ gradersOf s, g.file < n
  graderPath : ∀ s ∈ sources task sols, ∀ t ∈ sources task sols, ∀ g ∈ gradersOf s,
    ∀ h ∈ gradersOf t, g.file = h.file → g.localPath = h.localPath
  testcaseIds : ∀ k tc, task.testcases.get? k = some tc → tc.id = k
  owned : (task.subtasks.values.flatMap (·.owned)).Nodup

/-! ## Files and programs -/

/-- The file `f` of the DAG is provided from `path`. -/
def CopyOf (fs : FS) (ev : Eval) (f : FileUuid) (path : String) : Prop :=
  ∃ k, fs.key path = some k ∧ ev.dag.providedFiles.get? f = some ⟨k, none, some path⟩

/-- The UI follows the execution `u` as `t`. -/
def Reports (ev : Eval) (u : ExecutionUuid) (t : Topic) : Prop := (u, .report t) ∈ ev.handlers

/-- ... and a failure of it is shown as an error. -/
def ErrorShown (ev : Eval) (u : ExecutionUuid) (t : Topic) : Prop :=
  (u, .failureDiagnostic t) ∈ ev.handlers

/-- The grader of the language of a source file. -/
def grader (s : Src) : Option Grader := s.graders.bind (·.get? s.lang.name)

/-- The grader is used when compiling. -/
def compiledWith (s : Src) : Option Grader := if s.lang.compiler.isSome then grader s else none

/-- The grader is used when running. -/
def runWith (s : Src) : Option Grader := if s.lang.compiler.isSome then none else grader s

/-- `comp` is the compilation of `s` and produces `exe`. -/
structure Compilation (fs : FS) (ev : Eval) (s : Src) (k : Compiler) (comp : Execution)
    (exe : FileUuid) : Prop where
  added : comp ∈ allExecs ev.dag
  tag : comp.tag = some "compilation"
  command : comp.command = k.command
  args : comp.args = k.args ++ (match compiledWith s with
    | some g => g.sandboxPath :: (if k.graderOnly then [] else [k.sourceName])
    | none => [k.sourceName])
  output : comp.outputs = [(k.binaryName, exe)]
  source : (∀ g, compiledWith s = some g → g.sandboxPath ≠ k.sourceName) →
    ∃ f, comp.inputs.get? k.sourceName = some ⟨f, false⟩ ∧ CopyOf fs ev f s.path
  grader : ∀ g, compiledWith s = some g →
    comp.inputs.get? g.sandboxPath = some ⟨g.file, g.executable⟩ ∧
      CopyOf fs ev g.file g.localPath
  deps : ∀ d ∈ k.deps, d.sandboxPath ≠ k.sourceName →
    (∀ g, compiledWith s = some g → g.sandboxPath ≠ d.sandboxPath) →
    ∃ d' ∈ k.deps, d'.sandboxPath = d.sandboxPath ∧
      ∃ f, comp.inputs.get? d.sandboxPath = some ⟨f, d'.executable⟩ ∧ CopyOf fs ev f d'.localPath
  stdout : comp.captureStdout = some (10 * 1024)
  stderr : comp.captureStderr = some (10 * 1024)
  priority : comp.priority = 1000000000
  reported : Reports ev comp.uuid (.compilation s.path)
  errors : ErrorShown ev comp.uuid (.compilation s.path)

/-- `exe` is what is executed when `s` is: the output of its compilation, or the file itself. -/
def ExecutableOf (fs : FS) (ev : Eval) (s : Src) (exe : FileUuid) : Prop :=
  match s.lang.compiler with
  | some k => ∃ comp, Compilation fs ev s k comp exe
  | none => CopyOf fs ev exe s.path

/-- `e` runs `s` with the arguments `args`: its command line and what is in its sandbox, except at
the paths `over`, that hold something else.  `ev.exes` is the content of the cells
`SourceFile::executable`: all the executions of an instance use the same file. -/
structure Runs (fs : FS) (ev : Eval) (s : Src) (args over : List String) (e : Execution) : Prop where
  added : e ∈ allExecs ev.dag
  command : e.command = s.lang.command
  line : e.args = match runWith s with
    | some g => s.lang.addFile (s.lang.runArgs args) g.sandboxPath
    | none => s.lang.runArgs args
  exe : s.lang.exeName ∉ over ++ s.lang.deps.map (·.sandboxPath) ++
      (runWith s).toList.map (·.sandboxPath) →
    ∃ f, e.inputs.get? s.lang.exeName = some ⟨f, true⟩ ∧ ev.exes.get? s.id = some f ∧
      ExecutableOf fs ev s f
  deps : ∀ d ∈ s.lang.deps, d.sandboxPath ∉ over ++ (runWith s).toList.map (·.sandboxPath) →
    ∃ d' ∈ s.lang.deps, d'.sandboxPath = d.sandboxPath ∧
      ∃ f, e.inputs.get? d.sandboxPath = some ⟨f, d'.executable⟩ ∧ CopyOf fs ev f d'.localPath
  grader : ∀ g, runWith s = some g → g.sandboxPath ∉ over →
    e.inputs.get? g.sandboxPath = some ⟨g.file, g.executable⟩ ∧ CopyOf fs ev g.file g.localPath
  argFiles : ∀ a ∈ args, fs.present (joinPath s.basePath a) = true →
    a ∉ over ++ s.lang.exeName :: s.lang.deps.map (·.sandboxPath) ++
      (runWith s).toList.map (·.sandboxPath) →
    ∃ f, e.inputs.get? a = some ⟨f, false⟩ ∧ CopyOf fs ev f (joinPath s.basePath a)
  nothingElse : ∀ q, q ∉ over ++ args ++ s.lang.exeName :: s.lang.deps.map (·.sandboxPath) ++
    (runWith s).toList.map (·.sandboxPath) → e.inputs.get? q = none

/-! ## A testcase -/

/-- The tag of an execution, and how early it is run: among the executions that are ready those with
the highest priority are started first. -/
def Ranked (e : Execution) (tag : String) (prio : Priority) : Prop :=
  e.tag = some tag ∧ e.priority = prio

/-- How the input of a testcase is made. -/
def Generated (fs : FS) (ev : Eval) (g : InputGenerator) (st tc : Nat) (input : FileUuid) : Prop :=
  match g with
  | .staticFile path => CopyOf fs ev input path
  | .custom src args => ∃ e, Runs fs ev src args [] e ∧ e.stdout = some input ∧ e.stdin = none ∧
      e.stdoutRedirectPath = none ∧
      e.limits = { src.lang.limits defaultLimits with allowMultiprocess := true } ∧
      e.captureStderr = some (10 * 1024) ∧ Ranked e "generation" (1000000 - tc) ∧
      Reports ev e.uuid (.generation st tc) ∧ ErrorShown ev e.uuid (.generation st tc)

/-- The input of a testcase is validated for a subtask; `handle` is the output of the validator. -/
def Validated (fs : FS) (ev : Eval) (v : InputValidator) (st : Nat) (name : Option String) (tc : Nat)
    (input : FileUuid) (handle : Option FileUuid) : Prop :=
  match v with
  | .assumeValid => handle = none
  | .custom src args => ∃ f e, handle = some f ∧ Runs fs ev src args ["tm_validation_file"] e ∧
      e.inputs.get? "tm_validation_file" = some ⟨input, false⟩ ∧ e.stdin = none ∧
      e.stdout = some f ∧ e.env.get? "TM_SUBTASK" = some (toString st) ∧
      e.env.get? "TM_TESTCASE" = some (toString tc) ∧ e.env.get? "TM_SUBTASK_NAME" = name ∧
      e.captureStderr = some (10 * 1024) ∧ Ranked e "generation" (1000000 - tc) ∧
      Reports ev e.uuid (.validation st tc) ∧ ErrorShown ev e.uuid (.validation st tc)

/-- `e` gets the input of the testcase where the task wants it (a task whose input file is called
`wait_for_validation` is out of luck). -/
def Reads (task : Task) (e : Execution) (input : FileUuid) : Prop :=
  match task.infile with
  | none => e.stdin = some input
  | some infile => infile ≠ "wait_for_validation" → e.inputs.get? infile = some ⟨input, false⟩

/-- `e` does not start before the validator has finished. -/
def WaitsFor (e : Execution) (handle : Option FileUuid) : Prop :=
  ∀ f, handle = some f → e.inputs.get? "wait_for_validation" = some ⟨f, false⟩

/-- `out` is the output the task wants from `e`. -/
def Writes (task : Task) (e : Execution) (out : FileUuid) : Prop :=
  match task.outfile with
  | none => e.stdout = some out
  | some o => e.outputs.get? o = some out

/-- The paths of the sandbox used for the input and for the validation. -/
def ioPaths (task : Task) (handle : Option FileUuid) : List String :=
  task.infile.toList ++ (handle.map (fun _ => "wait_for_validation")).toList

/-- How the official output of a testcase is made. -/
def Solved (fs : FS) (ev : Eval) (task : Task) (g : OutputGenerator) (st tc : Nat)
    (input : FileUuid) (handle : Option FileUuid) (output : FileUuid) : Prop :=
  match g with
  | .notAvailable => ev.dag.providedFiles.get? output = some ⟨emptyKey, some [], none⟩
  | .staticFile path => CopyOf fs ev output path
  | .custom src args => ∃ e, Runs fs ev src args (ioPaths task handle) e ∧ Reads task e input ∧
      WaitsFor e handle ∧ Writes task e output ∧ e.limits = src.lang.limits defaultLimits ∧
      e.captureStderr = some (10 * 1024) ∧ Ranked e "generation" (1000000 - tc) ∧
      Reports ev e.uuid (.officialOutput st tc) ∧ ErrorShown ev e.uuid (.officialOutput st tc)

/-- The limits of the task on top of those of the language: the time of the task, half as much again
and a second of wall time, and the memory of the task, in MiB. -/
def limited (task : Task) (cpu : Option Int) (l : ExecutionLimits) : ExecutionLimits :=
  { l with
    cpuTime := cpu.or l.cpuTime
    wallTime := (cpu.map (fun t => t * 3 / 2 + task.second)).or l.wallTime
    memory := (task.memoryLimit.map (· * 1024)).or l.memory }

/-- `k` compares the output of a solution with the official one. -/
def Checks (fs : FS) (ev : Eval) (checker : Checker) (st tc sol : Nat)
    (input correct test : FileUuid) (k : Execution) : Prop :=
  k ∈ allExecs ev.dag ∧ Reports ev k.uuid (.checker st tc sol) ∧
  Ranked k "checking" (1000 - tc) ∧
  match checker with
  | .whiteDiff => k.command = .system "diff" ∧
      k.args = ["--brief", "--speed-large-files", "--ignore-blank-lines", "--ignore-space-change",
        "correct", "test"] ∧
      k.inputs.get? "correct" = some ⟨correct, false⟩ ∧ k.inputs.get? "test" = some ⟨test, false⟩ ∧
      (k.uuid, .whiteDiff st tc sol) ∈ ev.handlers
  | .custom src =>
      Runs fs ev src ["input", "correct_output", "test_output"]
        ["input", "correct_output", "test_output"] k ∧
      k.inputs.get? "input" = some ⟨input, false⟩ ∧
      k.inputs.get? "correct_output" = some ⟨correct, false⟩ ∧
      k.inputs.get? "test_output" = some ⟨test, false⟩ ∧ k.captureStdout = some 128 ∧
      k.captureStderr = some (10 * 1024) ∧
      (k.uuid, .customChecker st tc sol) ∈ ev.handlers

/-- A solution of a batch task is run on the input, cannot read the official output, and its output is
checked. -/
def EvaluatedBatch (fs : FS) (ev : Eval) (task : Task) (checker : Checker) (st tc sol : Nat)
    (src : Src) (input : FileUuid) (handle : Option FileUuid) (output : FileUuid) : Prop :=
  ∃ e k out, Runs fs ev src [] (ioPaths task handle) e ∧ Reads task e input ∧ WaitsFor e handle ∧
    Writes task e out ∧ output ∉ e.dependencies ∧ Ranked e "evaluation" (1000 - tc) ∧
    e.limits = limited task task.timeLimit (src.lang.limits defaultLimits) ∧
    Reports ev e.uuid (.evaluation st tc sol 0 1) ∧
    (e.uuid, .scoreZeroOnFailure st tc sol) ∈ ev.handlers ∧
    Checks fs ev checker st tc sol input output out k

/-- Process `i` of the `n` of a solution of a communication task talks with the manager on two FIFOs,
and can read neither the input nor the official output. -/
structure Process (fs : FS) (ev : Eval) (task : Task) (io : UserIo) (n st tc sol : Nat) (src : Src)
    (input output : FileUuid) (sender i : Nat) (toSol toMan : FifoUuid) (e : Execution) : Prop where
  run : Runs fs ev src ((match io with
      | .fifoIo => [fifoPath toSol, fifoPath toMan]
      | .stdIo => []) ++ (if n > 1 then [toString i] else [])) [] e
  stdin : e.stdin = none
  stdinPath : e.stdinRedirectPath = if io = .stdIo then some (fifoPath toSol) else none
  stdoutPath : e.stdoutRedirectPath = if io = .stdIo then some (fifoPath toMan) else none
  limits : e.limits = limited task task.timeLimit (src.lang.limits defaultLimits)
  noInput : input ∉ e.dependencies
  noOutput : output ∉ e.dependencies
  reported : Reports ev e.uuid (.evaluation st tc sol i n)
  outcome : (e.uuid, .processOutcome sender) ∈ ev.handlers
  ranked : Ranked e "evaluation" (1000 - tc)

/-- The manager of a communication task reads the input and talks with all the processes. -/
structure Manager (fs : FS) (ev : Eval) (task : Task) (manager : Src) (n st tc sol : Nat)
    (input : FileUuid) (handle : Option FileUuid) (sender : Nat)
    (fifos : List (FifoUuid × FifoUuid)) (e : Execution) : Prop where
  run : Runs fs ev manager (fifos.flatMap (fun p => [fifoPath p.2, fifoPath p.1]))
    (ioPaths task handle) e
  reads : Reads task e input
  waits : WaitsFor e handle
  limits : e.limits = limited task (task.timeLimit.map (fun t => (t + task.second) * n))
    (manager.lang.limits defaultLimits)
  stdout : e.captureStdout = some 128
  stderr : e.captureStderr = some 1024
  reported : Reports ev e.uuid (.checker st tc sol)
  outcome : (e.uuid, .managerOutcome sender) ∈ ev.handlers
  ranked : Ranked e "evaluation" (1000 - tc)

/-- A solution of a communication task is run together with the manager, in one group. -/
def EvaluatedComm (fs : FS) (ev : Eval) (task : Task) (manager : Src) (n : Nat) (io : UserIo)
    (st tc sol : Nat) (src : Src) (input : FileUuid) (handle : Option FileUuid)
    (output : FileUuid) : Prop :=
  ∃ sender, ev.senders[sender]? = some ⟨sender, st, tc, sol, n + 1⟩ ∧
  ∃ p ∈ ev.dag.executionGroups, ∃ fifos procs man,
    p.2.executions = procs ++ [man] ∧ p.2.fifo = fifos.flatMap (fun q => [q.1, q.2]) ∧
    p.2.fifo.Nodup ∧ fifos.length = n ∧ procs.length = n ∧
    (∀ i q e, fifos[i]? = some q → procs[i]? = some e →
      Process fs ev task io n st tc sol src input output sender i q.1 q.2 e) ∧
    Manager fs ev task manager n st tc sol input handle sender fifos man

/-- A solution is evaluated on a testcase. -/
def Evaluated (fs : FS) (ev : Eval) (task : Task) (st tc sol : Nat) (src : Src) (input : FileUuid)
    (handle : Option FileUuid) (output : FileUuid) : Prop :=
  match task.type with
  | .batch checker => EvaluatedBatch fs ev task checker st tc sol src input handle output
  | .communication manager n io =>
    EvaluatedComm fs ev task manager n io st tc sol src input handle output
  | .none => True

/-- All that is done with testcase `tc`, owned by the subtask `st`. -/
structure Prepared (fs : FS) (ev : Eval) (task : Task) (sols : List Src) (st : Subtask)
    (tc : Testcase) (input : FileUuid) (handle : Option FileUuid) (output : FileUuid) : Prop where
  generated : Generated fs ev tc.input st.id tc.id input
  validated : Validated fs ev st.validator st.id st.name tc.id input handle
  solved : Solved fs ev task tc.output st.id tc.id input handle output
  evaluated : ∀ j src, sols[j]? = some src →
    Evaluated fs ev task st.id tc.id j src input handle output

/-! ## The messages to the UI -/

/-- What the UI is told about the evaluation of a solution on a testcase. -/
def evaluationMessages (t : TaskType) (st tc sol : Nat) : List Topic :=
  match t with
  | .batch _ => [.evaluation st tc sol 0 1, .checker st tc sol]
  | .communication _ n _ =>
    (List.range n).map (fun j => .evaluation st tc sol j n) ++ [.checker st tc sol]
  | .none => []

/-- ... about a testcase, in the subtask that owns it. -/
def testcaseMessages (task : Task) (nsols : Nat) (st : Subtask) (tc : Testcase) : List Topic :=
  (inputSources tc.input).map (fun _ => .generation st.id tc.id) ++
  (validatorSources st.validator).map (fun _ => .validation st.id tc.id) ++
  (outputSources tc.output).map (fun _ => .officialOutput st.id tc.id) ++
  (List.range nsols).flatMap (fun sol => evaluationMessages task.type st.id tc.id sol)

/-- ... about a whole task, besides the compilations. -/
def messages (task : Task) (nsols : Nat) : List Topic :=
  task.subtasks.values.flatMap (fun st =>
    (st.owned.filterMap task.testcases.get?).flatMap (testcaseMessages task nsols st)) ++
  task.subtasks.values.flatMap (fun st =>
    (st.testcases.filter (fun k => k ∉ st.owned)).flatMap (fun k =>
      (validatorSources st.validator).map (fun _ => .validation st.id k)))

/-- The topic a callback reports about an execution. -/
def topicOn (u : ExecutionUuid) : ExecutionUuid × Handler → Option Topic
  | (v, .report t) => if v = u then some t else none
  | _ => none

/-- The topics reported about an execution. -/
def reportsOn (ev : Eval) (u : ExecutionUuid) : List Topic := ev.handlers.filterMap (topicOn u)

end TM.Build.Spec
