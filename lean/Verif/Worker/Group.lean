import Verif.Sched.Model
import Verif.Worker.PropsJob
/-!
# The execution of the group on the worker

`sandbox_group_manager`, `compute_execution_result`, `get_result_outputs` of
`task-maker-exec/src/worker.rs`, and the reading of the outcome of the sandbox,
`task-maker-exec/src/sandbox.rs:165-196`.

Simplification: the content of the sandbox directories when a sandbox has ended is a parameter
(`Box`); reads of the captured streams return all that is available.
-/
namespace TM.Worker

/-- `tabox::result::ExitStatus`. -/
inductive ExitStatus where
  | exitCode (c : Nat)
  | signal (s : Nat) (name : Option String)
  | killed
  deriving DecidableEq, Repr

/-- `RawSandboxResult`, sandbox.rs:79-84: what tabox reports; the memory is in bytes. -/
inductive RawResult where
  | success (status : ExitStatus) (user system wall : Int) (memoryBytes : Nat)
  | error (msg : String)
  deriving DecidableEq, Repr

/-- `SandboxResult`, sandbox.rs:42-59. -/
inductive SandboxResult where
  | success (exitStatus : Nat) (signal : Option (Nat × String)) (resources : Resources)
      (wasKilled : Bool)
  | failed (error : String)
  deriving DecidableEq, Repr

/-- `Sandbox::run` after the command has been built, sandbox.rs:155-196, together with the
conversion of the errors at worker.rs:404-409, 546-551. -/
def readRaw : RawResult → SandboxResult
  | .error e => .failed ("Sandbox failed: " ++ e)
  | .success status user system wall memory =>
    let resources : Resources :=
      { cpuTime := user, sysTime := system, wallTime := wall, memory := memory / 1024 }
    match status with
    | .exitCode c => .success c none resources false
    | .signal s name => .success 0 (some (s, name.getD "unknown")) resources false
    | .killed => .success 1 (some (9, "Killed by sandbox")) resources true

/-- A file of the sandbox when it has ended. -/
inductive FileState where
  | absent
  | unreadable (err : String)
  | content (bytes : List Nat)
  deriving DecidableEq, Repr

/-- The directory of a sandbox when it has ended. -/
structure Box where
  stdout : FileState := .absent
  stderr : FileState := .absent
  output : String → FileState := fun _ => .absent

/-- `capture_stream`, worker.rs:648-668, with the failure to open or read the file. -/
def capture (f : FileState) (count : Option Nat) : Except String (Option (List Nat)) :=
  match count with
  | none => .ok none
  | some n => match f with
    | .content bytes => .ok (captureStream bytes [] (some n))
    | .absent => .error "No such file or directory"
    | .unreadable e => .error e

/-- `compute_execution_result`, worker.rs:559-602. -/
def computeResult (e : Execution) (r : SandboxResult) (box : Box) : ExecutionResult :=
  match r with
  | .failed error => { status := .internalError error }
  | .success exitStatus signal resources wasKilled =>
    let stdout := capture box.stdout e.captureStdout
    let stderr := capture box.stderr e.captureStderr
    let status := match stdout, stderr with
      | .ok _, .ok _ => e.status exitStatus signal resources
      | .error err, _ => .internalError ("Failed to read stdout file: " ++ err)
      | _, .error err => .internalError ("Failed to read stderr file: " ++ err)
    { status := status
      resources := resources
      wasKilled := wasKilled
      stdout := stdout.toOption.getD none
      stderr := stderr.toOption.getD none }

/-- The files to extract from a sandbox: `get_result_outputs`, worker.rs:635-643. -/
def outputsOf (e : Execution) (box : Box) : List (FileUuid × FileState) :=
  e.stdout.toList.map (fun f => (f, box.stdout)) ++
    (e.stderr.toList.map (fun f => (f, box.stderr)) ++
      e.outputs.map (fun p => (p.2, box.output p.1)))

/-- The closure `add_file`, worker.rs:612-633: the keys of the outputs and the status. -/
def addFile (hash : List Nat → FileStoreKey) (acc : AMap FileUuid FileStoreKey × ExecutionStatus)
    (f : FileUuid × FileState) : AMap FileUuid FileStoreKey × ExecutionStatus :=
  match f.2 with
  | .content bytes => (acc.1.insert f.1 (hash bytes), acc.2)
  | .unreadable e => (acc.1, .internalError ("Failed to get store key: " ++ e))
  | .absent => (acc.1.insert f.1 (hash []), acc.2)

/-- `get_result_outputs`, worker.rs:605-644. -/
def getOutputs (hash : List Nat → FileStoreKey) (e : Execution) (box : Box)
    (outputs : AMap FileUuid FileStoreKey) (status : ExecutionStatus) :
    AMap FileUuid FileStoreKey × ExecutionStatus :=
  (outputsOf e box).foldl (addFile hash) (outputs, status)

/-- The variables of `sandbox_group_manager`, worker.rs:395-398; `kills` are the sandboxes killed,
each with the execution whose failure is the reason. -/
structure GroupState where
  results : List (Option ExecutionResult)
  outputs : AMap FileUuid FileStoreKey := []
  kills : List (Nat × Nat) := []

/-- The reception of the result of the `index`-th sandbox, worker.rs:444-472.  The first `none` is the
failure of the assertion `results[index].is_none()` (or an index out of bounds). -/
def onSandbox (hash : List Nat → FileStoreKey) (execs : List Execution) (boxes : Nat → Box)
    (st : GroupState) (index : Nat) (r : SandboxResult) : Option GroupState :=
  match st.results[index]?, execs[index]? with
  | some none, some e =>
    let result := computeResult e r (boxes index)
    let kills := if result.status.isSuccess then []
      else ((List.range st.results.length).filter (fun i =>
        decide (i ≠ index) && (st.results[i]?.getD none).isNone)).map (fun i => (index, i))
    let out := getOutputs hash e (boxes index) st.outputs result.status
    some {
      results := st.results.set index (some { result with status := out.2 })
      outputs := out.1
      kills := st.kills ++ kills }
  | _, _ => none

/-- The loop `while missing > 0`, worker.rs:442-475, over the results in the order in which they
arrive. -/
def groupLoop (hash : List Nat → FileStoreKey) (execs : List Execution) (boxes : Nat → Box)
    (outcome : Nat → SandboxResult) : GroupState → List Nat → Option GroupState
  | st, [] => some st
  | st, i :: is => match onSandbox hash execs boxes st i (outcome i) with
    | none => none
    | some st => groupLoop hash execs boxes outcome st is

/-- The state at the beginning, worker.rs:395-398. -/
def groupStart (execs : List Execution) : GroupState := { results := execs.map (fun _ => none) }

/-- The message `WorkerDone`, worker.rs:483-489, `results.into_iter().map(Option::unwrap)`. -/
def workerDone (st : GroupState) : Option (List ExecutionResult × AMap FileUuid FileStoreKey) :=
  (st.results.mapM id).map (fun rs => (rs, st.outputs))

/-- The case of one execution, worker.rs:400-420. -/
def singleGroup (hash : List Nat → FileStoreKey) (e : Execution) (box : Box) (r : SandboxResult) :
    List ExecutionResult × AMap FileUuid FileStoreKey :=
  let result := computeResult e r box
  let out := getOutputs hash e box [] result.status
  ([{ result with status := out.2 }], out.1)

end TM.Worker
