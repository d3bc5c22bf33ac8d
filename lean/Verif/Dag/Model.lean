import Verif.Base.AMap
/-!
# The execution DAG (`task-maker-dag`)

Model of the data types a client builds and sends to the executor, and of the small functions on
them.  Simplifications common to the whole development:

* UUIDs are natural numbers; paths and strings are `String`.
* `f64` times are exact integers in an arbitrary fixed unit: rounding, NaN and infinities of
  IEEE floats are not modelled.  `u64`/`i64` values are unbounded unless a definition says
  otherwise.
* descriptions (human readable strings) that no decision depends on are dropped.
-/

namespace TM

/-- `uuid::Uuid`; all identifiers below. -/
abbrev Uuid := Nat
/-- task-maker-dag/src/file.rs:10 `FileUuid`. -/
abbrev FileUuid := Uuid
/-- task-maker-dag/src/execution.rs:14 `ExecutionUuid`. -/
abbrev ExecutionUuid := Uuid
/-- task-maker-dag/src/execution_group.rs:14 `ExecutionGroupUuid`. -/
abbrev GroupUuid := Uuid
/-- task-maker-dag/src/execution_group.rs:16 `FifoUuid`. -/
abbrev FifoUuid := Uuid
/-- task-maker-dag/src/execution.rs:20 `WorkerUuid`. -/
abbrev WorkerUuid := Uuid
/-- task-maker-exec/src/scheduler.rs:23 `ClientUuid`. -/
abbrev ClientUuid := Uuid
/-- task-maker-dag/src/execution.rs:32,35 `Priority`, `DagPriority` (an `i64`). -/
abbrev Priority := Int

/-- task-maker-dag/src/execution.rs:39 `HIGH_PRIORITY`. -/
def HIGH_PRIORITY : Priority := 1000000000000

/-- task-maker-store/src/lib.rs `FileStoreKey`: the hex digest of the content. -/
structure FileStoreKey where
  hash : String
deriving DecidableEq, Repr

/-- task-maker-dag/src/execution.rs:62-68 `ExecutionCommand`. -/
inductive ExecutionCommand where
  | system (path : String)
  | localCmd (path : String)
deriving DecidableEq, Repr

/-- task-maker-dag/src/execution.rs:73-78 `ExecutionInput`. -/
structure ExecutionInput where
  file : FileUuid
  executable : Bool
deriving DecidableEq, Repr

/-- task-maker-dag/src/execution.rs:189-220 `ExecutionLimits`.  Times are exact integers. -/
structure ExecutionLimits where
  cpuTime : Option Int := none
  sysTime : Option Int := none
  wallTime : Option Int := none
  memory : Option Nat := none
  allowMultiprocess : Bool := false
  nofile : Option Nat := none
  fsize : Option Nat := none
  memlock : Option Nat := none
  stack : Option Nat := none
  readOnly : Bool := true
  mountTmpfs : Bool := false
  mountProc : Bool := false
  extraReadableDirs : List String := []
deriving DecidableEq, Repr

/-- task-maker-dag/src/dag.rs:14-21 `CacheMode`; a tag is its name. -/
inductive CacheMode where
  | everything
  | nothing
  | except (tags : List String)
deriving DecidableEq, Repr

/-- task-maker-dag/src/dag.rs:26-46 `ExecutionDAGConfig`. -/
structure DagConfig where
  keepSandboxes : Bool := false
  dryRun : Bool := false
  cacheMode : CacheMode := .everything
  extraTime : Int := 0
  extraMemory : Nat := 8 * 1024
  copyExe : Bool := false
  copyLogs : Bool := false
  priority : Priority := 0
deriving DecidableEq, Repr

/-- task-maker-dag/src/execution.rs:127-185 `Execution`.  The maps `inputs`, `outputs`, `env` are
association lists whose order stands for the `HashMap` iteration order. -/
structure Execution where
  uuid : ExecutionUuid
  command : ExecutionCommand := .localCmd "foo"
  args : List String := []
  stdin : Option FileUuid := none
  stdout : Option FileUuid := none
  stderr : Option FileUuid := none
  captureStdout : Option Nat := none
  captureStderr : Option Nat := none
  inputs : AMap String ExecutionInput := []
  outputs : AMap String FileUuid := []
  stdinRedirectPath : Option String := none
  stdoutRedirectPath : Option String := none
  stderrRedirectPath : Option String := none
  env : AMap String String := []
  copyEnv : List String := []
  limits : ExecutionLimits := {}
  config : DagConfig := {}
  tag : Option String := none
  priority : Priority := 0
deriving DecidableEq, Repr

/-- task-maker-dag/src/execution.rs:225-242 `ExecutionStatus`. -/
inductive ExecutionStatus where
  | success
  | returnCode (code : Nat)
  | signal (num : Nat) (name : String)
  | timeLimitExceeded
  | sysTimeLimitExceeded
  | wallTimeLimitExceeded
  | memoryLimitExceeded
  | internalError (msg : String)
deriving DecidableEq, Repr

/-- task-maker-dag/src/execution.rs:247-256 `ExecutionResourcesUsage`. -/
structure Resources where
  cpuTime : Int := 0
  sysTime : Int := 0
  wallTime : Int := 0
  memory : Nat := 0
deriving DecidableEq, Repr

/-- task-maker-dag/src/execution.rs:260-273 `ExecutionResult`; captured bytes are `Nat` lists. -/
structure ExecutionResult where
  status : ExecutionStatus
  wasKilled : Bool := false
  wasCached : Bool := false
  resources : Resources := {}
  stdout : Option (List Nat) := none
  stderr : Option (List Nat) := none
deriving DecidableEq, Repr

namespace ExecutionStatus

/-- task-maker-dag/src/execution.rs:398-400 `is_success`. -/
def isSuccess : ExecutionStatus → Bool
  | .success => true
  | _ => false

/-- task-maker-dag/src/execution.rs:403-405 `is_internal_error`. -/
def isInternalError : ExecutionStatus → Bool
  | .internalError _ => true
  | _ => false

end ExecutionStatus

namespace Execution

/-- task-maker-dag/src/execution.rs:477-486 `Execution::dependencies`: stdin first, then the files
of the inputs in iteration order. -/
def dependencies (e : Execution) : List FileUuid :=
  e.stdin.toList ++ e.inputs.map (fun p => p.2.file)

/-- task-maker-dag/src/execution.rs:499-511 `Execution::outputs`: stdout, stderr, then the output
files in iteration order. -/
def outputFiles (e : Execution) : List FileUuid :=
  e.stdout.toList ++ (e.stderr.toList ++ e.outputs.map (·.2))

/-- A measured quantity against an optional limit: `if let Some(l) = limit { used > l }`. -/
def over (limit : Option Int) (used : Int) : Bool :=
  match limit with
  | some l => decide (used > l)
  | none => false

/-- Same as `over` for the memory (`u64`). -/
def overMem (limit : Option Nat) (used : Nat) : Bool :=
  match limit with
  | some l => decide (used > l)
  | none => false

/-- task-maker-dag/src/execution.rs:773-807 `Execution::status`. -/
def status (e : Execution) (exitStatus : Nat) (signal : Option (Nat × String)) (r : Resources) :
    ExecutionStatus :=
  if over e.limits.cpuTime r.cpuTime then .timeLimitExceeded
  else if over e.limits.sysTime r.sysTime then .sysTimeLimitExceeded
  else if over e.limits.wallTime r.wallTime then .wallTimeLimitExceeded
  else if overMem e.limits.memory r.memory then .memoryLimitExceeded
  else match signal with
    | some (n, name) => .signal n name
    | none => if exitStatus ≠ 0 then .returnCode exitStatus else .success

end Execution

/-- task-maker-dag/src/execution_group.rs:30-39 `ExecutionGroup`; a `Fifo` is its uuid. -/
structure ExecutionGroup where
  uuid : GroupUuid
  executions : List Execution := []
  fifo : List FifoUuid := []
deriving DecidableEq, Repr

namespace ExecutionGroup

/-- task-maker-dag/src/execution_group.rs:80-86 `ExecutionGroup::priority`: the maximum of the
priorities, 0 for an empty group. -/
def priority (g : ExecutionGroup) : Priority :=
  ((g.executions.map (·.priority)).max?).getD 0

/-- task-maker-dag/src/execution_group.rs:97-103 `ExecutionGroup::tag`: the tag of the first
execution; `none` on the outside is the panic on an empty group. -/
def tag? (g : ExecutionGroup) : Option (Option String) :=
  g.executions.head?.map (·.tag)

/-- All the files read by the executions of the group, in the order in which
`for exec in &group.executions { for f in exec.dependencies() {..} }` visits them. -/
def deps (g : ExecutionGroup) : List FileUuid := g.executions.flatMap Execution.dependencies

/-- All the files written by the executions of the group, in visiting order. -/
def outs (g : ExecutionGroup) : List FileUuid := g.executions.flatMap Execution.outputFiles

end ExecutionGroup

/-- task-maker-dag/src/dag.rs:50-69 `ProvidedFile`: only the store key matters to the server. -/
structure ProvidedFile where
  key : FileStoreKey
  content : Option (List Nat) := none
  localPath : Option String := none
deriving DecidableEq, Repr

/-- task-maker-dag/src/dag.rs:74-81 `ExecutionDAGData`. -/
structure DagData where
  providedFiles : AMap FileUuid ProvidedFile := []
  executionGroups : AMap GroupUuid ExecutionGroup := []
  config : DagConfig := {}
deriving DecidableEq, Repr

/-- task-maker-exec/src/executor.rs `ExecutionDAGWatchSet`: the callbacks the client registered. -/
structure WatchSet where
  executions : List ExecutionUuid := []
  files : List FileUuid := []
  urgentFiles : List FileUuid := []
deriving DecidableEq, Repr

namespace DagData

/-- The state of the maps of a `DagData` as any sequence of `provide_file`/`provide_content`/
`add_execution`/`add_execution_group` (task-maker-dag/src/dag.rs:127-168) leaves it: maps have no
repeated key and a group is stored under its own uuid. -/
structure Wf (d : DagData) : Prop where
  provided : AMap.Wf d.providedFiles
  groups : AMap.Wf d.executionGroups
  keyed : ∀ k g, (k, g) ∈ d.executionGroups → g.uuid = k

/-- task-maker-dag/src/dag.rs:126-149 `provide_file`, `provide_content` (the hashing of the file is
outside the model: the key is a parameter). -/
def provide (d : DagData) (file : FileUuid) (p : ProvidedFile) : DagData :=
  { d with providedFiles := d.providedFiles.insert file p }

/-- task-maker-dag/src/dag.rs:160-166 `add_execution_group`: every execution gets the DAG's
configuration as it is now. -/
def addExecutionGroup (d : DagData) (g : ExecutionGroup) : DagData :=
  let g := { g with executions := g.executions.map (fun e => { e with config := d.config }) }
  { d with executionGroups := d.executionGroups.insert g.uuid g }

/-- task-maker-dag/src/dag.rs:151-157 `add_execution`: a singleton group with a fresh uuid (the
random uuid is a parameter). -/
def addExecution (d : DagData) (fresh : GroupUuid) (e : Execution) : DagData :=
  let g : ExecutionGroup := { uuid := fresh, executions := [{ e with config := d.config }] }
  { d with executionGroups := d.executionGroups.insert fresh g }

end DagData

/-- Splitting a string at every comma: `str::split(',')`. -/
def splitComma : List Char → List (List Char)
  | [] => [[]]
  | c :: cs =>
    if c = ',' then [] :: splitComma cs
    else match splitComma cs with
      | [] => [[c]]
      | w :: ws => (c :: w) :: ws

/-- task-maker-dag/src/dag.rs:419-441 `CacheMode::try_from`; `none` is the "invalid cache mode"
error.  The strings are lists of characters. -/
def CacheMode.tryFrom (conf : Option (Option (List Char))) (validTags : List String) :
    Option CacheMode :=
  match conf with
  | none => some .everything
  | some none => some .nothing
  | some (some list) =>
    let tags := (splitComma list).map (fun cs => String.ofList cs)
    if tags.all (fun t => decide (t ∈ validTags)) then some (.except tags) else none

end TM
