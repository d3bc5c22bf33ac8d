import Verif.Dag.Model
/-!
# The DAG validator (`task-maker-exec/src/check_dag.rs`)

Statement by statement model of `check_dag`.  A Rust panic (`expect`, `assert_ne!`, indexing) is the
error value `panic`; the `while` loop is bounded by a fuel argument whose exhaustion is the error
value `outOfFuel` (both are proved unreachable in `Verif.CheckDag.Props`).
-/

namespace TM.CheckDag

/-- task-maker-exec/src/check_dag.rs:8-65 `DAGError` (descriptions dropped), plus the two
artificial outcomes `panic` and `outOfFuel`. -/
inductive DagError where
  | missingFile (uuid : FileUuid)
  | invalidCapture (uuid : ExecutionUuid)
  | missingExecution (uuid : ExecutionUuid)
  | cycleDetected (group : GroupUuid)
  | duplicateFile (uuid : FileUuid)
  | duplicateFifo (uuid : FifoUuid)
  | duplicateExecution (uuid : ExecutionUuid)
  | emptyGroup (uuid : GroupUuid)
  | panic
  | outOfFuel
deriving DecidableEq, Repr

/-- check_dag.rs:71-76 the local variables of the first loop (`ready_files` is filled later). -/
structure Phase1 where
  dependencies : AMap FileUuid (List GroupUuid) := []
  numDependencies : AMap GroupUuid Nat := []
  knownFiles : List FileUuid := []
  knownExecs : List ExecutionUuid := []
  readyGroups : List GroupUuid := []

/-- check_dag.rs:87-92 the FIFO uuids of a group must be distinct. -/
def checkFifos (seen : List FifoUuid) : List FifoUuid → Except DagError Unit
  | [] => .ok ()
  | f :: fs => if f ∈ seen then .error (.duplicateFifo f) else checkFifos (f :: seen) fs

/-- check_dag.rs:117-121 and 131-133 `if !known_files.insert(f) { return Err(DuplicateFileUUID) }`
over a list of files. -/
def insertFiles (known : List FileUuid) : List FileUuid → Except DagError (List FileUuid)
  | [] => .ok known
  | f :: fs => if f ∈ known then .error (.duplicateFile f) else insertFiles (f :: known) fs

/-- check_dag.rs:78-80,100-102 `add_dependency` for each dependency of an execution. -/
def addDependencies (m : AMap FileUuid (List GroupUuid)) (group : GroupUuid) :
    List FileUuid → AMap FileUuid (List GroupUuid)
  | [] => m
  | f :: fs => addDependencies (m.insert f (((m.get? f).getD []) ++ [group])) group fs

/-- check_dag.rs:94-122 the loop over the executions of a group, with the running `count`. -/
def checkExecs (group : GroupUuid) (st : Phase1) (count : Nat) :
    List Execution → Except DagError (Phase1 × Nat)
  | [] => .ok (st, count)
  | e :: es =>
    if e.uuid ∈ st.knownExecs then .error (.duplicateExecution e.uuid)
    else if e.captureStdout.isSome && e.stdout.isNone then .error (.invalidCapture e.uuid)
    else if e.captureStderr.isSome && e.stderr.isNone then .error (.invalidCapture e.uuid)
    else
      match insertFiles st.knownFiles e.outputFiles with
      | .error err => .error err
      | .ok known =>
        checkExecs group
          { st with
            knownExecs := e.uuid :: st.knownExecs
            dependencies := addDependencies st.dependencies group e.dependencies
            knownFiles := known }
          (count + e.dependencies.length) es

/-- check_dag.rs:83-127 the loop over the groups. -/
def checkGroups (st : Phase1) : List (GroupUuid × ExecutionGroup) → Except DagError Phase1
  | [] => .ok st
  | (u, g) :: rest =>
    if g.executions.isEmpty then .error (.emptyGroup u)
    else
      match checkFifos [] g.fifo with
      | .error err => .error err
      | .ok () =>
        match checkExecs u st 0 g.executions with
        | .error err => .error err
        | .ok (st, count) =>
          checkGroups
            { st with
              numDependencies := st.numDependencies.insert u count
              readyGroups := if count = 0 then st.readyGroups ++ [u] else st.readyGroups }
            rest

/-- check_dag.rs:141-154 the inner loop: one decrement per occurrence of a group in
`dependencies[file]`; `panic` is the `expect` of line 144 and the `assert_ne!` of line 145. -/
def decrement (num : AMap GroupUuid Nat) (ready : List GroupUuid) :
    List GroupUuid → Except DagError (AMap GroupUuid Nat × List GroupUuid)
  | [] => .ok (num, ready)
  | g :: gs =>
    match num.get? g with
    | none => .error .panic
    | some 0 => .error .panic
    | some (n + 1) =>
      decrement (num.insert g n) (if n = 0 then ready ++ [g] else ready) gs

/-- check_dag.rs:137-155 `for file in ready_files.drain(..)`. -/
def drainFiles (deps : AMap FileUuid (List GroupUuid)) (num : AMap GroupUuid Nat)
    (ready : List GroupUuid) :
    List FileUuid → Except DagError (AMap GroupUuid Nat × List GroupUuid)
  | [] => .ok (num, ready)
  | f :: fs =>
    match deps.get? f with
    | none => drainFiles deps num ready fs
    | some gs =>
      match decrement num ready gs with
      | .error err => .error err
      | .ok (num, ready) => drainFiles deps num ready fs

/-- check_dag.rs:156-166 `for group_uuid in ready_groups.drain(..)`: the new `ready_files`. -/
def drainGroups (groups : AMap GroupUuid ExecutionGroup) :
    List GroupUuid → Except DagError (List FileUuid)
  | [] => .ok []
  | u :: us =>
    match groups.get? u with
    | none => .error .panic
    | some g =>
      match drainGroups groups us with
      | .error err => .error err
      | .ok fs => .ok (g.outs ++ fs)

/-- check_dag.rs:136-167 the visit; the result is the final `num_dependencies`. -/
def visit (groups : AMap GroupUuid ExecutionGroup) (deps : AMap FileUuid (List GroupUuid)) :
    Nat → AMap GroupUuid Nat → List GroupUuid → List FileUuid →
    Except DagError (AMap GroupUuid Nat)
  | 0, _, _, _ => .error .outOfFuel
  | fuel + 1, num, readyGroups, readyFiles =>
    if readyGroups.isEmpty && readyFiles.isEmpty then .ok num
    else
      match drainFiles deps num readyGroups readyFiles with
      | .error err => .error err
      | .ok (num, readyGroups) =>
        match drainGroups groups readyGroups with
        | .error err => .error err
        | .ok readyFiles => visit groups deps fuel num [] readyFiles

/-- check_dag.rs:174-183 the dependencies of the executions of a group, looking for an unknown
file. -/
def firstUnknown (known : List FileUuid) (fs : List FileUuid) : Option FileUuid :=
  fs.find? (fun f => decide (f ∉ known))

/-- check_dag.rs:169-188 search for unreachable executions. -/
def checkReached (groups : AMap GroupUuid ExecutionGroup) (known : List FileUuid) :
    List (GroupUuid × Nat) → Except DagError Unit
  | [] => .ok ()
  | (u, count) :: rest =>
    if count = 0 then checkReached groups known rest
    else
      match groups.get? u with
      | none => .error .panic
      | some g =>
        match firstUnknown known g.deps with
        | some f => .error (.missingFile f)
        | none => .error (.cycleDetected u)

/-- check_dag.rs:190-197 the file callbacks. -/
def checkFileCallbacks (known : List FileUuid) : List FileUuid → Except DagError Unit
  | [] => .ok ()
  | f :: fs => if f ∈ known then checkFileCallbacks known fs else .error (.missingFile f)

/-- check_dag.rs:199-203 the execution callbacks. -/
def checkExecCallbacks (known : List ExecutionUuid) : List ExecutionUuid → Except DagError Unit
  | [] => .ok ()
  | e :: es => if e ∈ known then checkExecCallbacks known es else .error (.missingExecution e)

/-- check_dag.rs:70-205 `check_dag`. -/
def checkDag (dag : DagData) (callbacks : WatchSet) : Except DagError Unit :=
  match checkGroups {} dag.executionGroups with
  | .error err => .error err
  | .ok st =>
    match insertFiles st.knownFiles dag.providedFiles.keys with
    | .error err => .error err
    | .ok known =>
      match visit dag.executionGroups st.dependencies (2 * dag.executionGroups.length + 3)
          st.numDependencies st.readyGroups dag.providedFiles.keys with
      | .error err => .error err
      | .ok num =>
        match checkReached dag.executionGroups known num with
        | .error err => .error err
        | .ok () =>
          match checkFileCallbacks known callbacks.files with
          | .error err => .error err
          | .ok () => checkExecCallbacks st.knownExecs callbacks.executions

end TM.CheckDag
