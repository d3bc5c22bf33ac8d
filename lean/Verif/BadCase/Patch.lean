import Verif.BadCase.Model
import Verif.Build.Spec
import Verif.Format.GenGen
/-!
# The task and the DAG of a batch (`src/tools/find_bad_case/dag.rs`)

Paths are strings, an absolute path is the root, a slash and the rest.  The description of an execution is not stored in the
model of `Build`: it is made of the topic the execution is reported as.
-/
namespace TM.BadCase
open TM TM.Build

/-! ## The task of a batch -/

/-- `matches!(tc.input_generator, InputGenerator::Custom(_, _))`. -/
def hasGenerator (tc : Testcase) : Bool := match tc.input with
  | .custom _ _ => true
  | .staticFile _ => false

/-- The arguments of the generator of the template are replaced, find_bad_case/dag.rs:64-72. -/
def withArgs (args : List String) : InputGenerator → InputGenerator
  | .custom src _ => .custom src args
  | .staticFile p => .staticFile p

/-- The testcase made for an entry of the batch, find_bad_case/dag.rs:64-78. -/
def testcaseOf (template : Testcase) (p : Nat × Case) : Nat × Testcase :=
  (p.1, { id := p.1, input := withArgs p.2.args template.input, output := template.output })

/-- `patch_task_for_batch`, find_bad_case/dag.rs:34-108, for an IOI task; `validator` is
`task.input_validator_generator.generate(Some(0))`, the order of the testcases of the task is that of the hash map.  Nothing
if there is no testcase with a generator. -/
def patchTask (task : Task) (validator : InputValidator) (args : List String) (size index : Nat) (seed : Nat → Nat) :
    Option (Task × Batch) :=
  match task.testcases.values.find? hasGenerator with
  | none => none
  | some template =>
    let batch := makeBatch args size index seed
    let testcases := batch.map (testcaseOf template)
    some ({ task with
        testcases := testcases
        subtasks := [(0,
          { id := 0
            name := some ("batch-" ++ toString index)
            testcases := AMap.keys testcases
            owned := AMap.keys testcases
            validator := validator })] }, batch)

/-! ## Text -/

abbrev Text := List Char

/-- `str::rfind`: where the last occurrence begins. -/
def rfind (pat : Text) : Text → Option Nat
  | [] => if pat = [] then some 0 else none
  | c :: s => match rfind pat s with
    | some i => some (i + 1)
    | none => if pat.isPrefixOf (c :: s) then some 0 else none

/-- `s[from..to].parse::<u32>().ok()`; the identifiers are below 2^32 and a sign is not accepted (the code accepts a `+`).
Nothing also if the slice is empty or ends before it begins (the code panics). -/
def parseSlice (s : Text) (start stop : Nat) : Option Nat :=
  let d := (s.take stop).drop start
  if d ≠ [] ∧ d.all Format.isDigit = true then some (Format.digitsVal d) else none

/-- `Path::file_name`. -/
def fileName (s : Text) : Text := match rfind ['/'] s with
  | none => s
  | some i => s.drop (i + 1)

/-- The first `get_testcase_id`, find_bad_case/dag.rs:127-135. -/
def idOfFile (path : Text) : Option Nat :=
  let name := fileName path
  match rfind "put".toList name, rfind ".".toList name with
  | some put, some dot => parseSlice name (put + 3) dot
  | _, _ => none

/-- The second `get_testcase_id`, find_bad_case/dag.rs:175-180. -/
def idOfDescription (description : Text) : Option Nat :=
  match rfind "testcase ".toList description, rfind ", ".toList description with
  | some start, some stop => parseSlice description (start + 9) stop
  | _, _ => none

/-- `Path::strip_prefix`. -/
def stripRoot (root dest : Text) : Option Text :=
  if (root ++ ['/']).isPrefixOf dest then some (dest.drop (root.length + 1)) else none

/-- `Path::starts_with` for a relative path and the name of a directory. -/
def under (dir path : Text) : Bool := path = dir || (dir ++ ['/']).isPrefixOf path

/-! ## The DAG of a batch -/

/-- The paths of `TestcaseData`, find_bad_case/dag.rs:80-86. -/
def Case.file (work : String) (c : Case) (name : String) : String :=
  work ++ "/testcase-" ++ toString c.seed ++ "/" ++ name

/-- The body of the loop over the callbacks of the files, find_bad_case/dag.rs:139-171; nothing if it fails. -/
def patchWrite (root work : String) (batch : Batch) (w : WriteTo) : Option WriteTo :=
  match stripRoot root.toList w.dest.toList with
  | none => none
  | some dest =>
    if !under "input".toList dest && !under "output".toList dest then some w
    else match (idOfFile dest).bind batch.get? with
      | none => none
      | some c => some { w with
          dest := if under "input".toList dest then c.file work "input.txt" else c.file work "correct_output.txt"
          allowFailure := true }

/-- The loop over the callbacks of the files. -/
def patchWrites (root work : String) (batch : Batch) : AMap FileUuid WriteTo → Option (AMap FileUuid WriteTo)
  | [] => some []
  | (f, w) :: ws => match patchWrite root work batch w, patchWrites root work batch ws with
    | some w, some ws => some ((f, w) :: ws)
    | _, _ => none

/-- The descriptions of the executions of a solution, batch.rs:44-49, and of a manager,
communication.rs:188-193; that of a process of a communication task has `(process 1/2)` before `on testcase`,
communication.rs:128-135, and that of a checker is not looked at.  `name` is the name of the solution. -/
def describe (name : Nat → String) : Topic → String
  | .evaluation st tc sol _ _ =>
    "Evaluation of " ++ name sol ++ " on testcase " ++ toString tc ++ ", subtask " ++ toString st
  | .checker st tc sol => "Manager of " ++ name sol ++ " on testcase " ++ toString tc ++ ", subtask " ++ toString st
  | _ => ""

/-- A callback gives the description of the execution it is about. -/
def describedBy (name : Nat → String) (u : ExecutionUuid) : ExecutionUuid × Handler → Option String
  | (v, .report t) => if v = u then some (describe name t) else none
  | _ => none

/-- The description of an execution. -/
def descriptionOf (name : Nat → String) (ev : Eval) (e : Execution) : String :=
  (ev.handlers.findSome? (describedBy name e.uuid)).getD ""

/-- `tag.name == "evaluation"` or `"checking"`. -/
def isProcessed (e : Execution) : Bool := e.tag = some "evaluation" || e.tag = some "checking"

/-- The priority, find_bad_case/dag.rs:188 and 214. -/
def patchExec (e : Execution) : Execution :=
  if isProcessed e then { e with priority := GENERATION_PRIORITY + 1 } else e

/-- The executions of a group. -/
def patchGroup (p : GroupUuid × ExecutionGroup) : GroupUuid × ExecutionGroup :=
  (p.1, { p.2 with executions := p.2.executions.map patchExec })

/-- The files to write because of an execution, find_bad_case/dag.rs:190-208; nothing if it fails. -/
def outputOfExec (name : Nat → String) (work : String) (batch : Batch) (ev : Eval) (e : Execution) :
    Option (List (FileUuid × String)) :=
  if e.tag = some "evaluation" then
    match e.stdout with
    | none => some []
    | some f => match (idOfDescription (descriptionOf name ev e).toList).bind batch.get? with
      | none => none
      | some c => some [(f, c.file work "output.txt")]
  else some []

/-- `new_file_callbacks`. -/
def newWrites (name : Nat → String) (work : String) (batch : Batch) (ev : Eval) :
    List Execution → Option (List (FileUuid × String))
  | [] => some []
  | e :: es => match outputOfExec name work batch ev e, newWrites name work batch ev es with
    | some a, some b => some (a ++ b)
    | _, _ => none

/-- `write_file_to_allow_fail`, task-maker-dag/src/dag.rs:191-204. -/
def writeAllowFail (ev : Eval) (p : FileUuid × String) : Eval :=
  if ev.dag.config.dryRun then ev else { ev with writes := ev.writes.insert p.1 ⟨p.2, false, true⟩ }

/-- All the executions of the DAG. -/
def executions (ev : Eval) : List Execution := ev.dag.executionGroups.flatMap (fun p => p.2.executions)

/-- `patch_dag`, find_bad_case/dag.rs:125-235; nothing if it fails.  The loops over the executions are done one after the
other (a failure of any of them is a failure). -/
def patchDag (name : Nat → String) (root work : String) (size : Nat) (batch : Batch) (ev : Eval) : Option Eval :=
  match patchWrites root work batch ev.writes, newWrites name work batch ev (executions ev) with
  | some ws, some new =>
    let ev' := { ev with
      writes := ws
      dag := { ev.dag with executionGroups := ev.dag.executionGroups.map patchGroup } }
    let ev' := new.foldl writeAllowFail ev'
    if (executions ev).countP isProcessed ≠ size * 2 then none else some ev'
  | _, _ => none

end TM.BadCase
