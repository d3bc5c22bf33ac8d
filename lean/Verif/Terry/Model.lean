import Verif.Build.Model
/-!
# The DAG of a Terry task (`task-maker-format/src/terry/`)

`TerryTask::build_dag` (terry/mod.rs:165-222) and the functions of terry/dag/mod.rs, with the construction functions of
`Verif.Build.Model` (source files, executions, files, callbacks), that are shared by the two formats.

What a message is about is a `Topic`: the messages of Terry are those below, a solution is its position in the list of the
solutions.  Not modelled: the search of the solutions, the sanity checks, the parsing of `task.yaml`.
-/
namespace TM.Terry
open TM TM.Build

/-- `UIMessage::TerryGeneration`. -/
abbrev generationOf (sol seed : Nat) : Topic := .generation sol seed
/-- `UIMessage::TerryValidation`. -/
abbrev validationOf (sol : Nat) : Topic := .validation sol 0
/-- `UIMessage::TerrySolution`. -/
abbrev solutionOf (sol : Nat) : Topic := .evaluation 0 0 sol 0 1
/-- `UIMessage::TerryChecker`. -/
abbrev checkerOf (sol : Nat) : Topic := .checker 0 0 sol
/-- The closure of `Checker::check`, terry/dag/mod.rs:233-238, with the callback of terry/mod.rs:208-213. -/
abbrev outcomeHandler (sol : Nat) : Handler := .customChecker 0 0 sol

/-- `TerryTask`, terry/mod.rs:35-58.  The official solution comes with the name of the file its executable is copied to
(`write_bin_to().file_name()`, always there: terry/format/mod.rs:73-85). -/
structure Task where
  path : String
  generator : Src
  validator : Option Src := none
  checker : Src
  official : Option (Src × String) := none
  /-- one second, in the unit of the limits -/
  second : Int := 1000

/-- `OUTCOME_SIZE_LIMIT`, terry/dag/mod.rs:13. -/
def OUTCOME_SIZE_LIMIT : Nat := 1024 * 1024
/-- `STDERR_SIZE_LIMIT`, terry/dag/mod.rs:15. -/
def STDERR_SIZE_LIMIT : Nat := 10 * 1024

/-- `ExecutionLimits::unrestricted`, task-maker-dag/src/execution.rs. -/
def unrestricted : ExecutionLimits :=
  { allowMultiprocess := true, readOnly := false, mountTmpfs := true, mountProc := true }

/-- `SourceFile::name`: the name of the file. -/
def nameOf (path : String) : String := String.ofList (path.toList.reverse.takeWhile (· ≠ '/')).reverse

/-- `SourceFile::executable`, task-maker-format/src/source_file.rs:74-78. -/
def executableOf (fs : FS) (s : Src) : B FileUuid := do
  prepareBound fs s
  look (fun ev => (ev.exes.get? s.id).getD 0)

/-- `include_official_solution`, terry/dag/mod.rs:289-307. -/
def includeOfficial (fs : FS) (official : Option (Src × String)) (e : Execution) : B Execution :=
  match official with
  | some (s, name) => do
    let f ← executableOf fs s
    return addInput e f name true
  | none => return e

/-- `if eval.dag.config_mut().copy_exe { eval.dag.write_file_to(..) }`. -/
def copyTo (file : FileUuid) (dest : String) : B Unit := do
  let copy ← look (fun ev => ev.dag.config.copyExe)
  if copy then writeFileTo file dest false else pure ()

/-- The end of the functions `.._and_bind`: `bind_exec_callbacks!`, `capture_stderr`, `add_execution`. -/
def bindAndAdd (e : Execution) (t : Topic) : B Unit := do
  bindCallbacks e.uuid t
  let e ← captureStderr e STDERR_SIZE_LIMIT
  addExec e

/-- `InputGenerator::generate`, terry/dag/mod.rs:51-67. -/
def generate (fs : FS) (task : Task) (seed : Nat) : B (FileUuid × Execution) := do
  let e ← execute fs task.generator [toString seed, "0"]
  let e ← includeOfficial fs task.official e
  let e := { e with
    limits := { e.limits with allowMultiprocess := true }
    tag := some "generation" }
  stdoutOf e

/-- `InputGenerator::generate_and_bind`, terry/dag/mod.rs:70-109. -/
def generateAndBind (fs : FS) (task : Task) (sol : Nat) (src : Src) (seed : Nat) : B FileUuid := do
  let (input, e) ← generate fs task seed
  copyTo input (task.path ++ "/bin/io/" ++ nameOf src.path ++ ".in")
  bindAndAdd e (generationOf sol seed)
  return input

/-- `InputValidator::validate`, terry/dag/mod.rs:119-132. -/
def validate (fs : FS) (task : Task) (validator : Src) (input : FileUuid) : B (FileUuid × Execution) := do
  let e ← execute fs validator []
  let e ← includeOfficial fs task.official e
  let e := { e with
    limits := { e.limits with allowMultiprocess := true }
    stdin := some input
    tag := some "generation" }
  stdoutOf e

/-- `InputValidator::validate_and_bind`, terry/dag/mod.rs:135-159. -/
def validateAndBind (fs : FS) (task : Task) (sol : Nat) (input : FileUuid) (validator : Src) : B FileUuid := do
  let (handle, e) ← validate fs task validator input
  bindAndAdd e (validationOf sol)
  return handle

/-- The validator is optional, terry/mod.rs:194-203. -/
def validateMaybe (fs : FS) (task : Task) (sol : Nat) (input : FileUuid) : B (Option FileUuid) :=
  match task.validator with
  | some v => do
    let handle ← validateAndBind fs task sol input v
    return some handle
  | none => return none

/-- `if let Some(validation) = validation_handle`, terry/dag/mod.rs:180-182. -/
def waitFor (e : Execution) : Option FileUuid → Execution
  | some h => addInput e h "wait_for_validation" false
  | none => e

/-- `Solution::solve`, terry/dag/mod.rs:166-187. -/
def solve (fs : FS) (task : Task) (src : Src) (input : FileUuid) (handle : Option FileUuid) :
    B (FileUuid × Execution) := do
  let e ← execute fs src []
  let e := { e with stdin := some input, tag := some "evaluation" }
  let (output, e) ← stdoutOf (waitFor e handle)
  return (output, { e with limits := { e.limits with
    cpuTime := some (20 * task.second), wallTime := some (25 * task.second) } })

/-- `Solution::solve_and_bind`, terry/dag/mod.rs:190-215. -/
def solveAndBind (fs : FS) (task : Task) (sol : Nat) (src : Src) (input : FileUuid) (handle : Option FileUuid) :
    B FileUuid := do
  let (output, e) ← solve fs task src input handle
  copyTo output (task.path ++ "/bin/io/" ++ nameOf src.path ++ ".out")
  bindAndAdd e (solutionOf sol)
  return output

/-- `Checker::check`, terry/dag/mod.rs:225-254. -/
def check (fs : FS) (task : Task) (sol : Nat) (input output : FileUuid) : B Execution := do
  let e ← execute fs task.checker ["input.txt", "output.txt"]
  let e ← includeOfficial fs task.official e
  let e := addInput (addInput { e with limits := unrestricted } input "input.txt" false) output "output.txt" false
  let e ← captureStdout e OUTCOME_SIZE_LIMIT
  onExec e.uuid (outcomeHandler sol)
  return e

/-- `Checker::check_and_bind`, terry/dag/mod.rs:257-286. -/
def checkAndBind (fs : FS) (task : Task) (sol : Nat) (input output : FileUuid) : B Unit := do
  let e ← check fs task sol input output
  bindAndAdd e (checkerOf sol)

/-- The body of the loop of `build_dag`, terry/mod.rs:181-216. -/
def buildSolution (fs : FS) (task : Task) (seed : Nat → Nat) (p : Nat × Src) : B Unit := do
  let input ← generateAndBind fs task p.1 p.2 (seed p.1)
  let handle ← validateMaybe fs task p.1 input
  let output ← solveAndBind fs task p.1 p.2 input handle
  checkAndBind fs task p.1 input output

/-- `TerryTask::build_dag`, terry/mod.rs:165-219; `seed` is the seed of each solution: the one of the configuration, or
random. -/
def buildDag (fs : FS) (task : Task) (seed : Nat → Nat) (sols : List Src) : B Unit :=
  each (buildSolution fs task seed) (enumFrom 0 sols)

end TM.Terry
