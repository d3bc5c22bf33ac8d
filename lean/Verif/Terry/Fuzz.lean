import Verif.Terry.Model
import Verif.Build.Samples
/-!
# The checker of a Terry task is tried on bad outputs

Model of the `pre_hook` of `FuzzChecker`, task-maker-format/src/terry/sanity_checks/checker.rs:12-113, that adds executions
to the DAG after those of the task.  The files of `DATA_DIR/bad_outputs` (the answer of `list_files`) are a parameter.  The
callbacks are those of the samples (`SampleEvent`), with the name of the file; what they show is `fuzzNotes`.  An error of a
hook only makes a warning, and what it has already added stays in the DAG: here an error gives no state.
-/
namespace TM.Terry
open TM TM.Build

/-- `DATA_DIR/bad_outputs`. -/
def badOutputsDir : String := "bad_outputs"

/-- `let seed = 42`, checker.rs:37. -/
def fuzzSeed : Nat := 42

/-- The event of the generation; it is not the name of a bad output. -/
def fuzzGeneration : SampleEvent := .failed "the generator"

/-- `Checker::check`, terry/dag/mod.rs:225-254, with the callback of checker.rs:80-88. -/
def checkBad (fs : FS) (task : Task) (name : String) (input output : FileUuid) : B Execution := do
  let e ← execute fs task.checker ["input.txt", "output.txt"]
  let e ← includeOfficial fs task.official e
  let e := addInput (addInput { e with limits := unrestricted } input "input.txt" false) output "output.txt" false
  let e ← captureStdout e OUTCOME_SIZE_LIMIT
  onExec e.uuid (.sample (.checker name))
  return e

/-- The body of the loop, checker.rs:63-109. -/
def addBad (fs : FS) (task : Task) (input : FileUuid) (path : String) : B Unit := do
  let output ← fresh
  provideFile fs output path
  let e ← checkBad fs task (nameOf path) input output
  addSampleExec (.failed (nameOf path)) (some e)

/-- `FuzzChecker::pre_hook`, checker.rs:28-111; no list if the directory does not exist. -/
def addFuzz (fs : FS) (task : Task) : Option (List String) → B Unit
  | none => fail (.missingFile badOutputsDir)
  | some [] => pure ()
  | some outputs => do
    let (input, e) ← generate fs task fuzzSeed
    addSampleExec fuzzGeneration (some e)
    each (addBad fs task input) outputs

/-! ## What the callbacks show -/

/-- The diagnostics, all of them errors. -/
inductive FuzzNote where
  /-- checker.rs:48-57 -/
  | notGenerated (status : ExecutionStatus) (stderr : Bool)
  /-- checker.rs:82-86: the outcome is not valid -/
  | badOutcome (name : String)
  /-- checker.rs:94-105 -/
  | checkerFailed (name : String) (status : ExecutionStatus) (stderr : Bool)
deriving DecidableEq, Repr

/-- What the closures show when an execution ends with a status; `valid` is whether its output is a valid outcome and
`stderr` whether its standard error has been captured. -/
def fuzzNote (s : SampleEvent) (status : ExecutionStatus) (valid stderr : Bool) : Option FuzzNote :=
  match s with
  | .checker name => if valid then none else some (.badOutcome name)
  | .failed name =>
    if status = .success then none
    else if s = fuzzGeneration then some (.notGenerated status stderr) else some (.checkerFailed name status stderr)
  | _ => none

end TM.Terry
