import Verif.Build.Callbacks
/-!
# The sample files are validated, solved and checked

Model of the `pre_hook` of `AttSampleFilesValid`, task-maker-format/src/ioi/sanity_checks/att.rs:198-326, that adds
executions to the DAG after those of the task.  The pairs of sample files are the answer of `get_sample_files`
(`Verif.Sanity.Samples`).  The names in the messages are the paths of the files (in the code, relative to the task),
the descriptions of the executions are left out.  An error of a hook only makes a warning, and what it has already
added stays in the DAG: here an error gives no state.
-/
namespace TM.Build
open TM

/-- Adding an execution whose failure is shown, att.rs:228-246 and 275-295. -/
def addSampleExec (s : SampleEvent) : Option Execution → B Unit
  | none => pure ()
  | some e => do
    let e ← captureStderr e 1024
    onExec e.uuid (.sample s)
    addExec e

/-- `Checker::check`, checker.rs:35-149, without a testcase and with the callback of att.rs:306-316. -/
def Checker.checkSample (fs : FS) (name : String) (input correct test : FileUuid) : Checker → B Execution
  | .whiteDiff => do
    let e ← newExecution (.system "diff")
    let e := { e with args :=
      ["--brief", "--speed-large-files", "--ignore-blank-lines", "--ignore-space-change",
       "correct", "test"] }
    let e := addInput e correct "correct" false
    let e := addInput e test "test" false
    let e := { e with tag := some "checking", priority := EVALUATION_PRIORITY }
    onExec e.uuid (.sample (.diff name))
    return e
  | .custom src => do
    let e ← execute fs src ["input", "correct_output", "test_output"]
    let e := addInput e input "input" false
    let e := addInput e correct "correct_output" false
    let e := addInput e test "test_output" false
    let e := { e with tag := some "checking" }
    let e ← captureStdout e 128
    let e ← captureStderr e STDERR_CONTENT_LENGTH
    let e := { e with
      priority := EVALUATION_PRIORITY
      limits := { e.limits with allowMultiprocess := true } }
    onExec e.uuid (.sample (.checker name))
    return e

/-- A pair of sample files, by their paths. -/
structure SamplePair where
  input : String
  output : String
deriving DecidableEq, Repr

/-- The official solution on a sample, and the check of the sample output, att.rs:249-323. -/
def solveSample (fs : FS) (task : Task) (checker : Checker) (p : SamplePair) (input : FileUuid)
    (handle : Option FileUuid) (solution : OutputGenerator) : B Unit := do
  let output ← fresh
  provideFile fs output p.output
  let (correct, sol) ← solution.generate fs task 0 input handle
  match correct with
  | none => fail .noOfficial
  | some correct => do
    addSampleExec (.failed p.input) sol
    let chk ← checker.checkSample fs p.output input correct output
    addExec chk

/-- The body of the loop, att.rs:207-323. -/
def addSample (fs : FS) (task : Task) (validator : InputValidator) (official : Option OutputGenerator)
    (checker : Checker) (p : SamplePair) : B Unit := do
  let input ← fresh
  provideFile fs input p.input
  let (handle, val) ← validator.validate fs 0 (some "att") 0 input
  addSampleExec (.invalid p.input) val
  match official with
  | none => pure ()
  | some solution => solveSample fs task checker p input handle solution

/-- `AttSampleFilesValid::pre_hook`, att.rs:198-326.  `official` is the `output_generator` of a batch task. -/
def addSamples (fs : FS) (task : Task) (validator : InputValidator) (official : Option OutputGenerator)
    (pairs : List SamplePair) : B Unit :=
  match task.type with
  | .batch checker => each (addSample fs task validator official checker) pairs
  | _ => pure ()

/-! ## What the callbacks show -/

/-- The diagnostics. -/
inductive SampleNote where
  /-- error, att.rs:231-242 -/
  | invalid (input : String) (status : ExecutionStatus)
  /-- error, att.rs:280-291 -/
  | failed (input : String) (status : ExecutionStatus)
  /-- warning, att.rs:308-313 -/
  | wrong (output : String) (score : Score.Score) (message : String)
  /-- errors, checker.rs:108-124 and 128-141 -/
  | checkerBroken (output : String)
deriving DecidableEq, Repr

/-- `!abs_diff_ne!(score, 1.0)`: the tolerance is `f64::EPSILON` (next to 1 the difference of two floating point
numbers is exact). -/
def scoreIsOne : Score.Score → Bool
  | .num x => decide (x - 1 ≤ 1 / 2 ^ 52) && decide (1 - x ≤ 1 / 2 ^ 52)
  | .nan => false

/-- The callback of the check, att.rs:306-316. -/
def sampleScored (output : String) (score : Score.Score) (message : String) : Option SampleNote :=
  if scoreIsOne score then none else some (.wrong output score message)

/-- What a closure shows when its execution is done, if it does not abort the evaluation. -/
def sampleNote (s : SampleEvent) (o : Outcome) : Option SampleNote :=
  match s with
  | .invalid f => if o.success then none else some (.invalid f o.status)
  | .failed f => if o.success then none else some (.failed f o.status)
  | .diff f => if o.success then sampleScored f (.num 1) "Output is correct"
      else sampleScored f (.num 0) "Output is incorrect"
  | .checker f =>
    if o.success then
      match o.score with
      | some x => sampleScored f x o.message
      | none => some (.checkerBroken f)
    else some (.checkerBroken f)

end TM.Build
