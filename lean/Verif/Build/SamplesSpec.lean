import Verif.Build.Samples
import Verif.Build.Spec
/-!
# What has to be done with the sample files (C108), independent of how it is done
-/
namespace TM.Build.Spec
open TM TM.Build DagSpec

/-- The source files used for the samples, besides the checker of the task. -/
def sampleSources (v : InputValidator) (off : Option OutputGenerator) : List Src :=
  validatorSources v ++ off.toList.flatMap outputSources

/-- The event `s` happens when the execution `u` ends. -/
def Watched (ev : Eval) (u : ExecutionUuid) (s : SampleEvent) : Prop := (u, .sample s) ∈ ev.handlers

/-- A sample input is validated, as testcase 0 of a subtask 0 called `att`; `handle` is the output of the validator. -/
def SampleValidated (fs : FS) (ev : Eval) (v : InputValidator) (name : String) (input : FileUuid)
    (handle : Option FileUuid) : Prop :=
  match v with
  | .assumeValid => handle = none
  | .custom src args => ∃ f e, handle = some f ∧ Runs fs ev src args ["tm_validation_file"] e ∧
      e.inputs.get? "tm_validation_file" = some ⟨input, false⟩ ∧ e.stdin = none ∧
      e.stdout = some f ∧ e.env.get? "TM_SUBTASK" = some "0" ∧
      e.env.get? "TM_TESTCASE" = some "0" ∧ e.env.get? "TM_SUBTASK_NAME" = some "att" ∧
      e.captureStderr = some 1024 ∧ Ranked e "generation" 1000000 ∧ Watched ev e.uuid (.invalid name)

/-- The official solution is run on a sample input, after the validation. -/
def SampleSolved (fs : FS) (ev : Eval) (task : Task) (g : OutputGenerator) (name : String)
    (input : FileUuid) (handle : Option FileUuid) (output : FileUuid) : Prop :=
  match g with
  | .notAvailable => ev.dag.providedFiles.get? output = some ⟨emptyKey, some [], none⟩
  | .staticFile path => CopyOf fs ev output path
  | .custom src args => ∃ e, Runs fs ev src args (ioPaths task handle) e ∧ Reads task e input ∧
      WaitsFor e handle ∧ Writes task e output ∧ e.limits = src.lang.limits defaultLimits ∧
      e.captureStderr = some 1024 ∧ Ranked e "generation" 1000000 ∧ Watched ev e.uuid (.failed name)

/-- The sample output is compared with the output of the official solution. -/
def SampleChecked (fs : FS) (ev : Eval) (checker : Checker) (name : String)
    (input correct test : FileUuid) (k : Execution) : Prop :=
  k ∈ allExecs ev.dag ∧ Ranked k "checking" 1000 ∧
  match checker with
  | .whiteDiff => k.command = .system "diff" ∧
      k.args = ["--brief", "--speed-large-files", "--ignore-blank-lines", "--ignore-space-change",
        "correct", "test"] ∧
      k.inputs.get? "correct" = some ⟨correct, false⟩ ∧ k.inputs.get? "test" = some ⟨test, false⟩ ∧
      Watched ev k.uuid (.diff name)
  | .custom src =>
      Runs fs ev src ["input", "correct_output", "test_output"]
        ["input", "correct_output", "test_output"] k ∧
      k.inputs.get? "input" = some ⟨input, false⟩ ∧
      k.inputs.get? "correct_output" = some ⟨correct, false⟩ ∧
      k.inputs.get? "test_output" = some ⟨test, false⟩ ∧ k.captureStdout = some 128 ∧
      k.captureStderr = some (10 * 1024) ∧ Watched ev k.uuid (.checker name)

/-- All that is done with a pair of sample files. -/
def SampleTested (fs : FS) (ev : Eval) (task : Task) (v : InputValidator) (off : Option OutputGenerator)
    (checker : Checker) (p : SamplePair) : Prop :=
  ∃ input handle, CopyOf fs ev input p.input ∧ SampleValidated fs ev v p.input input handle ∧
    ∀ g, off = some g → ∃ output correct k, CopyOf fs ev output p.output ∧
      SampleSolved fs ev task g p.input input handle correct ∧
      SampleChecked fs ev checker p.output input correct output k

/-- The events of a pair of sample files, in the order in which they are registered. -/
def sampleEvents (v : InputValidator) (off : Option OutputGenerator) (checker : Checker) (p : SamplePair) :
    List SampleEvent :=
  (validatorSources v).map (fun _ => .invalid p.input) ++
  off.toList.flatMap (fun g => (outputSources g).map (fun _ => .failed p.input) ++
    [match checker with
      | .whiteDiff => .diff p.output
      | .custom _ => .checker p.output])

end TM.Build.Spec
