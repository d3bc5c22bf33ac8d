import Verif.Terry.Model
import Verif.Build.Spec
/-!
# What the DAG of a Terry task has to be
-/
namespace TM.Terry.Spec
open TM TM.Build DagSpec Build.Spec

/-- The source files of a task and of the solutions. -/
def sources (task : Task) (sols : List Src) : List Src :=
  task.generator :: task.checker :: task.validator.toList ++ (task.official.map (·.1)).toList ++ sols

/-- A task as the loaders make it (as in `Build.Spec.Fits`). -/
structure Fits (n : Uuid) (task : Task) (sols : List Src) : Prop where
  instances : ∀ s ∈ sources task sols, ∀ t ∈ sources task sols, s.id = t.id → s = t
  graders : ∀ s ∈ sources task sols, ∀ g ∈ gradersOf s, g.file < n
  graderPath : ∀ s ∈ sources task sols, ∀ t ∈ sources task sols, ∀ g ∈ gradersOf s,
    ∀ h ∈ gradersOf t, g.file = h.file → g.localPath = h.localPath

/-- The names of the sandbox used for the official solution. -/
def officialPaths (task : Task) : List String := (task.official.map (·.2)).toList

/-- The executable of the official solution is in the sandbox (where nothing of `over` is put over it). -/
def HasOfficial (fs : FS) (ev : Eval) (task : Task) (over : List String) (e : Execution) : Prop :=
  ∀ s name, task.official = some (s, name) → name ∉ over →
    ∃ f, e.inputs.get? name = some ⟨f, true⟩ ∧ ev.exes.get? s.id = some f ∧ ExecutableOf fs ev s f

/-- The generator makes the input of a solution from its seed. -/
def Generates (fs : FS) (ev : Eval) (task : Task) (sol seed : Nat) (input : FileUuid) (e : Execution) : Prop :=
  Runs fs ev task.generator [toString seed, "0"] (officialPaths task) e ∧ HasOfficial fs ev task [] e ∧
  e.stdin = none ∧ e.stdout = some input ∧ e.stdoutRedirectPath = none ∧ e.captureStderr = some (10 * 1024) ∧
  e.limits = { task.generator.lang.limits defaultLimits with allowMultiprocess := true } ∧
  e.tag = some "generation" ∧ Reports ev e.uuid (generationOf sol seed)

/-- The validator reads the input of a solution. -/
def Validates (fs : FS) (ev : Eval) (task : Task) (validator : Src) (sol : Nat) (input handle : FileUuid) (e : Execution) :
    Prop :=
  Runs fs ev validator [] (officialPaths task) e ∧ HasOfficial fs ev task [] e ∧
  e.stdin = some input ∧ e.stdinRedirectPath = none ∧ e.stdout = some handle ∧ e.captureStderr = some (10 * 1024) ∧
  e.limits = { validator.lang.limits defaultLimits with allowMultiprocess := true } ∧
  e.tag = some "generation" ∧ Reports ev e.uuid (validationOf sol)

/-- The solution reads its input, when it is valid, and writes the output; it has 20 seconds. -/
def Solves (fs : FS) (ev : Eval) (task : Task) (sol : Nat) (src : Src) (input : FileUuid) (handle : Option FileUuid)
    (output : FileUuid) (e : Execution) : Prop :=
  Runs fs ev src [] (handle.toList.map (fun _ => "wait_for_validation")) e ∧
  (∀ h, handle = some h → e.inputs.get? "wait_for_validation" = some ⟨h, false⟩) ∧
  e.stdin = some input ∧ e.stdinRedirectPath = none ∧ e.stdout = some output ∧ e.stdoutRedirectPath = none ∧
  e.captureStderr = some (10 * 1024) ∧
  e.limits = { src.lang.limits defaultLimits with
    cpuTime := some (20 * task.second), wallTime := some (25 * task.second) } ∧
  e.tag = some "evaluation" ∧ Reports ev e.uuid (solutionOf sol)

/-- The checker has the input and the output; what it prints is the outcome of the solution. -/
def Judges (fs : FS) (ev : Eval) (task : Task) (sol : Nat) (input output : FileUuid) (e : Execution) : Prop :=
  Runs fs ev task.checker ["input.txt", "output.txt"] ("input.txt" :: "output.txt" :: officialPaths task) e ∧
  HasOfficial fs ev task ["input.txt", "output.txt"] e ∧
  e.inputs.get? "input.txt" = some ⟨input, false⟩ ∧ e.inputs.get? "output.txt" = some ⟨output, false⟩ ∧
  e.captureStdout = some (1024 * 1024) ∧ e.captureStderr = some (10 * 1024) ∧
  e.limits = unrestricted ∧ (e.uuid, outcomeHandler sol) ∈ ev.handlers ∧ Reports ev e.uuid (checkerOf sol)

/-- The evaluation of a solution. -/
structure Evaluates (fs : FS) (ev : Eval) (task : Task) (sol : Nat) (src : Src) (seed : Nat) (input : FileUuid)
    (handle : Option FileUuid) (output : FileUuid) : Prop where
  generation : ∃ e, Generates fs ev task sol seed input e
  validation : match task.validator with
    | some v => ∃ f e, handle = some f ∧ Validates fs ev task v sol input f e
    | none => handle = none
  solution : ∃ e, Solves fs ev task sol src input handle output e
  checking : ∃ e, Judges fs ev task sol input output e

/-- The messages about a solution. -/
def solutionMessages (task : Task) (sol seed : Nat) : List Topic :=
  generationOf sol seed :: (task.validator.toList.map (fun _ => validationOf sol)) ++ [solutionOf sol, checkerOf sol]

/-- The messages announced, besides those of the compilations. -/
def messages (task : Task) (seed : Nat → Nat) (n : Nat) : List Topic :=
  (List.range n).flatMap (fun i => solutionMessages task i (seed i))

end TM.Terry.Spec
