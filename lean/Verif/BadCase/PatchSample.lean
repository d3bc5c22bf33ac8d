import Verif.BadCase.PropsPatched
import Verif.BadCase.Sample
import Verif.Build.Sample
/-!
# Concrete batches
-/
namespace TM.BadCase.Sample
open TM TM.Build TM.DagSpec TM.Build.Spec TM.BadCase TM.BadCase.Spec

/-- The solution to break. -/
def sol : Src := { Build.Sample.cppSrc 4 "fast" with graders := some Build.Sample.graders }

def validator : InputValidator := .custom (Build.Sample.cppSrc 1 "validator") ["tm_validation_file", "1"]

theorem fits_one {task : Task} (h : Fits 10 task Build.Sample.sols) : Fits 10 task [sol] := by
  have hsub : ∀ s ∈ sources task [sol], s ∈ sources task Build.Sample.sols := by
    intro s hs
    simp only [sources, List.mem_append, Build.Sample.sols, List.mem_cons] at hs ⊢
    rcases hs with ((hs | hs) | hs) | hs
    · exact .inl (.inl (.inl hs))
    · rcases hs with hs | hs
      · exact .inl (.inl (.inr (.inl hs)))
      · cases hs
    · exact .inl (.inr hs)
    · exact .inr hs
  exact ⟨fun s hs t ht => h.instances s (hsub s hs) t (hsub t ht), fun s hs => h.graders s (hsub s hs),
    fun s hs t ht => h.graderPath s (hsub s hs) t (hsub t ht), h.testcaseIds, h.owned⟩

theorem validator_known {task : Task} (h : task.subtasks = Build.Sample.batch.subtasks) :
    ∀ s ∈ validatorSources validator, s ∈ sources task [sol] := by
  intro s hs
  simp only [sources, h, List.mem_append, List.mem_flatMap]
  exact .inl (.inr ⟨Build.Sample.second, Build.Sample.second_mem, hs⟩)

/-- The executables of the sample are in `bin`. -/
theorem bin_places {x : String} : ∃ r, "/task/bin/" ++ x = "/task" ++ "/" ++ r ∧
    ∀ dir ∈ ["input", "output"], r ≠ dir ∧ ∀ y, r ≠ dir ++ "/" ++ y := by
  refine ⟨"bin/" ++ x, by rw [← String.append_assoc]; rfl, fun dir hd => ⟨fun e => ?_, fun y e => ?_⟩⟩ <;>
  · have := congrArg String.toList e
    simp only [List.mem_cons, List.not_mem_nil, or_false] at hd
    rcases hd with rfl | rfl <;> simp at this

theorem places {task : Task} (hp : task.path = "/task") (h : ∀ s ∈ sources task [sol], ∀ d, s.writeBinTo = some d →
    ∃ x, d = "/task/bin/" ++ x) : Places "/task" task sol :=
  ⟨hp, fun s hs d hd => by
    obtain ⟨x, rfl⟩ := h s hs d hd
    exact bin_places⟩

theorem batch_places : Places "/task" Build.Sample.batch sol := by
  refine places rfl ?_
  simp [sources, typeSources, Build.Sample.batch, sol, Build.Sample.subtasks, AMap.values, validatorSources, inputSources,
    outputSources, Build.Sample.cppSrc, Build.Sample.official]
  exact ⟨⟨"checker", rfl⟩, ⟨"fast", rfl⟩, ⟨"validator", rfl⟩, ⟨"generator", rfl⟩, ⟨"official", rfl⟩⟩

theorem communication_places : Places "/task" Build.Sample.communication sol := by
  refine places rfl ?_
  simp [sources, typeSources, Build.Sample.communication, Build.Sample.batch, sol, Build.Sample.subtasks, AMap.values,
    validatorSources, inputSources, outputSources, Build.Sample.cppSrc, Build.Sample.official]
  exact ⟨⟨"manager", rfl⟩, ⟨"fast", rfl⟩, ⟨"validator", rfl⟩, ⟨"generator", rfl⟩, ⟨"official", rfl⟩⟩

/-- A batch is made and its DAG too, with a result that satisfies `f`. -/
def holds (task : Task) (f : Task → Batch → Eval → Option Eval → Bool) : Bool :=
  match patchTask task validator args 2 1 seed with
  | some (task', batch) => match buildDag Build.Sample.fs "/task" task' [sol] (start 10 {}) with
    | .ok (_, ev) => f task' batch ev (patchDag (fun _ => "fast, on testcase 7,") "/task" "/tmp/work" 2 batch ev)
    | .error _ => false
  | none => false

theorem of_holds {task : Task} {f : Task → Batch → Eval → Option Eval → Bool} (h : holds task f = true) :
    ∃ task' batch io ev, patchTask task validator args 2 1 seed = some (task', batch) ∧
      buildDag Build.Sample.fs "/task" task' [sol] (start 10 {}) = .ok (io, ev) ∧
      f task' batch ev (patchDag (fun _ => "fast, on testcase 7,") "/task" "/tmp/work" 2 batch ev) = true := by
  unfold holds at h
  split at h
  · next t b hp =>
    split at h
    · next io ev hr => exact ⟨t, b, io, ev, hp, hr, h⟩
    · cases h
  · cases h

/-- What is written. -/
def dests (r : Option Eval) : List String := match r with
  | some ev => ev.writes.values.map (·.dest)
  | none => []

/-- The hypotheses of the theorems can be met, by the second batch of the sample; this is what is written. -/
example : ∃ task' batch io ev ev', Fits 10 Build.Sample.batch [sol] ∧
    (∀ s ∈ validatorSources validator, s ∈ sources Build.Sample.batch [sol]) ∧
    Places "/task" Build.Sample.batch sol ∧
    patchTask Build.Sample.batch validator args 2 1 seed = some (task', batch) ∧
    buildDag Build.Sample.fs "/task" task' [sol] (start 10 {}) = .ok (io, ev) ∧
    patchDag (fun _ => "fast, on testcase 7,") "/task" "/tmp/work" 2 batch ev = some ev' ∧
    ev'.writes.values.map (·.dest) =
      ["/tmp/work/testcase-114/output.txt", "/tmp/work/testcase-121/output.txt",
       "/tmp/work/testcase-121/correct_output.txt", "/tmp/work/testcase-121/input.txt",
       "/tmp/work/testcase-114/correct_output.txt", "/tmp/work/testcase-114/input.txt", "/task/bin/checker"] := by
  have : holds Build.Sample.batch (fun _ _ _ r => decide (dests r =
      ["/tmp/work/testcase-114/output.txt", "/tmp/work/testcase-121/output.txt",
       "/tmp/work/testcase-121/correct_output.txt", "/tmp/work/testcase-121/input.txt",
       "/tmp/work/testcase-114/correct_output.txt", "/tmp/work/testcase-114/input.txt", "/task/bin/checker"])) = true := by
    decide +kernel
  obtain ⟨task', batch, io, ev, h1, h2, h3⟩ := of_holds this
  have h3 := of_decide_eq_true h3
  obtain ⟨ev', h4⟩ := (patch_succeeds (name := fun _ => "fast, on testcase 7,") (work := "/tmp/work")
    (fits_one Build.Sample.batch_fits) (validator_known rfl) batch_places h1 h2).2 (.inr (.inl ⟨_, rfl⟩))
  rw [h4] at h3
  exact ⟨task', batch, io, ev, ev', fits_one Build.Sample.batch_fits, validator_known rfl, batch_places, h1, h2, h4, h3⟩

/-- **C96** Not for all the tasks: the tool stops with an error on the first batch of a communication task whose solutions are
two processes. -/
theorem two_processes_fail : ∃ task' batch io ev, Fits 10 Build.Sample.communication [sol] ∧
    Places "/task" Build.Sample.communication sol ∧
    patchTask Build.Sample.communication validator args 2 1 seed = some (task', batch) ∧
    buildDag Build.Sample.fs "/task" task' [sol] (start 10 {}) = .ok (io, ev) ∧
    patchDag (fun _ => "fast, on testcase 7,") "/task" "/tmp/work" 2 batch ev = none := by
  have : holds Build.Sample.communication (fun _ _ _ r => r.isNone) = true := by decide +kernel
  obtain ⟨task', batch, io, ev, h1, h2, h3⟩ := of_holds this
  exact ⟨task', batch, io, ev, fits_one Build.Sample.communication_fits, communication_places, h1, h2,
    Option.isNone_iff_eq_none.1 h3⟩

/-- The sample task with an output file. -/
def withOutfile : Task := { Build.Sample.batch with outfile := some "output.txt" }

/-- **C96** If the solutions write in a file, what the solution wrote is not saved. -/
theorem outfile_not_saved : ∃ task' batch io ev ev', Places "/task" withOutfile sol ∧
    patchTask withOutfile validator args 2 1 seed = some (task', batch) ∧
    buildDag Build.Sample.fs "/task" task' [sol] (start 10 {}) = .ok (io, ev) ∧
    patchDag (fun _ => "fast, on testcase 7,") "/task" "/tmp/work" 2 batch ev = some ev' ∧
    ev'.writes.values.map (·.dest) =
      ["/tmp/work/testcase-121/correct_output.txt", "/tmp/work/testcase-121/input.txt",
       "/tmp/work/testcase-114/correct_output.txt", "/tmp/work/testcase-114/input.txt", "/task/bin/checker"] := by
  have : holds withOutfile (fun _ _ _ r => decide (dests r =
      ["/tmp/work/testcase-121/correct_output.txt", "/tmp/work/testcase-121/input.txt",
       "/tmp/work/testcase-114/correct_output.txt", "/tmp/work/testcase-114/input.txt", "/task/bin/checker"])) = true := by
    decide +kernel
  obtain ⟨task', batch, io, ev, h1, h2, h3⟩ := of_holds this
  have h3 := of_decide_eq_true h3
  have hpl : Places "/task" withOutfile sol := ⟨batch_places.path, batch_places.exes⟩
  have hfit : Fits 10 withOutfile [sol] :=
    have h := fits_one Build.Sample.batch_fits
    ⟨h.instances, h.graders, h.graderPath, h.testcaseIds, h.owned⟩
  obtain ⟨ev', h4⟩ := (patch_succeeds (name := fun _ => "fast, on testcase 7,") (work := "/tmp/work")
    hfit (validator_known rfl) hpl h1 h2).2 (.inr (.inl ⟨_, rfl⟩))
  rw [h4] at h3
  exact ⟨task', batch, io, ev, ev', hpl, h1, h2, h4, h3⟩

end TM.BadCase.Sample
