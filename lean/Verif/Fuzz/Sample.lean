import Verif.Fuzz.Props
import Verif.Build.Sample
/-!
# Concrete cases
-/
namespace TM.Fuzz.Sample
open TM TM.Build TM.Fuzz

/-- The outputs of the two testcases of the sample task are there. -/
def files (p : String) : Option Bytes :=
  if p = "/task/output/output0.txt" then some [52, 50, 10] else if p = "/task/output/output1.txt" then some [55] else none

/-- A task whose subtasks share no testcase. -/
def apart : Task := { Build.Sample.batch with subtasks :=
  [(0, { id := 0, testcases := [0], owned := [0], validator := .assumeValid }),
   (1, { id := 1, testcases := [1], owned := [1], validator := .assumeValid })] }

/-- The hypotheses about the corpus can be met. -/
example : (apart.subtasks.values.flatMap (·.testcases)).Perm (List.range 2) ∧
    (∀ k < 2, (files (outputPath "/task" k)).isSome = true) ∧
    initialCorpus files "/task" apart = some [[0, 0, 0, 0, 52, 50, 10], [1, 0, 0, 0, 55]] := by
  refine ⟨by decide, ?_, by decide +kernel⟩
  intro k hk
  have : k = 0 ∨ k = 1 := by omega
  rcases this with rfl | rfl <;> decide +kernel

/-- Two failures: a crash on testcase 1 and a timeout on testcase 0. -/
def artifacts : List Artifact :=
  [⟨"/f/artifacts/crash-ab", "crash-ab".toList, [3, 1, 0, 0, 66]⟩, ⟨"/f/artifacts/timeout-cd", "timeout-cd".toList, [2, 0, 0, 0, 67]⟩]

/-- The hypotheses about the failures can be met. -/
example : artifacts ≠ [] ∧ (∀ a ∈ artifacts, (call "/task" 2 a.bytes).isSome = true) ∧
    organize "/task" 2 none artifacts = (some
      [⟨"output-crash.txt".toList, [66], "/task/input/input1.txt", "/task/output/output1.txt", "/f/artifacts/crash-ab"⟩,
       ⟨"output-timeout.txt".toList, [67], "/task/input/input0.txt", "/task/output/output0.txt", "/f/artifacts/timeout-cd"⟩],
      true) := by
  refine ⟨by simp [artifacts], ?_, by decide +kernel⟩
  intro a ha
  simp only [artifacts, List.mem_cons, List.not_mem_nil, or_false] at ha
  rcases ha with rfl | rfl <;> decide +kernel

/-- **C97** Not for all the tasks: if a testcase is in two subtasks the tool asks for outputs that no testcase has, and stops. -/
theorem shared_testcase_stops : (∀ k, k ∈ Build.Sample.batch.testcases.keys → (files (outputPath "/task" k)).isSome = true) ∧
    initialCorpus files "/task" Build.Sample.batch = none := by
  refine ⟨?_, by decide +kernel⟩
  intro k hk
  simp only [Build.Sample.batch, AMap.keys, List.map_cons, List.map_nil, List.mem_cons, List.not_mem_nil, or_false] at hk
  rcases hk with rfl | rfl <;> decide +kernel

/-- **C97** After a run without failures those of the run before are still shown. -/
theorem stale_failures_shown : ∃ old, old ≠ [] ∧ organize "/task" 2 (some old) [] = (some old, true) :=
  ⟨[⟨"output-crash.txt".toList, [66], "/task/input/input1.txt", "/task/output/output1.txt", "/f/artifacts/crash-ab"⟩],
    by simp, rfl⟩

/-- **C97** The README of a timeout names a file that is not there. -/
theorem readme_wrong : ∃ shown f, organize "/task" 2 none artifacts = (some shown, true) ∧ shown[1]? = some f ∧
    f.outputName ≠ readmeOutput :=
  ⟨_, _, rfl, rfl, by decide +kernel⟩

end TM.Fuzz.Sample
