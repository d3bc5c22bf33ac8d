import Verif.Build.Spec
/-!
# Two concrete tasks

The hypotheses of the theorems on the DAG hold for them.
-/
namespace TM.Build.Sample
open TM TM.Build Spec DagSpec

/-- C++: compiled with the grader. -/
def cpp (name : String) : Lang :=
  { name := "C++", command := .localCmd "compiled", exeName := "compiled",
    compiler := some { command := .system "g++", args := ["-O2", "-o", "__compiled"],
                       deps := [⟨"/task/lib/" ++ name ++ ".hpp", "lib.hpp", false⟩],
                       sourceName := name ++ ".cpp" } }

/-- Python: run with the grader. -/
def python (name : String) : Lang :=
  { name := "Python", command := .localCmd name, compiler := none, exeName := name,
    deps := [⟨"/task/lib.py", "lib.py", false⟩],
    addFile := fun _ file => [file] }

/-- The graders of the solutions. -/
def graders : AMap String Grader :=
  [("C++", ⟨1, "/task/sol/grader.cpp", "grader.cpp", false⟩),
   ("Python", ⟨2, "/task/sol/grader.py", "grader.py", false⟩)]

/-- A C++ source. -/
def cppSrc (id : Nat) (name : String) : Src :=
  { id := id, path := "/task/" ++ name ++ ".cpp", basePath := "/task", lang := cpp name,
    writeBinTo := some ("/task/bin/" ++ name) }

/-- The official solution, linked with the grader. -/
def official : Src := { cppSrc 3 "official" with graders := some graders }
/-- The solutions. -/
def sols : List Src :=
  [{ cppSrc 4 "fast" with graders := some graders },
   { id := 5, path := "/task/sol/slow.py", basePath := "/task", lang := python "slow.py",
     graders := some graders }]

/-- Two subtasks: the second one has a testcase of its own and the one of the first. -/
def subtasks (validator : InputValidator) : AMap Nat Subtask :=
  [(0, { id := 0, name := some "easy", testcases := [0], owned := [0], validator := validator }),
   (1, { id := 1, testcases := [0, 1], owned := [1], validator := validator })]

/-- A batch task with a custom checker. -/
def batch : Task :=
  { path := "/task", infile := some "input.txt", outfile := none, timeLimit := some 2000000,
    memoryLimit := some 256,
    subtasks := subtasks (.custom (cppSrc 1 "validator") ["tm_validation_file", "1"]),
    testcases :=
      [(0, ⟨0, .custom (cppSrc 0 "generator") ["1", "params.txt"], .custom official []⟩),
       (1, ⟨1, .staticFile "/task/static1.txt", .custom official []⟩)],
    type := .batch (.custom { cppSrc 2 "checker" with copyExe := true }) }

/-- The second subtask. -/
def second : Subtask :=
  { id := 1, testcases := [0, 1], owned := [1],
    validator := .custom (cppSrc 1 "validator") ["tm_validation_file", "1"] }

theorem second_mem : second ∈ batch.subtasks.values := by
  simp [batch, subtasks, AMap.values, second]

/-- A communication task with two processes for each solution. -/
def communication : Task :=
  { batch with type := .communication (cppSrc 2 "manager") 2 .stdIo }

/-- A file system with everything. -/
def fs : FS :=
  { present := fun p => p = "/task/params.txt" || p = "/task/static1.txt"
    key := fun p => some ⟨p⟩ }

theorem batch_fits : Fits 10 batch sols := by
  refine ⟨?_, ?_, ?_, ?_, by decide⟩
  · simp [sources, typeSources, batch, sols, subtasks, AMap.values, validatorSources, inputSources,
      outputSources, cppSrc, official]
  · simp [sources, typeSources, batch, sols, subtasks, AMap.values, validatorSources, inputSources,
      outputSources, cppSrc, official, gradersOf, graders]
    rintro g x (⟨-, rfl⟩ | ⟨-, rfl⟩) <;> decide
  · simp [sources, typeSources, batch, sols, subtasks, AMap.values, validatorSources, inputSources,
      outputSources, cppSrc, official, gradersOf, graders]
    rintro g x (⟨-, rfl⟩ | ⟨-, rfl⟩) h y (⟨-, rfl⟩ | ⟨-, rfl⟩) <;> decide
  · intro k tc h
    simp only [batch] at h
    simp only [AMap.get?] at h
    grind

theorem communication_fits : Fits 10 communication sols := by
  refine ⟨?_, ?_, ?_, ?_, by decide⟩
  · simp [sources, typeSources, communication, batch, sols, subtasks, AMap.values, validatorSources,
      inputSources, outputSources, cppSrc, official]
  · simp [sources, typeSources, communication, batch, sols, subtasks, AMap.values, validatorSources,
      inputSources, outputSources, cppSrc, official, gradersOf, graders]
    rintro g x (⟨-, rfl⟩ | ⟨-, rfl⟩) <;> decide
  · simp [sources, typeSources, communication, batch, sols, subtasks, AMap.values, validatorSources,
      inputSources, outputSources, cppSrc, official, gradersOf, graders]
    rintro g x (⟨-, rfl⟩ | ⟨-, rfl⟩) h y (⟨-, rfl⟩ | ⟨-, rfl⟩) <;> decide
  · exact batch_fits.testcaseIds

/-- A successful construction whose result satisfies `f`. -/
def holds (f : GeneratedIo → Eval → Bool) (r : Except Err (GeneratedIo × Eval)) : Bool :=
  match r with
  | .ok p => f p.1 p.2
  | .error _ => false

/-- A construction that fails because of `path`. -/
def failsOn (path : String) (r : Except Err (GeneratedIo × Eval)) : Bool :=
  match r with
  | .error (.missingFile p) => p = path
  | _ => false

theorem of_holds {f : GeneratedIo → Eval → Bool} {r : Except Err (GeneratedIo × Eval)}
    (h : holds f r = true) : ∃ io ev, r = .ok (io, ev) ∧ f io ev = true := by
  cases r with
  | ok p => exact ⟨p.1, p.2, rfl, h⟩
  | error e => cases h

theorem of_failsOn {path : String} {r : Except Err (GeneratedIo × Eval)}
    (h : failsOn path r = true) : r = .error (.missingFile path) := by
  unfold failsOn at h
  split at h
  · rw [of_decide_eq_true h]
  · cases h

theorem batch_built : ∃ io ev, buildDag fs "/task" batch sols (start 10 {}) = .ok (io, ev) ∧
    ((15 ≤ (allExecs ev.dag).length ∧
      ((allExecs ev.dag).filter (fun e => e.tag = some "compilation")).length = 5) ∧
    ev.writes.values.map (·.dest) =
      ["/task/output/output1.txt", "/task/input/input1.txt", "/task/output/output0.txt",
       "/task/input/input0.txt", "/task/bin/checker"]) := by
  have : holds (fun _ ev => decide ((15 ≤ (allExecs ev.dag).length ∧
      ((allExecs ev.dag).filter (fun e => e.tag = some "compilation")).length = 5) ∧
      ev.writes.values.map (·.dest) =
      ["/task/output/output1.txt", "/task/input/input1.txt", "/task/output/output0.txt",
       "/task/input/input0.txt", "/task/bin/checker"]))
      (buildDag fs "/task" batch sols (start 10 {})) = true := by decide +kernel
  obtain ⟨io, ev, h1, h2⟩ := of_holds this
  exact ⟨io, ev, h1, of_decide_eq_true h2⟩

theorem communication_built :
    ∃ io ev, buildDag fs "/task" communication sols (start 10 {}) = .ok (io, ev) := by
  have : holds (fun _ _ => true) (buildDag fs "/task" communication sols (start 10 {})) = true := by
    decide +kernel
  obtain ⟨io, ev, h1, -⟩ := of_holds this
  exact ⟨io, ev, h1⟩

theorem dry_built :
    ∃ io ev, buildDag fs "/task" batch sols (start 10 { dryRun := true }) = .ok (io, ev) := by
  have : holds (fun _ _ => true) (buildDag fs "/task" batch sols (start 10 { dryRun := true })) =
      true := by
    decide +kernel
  obtain ⟨io, ev, h1, -⟩ := of_holds this
  exact ⟨io, ev, h1⟩

/-- A file system without the parameters of the generator. -/
def poorFs : FS := { fs with key := fun p => if p = "/task/params.txt" then none else some ⟨p⟩ }

theorem not_built : buildDag poorFs "/task" batch sols (start 10 {}) =
    .error (.missingFile "/task/params.txt") :=
  of_failsOn (by decide +kernel)

end TM.Build.Sample
