import Verif.Terry.Spec
import Verif.Build.Sample
/-!
# A concrete Terry task
-/
namespace TM.Terry.Sample
open TM TM.Build Terry.Spec DagSpec
open TM.Build.Spec (start)

/-- A task with a validator and an official solution, used by the managers. -/
def task : Task :=
  { path := "/task"
    generator := Build.Sample.cppSrc 0 "generator"
    validator := some (Build.Sample.cppSrc 1 "validator")
    checker := Build.Sample.cppSrc 2 "checker"
    official := some (Build.Sample.cppSrc 3 "official", "official.linux.x86_64") }

/-- Without the optional managers. -/
def small : Task := { task with validator := none, official := none }

/-- The solutions: one is compiled, one is a script. -/
def sols : List Src :=
  [Build.Sample.cppSrc 4 "fast",
   { id := 5, path := "/task/solutions/slow.py", basePath := "/task", lang := Build.Sample.python "slow.py" }]

/-- The seeds. -/
def seed (i : Nat) : Nat := 1000 + i

theorem task_fits : Fits 10 task sols := by
  refine ⟨?_, ?_, ?_⟩ <;> simp [sources, task, sols, Build.Sample.cppSrc, Build.Spec.gradersOf]

theorem small_fits : Fits 10 small sols := by
  refine ⟨?_, ?_, ?_⟩ <;> simp [sources, small, task, sols, Build.Sample.cppSrc, Build.Spec.gradersOf]

/-- A successful construction whose result satisfies `f`. -/
def holds (f : Eval → Bool) (r : Except Err (Unit × Eval)) : Bool :=
  match r with
  | .ok p => f p.2
  | .error _ => false

theorem of_holds {f : Eval → Bool} {r : Except Err (Unit × Eval)}
    (h : holds f r = true) : ∃ a ev, r = .ok (a, ev) ∧ f ev = true := by
  cases r with
  | ok p => exact ⟨p.1, p.2, rfl, h⟩
  | error e => cases h

theorem built : ∃ a ev, buildDag Build.Sample.fs task seed sols (start 10 { copyExe := true }) = .ok (a, ev) ∧
    (allExecs ev.dag).length = 13 ∧
    ev.writes.values.map (·.dest) =
      ["/task/bin/io/slow.py.out", "/task/bin/io/slow.py.in", "/task/bin/checker", "/task/bin/io/fast.cpp.out",
       "/task/bin/fast", "/task/bin/validator", "/task/bin/io/fast.cpp.in", "/task/bin/official",
       "/task/bin/generator"] := by
  have : holds (fun ev => decide ((allExecs ev.dag).length = 13 ∧ ev.writes.values.map (·.dest) =
      ["/task/bin/io/slow.py.out", "/task/bin/io/slow.py.in", "/task/bin/checker", "/task/bin/io/fast.cpp.out",
       "/task/bin/fast", "/task/bin/validator", "/task/bin/io/fast.cpp.in", "/task/bin/official",
       "/task/bin/generator"])) (buildDag Build.Sample.fs task seed sols (start 10 { copyExe := true })) = true := by
    decide +kernel
  obtain ⟨a, ev, h1, h2⟩ := of_holds this
  exact ⟨a, ev, h1, of_decide_eq_true h2⟩

theorem small_built : ∃ a ev, buildDag Build.Sample.fs small seed sols (start 10 {}) = .ok (a, ev) ∧
    (allExecs ev.dag).length = 9 ∧ ev.writes = [] := by
  have : holds (fun ev => decide ((allExecs ev.dag).length = 9 ∧ ev.writes.keys = []))
      (buildDag Build.Sample.fs small seed sols (start 10 {})) = true := by
    decide +kernel
  obtain ⟨a, ev, h1, h2⟩ := of_holds this
  have h3 := of_decide_eq_true h2
  exact ⟨a, ev, h1, h3.1, by simpa [AMap.keys] using h3.2⟩

theorem dry_built : ∃ a ev, buildDag Build.Sample.fs task seed sols (start 10 { dryRun := true, copyExe := true }) =
    .ok (a, ev) := by
  have : holds (fun _ => true) (buildDag Build.Sample.fs task seed sols
      (start 10 { dryRun := true, copyExe := true })) = true := by decide +kernel
  obtain ⟨a, ev, h1, -⟩ := of_holds this
  exact ⟨a, ev, h1⟩

/-- Without the source of the official solution the construction fails. -/
def poorFs : FS := { Build.Sample.fs with key := fun p => if p = "/task/official.cpp" then none else some ⟨p⟩ }

theorem not_built : buildDag poorFs task seed sols (start 10 {}) = .error (.missingFile "/task/official.cpp") := by
  have : (match buildDag poorFs task seed sols (start 10 {}) with
    | .error (.missingFile p) => decide (p = "/task/official.cpp")
    | _ => false) = true := by decide +kernel
  split at this
  · next h => rw [h, of_decide_eq_true this]
  · cases this

end TM.Terry.Sample
