import Verif.CheckDag.Main
/-!
# C01: the server accepts exactly the well formed, executable DAGs
-/

namespace TM.CheckDag
open TM.DagSpec

/-- **C01** `check_dag` accepts a DAG and its callbacks exactly when the DAG is structurally well
formed, every input is provided or produced by some group, and there is no dependency cycle. -/
theorem checkDag_ok_iff (dag : DagData) (cb : WatchSet) (hw : dag.Wf) :
    checkDag dag cb = .ok () ↔ WellFormed dag cb ∧ InputsDefined dag ∧ Acyclic dag := by
  have main : checkDag dag cb = .ok () ↔ WellFormed dag cb ∧ Executable dag := by
    rcases checkDag_cases dag cb hw with ⟨h1, h2⟩ | ⟨err, h1, h2, _⟩
    · exact ⟨fun _ => h2, fun _ => h1⟩
    · rw [h1]; exact ⟨fun h => (by cases h), fun h => absurd h h2⟩
  rw [main]
  constructor
  · rintro ⟨a, b⟩; exact ⟨a, (executable_iff dag hw a.files).1 b⟩
  · rintro ⟨a, b⟩; exact ⟨a, (executable_iff dag hw a.files).2 b⟩

/-- **C01** An accepted DAG can be run: there is an order of all its groups in which every group
finds its inputs provided or already produced. -/
theorem checkDag_ok_executable (dag : DagData) (cb : WatchSet) (hw : dag.Wf)
    (h : checkDag dag cb = .ok ()) : WellFormed dag cb ∧ Executable dag := by
  rcases checkDag_cases dag cb hw with ⟨_, h2⟩ | ⟨err, h1, _⟩
  · exact h2
  · rw [h] at h1; cases h1

/-- **C01** (errors are truthful, and the validator always answers) On every DAG `check_dag`
terminates without panicking, and the error it returns describes a real defect: the reported file
or execution does not exist and is referred to, a reported cycle means no execution order exists,
and any other error means the DAG is not well formed. -/
theorem checkDag_error_sound (dag : DagData) (cb : WatchSet) (hw : dag.Wf) (err : DagError)
    (h : checkDag dag cb = .error err) :
    match err with
    | .panic => False
    | .outOfFuel => False
    | .missingFile f => f ∉ allFiles dag ∧
        (f ∈ cb.files ∨ ∃ u g, (u, g) ∈ dag.executionGroups ∧ f ∈ g.deps)
    | .missingExecution e => e ∈ cb.executions ∧ e ∉ (allExecs dag).map (·.uuid)
    | .cycleDetected u => ¬ Executable dag ∧ u ∈ dag.executionGroups.keys
    | _ => ¬ WellFormed dag cb := by
  rcases checkDag_cases dag cb hw with ⟨h1, _⟩ | ⟨err', h1, _, h2⟩
  · rw [h] at h1; cases h1
  · rw [h] at h1; cases h1
    cases err <;> exact h2

/-! ### Concrete cases -/

/-- generator (10) writes file 1; solution (11) reads 1 and the provided file 0, writes 2. -/
def sampleDag : DagData :=
  { providedFiles := [(0, { key := ⟨"ab"⟩ })]
    executionGroups :=
      [ (10, { uuid := 10, executions := [{ uuid := 100, stdout := some 1 }] }),
        (11, { uuid := 11, executions :=
          [{ uuid := 101, stdin := some 1, inputs := [("exe", ⟨0, true⟩)], stdout := some 2 }] }) ] }

theorem sampleDag_wf : sampleDag.Wf := by
  refine ⟨by unfold AMap.Wf; decide, by unfold AMap.Wf; decide, ?_⟩
  intro k g h
  simp [sampleDag] at h
  rcases h with ⟨rfl, rfl⟩ | ⟨rfl, rfl⟩ <;> rfl

example : checkDag sampleDag { files := [2], executions := [100] } = .ok () := by rfl

/-- the same with the generator reading the solution's output: a cycle. -/
def cyclicDag : DagData :=
  { executionGroups :=
      [ (10, { uuid := 10, executions := [{ uuid := 100, stdin := some 2, stdout := some 1 }] }),
        (11, { uuid := 11, executions := [{ uuid := 101, stdin := some 1, stdout := some 2 }] }) ] }

example : checkDag cyclicDag {} = .error (.cycleDetected 11) := by rfl

example : checkDag sampleDag { files := [7] } = .error (.missingFile 7) := by rfl

/-- group 11 reads the output of group 10, which reads a file that does not exist (9). -/
def missingUpstream : DagData :=
  { executionGroups :=
      [ (10, { uuid := 10, executions := [{ uuid := 100, stdin := some 9, stdout := some 1 }] }),
        (11, { uuid := 11, executions := [{ uuid := 101, stdin := some 1, stdout := some 2 }] }) ] }

theorem missingUpstream_acyclic : Acyclic missingUpstream := by
  have only : ∀ u v, DependsOn missingUpstream u v → u = 11 ∧ v = 10 := by
    rintro u v ⟨g, h, f, hu, hv, hfd, hfo⟩
    simp [missingUpstream] at hu hv
    rcases hu with ⟨rfl, rfl⟩ | ⟨rfl, rfl⟩ <;> rcases hv with ⟨rfl, rfl⟩ | ⟨rfl, rfl⟩ <;>
      simp [ExecutionGroup.deps, ExecutionGroup.outs, Execution.dependencies,
        Execution.outputFiles] at hfd hfo ⊢ <;> simp_all
  intro u h
  have : ∀ v, Relation.TransGen (DependsOn missingUpstream) u v → u = 11 ∧ v = 10 := by
    intro v hv
    induction hv with
    | single h => exact only _ _ h
    | tail _ h ih => exact ⟨ih.1, (only _ _ h).2⟩
  obtain ⟨rfl, h2⟩ := this u h
  cases h2

/-- **C01** (limit of the error's precision) The kind of the error is not always the actual defect:
a DAG without any cycle, whose only defect is a missing file, can be reported as having a cycle
through a group downstream of the missing file.  (Which of the two errors is reported depends on
the iteration order of a hash map.) -/
theorem checkDag_cycle_error_imprecise :
    checkDag missingUpstream {} = .error (.cycleDetected 11) ∧ Acyclic missingUpstream ∧
    ¬ InputsDefined missingUpstream := by
  refine ⟨rfl, missingUpstream_acyclic, ?_⟩
  intro h
  have := h 10 _ (by simp [missingUpstream]; rfl) 9 (by decide)
  revert this; decide

end TM.CheckDag
