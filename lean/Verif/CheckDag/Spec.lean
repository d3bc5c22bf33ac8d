import Verif.Dag.Model
/-!
# Specification of a valid DAG (C01), independent of the validator
-/

namespace TM.DagSpec

/-- All the executions of the DAG. -/
def allExecs (dag : DagData) : List Execution :=
  dag.executionGroups.flatMap (fun p => p.2.executions)

/-- All the files the DAG defines: outputs of executions and provided files. -/
def allFiles (dag : DagData) : List FileUuid :=
  (dag.executionGroups.flatMap (fun p => p.2.outs)) ++ dag.providedFiles.keys

/-- The structural conditions on a DAG and on the callbacks registered on it. -/
structure WellFormed (dag : DagData) (cb : WatchSet) : Prop where
  /-- no empty group -/
  nonempty : ∀ u g, (u, g) ∈ dag.executionGroups → g.executions ≠ []
  /-- the FIFOs of a group are distinct -/
  fifos : ∀ u g, (u, g) ∈ dag.executionGroups → g.fifo.Nodup
  /-- no two executions with the same uuid -/
  execs : ((allExecs dag).map (·.uuid)).Nodup
  /-- a captured stream is a declared output -/
  captureOut : ∀ e ∈ allExecs dag, e.captureStdout ≠ none → e.stdout ≠ none
  captureErr : ∀ e ∈ allExecs dag, e.captureStderr ≠ none → e.stderr ≠ none
  /-- no file is defined twice -/
  files : (allFiles dag).Nodup
  /-- callbacks refer to existing files and executions -/
  fileCallbacks : ∀ f ∈ cb.files, f ∈ allFiles dag
  execCallbacks : ∀ e ∈ cb.executions, e ∈ (allExecs dag).map (·.uuid)

/-- `order` runs every group after the producers of all its inputs: each file read by a group is
provided or is an output of a strictly earlier group. -/
inductive Runnable (dag : DagData) : List (GroupUuid × ExecutionGroup) → Prop
  | nil : Runnable dag []
  | snoc (pre u g) : Runnable dag pre →
      (∀ f ∈ g.deps, f ∈ dag.providedFiles.keys ∨ ∃ p ∈ pre, f ∈ p.2.outs) →
      Runnable dag (pre ++ [(u, g)])

/-- The DAG can be executed: some ordering of all its groups is `Runnable`.  (Equivalently no file
is missing and there is no cycle.) -/
def Executable (dag : DagData) : Prop :=
  ∃ order, order.Perm dag.executionGroups ∧ Runnable dag order

/-- Group `u` reads a file written by group `v`. -/
def DependsOn (dag : DagData) (u v : GroupUuid) : Prop :=
  ∃ g h f, (u, g) ∈ dag.executionGroups ∧ (v, h) ∈ dag.executionGroups ∧ f ∈ g.deps ∧ f ∈ h.outs

/-- No group depends, directly or through other groups, on itself. -/
def Acyclic (dag : DagData) : Prop := ∀ u, ¬ Relation.TransGen (DependsOn dag) u u

/-- Every file read by a group is provided or produced by some group. -/
def InputsDefined (dag : DagData) : Prop :=
  ∀ u g, (u, g) ∈ dag.executionGroups → ∀ f ∈ g.deps, f ∈ allFiles dag

end TM.DagSpec
