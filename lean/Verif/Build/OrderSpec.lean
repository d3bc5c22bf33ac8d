import Verif.Build.ScoreSpec
/-!
# The order of the notices of a server (C71)
-/
namespace TM.Build.Spec
open TM TM.Build DagSpec

/-- The executions that produce the inputs of `u` are done, with success. -/
def Fed (d : DagData) (pre : List Notice) (u : ExecutionUuid) : Prop :=
  ∀ e ∈ allExecs d, e.uuid = u → ∀ p ∈ allExecs d, ∀ f ∈ e.dependencies, f ∈ p.outputFiles →
    ∃ o, .done p.uuid o ∈ pre ∧ o.status = .success

/-- The notices come in order: an execution starts (perhaps more than once) and is done after its inputs
are there; it is done or skipped, once; it does not start after that. -/
structure Ordered (d : DagData) (ns : List Notice) : Prop where
  start : ∀ pre u post, ns = pre ++ .started u :: post →
    (∀ o, .done u o ∉ pre) ∧ .skipped u ∉ pre ∧ Fed d pre u
  done : ∀ pre u o post, ns = pre ++ .done u o :: post →
    (∀ o', .done u o' ∉ pre) ∧ .skipped u ∉ pre ∧ Fed d pre u
  skip : ∀ pre u post, ns = pre ++ .skipped u :: post →
    (∀ o', .done u o' ∉ pre) ∧ .skipped u ∉ pre ∧ .started u ∉ pre

end TM.Build.Spec
