import Verif.Terry.Ui
import Verif.Terry.Spec
import Verif.Build.OrderSpec
/-!
# What the UI of a Terry task has to show
-/
namespace TM.Terry.Spec
open TM TM.Build DagSpec Build.Spec

/-- The executions of the evaluation of a solution: generator, validator (if any), solution and checker. -/
structure Executions (ev : Eval) (sol seed : Nat) (g : ExecutionUuid) (v : Option ExecutionUuid) (s c : ExecutionUuid) :
    Prop where
  generator : Reports ev g (generationOf sol seed)
  validator : ∀ u, v = some u ↔ Reports ev u (validationOf sol)
  solution : Reports ev s (solutionOf sol)
  checker : Reports ev c (checkerOf sol)

/-- What the notices say of an execution: nothing, that it is running, or how it ended. -/
def stage (ns : List Notice) (u : ExecutionUuid) (running over : Status) (name : String) : Option Status :=
  match outcomeOf ns u with
  | some o => some (if o.status = .success then over else .failed (name ++ " failed"))
  | none => if .started u ∈ ns then some running else none

/-- How far the evaluation of a solution went: what the notices say of the last step they tell about. -/
def furthest (ns : List Notice) (g : ExecutionUuid) (v : Option ExecutionUuid) (s c : ExecutionUuid) : Status :=
  ((stage ns c .checking .done "Checker").or <|
   (stage ns s .solving .solved "Solution").or <|
   (v.bind (fun v => stage ns v .validating .validated "Validator")).or <|
   stage ns g .generating .generated "Generator").getD .pending

/-- Every checker that was run gave its output. -/
def Captured (ev : Eval) (ns : List Notice) : Prop :=
  ∀ sol c o, Reports ev c (checkerOf sol) → outcomeOf ns c = some o → o.captured = true

/-- A step of the evaluation of a solution was skipped. -/
def SomeSkipped (ns : List Notice) (g : ExecutionUuid) (v : Option ExecutionUuid) (s c : ExecutionUuid) : Prop :=
  .skipped g ∈ ns ∨ (∃ u, v = some u ∧ .skipped u ∈ ns) ∨ .skipped s ∈ ns ∨ .skipped c ∈ ns

end TM.Terry.Spec
