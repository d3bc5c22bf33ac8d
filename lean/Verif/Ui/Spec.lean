import Verif.Ui.Model
import Verif.Build.OrderSpec
/-!
# What the UI should show (C71, C75)
-/
namespace TM.Ui.Spec
open TM TM.Build TM.Ui Build.Spec

/-- How a failing solution is shown. -/
def failedAs : ExecutionStatus → EvalStatus
  | .success => .solved
  | .returnCode _ => .runtimeError
  | .signal _ _ => .runtimeError
  | .timeLimitExceeded => .timeLimit
  | .sysTimeLimitExceeded => .timeLimit
  | .wallTimeLimitExceeded => .wallTimeLimit
  | .memoryLimitExceeded => .memoryLimit
  | .internalError _ => .failed

/-- How a score is shown: 0 is a wrong answer, 1 up to a thousandth an accepted one. -/
def scoredAs : Score.Score × String → EvalStatus
  | (.num x, text) => if x = 0 then .wrongAnswer text
      else if -(1/1000) < x - 1 ∧ x - 1 < 1/1000 then .accepted text else .partialScore text
  | (.nan, text) => .partialScore text

/-- The status of a testcase of a batch task, solved by the execution `e` and checked by `q`, after the
notices `ns`. -/
def batchStatus (checker : Checker) (e q : ExecutionUuid) (ns : List Notice) : EvalStatus :=
  match outcomeOf ns e with
  | none => if .skipped e ∈ ns then .skipped else if .started e ∈ ns then .solving else .pending
  | some o =>
    if o.status ≠ .success then failedAs o.status
    else match (outcomeOf ns q).bind (fun o' => (verdict checker o').head?) with
      | some p => scoredAs p
      | none => if .started q ∈ ns then .checking else .solved

/-- Its score. -/
def batchScore (checker : Checker) (e q : ExecutionUuid) (ns : List Notice) : Option Score.Score :=
  (batchScores checker (outcomeOf ns e) (outcomeOf ns q)).head?.map (·.1)

/-! ## The generation of the testcases and the compilations -/

/-- The steps of the generation of a testcase: the generator, the validator and the official solution. -/
inductive Stage (st k : Nat) : Topic → Prop
  | generation : Stage st k (.generation st k)
  | validation : Stage st k (.validation st k)
  | officialOutput : Stage st k (.officialOutput st k)

/-- A step of the generation of the testcase ended badly. -/
def Broken (ev : Eval) (ns : List Notice) (st k : Nat) : Prop :=
  ∃ e t o, Stage st k t ∧ Reports ev e t ∧ outcomeOf ns e = some o ∧ o.status ≠ .success

/-- The official output of the testcase was produced. -/
def Ready (ev : Eval) (ns : List Notice) (st k : Nat) : Prop :=
  ∃ e o, Reports ev e (.officialOutput st k) ∧ outcomeOf ns e = some o ∧ o.status = .success

/-- How the execution `e` ended, for the UI. -/
def endOf (ns : List Notice) (e : ExecutionUuid) : Option ExecutionStatus := (outcomeOf ns e).map (·.status)

/-- How a compilation is shown. -/
def compiledAs (ns : List Notice) (e : ExecutionUuid) : CompStatus :=
  match outcomeOf ns e with
  | some o => if o.status = .success then .done else .failed
  | none => if .skipped e ∈ ns then .skipped else if .started e ∈ ns then .running else .pending

end TM.Ui.Spec
