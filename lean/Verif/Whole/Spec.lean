import Verif.Build.ScoreSpec
import Verif.Sched.Spec
/-!
# The client and the server together (C63, C64)

The notices the server sends are the ones the client handles.
-/
namespace TM.Whole
open TM TM.Build

/-- What the client reads of the results of the executions: the status is the one of the result; how it
is printed, the parsed score and the message are whatever the client makes of it. -/
def Reading (look : ExecutionResult → Outcome) : Prop := ∀ r, (look r).status = r.status

/-- The notice to client `c` in an entry of the trace. -/
def noticeTo (c : ClientUuid) (look : ExecutionResult → Outcome) : Sched.Obs → Option Notice
  | .out (.started c' e _) => if c' = c then some (.started e) else none
  | .out (.done c' e r) => if c' = c then some (.done e (look r)) else none
  | .out (.skipped c' e) => if c' = c then some (.skipped e) else none
  | _ => none

/-- The notices sent to client `c`, in order (the trace has the last entry first). -/
def noticesFor (c : ClientUuid) (look : ExecutionResult → Outcome) (log : List Sched.Obs) : List Notice :=
  log.reverse.filterMap (noticeTo c look)

/-- The client was told that the evaluation ended, before it left. -/
def Ended (c : ClientUuid) (log : List Sched.Obs) : Prop :=
  ∃ post pre, log = post ++ .out (.evaluationDone c) :: pre ∧ Sched.Connected c pre = true

/-- Executions are deterministic: the client reads `ρ e` in the results of the execution `e`. -/
def Deterministic (c : ClientUuid) (look : ExecutionResult → Outcome) (ρ : ExecutionUuid → Outcome)
    (log : List Sched.Obs) : Prop :=
  ∀ e r, Sched.Obs.out (.done c e r) ∈ log → look r = ρ e

end TM.Whole
