import Verif.Terry.Model
import Verif.Build.Callbacks
import Verif.Ui.Model
/-!
# The UI of a Terry task (`task-maker-format/src/terry/ui_state.rs`)

The closures registered by `buildDag` send messages to the UI when the server notifies the client
(task-maker-exec/src/client.rs:122-159); the UI applies them to its state.  A solution is its position in the list of the
solutions (the code uses its path: the solutions found have different paths).  `R` is what the checker says, read from its
standard output.
-/
namespace TM.Terry
open TM TM.Build

/-- `SolutionStatus`, terry/ui_state.rs:46-73. -/
inductive Status where
  | pending
  | generating
  | generated
  | validating
  | validated
  | solving
  | solved
  | checking
  | done
  | failed (what : String)
  | skipped
deriving DecidableEq, Repr

/-- `SolutionState`, terry/ui_state.rs:28-43. -/
structure SolState (R : Type) where
  status : Status := .pending
  outcome : Option R := none
  seed : Option Nat := none
  generator : Option Outcome := none
  validator : Option Outcome := none
  solution : Option Outcome := none
  checker : Option Outcome := none
deriving DecidableEq, Repr

/-- `UIExecutionStatus`, with the result of the execution. -/
inductive Phase where
  | pending
  | started
  | done (o : Outcome)
  | skipped
deriving DecidableEq, Repr

/-- The messages of a Terry task. -/
inductive Msg (R : Type) where
  /-- `UIMessage::Solutions`: how many they are -/
  | solutions (n : Nat)
  /-- the progress of an execution -/
  | progress (t : Topic) (p : Phase)
  /-- `UIMessage::TerrySolutionOutcome` -/
  | outcome (sol : Nat) (r : R)
  /-- `UIMessage::Diagnostic`: a compilation failed -/
  | diagnostic (t : Topic)
  /-- `UIMessage::TerryTask`, `UIMessage::ServerStatus`, `UIMessage::StopUI` -/
  | other
deriving DecidableEq, Repr

/-- `UIState`, terry/ui_state.rs:14-25, without the task and the status of the executor. -/
structure Ui (R : Type) where
  compilations : AMap String TM.Ui.CompStatus := []
  solutions : AMap Nat (SolState R) := []
  diagnostics : List Topic := []
deriving DecidableEq, Repr

/-- The last four arguments of `process_step!`. -/
inductive Step where
  | generator
  | validator
  | solution
  | checker
deriving DecidableEq, Repr

/-- `$start_status`, terry/ui_state.rs:149-195. -/
def Step.running : Step → Status
  | .generator => .generating
  | .validator => .validating
  | .solution => .solving
  | .checker => .checking

/-- `$ok_status`, terry/ui_state.rs:149-195. -/
def Step.over : Step → Status
  | .generator => .generated
  | .validator => .validated
  | .solution => .solved
  | .checker => .done

/-- `$name`, terry/ui_state.rs:149-195. -/
def Step.name : Step → String
  | .generator => "Generator"
  | .validator => "Validator"
  | .solution => "Solution"
  | .checker => "Checker"

/-- `sol.$step_result = Some(result)`, terry/ui_state.rs:119. -/
def SolState.record {R : Type} (s : SolState R) (o : Outcome) : Step → SolState R
  | .generator => { s with generator := some o }
  | .validator => { s with validator := some o }
  | .solution => { s with solution := some o }
  | .checker => { s with checker := some o }

/-- `process_step!`, terry/ui_state.rs:104-130. -/
def SolState.process {R : Type} (s : SolState R) (step : Step) : Phase → SolState R
  | .pending => { s with status := .pending }
  | .started => { s with status := step.running }
  | .done o =>
    SolState.record { s with
      status := if o.status = .success then step.over else .failed (step.name ++ " failed") } o step
  | .skipped => match s.status with
    | .failed _ => s
    | _ => { s with status := .skipped }

/-- `self.solutions.get_mut(&solution).expect("Outcome of an unknown solution")`. -/
def Ui.onSol {R : Type} (u : Ui R) (sol : Nat) (f : SolState R → SolState R) : Option (Ui R) :=
  match u.solutions.get? sol with
  | none => none
  | some s => some { u with solutions := u.solutions.insert sol (f s) }

/-- `CompilationStatus::apply_status`, task-maker-format/src/ui/mod.rs. -/
def compOf : Phase → TM.Ui.CompStatus
  | .pending => .pending
  | .started => .running
  | .done o => if o.status = .success then .done else .failed
  | .skipped => .skipped

/-- The arms of `UIState::apply` about an execution, terry/ui_state.rs:141-195; nothing if it panics (as for the messages
of the IOI tasks). -/
def Ui.progress {R : Type} (u : Ui R) (t : Topic) (p : Phase) : Option (Ui R) :=
  match t with
  | .compilation path => some { u with compilations := u.compilations.insert path (compOf p) }
  | .generation sol seed => u.onSol sol (fun s => { s.process .generator p with seed := some seed })
  | .validation sol _ => u.onSol sol (fun s => s.process .validator p)
  | .evaluation _ _ sol _ _ => u.onSol sol (fun s => s.process .solution p)
  | .checker _ _ sol => u.onSol sol (fun s => s.process .checker p)
  | _ => none

/-- `UIState::apply`, terry/ui_state.rs:103-222. -/
def Ui.apply {R : Type} (u : Ui R) : Msg R → Option (Ui R)
  | .solutions n => some { u with solutions := (List.range n).map (fun i => (i, {})) }
  | .progress t p => u.progress t p
  | .outcome sol r => u.onSol sol (fun s => { s with outcome := some r })
  | .diagnostic t => some { u with diagnostics := u.diagnostics ++ [t] }
  | .other => some u

/-- The messages one after the other. -/
def Ui.applyAll {R : Type} (u : Ui R) : List (Msg R) → Option (Ui R)
  | [] => some u
  | m :: ms => match u.apply m with
    | none => none
    | some u => u.applyAll ms

/-- What a notice tells about an execution. -/
def phaseOf : Notice → Phase
  | .started _ => .started
  | .done _ o => .done o
  | .skipped _ => .skipped

/-- What a closure sends when it is called; nothing if it fails, and then the evaluation is aborted.
`parse` is `serde_json::from_slice` on the captured standard output, with the text of its error. -/
def says {R : Type} (parse : Outcome → R) (n : Notice) (h : Handler) : Option (List (Msg R)) :=
  match h with
  -- `bind_exec_callbacks!`, task-maker-format/src/lib.rs:317-357
  | .report t => some [.progress t (phaseOf n)]
  -- terry/dag/mod.rs:245-250 with the callback of terry/mod.rs:208-213
  | .customChecker _ _ sol => match n with
    | .done _ o => if o.captured = false then none else some [.outcome sol (parse o)]
    | _ => some []
  -- source_file.rs:102-113
  | .failureDiagnostic t => match n with
    | .done _ o => if o.success then some [] else some [.diagnostic t]
    | _ => some []
  -- the others are not registered for a Terry task
  | _ => some []

/-- The closures of a list, one after the other: what is sent, and whether one of them failed. -/
def saysAll {R : Type} (parse : Outcome → R) (n : Notice) : List Handler → List (Msg R) × Bool
  | [] => ([], true)
  | h :: hs => match says parse n h with
    | none => ([], false)
    | some ms => (ms ++ (saysAll parse n hs).1, (saysAll parse n hs).2)

/-- The handling of the notices of the server, client.rs:122-159: the closures are drained, the first that fails ends the
evaluation.  The messages sent, and whether the evaluation was not aborted. -/
def followFrom {R : Type} (parse : Outcome → R) (handlers : List (ExecutionUuid × Handler))
    (drained : List (Kind × ExecutionUuid)) : List Notice → List (Msg R) × Bool
  | [] => ([], true)
  | n :: ns =>
    if (n.kind, n.exec) ∈ drained then followFrom parse handlers ((n.kind, n.exec) :: drained) ns
    else match saysAll parse n ((handlers.filter (fun p => p.1 = n.exec)).map (·.2)) with
      | (ms, false) => (ms, false)
      | (ms, true) =>
        let r := followFrom parse handlers ((n.kind, n.exec) :: drained) ns
        (ms ++ r.1, r.2)

/-- The messages sent while the DAG is built, terry/mod.rs:170-219: the task, the solutions, what is going to be run. -/
def opening {R : Type} (ev : Eval) (sols : Nat) : List (Msg R) :=
  .other :: .solutions sols :: ev.pending.map (fun t => .progress t .pending)

/-- The messages of an evaluation, and whether it was not aborted. -/
def follow {R : Type} (parse : Outcome → R) (ev : Eval) (sols : Nat) (ns : List Notice) : List (Msg R) × Bool :=
  let r := followFrom parse ev.handlers [] ns
  (opening ev sols ++ r.1, r.2)

/-- What the UI knows during an evaluation; nothing if it panicked. -/
def shown {R : Type} (parse : Outcome → R) (ev : Eval) (sols : Nat) (ns : List Notice) : Option (Ui R) :=
  Ui.applyAll {} (follow parse ev sols ns).1

end TM.Terry
