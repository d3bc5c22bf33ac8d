import Verif.Build.Callbacks
import Verif.Build.Spec
/-!
# What decides a score (C61)
-/
namespace TM.Build.Spec
open TM TM.Build DagSpec

/-- The notices that are not repeated: of those of a kind about an execution, the first one. -/
def firstsFrom (seen : List (Kind × ExecutionUuid)) : List Notice → List Notice
  | [] => []
  | n :: ns => if (n.kind, n.exec) ∈ seen then firstsFrom seen ns
      else n :: firstsFrom ((n.kind, n.exec) :: seen) ns

/-- The notices that are not repeated. -/
def firsts (ns : List Notice) : List Notice := firstsFrom [] ns

/-- How an execution ended, if it did: what the first notice says. -/
def outcomeOf (ns : List Notice) (u : ExecutionUuid) : Option Outcome :=
  ns.findSome? (fun n => match n with
    | .done v o => if v = u then some o else none
    | _ => none)

/-- The notices a server may send about a DAG: an execution is done only if those that produce its inputs
succeeded (otherwise it is skipped).  Nothing is said about the order, nor about notices sent again. -/
structure History (d : DagData) (ns : List Notice) : Prop where
  inputs : ∀ e ∈ allExecs d, ∀ o, .done e.uuid o ∈ ns → ∀ p ∈ allExecs d, ∀ f ∈ e.dependencies,
    f ∈ p.outputFiles → ∃ o', outcomeOf ns p.uuid = some o' ∧ o'.status = .success

/-- The scores given for a testcase to the score manager of a solution. -/
def scoresGiven (c : Client) (st tc sol : Nat) : List (Score.Score × String) :=
  (c.given.filter (fun g => (g.subtask, g.testcase, g.solution) = (st, tc, sol))).map
    (fun g => (g.score, g.message))

/-- What a checker says.  (If `diff` ends in any other way the evaluation is aborted.) -/
def verdict : Checker → Outcome → List (Score.Score × String)
  | .whiteDiff, o => if o.status = .success then [(.num 1, "Output is correct")]
      else [(.num 0, "Output is incorrect")]
  | .custom _, o => if o.status = .success then o.score.toList.map (fun x => (x, o.message)) else []

/-- The scores of a batch task, from the outcomes of the solution and of the checker. -/
def batchScores (checker : Checker) (run check : Option Outcome) : List (Score.Score × String) :=
  match run with
  | none => []
  | some o =>
    if o.status = .success then
      match check with
      | some o' => verdict checker o'
      | none => []
    else [(.num 0, o.shown)]

/-- What the outcome of a manager says. -/
def managerScores (o : Outcome) : List (Score.Score × String) :=
  if o.status = .success then o.score.toList.map (fun x => (x, o.message))
  else [(.num 0, "Checker failed")]

/-- What the outcome of a process says: nothing, unless it fails. -/
def processScores (o : Outcome) : List (Score.Score × String) :=
  if o.status = .success then [] else [(.num 0, o.shown)]

/-- The least of the scores answered about an evaluation of a communication task, where `A` are the
scores answered by the processes and by the manager. -/
def Least (A : List (Score.Score × String)) (given : List (Score.Score × String)) : Prop :=
  ∃ q msg, given = [(.num q, msg)] ∧ (.num q, msg) ∈ A ∧ ∀ b ∈ A, ∃ q', b.1 = .num q' ∧ q ≤ q'

/-- The progress a notice tells about an execution. -/
def progressOf : Notice → Progress
  | .started _ => .started
  | .done _ o => .done o.status
  | .skipped _ => .skipped

/-- What is expected of the program that gives the scores: `diff` says that the files are equal or
different, a custom checker is run and what it prints is captured, the manager prints a score if it
succeeds. -/
def Expected (t : TaskType) (o : Outcome) : Prop :=
  match t with
  | .batch .whiteDiff => o.status = .success ∨ o.status = .returnCode 1
  | .batch (.custom _) => o.captured = true
  | .communication _ _ _ => o.status = .success → o.captured = true ∧ o.score.isSome
  | .none => True

/-- The scores captured are numbers. -/
def Numbers (ns : List Notice) : Prop :=
  ∀ u o x, .done u o ∈ ns → o.score = some x → ∃ q, x = .num q

/-- Two histories with the same outcomes, in whatever order. -/
def SameOutcomes (ns ns' : List Notice) : Prop := ∀ u, outcomeOf ns u = outcomeOf ns' u

/-- Calls of the score manager of solution `sol`, as the client makes them: each with some order of
iteration over the subtasks. -/
def CallsFor (c : Client) (sol : Nat) (calls : List Score.Call) : Prop :=
  calls.map (fun x => (x.subtask, x.testcase, x.score)) =
    (c.given.filter (fun g => g.solution = sol)).map (fun g => (g.subtask, g.testcase, g.score))

end TM.Build.Spec
