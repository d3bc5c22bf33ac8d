import Verif.Score.Model
/-!
# Vocabulary for the properties of the scores
-/
namespace TM.Score

/-- What the loaders of the tasks guarantee: the ids are distinct (they are keys of maps) and the
testcases of the subtasks are testcases of the task. -/
structure Task.Valid (t : Task) : Prop where
  subtasks : (t.subtasks.map (·.1)).Nodup
  testcases : t.testcases.Nodup
  known : ∀ p ∈ t.subtasks, ∀ tc ∈ p.2.testcases, tc ∈ t.testcases

/-- An order of iteration over the subtasks of the task. -/
def Task.Order (t : Task) (order : List SubtaskId) : Prop :=
  order.Nodup ∧ ∀ st, st ∈ order ↔ st ∈ t.subtasks.map (·.1)

/-- A history of calls with arbitrary iteration orders. -/
def Task.Calls (t : Task) (calls : List Call) : Prop := ∀ c ∈ calls, t.Order c.order

/-- All the testcases of the subtask have been scored. -/
def Complete (calls : List Call) (s : Subtask) : Prop :=
  ∀ tc ∈ s.testcases, ∃ c ∈ calls, c.testcase = tc

/-- The last score given to a testcase. -/
def lastScore : List Call → TestcaseId → Option Score
  | [], _ => none
  | c :: cs, tc => match lastScore cs tc with
    | some s => some s
    | none => if c.testcase = tc then some c.score else none

/-- The messages about the score of a subtask. -/
def subtaskMsgs (sent : List Msg) (st : SubtaskId) : List Msg :=
  sent.filter (fun m => match m with | .subtaskScore s _ _ => decide (s = st) | _ => false)

/-- The messages about the score of the task. -/
def taskMsgs (sent : List Msg) : List Msg :=
  sent.filter (fun m => match m with | .taskScore _ => true | _ => false)

/-- The messages about the scores of the testcases. -/
def testcaseMsgs (sent : List Msg) : List Msg :=
  sent.filter (fun m => match m with | .testcaseScore _ _ _ => true | _ => false)

/-- `pre` is the part of the history that first completes the subtask. -/
def FirstComplete (calls pre : List Call) (s : Subtask) : Prop :=
  pre <+: calls ∧ Complete pre s ∧ ∀ pre', pre' <+: pre → Complete pre' s → pre' = pre

/-- The scores are numbers. -/
def Numeric (calls : List Call) : Prop := ∀ c ∈ calls, ∃ q, c.score = .num q

/-- The sum of a list of rationals. -/
def total : List Rat → Rat
  | [] => 0
  | x :: xs => x + total xs

/-- `n` is what the documentation says of the aggregation of the scores of the testcases: the
minimum, or the average, and 1 for no testcase. -/
def IsAggregate : Aggregator → List Rat → Rat → Prop
  | .min, l, n => (l = [] ∧ n = 1) ∨ (n ∈ l ∧ ∀ x ∈ l, n ≤ x)
  | .sum, l, n => (l = [] ∧ n = 1) ∨ (l ≠ [] ∧ n * l.length = total l)

end TM.Score
