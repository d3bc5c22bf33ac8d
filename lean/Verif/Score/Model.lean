import Verif.Base.AMap
/-!
# The scores of a solution (`task-maker-format/src/ioi`)

`ScoreManager` and `TestcaseScoreAggregator` (the scores of the subtasks and of the task of one
solution), `ScoreSender` (the score of a testcase of a communication task), `ScoreStatus`.

Simplifications: a score (`f64`) is either a rational number, with exact arithmetic, or NaN;
infinities and rounding are not modelled; maximum scores are numbers.  Sending to the UI does not
fail.  The order of iteration of a `HashMap` is a parameter where it matters.
-/
namespace TM.Score

abbrev SubtaskId := Nat
abbrev TestcaseId := Nat

/-- A floating point number: `"nan".parse::<f64>()` is a number for a custom checker. -/
inductive Score where
  | num (q : Rat)
  | nan
  deriving DecidableEq, Repr

/-- `+` on `f64`. -/
def Score.add : Score → Score → Score
  | .num a, .num b => .num (a + b)
  | _, _ => .nan

/-- Multiplication of a maximum score by a score. -/
def Score.scale (m : Rat) : Score → Score
  | .num a => .num (m * a)
  | .nan => .nan

/-- `a.partial_cmp(b).unwrap()`: `none` is the panic, the answer is whether `a > b`. -/
def Score.gt? : Score → Score → Option Bool
  | .num a, .num b => some (decide (b < a))
  | _, _ => none

/-- `TestcaseScoreAggregator`, `task-maker-format/src/ioi/dag/mod.rs:27-40`. -/
inductive Aggregator where
  | min
  | sum
  deriving DecidableEq, Repr

/-- `min_by(|a, b| a.partial_cmp(b).unwrap())` with the first element as accumulator: the first of
the minimal elements; `none` is the panic. -/
def minBy : Score → List Score → Option Score
  | acc, [] => some acc
  | acc, x :: xs => match Score.gt? acc x with
    | none => none
    | some true => minBy x xs
    | some false => minBy acc xs

/-- `TestcaseScoreAggregator::aggregate`, `task-maker-format/src/ioi/dag/mod.rs:70-92`; `none` is a
panic. -/
def aggregate : Aggregator → List Score → Option Score
  | .min, [] => some (.num 1)
  | .min, x :: xs => minBy x xs
  | .sum, l =>
    let sumCount := l.foldl (fun (prev : Score × Nat) cur => (prev.1.add cur, prev.2 + 1))
      (.num 0, 0)
    if sumCount.2 = 0 then some (.num 1)
    else some (match sumCount.1 with
      | .num q => .num (q / (sumCount.2 : Rat))
      | .nan => .nan)

/-- The fields of `SubtaskInfo` used here, `task-maker-format/src/ioi/mod.rs:157-181`. -/
structure Subtask where
  maxScore : Rat
  testcases : List TestcaseId
  deriving DecidableEq, Repr

/-- The fields of `IOITask` used here, `task-maker-format/src/ioi/mod.rs:109-153`. -/
structure Task where
  subtasks : AMap SubtaskId Subtask
  testcases : List TestcaseId
  aggregator : Aggregator
  deriving DecidableEq, Repr

/-- The messages sent to the UI. -/
inductive Msg where
  /-- `UIMessage::IOITestcaseScore` -/
  | testcaseScore (st : SubtaskId) (tc : TestcaseId) (score : Score)
  /-- `UIMessage::IOISubtaskScore` -/
  | subtaskScore (st : SubtaskId) (score normalized : Score)
  /-- `UIMessage::IOITaskScore` -/
  | taskScore (score : Score)
  deriving DecidableEq, Repr

/-- `ScoreManager`, `task-maker-format/src/ioi/mod.rs:64-77`, and the messages sent, newest last. -/
structure Manager where
  subtaskScores : AMap SubtaskId (Option Score)
  maxScores : AMap SubtaskId Rat
  testcaseScores : AMap TestcaseId (Option Score)
  subtaskTestcases : AMap SubtaskId (List TestcaseId)
  aggregator : Aggregator
  sent : List Msg := []
  deriving DecidableEq, Repr

/-- `self.testcase_scores[tc]` for all the testcases of a subtask; `none` is the panic of an unknown
testcase, `task-maker-format/src/ioi/mod.rs:634-645`. -/
def lookups (m : AMap TestcaseId (Option Score)) (tcs : List TestcaseId) :
    Option (List (Option Score)) := tcs.mapM m.get?

/-- `ScoreManager::score_subtask`, `task-maker-format/src/ioi/mod.rs:629-667`; `none` is a panic.
(The code stops looking up the scores at the first missing one.) -/
def Manager.scoreSubtask (m : Manager) (st : SubtaskId) : Option Manager :=
  match m.subtaskTestcases.get? st with
  | none => none
  | some tcs => match lookups m.testcaseScores tcs with
    | none => none
    | some scores =>
      if scores.all Option.isSome then
        match aggregate m.aggregator (scores.map (·.getD .nan)), m.maxScores.get? st with
        | some normalized, some max =>
          let score := normalized.scale max
          let scores := m.subtaskScores.insert st (some score)
          let sent := m.sent ++ [.subtaskScore st score normalized]
          if scores.values.all Option.isSome then
            some { m with
              subtaskScores := scores
              sent := sent ++ [.taskScore (scores.values.foldl
                (fun a s => a.add (s.getD .nan)) (.num 0))] }
          else some { m with subtaskScores := scores, sent := sent }
        | _, _ => none
      else some m

/-- The loop over the subtasks, in the given order: `task-maker-format/src/ioi/mod.rs:591-595`. -/
def Manager.scoreEmpty (m : Manager) (task : Task) : List SubtaskId → Option Manager
  | [] => some m
  | st :: rest =>
    match task.subtasks.get? st with
    | none => none
    | some info =>
      if info.testcases.isEmpty then
        match m.scoreSubtask st with
        | none => none
        | some m => m.scoreEmpty task rest
      else m.scoreEmpty task rest

/-- `ScoreManager::new`, `task-maker-format/src/ioi/mod.rs:567-597`; `order` is the order of
iteration over the subtasks. -/
def Manager.new (task : Task) (order : List SubtaskId) : Option Manager :=
  Manager.scoreEmpty
    { subtaskScores := task.subtasks.map (fun p => (p.1, none))
      maxScores := task.subtasks.map (fun p => (p.1, p.2.maxScore))
      testcaseScores := task.testcases.map (fun tc => (tc, none))
      subtaskTestcases := task.subtasks.map (fun p => (p.1, p.2.testcases))
      aggregator := task.aggregator } task order

/-- The loop at `task-maker-format/src/ioi/mod.rs:616-625` over the snapshot of the scores. -/
def Manager.scoreMissing (m : Manager) : List (SubtaskId × Option Score) → Option Manager
  | [] => some m
  | (st, s) :: rest =>
    if s.isNone then
      match m.scoreSubtask st with
      | none => none
      | some m => m.scoreMissing rest
    else m.scoreMissing rest

/-- A call of `ScoreManager::score`, with the order in which the subtasks are visited. -/
structure Call where
  subtask : SubtaskId
  testcase : TestcaseId
  score : Score
  order : List SubtaskId
  deriving DecidableEq, Repr

/-- `ScoreManager::score`, `task-maker-format/src/ioi/mod.rs:601-627`. -/
def Manager.score (m : Manager) (c : Call) : Option Manager :=
  let m' : Manager :=
    { m with
      testcaseScores := m.testcaseScores.insert c.testcase (some c.score)
      sent := m.sent ++ [.testcaseScore c.subtask c.testcase c.score] }
  m'.scoreMissing (c.order.map (fun st => (st, (m.subtaskScores.get? st).getD none)))

/-- The calls one after the other. -/
def Manager.scores (m : Manager) : List Call → Option Manager
  | [] => some m
  | c :: cs => match m.score c with
    | none => none
    | some m => m.scores cs

/-- The life of the manager of one solution. -/
def run (task : Task) (order : List SubtaskId) (calls : List Call) : Option Manager :=
  match Manager.new task order with
  | none => none
  | some m => m.scores calls

/-! ## The score of a testcase of a communication task -/

/-- An answer for a testcase: `ScoreSender::send` with a score and a message, or
`ScoreSender::skip`. -/
inductive Answer where
  | send (score : Score) (message : String)
  | skip
  deriving DecidableEq, Repr

/-- `ScoreSenderData`, `task-maker-format/src/ioi/dag/task_type/communication.rs:34-50`; `flushed`
are the scores given to the `ScoreManager`, in order. -/
structure Sender where
  missing : Nat
  answer : Option (Score × String) := none
  flushed : List (Score × String) := []
  deriving DecidableEq, Repr

/-- `a > b` on `f64`. -/
def Score.gt : Score → Score → Bool
  | .num a, .num b => decide (b < a)
  | _, _ => false

/-- `maybe_flush`, `task-maker-format/src/ioi/dag/task_type/communication.rs:305-329`. -/
def Sender.maybeFlush (s : Sender) : Sender :=
  if s.missing > 0 then s
  else match s.answer with
    | some a => { s with flushed := s.flushed ++ [a] }
    | none => s

/-- `data.answer.is_none() || data.answer.as_ref().unwrap().0 > score`,
`task-maker-format/src/ioi/dag/task_type/communication.rs:282`. -/
def better (answer : Option (Score × String)) (score : Score) : Bool :=
  match answer with
  | none => true
  | some a => a.1.gt score

/-- `send` and `skip`, `task-maker-format/src/ioi/dag/task_type/communication.rs:273-301`; `none` is
the failure of the assertion. -/
def Sender.answered (s : Sender) : Answer → Option Sender
  | .send score message =>
    if s.missing > 0 then
      let s : Sender := { s with
        missing := s.missing - 1
        answer := if better s.answer score then some (score, message) else s.answer }
      some s.maybeFlush
    else none
  | .skip =>
    if s.missing > 0 then
      let s : Sender := { s with missing := s.missing - 1 }
      some s.maybeFlush
    else none

/-- The answers one after the other. -/
def Sender.run (s : Sender) : List Answer → Option Sender
  | [] => some s
  | a :: as => match s.answered a with
    | none => none
    | some s => s.run as

/-! ## The status of a score -/

/-- `ScoreStatus`, `task-maker-format/src/testcase_score_status.rs:3-10`. -/
inductive ScoreStatus where
  | accepted
  | partialScore
  | wrongAnswer
  deriving DecidableEq, Repr

/-- `abs` on `f64`. -/
def absRat (q : Rat) : Rat := if q < 0 then -q else q

/-- `ScoreStatus::from_score`, `task-maker-format/src/testcase_score_status.rs:14-22`; comparisons
with NaN are false. -/
def ScoreStatus.fromScore (score max : Score) : ScoreStatus :=
  match score, max with
  | .num s, .num m =>
    if s = 0 then .wrongAnswer
    else if absRat (s - m) < 1 / 1000 then .accepted
    else .partialScore
  | .num s, .nan => if s = 0 then .wrongAnswer else .partialScore
  | .nan, _ => .partialScore

end TM.Score
