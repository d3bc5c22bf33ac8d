import Verif.Ui.Lemmas
/-!
# The messages the client sends to the UI during an evaluation

The closures of `Verif.Build.Callbacks` send the progress of the executions to the UI and the scores to
the score managers, which send more messages (`Verif.Score.Model`).
-/
namespace TM.Ui
open TM TM.Build

/-- The client, the score manager of each solution and the messages sent to the UI, in order. -/
structure Live where
  client : Client
  managers : AMap Nat Score.Manager
  sent : List Message
  deriving DecidableEq, Repr

/-- A message of the score manager of solution `sol`; the score of a testcase comes with a text. -/
def ofScore (sol : Nat) (text : String) : Score.Msg → Message
  | .testcaseScore st tc score => .testcaseScore st tc sol score text
  | .subtaskScore st score normalized => .subtaskScore st sol score normalized
  | .taskScore score => .taskScore sol score

/-- The progress of an execution, sent by `bind_exec_callbacks!`, task-maker-format/src/lib.rs:319-356. -/
def ofTold (p : Topic × Progress) : Message := .progress p.1 (.told p.2)

/-- `ScoreManager::score`, task-maker-format/src/ioi/mod.rs:601-627; `pick` is the order in which the
subtasks are visited.  Nothing if it panics. -/
def Live.score (pick : Live → List Nat) (l : Live) (g : Given) : Option Live :=
  match l.managers.get? g.solution with
  | none => none
  | some m => match m.score ⟨g.subtask, g.testcase, g.score, pick l⟩ with
    | none => none
    | some m' => some { l with
        managers := l.managers.insert g.solution m'
        sent := l.sent ++ (m'.sent.drop m.sent.length).map (ofScore g.solution g.message) }

/-- The scores one after the other. -/
def Live.scores (pick : Live → List Nat) (l : Live) : List Given → Option Live
  | [] => some l
  | g :: gs => match l.score pick g with
    | none => none
    | some l => l.scores pick gs

/-- One closure: what it tells the UI and the scores it gives.  Nothing if the evaluation is aborted. -/
def Live.callOne (pick : Live → List Nat) (l : Live) (n : Notice) (h : Handler) : Option Live :=
  match l.client.callOne n h with
  | .error _ => none
  | .ok c => Live.scores pick
      { l with
        client := c
        sent := l.sent ++ (c.told.drop l.client.told.length).map ofTold }
      (c.given.drop l.client.given.length)

/-- `Client.callAll`. -/
def Live.callAll (pick : Live → List Nat) (l : Live) (n : Notice) : List Handler → Option Live
  | [] => some l
  | h :: hs => match l.callOne pick n h with
    | none => none
    | some l => l.callAll pick n hs

/-- `Client.notify`. -/
def Live.notify (pick : Live → List Nat) (handlers : List (ExecutionUuid × Handler)) (l : Live)
    (drained : List (Kind × ExecutionUuid)) (n : Notice) : Option Live :=
  if (n.kind, n.exec) ∈ drained then some l
  else l.callAll pick n ((handlers.filter (fun p => p.1 = n.exec)).map (·.2))

/-- `Client.notifyAll`. -/
def Live.notifyAll (pick : Live → List Nat) (handlers : List (ExecutionUuid × Handler)) (l : Live)
    (drained : List (Kind × ExecutionUuid)) : List Notice → Option Live
  | [] => some l
  | n :: ns => match l.notify pick handlers drained n with
    | none => none
    | some l => l.notifyAll pick handlers ((n.kind, n.exec) :: drained) ns

/-- The score managers of the solutions, `ScoreManager::new` for each of them, ioi/mod.rs:276-291;
`order` is the order of iteration over the subtasks of each. -/
def newManagers (t : Score.Task) (order : Nat → List Nat) : List Nat → Option (AMap Nat Score.Manager)
  | [] => some []
  | j :: js => match Score.Manager.new t (order j) with
    | none => none
    | some m => (newManagers t order js).map (fun ms => (j, m) :: ms)

/-- What the score managers read of the task, ioi/mod.rs:567-597: the maximum scores and the aggregator
are not in the model of the task. -/
def scoreTask (task : Task) (maxScore : Nat → Rat) (aggregator : Score.Aggregator) : Score.Task where
  subtasks := task.subtasks.map (fun p => (p.1, ⟨maxScore p.1, p.2.testcases⟩))
  testcases := task.testcases.keys
  aggregator := aggregator

/-- What is sent while the DAG is built: the task, the scores of the empty subtasks, the solutions with
their checks and what is going to be run, ioi/mod.rs:264-302. -/
def Live.start (ev : Eval) (managers : AMap Nat Score.Manager) (checks : List (Nat × List SolCheck)) : Live where
  client := ev.client
  managers := managers
  sent := .other :: managers.flatMap (fun p => p.2.sent.map (ofScore p.1 "")) ++
    .solutions checks :: ev.pending.map (fun t => .progress t .pending)

/-- The evaluation of the DAG. -/
def Live.follow (pick : Live → List Nat) (ev : Eval) (managers : AMap Nat Score.Manager)
    (checks : List (Nat × List SolCheck)) (ns : List Notice) : Option Live :=
  (Live.start ev managers checks).notifyAll pick ev.handlers [] ns

/-- What the UI knows after the messages; nothing if it panicked. -/
def Live.ui (task : Task) (l : Live) : Option State := (State.new task).applyAll task l.sent

end TM.Ui
