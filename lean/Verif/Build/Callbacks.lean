import Verif.Build.Model
import Verif.Score.Model
/-!
# What the callbacks do when the server notifies the client

`task-maker-exec/src/client.rs` lines 122-159 and the closures registered by `build_dag`.  The closures
are drained: each is called at most once.  The calls of `ScoreManager::score` are recorded, in order;
what the score managers do with them is `Verif.Score`.
-/
namespace TM.Build
open TM

/-- What the closures read of an `ExecutionResult`: the status and how it is printed, the captured
stdout parsed as a number (`String::from_utf8_lossy(&stdout).trim().parse::<f64>()`) and the captured
stderr, trimmed and translated.  `captured` tells that both are there: the executions whose closures read
them ask for them, but a sandbox that fails gives neither (worker.rs:593-600). -/
structure Outcome where
  status : ExecutionStatus
  shown : String := ""
  score : Option Score.Score := none
  message : String := ""
  captured : Bool := true
deriving DecidableEq, Repr

/-- `ExecutionStatus::is_success`. -/
def Outcome.success (o : Outcome) : Bool := o.status == .success

/-- `NotifyStart`, `NotifyDone` and `NotifySkip`, task-maker-exec/src/proto.rs. -/
inductive Notice where
  | started (u : ExecutionUuid)
  | done (u : ExecutionUuid) (o : Outcome)
  | skipped (u : ExecutionUuid)
deriving DecidableEq, Repr

/-- The execution a notice is about. -/
def Notice.exec : Notice → ExecutionUuid
  | .started u => u
  | .done u _ => u
  | .skipped u => u

/-- The three lists of closures of `ExecutionCallbacks`. -/
inductive Kind where
  | start
  | done
  | skip
deriving DecidableEq, Repr

def Notice.kind : Notice → Kind
  | .started _ => .start
  | .done _ _ => .done
  | .skipped _ => .skip

/-- `UIExecutionStatus` without the worker and the resources, task-maker-format/src/ui/mod.rs. -/
inductive Progress where
  | started
  | done (status : ExecutionStatus)
  | skipped
deriving DecidableEq, Repr

/-- A call of `ScoreManager::score` on the manager of a solution. -/
structure Given where
  subtask : Nat
  testcase : Nat
  solution : Nat
  score : Score.Score
  message : String
deriving DecidableEq, Repr

/-- The client during the evaluation. -/
structure Client where
  senders : List (SenderInfo × Score.Sender)
  given : List Given := []
  told : List (Topic × Progress) := []
  errors : List Topic := []
deriving DecidableEq, Repr

/-- Why the evaluation is aborted: a closure panics, or returns an error and `ExecutorClient::evaluate`
returns it (client.rs:131-134, 142-145, 153-156). -/
inductive Fatal where
  /-- `unreachable!("diff died badly?")`, checker.rs:75 -/
  | diffDied (u : ExecutionUuid)
  /-- `Checker stdout not captured`, checker.rs:99-104, communication.rs:230-235 -/
  | notCaptured (u : ExecutionUuid)
  /-- `Invalid score from checker`, communication.rs:237 -/
  | invalidScore (u : ExecutionUuid)
  /-- the assertions of `ScoreSender::send` and `skip`, communication.rs:275-278 and 294-297 -/
  | tooManyAnswers
deriving DecidableEq, Repr

/-- `ScoreManager::score` on the manager of the solution. -/
def Client.give (c : Client) (st tc sol : Nat) (score : Score.Score) (message : String) : Client :=
  { c with given := c.given ++ [⟨st, tc, sol, score, message⟩] }

/-- `ScoreSender::send` and `skip` on a shared sender: `Score.Sender.answered`; what is flushed goes to the
score manager, communication.rs:305-329. -/
def Client.answer (c : Client) (k : Nat) (a : Score.Answer) : Except Fatal Client :=
  match c.senders[k]? with
  | none => .error .tooManyAnswers
  | some (i, s) => match s.answered a with
    | none => .error .tooManyAnswers
    | some s' => .ok { c with
        senders := c.senders.set k (i, s')
        given := c.given ++ (s'.flushed.drop s.flushed.length).map
          (fun p => ⟨i.subtask, i.testcase, i.solution, p.1, p.2⟩) }

/-- The `on_done` closures. -/
def Client.callDone (c : Client) (u : ExecutionUuid) (o : Outcome) : Handler → Except Fatal Client
  -- lib.rs:339-346
  | .report t => .ok { c with told := c.told ++ [(t, .done o.status)] }
  -- source_file.rs:102-113, input_generator.rs:102-113, input_validator.rs:96-108,
  -- output_generator.rs:111-121
  | .failureDiagnostic t =>
    if o.success then .ok c else .ok { c with errors := c.errors ++ [t] }
  -- batch.rs:80-91
  | .scoreZeroOnFailure st tc sol =>
    if o.success then .ok c else .ok (c.give st tc sol (.num 0) o.shown)
  -- checker.rs:65-78, with the callback of batch.rs:102-107
  | .whiteDiff st tc sol =>
    match o.status with
    | .success => .ok (c.give st tc sol (.num 1) "Output is correct")
    | .returnCode 1 => .ok (c.give st tc sol (.num 0) "Output is incorrect")
    | _ => .error (.diffDied u)
  -- checker.rs:98-143, with the callback of batch.rs:102-107
  | .customChecker st tc sol =>
    if o.captured = false then .error (.notCaptured u)
    else if o.success then
      match o.score with
      | some x => .ok (c.give st tc sol x o.message)
      | none => .ok { c with errors := c.errors ++ [.checker st tc sol] }
    else .ok { c with errors := c.errors ++ [.checker st tc sol] }
  -- communication.rs:167-175
  | .processOutcome k =>
    if o.success then c.answer k .skip else c.answer k (.send (.num 0) o.shown)
  -- communication.rs:224-243
  | .managerOutcome k =>
    if o.success then
      if o.captured = false then .error (.notCaptured u)
      else match o.score with
      | some x => c.answer k (.send x o.message)
      | none => .error (.invalidScore u)
    else c.answer k (.send (.num 0) "Checker failed")
  -- booklet.rs:200-205: a warning, see `Verif.Booklet.Warnings`
  | .latexErrors _ => .ok c
  -- att.rs:229-243, 278-292 and 306-316: what is shown is in `Verif.Build.Samples`
  | .sample (.diff _) =>
    match o.status with
    | .success => .ok c
    | .returnCode 1 => .ok c
    | _ => .error (.diffDied u)
  | .sample (.checker _) => if o.captured = false then .error (.notCaptured u) else .ok c
  | .sample _ => .ok c

/-- One closure of the list of a notice. -/
def Client.callOne (c : Client) (n : Notice) (h : Handler) : Except Fatal Client :=
  match n with
  | .done u o => c.callDone u o h
  -- lib.rs:331-338 and 347-354: only `bind_exec_callbacks!` registers these
  | .started _ => match h with
    | .report t => .ok { c with told := c.told ++ [(t, .started)] }
    | _ => .ok c
  | .skipped _ => match h with
    | .report t => .ok { c with told := c.told ++ [(t, .skipped)] }
    | _ => .ok c

/-- `for callback in callbacks.on_...drain(..) { callback(...)? }`. -/
def Client.callAll (c : Client) (n : Notice) : List Handler → Except Fatal Client
  | [] => .ok c
  | h :: hs => match c.callOne n h with
    | .error e => .error e
    | .ok c => c.callAll n hs

/-- The handling of a notice, client.rs:127-159; `drained` are the lists of closures already used. -/
def Client.notify (handlers : List (ExecutionUuid × Handler)) (c : Client)
    (drained : List (Kind × ExecutionUuid)) (n : Notice) : Except Fatal Client :=
  if (n.kind, n.exec) ∈ drained then .ok c
  else c.callAll n ((handlers.filter (fun p => p.1 = n.exec)).map (·.2))

/-- The loop over the messages of the server. -/
def Client.notifyAll (handlers : List (ExecutionUuid × Handler)) (c : Client)
    (drained : List (Kind × ExecutionUuid)) : List Notice → Except Fatal Client
  | [] => .ok c
  | n :: ns => match c.notify handlers drained n with
    | .error e => .error e
    | .ok c => c.notifyAll handlers ((n.kind, n.exec) :: drained) ns

/-- The client when the DAG has been sent. -/
def Eval.client (ev : Eval) : Client :=
  { senders := ev.senders.map (fun i => (i, { missing := i.answers })) }

/-- The evaluation of a DAG: the notices of the server are handled one after the other. -/
def Eval.follow (ev : Eval) (ns : List Notice) : Except Fatal Client :=
  ev.client.notifyAll ev.handlers [] ns

end TM.Build
