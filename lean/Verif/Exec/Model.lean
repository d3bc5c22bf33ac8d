import Verif.CheckDag.Model
import Verif.Sched.Model
/-!
# The executor (`task-maker-exec/src/executor.rs`)

The two threads of the server that stand between the clients and the scheduler: the *scheduler
binder* (`handle_scheduler_messages`) forwards what the scheduler says to the clients, the *client
manager* (`handle_client_messages`, one per client) forwards what the client says to the scheduler.

Simplification: sending to a client or to the scheduler does not fail.
-/
namespace TM.Exec

open TM.CheckDag

/-- `ExecutorServerMessage`, `task-maker-exec/src/proto.rs:72-95`; `provideFile` includes the
transfer of the file with that key which follows the message. -/
inductive ToClient where
  | askFile (uuid : FileUuid)
  | provideFile (uuid : FileUuid) (success : Bool) (key : FileStoreKey)
  | notifyStart (e : ExecutionUuid) (w : WorkerUuid)
  | notifyDone (e : ExecutionUuid) (r : ExecutionResult)
  | notifySkip (e : ExecutionUuid)
  | error (reason : Option DagError)
  | status (workers : List (WorkerUuid × Option GroupUuid)) (ready waiting : Nat)
  | done (files : List (FileUuid × FileStoreKey × Bool))
  deriving DecidableEq, Repr

/-! ## The scheduler binder -/

/-- The state of `handle_scheduler_messages`, `task-maker-exec/src/executor.rs:264-329`: the clients
known (`clients`, shared with `Executor::run`) and `ready_files`; `sent` is what was sent, newest
last. -/
structure Binder where
  clients : List ClientUuid := []
  readyFiles : AMap ClientUuid (List (FileUuid × FileStoreKey × Bool)) := []
  sent : List (ClientUuid × ToClient) := []

/-- What happens to the binder: a client connects (`executor.rs:202-205`, it is never removed), or
the scheduler sends a message. -/
inductive BinderIn where
  | connect (c : ClientUuid)
  | message (m : Sched.Out)

/-- The recipient of a message of the scheduler (the first component of
`SchedulerExecutorMessage`). -/
def recipient : Sched.Out → Option ClientUuid
  | .started c _ _ => some c
  | .done c _ _ => some c
  | .skipped c _ => some c
  | .fileReady c _ _ _ _ => some c
  | .evaluationDone c => some c
  | .status c _ _ _ => some c
  | .workerJob _ _ _ _ => none
  | .stopJob _ _ => none

/-- Sends a message to a client. -/
def Binder.send (b : Binder) (c : ClientUuid) (m : ToClient) : Binder :=
  { b with sent := b.sent ++ [(c, m)] }

/-- The `match` of `task-maker-exec/src/executor.rs:278-325`, for a known client. -/
def Binder.forward (b : Binder) : Sched.Out → Binder
  | .started c e w => b.send c (.notifyStart e w)
  | .skipped c e => b.send c (.notifySkip e)
  | .done c e r => b.send c (.notifyDone e r)
  | .fileReady c f key successful urgent =>
    if urgent then b.send c (.provideFile f successful key)
    else { b with readyFiles :=
      b.readyFiles.insert c ((b.readyFiles.get? c).getD [] ++ [(f, key, successful)]) }
  | .status c workers ready waiting => b.send c (.status workers ready waiting)
  | .evaluationDone c =>
    { b with readyFiles := b.readyFiles.erase c }.send c (.done ((b.readyFiles.get? c).getD []))
  | .workerJob _ _ _ _ => b
  | .stopJob _ _ => b

/-- `task-maker-exec/src/executor.rs:270-326`: the messages for unknown clients are ignored. -/
def Binder.step (b : Binder) : BinderIn → Binder
  | .connect c => { b with clients := c :: b.clients }
  | .message m => match recipient m with
    | some c => if c ∈ b.clients then b.forward m else b
    | none => b

/-- The loop of the binder. -/
def Binder.run (b : Binder) (ins : List BinderIn) : Binder := ins.foldl Binder.step b

/-! ## The client manager -/

/-- `ExecutorClientMessage`, `task-maker-exec/src/proto.rs:47-69`; `provideFile` includes the
transfer of the file. -/
inductive FromClient where
  | evaluate (dag : DagData) (callbacks : WatchSet)
  | provideFile (uuid : FileUuid) (key : FileStoreKey)
  | askFile (uuid : FileUuid) (key : FileStoreKey) (success : Bool)
  | stop
  | status

/-- How the client manager is doing. -/
inductive Phase where
  /-- in the loop -/
  | running
  /-- out of the loop, `Ok(())` -/
  | ended
  /-- an error was returned: `.unwrap()` at `executor.rs:224` panics -/
  | failed
  deriving DecidableEq, Repr

/-- The state of `handle_client_messages`, `task-maker-exec/src/executor.rs:332-461`: `store` are
the keys in the file store, `attached` is `scheduler.is_some()`; the two logs are newest last. -/
structure Manager where
  client : ClientUuid
  store : List FileStoreKey
  attached : Bool := true
  phase : Phase := .running
  toClient : List ToClient := []
  toSched : List Sched.Event := []

/-- `task-maker-exec/src/executor.rs:452-461` after the loop: the scheduler is told that the client
is gone, unless it already knows. -/
def Manager.leave (m : Manager) : Manager :=
  if m.attached then
    { m with attached := false, phase := .ended,
             toSched := m.toSched ++ [.clientDisconnected m.client] }
  else { m with phase := .ended }

/-- Sends to the scheduler, or fails with `Stopped execution` when the client has stopped. -/
def Manager.tell (m : Manager) (es : List Sched.Event) : Manager :=
  if m.attached then { m with toSched := m.toSched ++ es }
  else { m with phase := .failed }

/-- One turn of the loop, `task-maker-exec/src/executor.rs:340-452`.  The provided files are visited
in the order of the map (any order, by the quantification over the DAG). -/
def Manager.handle (m : Manager) : FromClient → Manager
  | .evaluate dag callbacks =>
    match checkDag dag callbacks with
    | .error e => Manager.leave { m with toClient := m.toClient ++ [ToClient.error (some e)] }
    | .ok _ =>
      let missing := dag.providedFiles.filter (fun p => decide (p.2.key ∉ m.store))
      let ready := dag.providedFiles.filter (fun p => decide (p.2.key ∈ m.store))
      let m : Manager :=
        { m with toClient := m.toClient ++ missing.map (fun p => ToClient.askFile p.1) }
      m.tell (Sched.Event.evaluateDag m.client dag callbacks ::
        ready.map (fun p => Sched.Event.fileReady m.client p.1 p.2.key))
  | .provideFile uuid key =>
    Manager.tell { m with store := key :: m.store } [Sched.Event.fileReady m.client uuid key]
  | .askFile uuid key success =>
    if key ∈ m.store then
      { m with toClient := m.toClient ++ [.provideFile uuid success key] }
    else { m with toClient := m.toClient ++ [.error none] }
  | .status => if m.attached then { m with toSched := m.toSched ++ [.status m.client] } else m
  | .stop =>
    if m.attached then
      { m with attached := false, toSched := m.toSched ++ [.clientDisconnected m.client] }
    else m

/-- The loop, until the channel is closed (`hangup`). -/
def Manager.run (m : Manager) : List FromClient → Manager
  | [] => m
  | x :: xs => match m.phase with
    | .running => (m.handle x).run xs
    | _ => m

/-- The whole life of a client manager: the messages, then the channel closes. -/
def Manager.life (m : Manager) (xs : List FromClient) : Manager :=
  match (m.run xs).phase with
  | .running => (m.run xs).leave
  | _ => m.run xs

/-- `task-maker-exec/src/executor.rs:216-234`: whether the scheduler is told to exit at the end of
the life of a client manager: only in a local executor, and not if the thread panicked before. -/
def tellsExit (longRunning : Bool) (m : Manager) : Bool :=
  !longRunning && m.phase != .failed

end TM.Exec
