/-!
# The threads of an evaluation (`src/context.rs`)

The main thread (`ConnectedExecutorWithUI::execute`), the thread of the UI (`ConnectedExecutor::start_ui`), the thread of
the local executor and the handler of ctrl-C, interleaved in any way.  A message of the UI is a value of `α`, an error
one of `ε`.  `next` is one step of one of them, `none` when it cannot make it (it is blocked, or it has ended).
-/

namespace TM.Session

/-- How the thread of the local executor ends: `Ok`, `Err` or a panic. -/
inductive ExecEnd where
  | ok | err | panic
deriving DecidableEq, Repr

/-- What the code called by the threads does. -/
structure Script (α ε : Type) where
  /-- what is sent to the UI by the callbacks of the DAG and by the status poller, during `ExecutorClient::evaluate` -/
  client : List α
  clientResult : Except ε Unit
  /-- what is sent by `sanity_check_post_hook` -/
  hook : List α
  hookResult : Except ε Unit
  /-- the local executor, if there is one (context.rs:140-184) -/
  executor : Option ExecEnd
  /-- the UI panics on a message, after those already shown -/
  uiPanics : List α → α → Bool
  /-- `UI::finish` panics -/
  finishPanics : List α → Bool

/-- The errors of `execute`, by their context. -/
inductive Failure (ε : Type) where
  /-- "Client failed" -/
  | client (e : ε)
  /-- "Client failed", because a callback could not send to the UI -/
  | clientSend
  /-- "Sanity checks failed" -/
  | hook (e : ε)
deriving DecidableEq, Repr

/-- Where the main thread is. -/
inductive Main (α ε : Type) where
  | evaluating (rest : List α)
  | hooking (rest : List α)
  | joinExecutor (r : Except (Failure ε) Unit)
  | stopUi (r : Except (Failure ε) Unit)
  | joinUi (r : Except (Failure ε) Unit)
  | returned (r : Except (Failure ε) Unit)
  | panicked

/-- The thread of the UI. -/
inductive Ui where
  | running | done | panicked
deriving DecidableEq, Repr

/-- What the UI does, as the user sees it. -/
inductive Event (α : Type) where
  | message (m : α)
  | finish
deriving DecidableEq, Repr

/-- The state of all the threads. -/
structure St (α ε : Type) where
  main : Main α ε
  ui : Ui
  /-- the channel to the UI: `none` is `StopUI` -/
  queue : List (Option α)
  /-- the messages shown -/
  shown : List α
  events : List (Event α)
  /-- the thread of the executor has ended -/
  execDone : Bool
  /-- the shared sender of the ctrl-C handler is still there -/
  clientSender : Bool
  /-- how many `Stop` have been sent to the executor -/
  stops : Nat

/-- The state at the beginning of `execute`. -/
def start {α ε} (sc : Script α ε) : St α ε :=
  ⟨.evaluating sc.client, .running, [], [], [], false, true, 0⟩

/-- `UIChannelSender::send`: the channel is unbounded; without a receiver nothing is queued. -/
def send {α ε} (m : Option α) (s : St α ε) : St α ε :=
  if s.ui = .running then { s with queue := s.queue ++ [m] } else s

/-- Who makes a step.  `mainFail` is the main thread when a callback gives up because the UI is gone. -/
inductive Agent where
  | main | mainFail | ui | exec | ctrlC
deriving DecidableEq, Repr

/-- src/context.rs:267-319 `execute`, one step. -/
def nextMain {α ε} (sc : Script α ε) (s : St α ε) : Option (St α ε) :=
  match s.main with
  | .evaluating (m :: ms) => some { send (some m) s with main := .evaluating ms }
  | .evaluating [] =>
    match sc.clientResult with
    | .ok () => some { s with clientSender := false, main := .hooking sc.hook }
    | .error e =>
      some { s with stops := if s.clientSender then s.stops + 1 else s.stops, main := .joinExecutor (.error (.client e)) }
  | .hooking (m :: ms) => some { send (some m) s with main := .hooking ms }
  | .hooking [] =>
    match sc.hookResult with
    | .ok () => some { s with main := .joinExecutor (.ok ()) }
    | .error e => some { s with main := .joinExecutor (.error (.hook e)) }
  | .joinExecutor r =>
    match sc.executor with
    | none => some { s with main := .stopUi r }
    | some how =>
      if s.execDone then
        match how with
        | .ok => some { s with main := .stopUi r }
        | .err => some { s with main := .panicked }
        | .panic => some { s with main := .panicked }
      else none
  | .stopUi r => some { send none s with main := .joinUi r }
  | .joinUi r =>
    match s.ui with
    | .running => none
    | .done => some { s with main := .returned r }
    | .panicked => some { s with main := .panicked }
  | .returned _ => none
  | .panicked => none

/-- A callback that cannot send to the UI returns an error, and `evaluate` with it (client.rs:107-190). -/
def nextMainFail {α ε} (s : St α ε) : Option (St α ε) :=
  match s.main with
  | .evaluating (_ :: _) =>
    if s.ui = .panicked then
      some { s with stops := if s.clientSender then s.stops + 1 else s.stops, main := .joinExecutor (.error .clientSend) }
    else none
  | _ => none

/-- `ui.finish()`, context.rs:231. -/
def finish {α ε} (sc : Script α ε) (s : St α ε) : St α ε :=
  if sc.finishPanics s.shown then { s with ui := .panicked }
  else { s with ui := .done, events := s.events ++ [.finish] }

/-- src/context.rs:222-232, one turn of the loop.  When the main thread has panicked all the senders are dropped, and
`recv` fails when the channel is empty. -/
def nextUi {α ε} (sc : Script α ε) (s : St α ε) : Option (St α ε) :=
  match s.ui with
  | .running =>
    match s.queue with
    | [] =>
      match s.main with
      | .panicked => some (finish sc s)
      | _ => none
    | none :: q => some (finish sc { s with queue := q })
    | some m :: q =>
      if sc.uiPanics s.shown m then some { s with ui := .panicked, queue := [] }
      else some { s with queue := q, shown := s.shown ++ [m], events := s.events ++ [.message m] }
  | _ => none

/-- The thread of the executor ends. -/
def nextExec {α ε} (sc : Script α ε) (s : St α ε) : Option (St α ε) :=
  if sc.executor.isSome && !s.execDone then some { s with execDone := true } else none

/-- src/context.rs:240-251: the handler of ctrl-C. -/
def nextCtrlC {α ε} (s : St α ε) : Option (St α ε) :=
  if s.clientSender then some { s with stops := s.stops + 1 } else some s

/-- One step. -/
def next {α ε} (sc : Script α ε) (a : Agent) (s : St α ε) : Option (St α ε) :=
  match a with
  | .main => nextMain sc s
  | .mainFail => nextMainFail s
  | .ui => nextUi sc s
  | .exec => nextExec sc s
  | .ctrlC => nextCtrlC s

/-- An interleaving of the threads. -/
def run {α ε} (sc : Script α ε) : List Agent → St α ε → Option (St α ε)
  | [], s => some s
  | a :: as, s => (next sc a s).bind (run sc as)

end TM.Session
