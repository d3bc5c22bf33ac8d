import Verif.Dag.Model
/-!
# The worker and its manager (`task-maker-exec/src/worker.rs`, `worker_manager.rs`)

The worker's main thread (`Worker::work`), the thread of the sandboxes of the current job
(`sandbox_group_manager`) and the thread of the server that manages the connection with the worker
(`WorkerManager::worker_thread`), exchanging messages over two FIFO channels.

Simplifications: the transfer of a file is part of the `ProvideFile` message (see `Proto` for the
transfers); a store handle is the key of the file; no I/O error (creation of the sandbox
directories, send on a closed channel) occurs; the sandbox ends in an arbitrary way.
-/
namespace TM.Worker

/-- `WorkerJob`, `task-maker-exec/src/executor.rs:45-50`. -/
structure Job where
  group : ExecutionGroup
  depKeys : AMap FileUuid FileStoreKey
  deriving DecidableEq, Repr

/-- What can go wrong in the threads. -/
inductive Failure where
  /-- `WorkerError::MissingDependencyKey`, worker.rs:195-198 -/
  | missingDependencyKey (u : FileUuid)
  /-- `assert!(current_job.is_none())`, worker.rs:189 -/
  | busy
  /-- "Server sent a not required dependency", worker.rs:234-237 -/
  | notRequired (k : FileStoreKey)
  /-- "Received file while doing nothing", worker.rs:239-241 -/
  | doingNothing (k : FileStoreKey)
  /-- "Unexpected WorkerServerMessage::AskFiles", worker.rs:275-277 -/
  | unexpectedAskFiles
  /-- "Worker is asking for an unknown file", worker_manager.rs:163-165 -/
  | unknownFile (k : FileStoreKey)
  /-- `unreachable!("Unexpected ProvideFile from worker")`, worker_manager.rs:173-177 -/
  | unexpectedProvide
  /-- "Unexpected message from worker", worker_manager.rs:208-210 -/
  | unexpectedMessage
  deriving DecidableEq, Repr

/-! ## The dependencies of a job -/

/-- The local variables of the loop at worker.rs:191-214: `missing_deps`, `handles` and the keys
asked to the server, in order. -/
structure Gather where
  missing : AMap FileStoreKey (List FileUuid) := []
  handles : AMap FileUuid FileStoreKey := []
  asked : List FileStoreKey := []
  deriving DecidableEq, Repr

/-- The body of the loop, worker.rs:195-212; `present` is the answer of `file_store.get(key)`. -/
def Gather.visit (g : Gather) (job : Job) (present : Bool) (input : FileUuid) :
    Except Failure Gather :=
  match job.depKeys.get? input with
  | none => .error (.missingDependencyKey input)
  | some key =>
    if present then .ok { g with handles := g.handles.insert input key }
    else .ok {
      g with
      asked := if g.missing.contains key then g.asked else g.asked ++ [key]
      missing := g.missing.insert key ((g.missing.get? key).getD [] ++ [input]) }

/-- The loop at worker.rs:191-214 over the dependencies of the executions of the group;
`present i` is the answer of the store to the `i`-th lookup (other workers may be storing files in
the same store meanwhile). -/
def gather (job : Job) (present : Nat → Bool) : Nat → List FileUuid → Gather →
    Except Failure Gather
  | _, [], g => .ok g
  | i, input :: rest, g =>
    match g.visit job (present i) input with
    | .error e => .error e
    | .ok g => gather job present (i + 1) rest g

/-- `WorkerCurrentJob`, worker.rs:25-34; `sandboxes` and `asks` tell whether `current_sandboxes` and
`server_asked_files` are `Some`. -/
structure Current where
  job : Option (Job × AMap FileUuid FileStoreKey) := none
  missing : AMap FileStoreKey (List FileUuid) := []
  sandboxes : Bool := false
  asks : Bool := false
  deriving DecidableEq, Repr

/-- The job the worker starts, if any: `start_job`/`execute_job`, worker.rs:155-164,307-378, gives
the sandboxes the handles gathered. -/
abbrev Started := Option (Job × AMap FileUuid FileStoreKey)

/-- The state part of `execute_job`, worker.rs:314-358. -/
def Current.start (c : Current) : Current × Started :=
  ({ c with sandboxes := true, asks := true }, c.job)

/-- `WorkerServerMessage::Work`, worker.rs:187-224: the new state, the keys asked to the server,
the job started. -/
def Current.onWork (c : Current) (job : Job) (present : Nat → Bool) :
    Except Failure (Current × List FileStoreKey × Started) :=
  if c.job.isSome then .error .busy
  else match gather job present 0 job.group.deps {} with
    | .error e => .error e
    | .ok g =>
      let c : Current := { c with missing := g.missing, job := some (job, g.handles) }
      if g.missing = [] then .ok (c.start.1, g.asked, c.start.2)
      else .ok (c, g.asked, none)

/-- `for uuid in uuids { handles.insert(uuid, handle.clone()) }`, worker.rs:238-244. -/
def insertAll (key : FileStoreKey) : List FileUuid → AMap FileUuid FileStoreKey →
    AMap FileUuid FileStoreKey
  | [], m => m
  | u :: us, m => insertAll key us (m.insert u key)

/-- `WorkerServerMessage::ProvideFile`, worker.rs:225-250. -/
def Current.onProvide (c : Current) (key : FileStoreKey) : Except Failure (Current × Started) :=
  match c.missing.get? key with
  | none => .error (.notRequired key)
  | some uuids =>
    match c.job with
    | none =>
      -- the error is raised inside the loop over the uuids
      if uuids = [] then
        let c : Current := { c with missing := c.missing.erase key }
        if c.missing = [] then .ok c.start else .ok (c, none)
      else .error (.doingNothing key)
    | some (job, handles) =>
      let c : Current :=
        { c with missing := c.missing.erase key, job := some (job, insertAll key uuids handles) }
      if c.missing = [] then .ok c.start else .ok (c, none)

/-- Receives the files one by one: the final state and the jobs started. -/
def Current.onProvides (c : Current) : List FileStoreKey → Except Failure (Current × List Started)
  | [] => .ok (c, [])
  | k :: ks => match c.onProvide k with
    | .error e => .error e
    | .ok (c, st) => match c.onProvides ks with
      | .error e => .error e
      | .ok (c, sts) => .ok (c, st :: sts)

/-! ## The whole system -/

/-- `WorkerClientMessage`, `task-maker-exec/src/proto.rs:96-112`. -/
inductive Up where
  | getWork
  | askFile (k : FileStoreKey)
  | workerDone (results : List ExecutionResult) (outputs : AMap FileUuid FileStoreKey)
  | provideFile (u : FileUuid) (k : FileStoreKey)
  deriving DecidableEq, Repr

/-- `WorkerServerMessage`, `task-maker-exec/src/proto.rs:115-130`, without `Exit`. -/
inductive Down where
  | work (job : Job)
  | provideFile (k : FileStoreKey)
  | killJob (g : GroupUuid)
  | askFiles (files : List FileUuid)
  deriving DecidableEq, Repr

/-- Where the thread of the sandboxes is, `sandbox_group_manager`, worker.rs:386-532. -/
inductive Thread where
  /-- not started, or ended -/
  | none
  /-- the sandboxes are running -/
  | running (job : Job) (handles : AMap FileUuid FileStoreKey)
  /-- `WorkerDone` sent, waiting for the list of the missing files (worker.rs:484-491) -/
  | waiting (outputs : AMap FileUuid FileStoreKey)
  /-- sending the missing files (worker.rs:492-507) -/
  | sending (outputs : AMap FileUuid FileStoreKey) (rest : List FileUuid)
  deriving DecidableEq, Repr

/-- Where the manager is, `worker_thread`, worker_manager.rs:139-243. -/
inductive Mgr where
  | idle
  /-- waiting for `left` more files after `WorkerDone` (worker_manager.rs:198-211) -/
  | collecting (left : Nat) (results : List ExecutionResult)
      (handlers : AMap FileUuid FileStoreKey)
  deriving DecidableEq, Repr

/-- What is seen from outside: `connected` and `result` are messages to the scheduler, `assigned` a
job sent by it, `finished` the end of the sandboxes on the worker. -/
inductive Ev where
  | connected
  | assigned (job : Job)
  | finished (job : Job) (results : List ExecutionResult) (outputs : AMap FileUuid FileStoreKey)
  | result (results : List ExecutionResult) (handlers : AMap FileUuid FileStoreKey)
  deriving DecidableEq, Repr

/-- A worker, its manager and what the scheduler knows of it. -/
structure Sys where
  current : Current := {}
  thread : Thread := .none
  /-- the channel between the main thread and the thread of the sandboxes (worker.rs:355-356) -/
  mailbox : Option (List FileUuid) := none
  up : List Up := []
  down : List Down := []
  mgr : Mgr := .idle
  /-- the keys in the store of the server -/
  store : List FileStoreKey := []
  /-- the worker is in `connected_workers` of the scheduler without a job -/
  free : Bool := false
  /-- the groups whose sandboxes were told to terminate -/
  killed : List GroupUuid := []
  log : List Ev := []
  failed : Option Failure := none
  deriving DecidableEq, Repr

/-- The beginning: `work` sends `GetWork`, worker.rs:180-183. -/
def Sys.start (store : List FileStoreKey) : Sys := { up := [.getWork], store := store }

/-- The main thread receives a message, worker.rs:185-296. -/
def Sys.onDown (s : Sys) (present : Nat → Bool) : Down → Sys
  | .work job =>
    match s.current.onWork job present with
    | .error e => { s with failed := some e }
    | .ok (c, asked, st) =>
      { s with
        current := c
        up := s.up ++ asked.map .askFile
        thread := match st with
          | some (j, h) => .running j h
          | none => s.thread }
  | .provideFile k =>
    match s.current.onProvide k with
    | .error e => { s with failed := some e }
    | .ok (c, st) =>
      { s with
        current := c
        thread := match st with
          | some (j, h) => .running j h
          | none => s.thread }
  | .killJob g =>
    match s.current.job with
    | some (job, _) =>
      if job.group.uuid = g ∧ s.current.sandboxes = true then { s with killed := s.killed ++ [g] }
      else s
    | none => s
  | .askFiles files =>
    if s.current.asks then
      { s with current := { s.current with asks := false }, mailbox := some files }
    else { s with failed := some .unexpectedAskFiles }

/-- The handlers known at once and the missing files, worker_manager.rs:179-188. -/
def splitOutputs (store : List FileStoreKey) (outputs : AMap FileUuid FileStoreKey) :
    AMap FileUuid FileStoreKey × List FileUuid :=
  (outputs.filter (fun p => decide (p.2 ∈ store)),
    (outputs.filter (fun p => decide (p.2 ∉ store))).map (·.1))

/-- The manager receives a message, worker_manager.rs:148-223. -/
def Sys.onUp (s : Sys) (m : Up) : Sys :=
  match s.mgr with
  | .idle => match m with
    | .getWork => { s with free := true, log := s.log ++ [.connected] }
    | .askFile k =>
      if k ∈ s.store then { s with down := s.down ++ [.provideFile k] }
      else { s with failed := some (.unknownFile k) }
    | .provideFile _ _ => { s with failed := some .unexpectedProvide }
    | .workerDone results outputs =>
      let split := splitOutputs s.store outputs
      if split.2 = [] then
        { s with down := s.down ++ [.askFiles []], log := s.log ++ [.result results split.1] }
      else
        { s with down := s.down ++ [.askFiles split.2]
                 mgr := .collecting split.2.length results split.1 }
  | .collecting left results handlers => match m with
    | .provideFile u k =>
      let handlers := handlers.insert u k
      if left = 1 then
        { s with store := k :: s.store, mgr := .idle, log := s.log ++ [.result results handlers] }
      else
        { s with store := k :: s.store, mgr := .collecting (left - 1) results handlers }
    | _ => { s with failed := some .unexpectedMessage }

/-- The scheduler sends to a worker jobs whose dependencies are all known, and in the store of the
server (it owns a handle of them): scheduler.rs `assign_jobs`, and C08, C21. -/
def JobOk (store : List FileStoreKey) (job : Job) : Prop :=
  ∀ f ∈ job.group.deps, ∃ k, job.depKeys.get? f = some k ∧ k ∈ store

/-- A step that does not depend on the scheduler. -/
inductive Internal : Sys → Sys → Prop
  /-- the main thread of the worker receives a message -/
  | main (s : Sys) (present : Nat → Bool) (m : Down) (rest : List Down) :
    s.failed = none → s.down = m :: rest →
    Internal s (({ s with down := rest } : Sys).onDown present m)
  /-- the sandboxes end in some way, worker.rs:395-489 -/
  | finish (s : Sys) (job : Job) (handles : AMap FileUuid FileStoreKey)
      (results : List ExecutionResult) (outputs : AMap FileUuid FileStoreKey) :
    s.failed = none → s.thread = .running job handles →
    results.length = job.group.executions.length → AMap.Wf outputs →
    Internal s { s with
      thread := .waiting outputs
      up := s.up ++ [.workerDone results outputs]
      log := s.log ++ [.finished job results outputs] }
  /-- the thread of the sandboxes gets the list of the missing files, worker.rs:490-492 -/
  | take (s : Sys) (outputs : AMap FileUuid FileStoreKey) (files : List FileUuid) :
    s.failed = none → s.thread = .waiting outputs → s.mailbox = some files →
    Internal s { s with thread := .sending outputs files, mailbox := none }
  /-- it sends one of them, worker.rs:493-506 -/
  | provide (s : Sys) (outputs : AMap FileUuid FileStoreKey) (u : FileUuid)
      (rest : List FileUuid) :
    s.failed = none → s.thread = .sending outputs (u :: rest) →
    Internal s { s with
      thread := .sending outputs rest
      up := match outputs.get? u with
        | some k => s.up ++ [.provideFile u k]
        | none => s.up }
  /-- it resets the worker and asks for work, worker.rs:522-526 -/
  | complete (s : Sys) (outputs : AMap FileUuid FileStoreKey) :
    s.failed = none → s.thread = .sending outputs [] →
    Internal s { s with
      thread := .none
      current := { s.current with job := none, sandboxes := false }
      up := s.up ++ [.getWork] }
  /-- the manager receives a message -/
  | manager (s : Sys) (m : Up) (rest : List Up) :
    s.failed = none → s.up = m :: rest →
    Internal s (({ s with up := rest } : Sys).onUp m)

/-- A step of the system: internal, or an action of the scheduler. -/
inductive Step : Sys → Sys → Prop
  | internal {s s' : Sys} : Internal s s' → Step s s'
  /-- the scheduler gives a job to a free worker, scheduler.rs:817-858, worker_manager.rs:108-116 -/
  | assign (s : Sys) (job : Job) : s.failed = none → s.free = true → JobOk s.store job →
    Step s { s with free := false, down := s.down ++ [.work job], log := s.log ++ [.assigned job] }
  /-- the scheduler stops a job, worker_manager.rs:121-127; nothing is assumed about when -/
  | kill (s : Sys) (g : GroupUuid) : s.failed = none →
    Step s { s with down := s.down ++ [.killJob g] }

/-- The reachable states. -/
inductive Reach (store : List FileStoreKey) : Sys → Prop
  | start : Reach store (Sys.start store)
  | step {s s' : Sys} : Reach store s → Step s s' → Reach store s'

end TM.Worker
