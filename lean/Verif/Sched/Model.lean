import Verif.CheckDag.Model
/-!
# The scheduler (`task-maker-exec/src/scheduler.rs`)

The scheduler is single threaded: it receives one message at a time and handles it to completion.
Its functions call each other recursively (`file_success → schedule_cached → exec_completed →
file_success → …`); the model is a machine with an explicit stack of pending calls and loop bodies
(`Task`), so that no bound on the recursion is needed.  One step of the machine is one loop
iteration or one call; messages are accepted only when the stack is empty.

Everything the Rust code leaves to the iteration order of a `HashMap`/`HashSet`/`BinaryHeap` and
every answer of the cache is a `Choice`, quantified over in the step relation.  A Rust panic and the
`bail!` on a malformed worker result are `Err` values.

Simplifications: `Instant`s, names and descriptions are dropped; a `FileStoreHandle` is its key;
sending on a channel always succeeds; `schedule_cached` removes an entry from the queue when it finds
the hit instead of building a second queue (nothing reads the queue inside that loop).
-/

namespace TM.Sched

/-- scheduler.rs:217 an element of `ready_execs` (`DagPriority, Priority, ExecutionGroupUuid,
ClientUuid`). -/
structure ReadyEntry where
  dagPriority : Priority
  priority : Priority
  group : GroupUuid
  client : ClientUuid
deriving DecidableEq, Repr

/-- `Ord` of the tuple: lexicographic. -/
def ReadyEntry.lt (a b : ReadyEntry) : Bool :=
  decide (a.dagPriority < b.dagPriority ∨ (a.dagPriority = b.dagPriority ∧
    (a.priority < b.priority ∨ (a.priority = b.priority ∧
      (a.group < b.group ∨ (a.group = b.group ∧ a.client < b.client))))))

/-- The maximum of a non-empty queue. -/
def maxEntry : ReadyEntry → List ReadyEntry → ReadyEntry
  | m, [] => m
  | m, e :: es => maxEntry (if ReadyEntry.lt m e then e else m) es

/-- `BinaryHeap::pop` on the queue, seen as a multiset. -/
def popMax : List ReadyEntry → Option (ReadyEntry × List ReadyEntry)
  | [] => none
  | e :: es => some (maxEntry e es, (e :: es).erase (maxEntry e es))

/-- scheduler.rs:143-166 `SchedulerClientData`. -/
structure Client where
  dag : DagData
  callbacks : WatchSet
  inputOf : AMap FileUuid (List GroupUuid) := []
  readyGroups : List GroupUuid := []
  runningGroups : List GroupUuid := []
  missingDeps : AMap GroupUuid (List FileUuid) := []
  fileHandles : AMap FileUuid FileStoreKey := []

/-- scheduler.rs:187-193 `is_done`. -/
def Client.isDone (c : Client) : Bool :=
  c.readyGroups.isEmpty && c.runningGroups.isEmpty && c.missingDeps.isEmpty

/-- scheduler.rs:34-85 the messages received (`Exit` ends the loop and is not modelled). -/
inductive Event where
  | evaluateDag (c : ClientUuid) (dag : DagData) (cb : WatchSet)
  | clientDisconnected (c : ClientUuid)
  | fileReady (c : ClientUuid) (f : FileUuid) (key : FileStoreKey)
  | workerResult (w : WorkerUuid) (results : List ExecutionResult)
      (outputs : AMap FileUuid FileStoreKey)
  | workerConnected (w : WorkerUuid)
  | workerDisconnected (w : WorkerUuid)
  | status (c : ClientUuid)
deriving DecidableEq

/-- scheduler.rs:88-129 the messages to the clients, and worker_manager.rs:30-36 the messages to the
workers (the client owning the job is added to `workerJob`, it is not part of the message). -/
inductive Out where
  | started (c : ClientUuid) (e : ExecutionUuid) (w : WorkerUuid)
  | done (c : ClientUuid) (e : ExecutionUuid) (r : ExecutionResult)
  | skipped (c : ClientUuid) (e : ExecutionUuid)
  | fileReady (c : ClientUuid) (f : FileUuid) (key : FileStoreKey) (successful urgent : Bool)
  | evaluationDone (c : ClientUuid)
  | status (c : ClientUuid) (workers : List (WorkerUuid × Option GroupUuid)) (ready waiting : Nat)
  | workerJob (w : WorkerUuid) (c : ClientUuid) (g : ExecutionGroup)
      (depKeys : AMap FileUuid FileStoreKey)
  | stopJob (w : WorkerUuid) (u : GroupUuid)
deriving DecidableEq

/-- The trace, newest first: received messages, sent messages and, as ghost entries, the moments at
which a group is completed or skipped, the cache is consulted or filled, and a round of job
assignment ends. -/
inductive Obs where
  | ev (e : Event)
  | out (o : Out)
  | completed (c : ClientUuid) (g : ExecutionGroup) (results : List ExecutionResult)
      (outputs : AMap FileUuid FileStoreKey) (cached : Bool)
  | skipped (c : ClientUuid) (g : ExecutionGroup)
  | cacheLookup (c : ClientUuid) (u : GroupUuid)
  | cacheInsert (c : ClientUuid) (u : GroupUuid)
  | assigned
deriving DecidableEq

/-- task-maker-cache/src/lib.rs `CacheResult::Hit`. -/
structure Hit where
  results : List ExecutionResult
  outputs : AMap FileUuid FileStoreKey

/-- A pending call (or the rest of a loop) of the scheduler. -/
inductive Task where
  | fileSuccess (c : ClientUuid) (f : FileUuid)
  | successLoop (c : ClientUuid) (f : FileUuid) (todo : List GroupUuid)
  | fileFailed (c : ClientUuid) (f : FileUuid)
  | skipLoop (c : ClientUuid) (f : FileUuid) (todo : List GroupUuid) (failed : List FileUuid)
  | scheduleCached
  | cachedLoop (todo : List (ReadyEntry × Option Hit))
      (hits : List (ClientUuid × ExecutionGroup × Hit))
  | assignJobs
  | assignLoop (todo : List WorkerUuid)
  | checkCompletion (c : ClientUuid)
  | execCompleted (c : ClientUuid) (g : ExecutionGroup) (results : List ExecutionResult)
      (outputs : AMap FileUuid FileStoreKey) (fromCache : Bool)

/-- Panics and fatal errors. -/
inductive Err where
  /-- `execution_groups[&uuid]` of an absent group -/
  | noGroup
  /-- `file_handles[&f]` of an absent file -/
  | noHandle
  /-- `outputs[&output]` of an absent output -/
  | noOutput
  /-- execution_group.rs:98-104 `tag()` of a group without executions -/
  | emptyGroup
  /-- scheduler.rs:403-408 `bail!` on a wrong number of results -/
  | badResultCount
deriving DecidableEq, Repr

/-- scheduler.rs:203-223 `Scheduler`, plus the stack and the trace. -/
structure St where
  ready : List ReadyEntry := []
  clients : AMap ClientUuid Client := []
  workers : AMap WorkerUuid (Option (ClientUuid × GroupUuid)) := []
  stack : List Task := []
  log : List Obs := []

namespace St

/-- Append to the trace. -/
def obs (st : St) (o : Obs) : St := { st with log := o :: st.log }

/-- Send a message. -/
def emit (st : St) (o : Out) : St := st.obs (.out o)

/-- Send a list of messages, in order. -/
def emitAll (st : St) (os : List Out) : St := { st with log := (os.map Obs.out).reverse ++ st.log }

/-- Call the tasks, in order, before what is pending. -/
def push (st : St) (ts : List Task) : St := { st with stack := ts ++ st.stack }

/-- Store back a client (`get_mut`). -/
def setClient (st : St) (c : ClientUuid) (cl : Client) : St :=
  { st with clients := st.clients.insert c cl }

end St

/-! ### Handling of a message -/

/-- scheduler.rs:322-329 the dependencies of one group: `input_of` and `missing_dep` of each input. -/
def addInputs (u : GroupUuid) : List FileUuid → AMap FileUuid (List GroupUuid) → List FileUuid →
    AMap FileUuid (List GroupUuid) × List FileUuid
  | [], inputOf, missing => (inputOf, missing)
  | f :: fs, inputOf, missing =>
    addInputs u fs (inputOf.insert f (setInsert ((inputOf.get? f).getD []) u)) (setInsert missing f)

/-- scheduler.rs:321-339 the loop over the groups of the DAG. -/
def initGroups (c : ClientUuid) : List (GroupUuid × ExecutionGroup) → Client → List ReadyEntry →
    Client × List ReadyEntry
  | [], cl, ready => (cl, ready)
  | (_, g) :: gs, cl, ready =>
    let (inputOf, missing) := addInputs g.uuid g.deps cl.inputOf []
    if missing.isEmpty then
      initGroups c gs
        { cl with inputOf := inputOf, readyGroups := setInsert cl.readyGroups g.uuid }
        (g.executions.map (fun e => ⟨cl.dag.config.priority, e.priority, g.uuid, c⟩) ++ ready)
    else
      initGroups c gs
        { cl with inputOf := inputOf, missingDeps := cl.missingDeps.insert g.uuid missing } ready

/-- scheduler.rs:309-347 `handle_evaluate_dag`. -/
def handleEvaluateDag (st : St) (c : ClientUuid) (dag : DagData) (cb : WatchSet) : St :=
  let r := initGroups c dag.executionGroups { dag := dag, callbacks := cb } st.ready
  ({ st with clients := st.clients.insert c r.1, ready := r.2 } : St).push
    [.checkCompletion c, .scheduleCached, .assignJobs]

/-- scheduler.rs:349-364 `handle_file_ready`. -/
def handleFileReady (st : St) (c : ClientUuid) (f : FileUuid) (key : FileStoreKey) : St :=
  match st.clients.get? c with
  | none => st
  | some cl =>
    (st.setClient c { cl with fileHandles := cl.fileHandles.insert f key }).push
      [.fileSuccess c f, .checkCompletion c]

/-- scheduler.rs:366-414 `handle_worker_result`. -/
def handleWorkerResult (st : St) (w : WorkerUuid) (results : List ExecutionResult)
    (outputs : AMap FileUuid FileStoreKey) : Except Err St :=
  match st.workers.get? w with
  | none => .ok st
  | some job =>
    let st := { st with workers := st.workers.erase w }
    match job with
    | none => .ok st
    | some (c, u) =>
      match st.clients.get? c with
      | none => .ok (st.push [.assignJobs, .checkCompletion c])
      | some cl =>
        match cl.dag.executionGroups.get? u with
        | none => .error .noGroup
        | some g =>
          if g.executions.length ≠ results.length then .error .badResultCount
          else
            .ok ((st.setClient c { cl with runningGroups := setErase cl.runningGroups u }).push
              [.execCompleted c g results outputs false, .assignJobs, .checkCompletion c])

/-- scheduler.rs:416-429 `handle_worker_connected`. -/
def handleWorkerConnected (st : St) (w : WorkerUuid) : St :=
  ({ st with workers := st.workers.insert w none } : St).push [.assignJobs]

/-- scheduler.rs:431-451 `handle_worker_disconnected`. -/
def handleWorkerDisconnected (st : St) (w : WorkerUuid) : Except Err St :=
  match st.workers.get? w with
  | none => .ok st
  | some job =>
    let st := { st with workers := st.workers.erase w }
    match job with
    | none => .ok st
    | some (c, u) =>
      match st.clients.get? c with
      | none => .ok st
      | some cl =>
        match cl.dag.executionGroups.get? u with
        | none => .error .noGroup
        | some g =>
          .ok { st.setClient c { cl with
                  readyGroups := setInsert cl.readyGroups u
                  runningGroups := setErase cl.runningGroups u } with
                ready := ⟨HIGH_PRIORITY, g.priority, u, c⟩ :: st.ready }

/-- scheduler.rs:475-490 the workers doing a job of the client, with the job. -/
def jobsOf (c : ClientUuid) : AMap WorkerUuid (Option (ClientUuid × GroupUuid)) →
    List (WorkerUuid × GroupUuid)
  | [] => []
  | (w, some (c', u)) :: ws => if c' = c then (w, u) :: jobsOf c ws else jobsOf c ws
  | (_, none) :: ws => jobsOf c ws

/-- scheduler.rs:453-492 `handle_client_disconnected`. -/
def handleClientDisconnected (st : St) (c : ClientUuid) : St :=
  let st := match st.clients.get? c with
    | none => st
    | some cl => if cl.isDone then st else st.emit (.evaluationDone c)
  let clients := st.clients.erase c
  let st := { st with
    clients := clients
    ready := st.ready.filter (fun e => clients.contains e.client) }
  st.emitAll ((jobsOf c st.workers).map (fun p => Out.stopJob p.1 p.2))

/-- scheduler.rs:503-524 the status of the workers. -/
def workerStatus (clients : AMap ClientUuid Client) :
    AMap WorkerUuid (Option (ClientUuid × GroupUuid)) →
    Except Err (List (WorkerUuid × Option GroupUuid))
  | [] => .ok []
  | (w, job) :: ws =>
    match workerStatus clients ws with
    | .error e => .error e
    | .ok rest =>
      match job with
      | none => .ok ((w, none) :: rest)
      | some (c, u) =>
        match clients.get? c with
        | none => .ok ((w, none) :: rest)
        | some cl =>
          match cl.dag.executionGroups.get? u with
          | none => .error .noGroup
          | some _ => .ok ((w, some u) :: rest)

/-- scheduler.rs:494-536 `handle_status_request`. -/
def handleStatus (st : St) (c : ClientUuid) : Except Err St :=
  match workerStatus st.clients st.workers with
  | .error e => .error e
  | .ok ws =>
    .ok (st.emit (.status c ws
      ((st.clients.map (fun p => p.2.readyGroups.length)).sum)
      ((st.clients.map (fun p => p.2.missingDeps.length)).sum)))

/-- scheduler.rs:253-301 the body of the main loop. -/
def handle (st : St) (e : Event) : Except Err St :=
  let st := st.obs (.ev e)
  match e with
  | .evaluateDag c dag cb => .ok (handleEvaluateDag st c dag cb)
  | .clientDisconnected c => .ok (handleClientDisconnected st c)
  | .fileReady c f key => .ok (handleFileReady st c f key)
  | .workerResult w results outputs => handleWorkerResult st w results outputs
  | .workerConnected w => .ok (handleWorkerConnected st w)
  | .workerDisconnected w => handleWorkerDisconnected st w
  | .status c => handleStatus st c

/-! ### The recursive functions -/

/-- scheduler.rs:643-672 `send_file`. -/
def sendFile (st : St) (c : ClientUuid) (f : FileUuid) (status : Bool) : St :=
  match st.clients.get? c with
  | none => st
  | some cl =>
    if f ∈ cl.callbacks.files then
      match cl.fileHandles.get? f with
      | none => st
      | some key => st.emit (.fileReady c f key status (decide (f ∈ cl.callbacks.urgentFiles)))
    else st

/-- What is left open by hash-map iteration orders and by the cache. -/
structure Choice where
  /-- iteration order of `input_of[file]` -/
  groups : List GroupUuid := []
  /-- iteration order of the queue in `schedule_cached`, with what the cache would answer -/
  entries : List (ReadyEntry × Option Hit) := []
  /-- iteration order of `connected_workers` -/
  workers : List WorkerUuid := []

/-- scheduler.rs:604-641 `file_success`, up to the loop. -/
def runFileSuccess (st : St) (c : ClientUuid) (f : FileUuid) (order : List GroupUuid) : St :=
  let st := sendFile st c f true
  match st.clients.get? c with
  | none => st
  | some cl =>
    if cl.inputOf.contains f then st.push [.successLoop c f order] else st

/-- scheduler.rs:622-640 one iteration of the loop of `file_success`, and what follows the loop. -/
def runSuccessLoop (st : St) (c : ClientUuid) (f : FileUuid) : List GroupUuid → Except Err St
  | [] => .ok (st.push [.scheduleCached, .assignJobs])
  | u :: us =>
    match st.clients.get? c with
    | none => .ok st
    | some cl =>
      match cl.dag.executionGroups.get? u with
      | none => .error .noGroup
      | some g =>
        match cl.missingDeps.get? u with
        | none => .ok (st.push [.successLoop c f us])
        | some fs =>
          if (setErase fs f).isEmpty then
            .ok (({ st.setClient c { cl with
                    missingDeps := cl.missingDeps.erase u
                    readyGroups := setInsert cl.readyGroups u } with
                  ready := ⟨HIGH_PRIORITY, g.priority, u, c⟩ :: st.ready } : St).push
                [.successLoop c f us])
          else
            .ok ((st.setClient c { cl with
                missingDeps := cl.missingDeps.insert u (setErase fs f) }).push
              [.successLoop c f us])

/-- scheduler.rs:555-572 `file_failed`, up to the loop. -/
def runFileFailed (st : St) (c : ClientUuid) (f : FileUuid) (order : List GroupUuid) : St :=
  let st := sendFile st c f false
  match st.clients.get? c with
  | none => st
  | some cl =>
    if cl.inputOf.contains f then st.push [.skipLoop c f order []] else st

/-- scheduler.rs:573-601 one iteration of the loop of `file_failed`, and what follows the loop. -/
def runSkipLoop (st : St) (c : ClientUuid) (f : FileUuid) (failed : List FileUuid) :
    List GroupUuid → Except Err St
  | [] => .ok (st.push (failed.map (fun f => Task.fileFailed c f)))
  | u :: us =>
    match st.clients.get? c with
    | none => .ok st
    | some cl =>
      if cl.missingDeps.contains u then
        match cl.dag.executionGroups.get? u with
        | none => .error .noGroup
        | some g =>
          .ok ((((st.setClient c { cl with missingDeps := cl.missingDeps.erase u }).obs
              (.skipped c g)).emitAll
              (((g.executions.map (·.uuid)).filter
                (fun x => decide (x ∈ cl.callbacks.executions))).map (Out.skipped c))).push
            [.skipLoop c f us (failed ++ g.outs)])
      else .ok (st.push [.skipLoop c f us failed])

/-- scheduler.rs:538-553 `check_completion`. -/
def runCheckCompletion (st : St) (c : ClientUuid) : St :=
  match st.clients.get? c with
  | none => st
  | some cl => if cl.isDone then st.emit (.evaluationDone c) else st

/-- scheduler.rs:691-701 the notifications of the results (`zip`). -/
def doneMessages (c : ClientUuid) (watched : List ExecutionUuid) (es : List Execution)
    (rs : List ExecutionResult) : List Out :=
  ((es.zip rs).filter (fun p => decide (p.1.uuid ∈ watched))).map (fun p => Out.done c p.1.uuid p.2)

/-- scheduler.rs:702-704 the handles of the outputs are recorded. -/
def insertAll (m : AMap FileUuid FileStoreKey) : AMap FileUuid FileStoreKey →
    AMap FileUuid FileStoreKey
  | [] => m
  | (f, k) :: rest => insertAll (m.insert f k) rest

/-- scheduler.rs:732-756 `cache_execution`: the lookups that can panic, then the insertion. -/
def cacheExecution (st : St) (c : ClientUuid) (handles : AMap FileUuid FileStoreKey)
    (g : ExecutionGroup) (outputs : AMap FileUuid FileStoreKey) : Except Err St :=
  if g.deps.all (fun f => handles.contains f) then
    if g.outs.all (fun f => outputs.contains f) then .ok (st.obs (.cacheInsert c g.uuid))
    else .error .noOutput
  else .error .noHandle

/-- scheduler.rs:674-730 `exec_completed`. -/
def runExecCompleted (st : St) (c : ClientUuid) (g : ExecutionGroup)
    (results : List ExecutionResult) (outputs : AMap FileUuid FileStoreKey) (fromCache : Bool) :
    Except Err St :=
  match st.clients.get? c with
  | none => .ok st
  | some cl =>
    let st := (st.obs (.completed c g results outputs fromCache)).emitAll
      (doneMessages c cl.callbacks.executions g.executions results)
    let handles := insertAll cl.fileHandles outputs
    let st := st.setClient c { cl with fileHandles := handles }
    let successful := results.all (fun r => r.status.isSuccess)
    let internalError := results.any (fun r => r.status.isInternalError)
    let cached := if !fromCache && !internalError then cacheExecution st c handles g outputs
      else .ok st
    match cached with
    | .error e => .error e
    | .ok st =>
      if successful then
        .ok (st.push (g.outs.map (Task.fileSuccess c) ++ [.scheduleCached]))
      else
        .ok (st.push (g.outs.map (Task.fileFailed c) ++ [.scheduleCached]))

/-- scheduler.rs:806-814 `is_cacheable` (the panic of `tag()` on an empty group is in
`runCachedLoop`). -/
def isCacheable (g : ExecutionGroup) (mode : CacheMode) : Bool :=
  match mode, g.tag? with
  | .except tags, some (some tag) => decide (tag ∉ tags)
  | _, _ => true

/-- scheduler.rs:758-804 one iteration of the loop of `schedule_cached`, and what follows it.
`Cache::get` computes the key first, which indexes the handles of the inputs (cache/key.rs:42-52). -/
def runCachedLoop (st : St) (hits : List (ClientUuid × ExecutionGroup × Hit)) :
    List (ReadyEntry × Option Hit) → Except Err St
  | [] => .ok (st.push (hits.map
      (fun h => Task.execCompleted h.1 h.2.1 h.2.2.results h.2.2.outputs true)))
  | (e, ans) :: rest =>
    match st.clients.get? e.client with
    | none => .ok (({ st with ready := st.ready.erase e } : St).push [.cachedLoop rest hits])
    | some cl =>
      if cl.dag.config.cacheMode = .nothing then .ok (st.push [.cachedLoop rest hits])
      else
        match cl.dag.executionGroups.get? e.group with
        | none => .error .noGroup
        | some g =>
          if g.executions.isEmpty then .error .emptyGroup
          else if isCacheable g cl.dag.config.cacheMode then
            if !(g.deps.all (fun f => cl.fileHandles.contains f)) then .error .noHandle
            else
            let st := st.obs (.cacheLookup e.client e.group)
            match ans with
            | none => .ok (st.push [.cachedLoop rest hits])
            | some hit =>
              .ok (({ st.setClient e.client { cl with
                      readyGroups := setErase cl.readyGroups g.uuid } with
                    ready := st.ready.erase e } : St).push
                  [.cachedLoop rest (hits ++ [(e.client, g, hit)])])
          else .ok (st.push [.cachedLoop rest hits])

/-- scheduler.rs:836-848 the keys of the inputs of the job; the panic is `unwrap_or_else`. -/
def depKeys (handles : AMap FileUuid FileStoreKey) :
    List FileUuid → AMap FileUuid FileStoreKey → Except Err (AMap FileUuid FileStoreKey)
  | [], acc => .ok acc
  | f :: fs, acc =>
    match handles.get? f with
    | none => .error .noHandle
    | some k => depKeys handles fs (acc.insert f k)

/-- scheduler.rs:816-873 one iteration of the loop of `assign_jobs`, and its end. -/
def runAssignLoop (st : St) : List WorkerUuid → Except Err St
  | [] => .ok (st.obs .assigned)
  | w :: ws =>
    match st.workers.get? w with
    | none => .ok (st.push [.assignLoop ws])
    | some (some _) => .ok (st.push [.assignLoop ws])
    | some none =>
      match popMax st.ready with
      | none => .ok (st.obs .assigned)
      | some (e, ready) =>
        let st := { st with ready := ready, workers := st.workers.insert w (some (e.client, e.group)) }
        match st.clients.get? e.client with
        | none => .ok (st.push [.assignLoop ws])
        | some cl =>
          match cl.dag.executionGroups.get? e.group with
          | none => .error .noGroup
          | some g =>
            match depKeys cl.fileHandles g.deps [] with
            | .error err => .error err
            | .ok keys =>
              .ok ((((st.setClient e.client { cl with
                    readyGroups := setErase cl.readyGroups e.group
                    runningGroups := setInsert cl.runningGroups e.group }).emit
                  (.workerJob w e.client g keys)).emitAll
                  (((g.executions.map (·.uuid)).filter
                    (fun x => decide (x ∈ cl.callbacks.executions))).map
                      (fun x => Out.started e.client x w))).push [.assignLoop ws])

/-- One step of the topmost task (already popped from the stack of `st`). -/
def runTask (st : St) (t : Task) (ch : Choice) : Except Err St :=
  match t with
  | .fileSuccess c f => .ok (runFileSuccess st c f ch.groups)
  | .successLoop c f todo => runSuccessLoop st c f todo
  | .fileFailed c f => .ok (runFileFailed st c f ch.groups)
  | .skipLoop c f todo failed => runSkipLoop st c f failed todo
  | .scheduleCached => .ok (st.push [.cachedLoop ch.entries []])
  | .cachedLoop todo hits => runCachedLoop st hits todo
  | .assignJobs => .ok (st.push [.assignLoop ch.workers])
  | .assignLoop todo => runAssignLoop st todo
  | .checkCompletion c => .ok (runCheckCompletion st c)
  | .execCompleted c g results outputs fromCache => runExecCompleted st c g results outputs fromCache

/-! ### Environment and steps -/

/-- The results and outputs of a group, as a worker or the cache give them: one result per
execution, a handle for each declared output and for nothing else. -/
structure ResultOk (g : ExecutionGroup) (results : List ExecutionResult)
    (outputs : AMap FileUuid FileStoreKey) : Prop where
  len : results.length = g.executions.length
  wf : AMap.Wf outputs
  outs : ∀ f, f ∈ outputs.keys ↔ f ∈ g.outs

/-- What the scheduler may rely on about a message:
* each client uuid evaluates one DAG (executor.rs:324-330 draws a fresh uuid per connection), after
  it passed `check_dag` (executor.rs:356-368);
* a client provides files, which its DAG declares as provided, after sending the DAG
  (executor.rs:373-411);
* the answer of a worker to a job has the right shape (worker_manager.rs:168-215, worker.rs);
* a worker asks for work when it has none (worker.rs: `GetWork` is sent at start and after a job). -/
def EventOk (st : St) : Event → Prop
  | .evaluateDag c dag cb =>
      dag.Wf ∧ CheckDag.checkDag dag cb = .ok () ∧
      ∀ dag' cb', Obs.ev (.evaluateDag c dag' cb') ∉ st.log
  | .fileReady c f _ => ∃ dag cb, Obs.ev (.evaluateDag c dag cb) ∈ st.log ∧
      f ∈ dag.providedFiles.keys
  | .workerResult w results outputs =>
      ∀ c u cl g, st.workers.get? w = some (some (c, u)) → st.clients.get? c = some cl →
        cl.dag.executionGroups.get? u = some g → ResultOk g results outputs
  | .workerConnected w => st.workers.get? w = none
  | _ => True

/-- The choices are iteration orders of the right collections, and a cache hit has the shape of a
result of its group. -/
def ChoiceOk (st : St) : Task → Choice → Prop
  | .fileSuccess c f, ch => ∀ cl us, st.clients.get? c = some cl → cl.inputOf.get? f = some us →
      ch.groups.Perm us
  | .fileFailed c f, ch => ∀ cl us, st.clients.get? c = some cl → cl.inputOf.get? f = some us →
      ch.groups.Perm us
  | .scheduleCached, ch => (ch.entries.map (·.1)).Perm st.ready ∧
      ∀ e hit, (e, some hit) ∈ ch.entries → ∀ cl g, st.clients.get? e.client = some cl →
        cl.dag.executionGroups.get? e.group = some g → ResultOk g hit.results hit.outputs
  | .assignJobs, ch => ch.workers.Perm st.workers.keys
  | _, _ => True

/-- One step of the scheduler in its environment. -/
inductive Step : St → St → Prop
  | event {st st' : St} (e : Event) : st.stack = [] → EventOk st e → handle st e = .ok st' →
      Step st st'
  | task {st st' : St} (t : Task) (rest : List Task) (ch : Choice) : st.stack = t :: rest →
      ChoiceOk st t ch → runTask { st with stack := rest } t ch = .ok st' → Step st st'

/-- The states the scheduler can reach. -/
inductive Reachable : St → Prop
  | init : Reachable {}
  | step {st st' : St} : Reachable st → Step st st' → Reachable st'

end TM.Sched
