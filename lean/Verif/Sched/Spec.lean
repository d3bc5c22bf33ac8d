import Verif.Sched.Model
/-!
# Specification vocabulary for the scheduler: facts readable from the trace alone
-/

namespace TM.Sched

/-- The client sent file `f` (or the server already had it). -/
def Provided (log : List Obs) (c : ClientUuid) (f : FileUuid) : Prop :=
  ∃ k, Obs.ev (.fileReady c f k) ∈ log

/-- Group `g` of client `c` was executed and all its executions succeeded. -/
def Succeeded (log : List Obs) (c : ClientUuid) (g : ExecutionGroup) : Prop :=
  ∃ rs os ca, Obs.completed c g rs os ca ∈ log ∧ ∀ r ∈ rs, r.status = .success

/-- Group `g` of client `c` was executed and some of its executions did not succeed. -/
def Failed (log : List Obs) (c : ClientUuid) (g : ExecutionGroup) : Prop :=
  ∃ rs os ca, Obs.completed c g rs os ca ∈ log ∧ ∃ r ∈ rs, r.status ≠ .success

/-- Group `g` of client `c` was skipped. -/
def Skipped (log : List Obs) (c : ClientUuid) (g : ExecutionGroup) : Prop :=
  Obs.skipped c g ∈ log

/-- File `f` of client `c` exists: it was provided, or its producer succeeded. -/
def Available (log : List Obs) (c : ClientUuid) (f : FileUuid) : Prop :=
  Provided log c f ∨ ∃ g, Succeeded log c g ∧ f ∈ g.outs

/-- File `f` of client `c` will never exist: its producer failed or was skipped. -/
def FailedFile (log : List Obs) (c : ClientUuid) (f : FileUuid) : Prop :=
  ∃ g, (Failed log c g ∨ Skipped log c g) ∧ f ∈ g.outs

/-- The trace contains the request of the client. -/
def Seen (log : List Obs) (c : ClientUuid) : Prop :=
  ∃ dag cb, Obs.ev (.evaluateDag c dag cb) ∈ log

/-- Whether a trace entry ends group `u` of client `c`. -/
def isTerm (c : ClientUuid) (u : GroupUuid) : Obs → Bool
  | .completed c' g _ _ _ => decide (c' = c ∧ g.uuid = u)
  | .skipped c' g => decide (c' = c ∧ g.uuid = u)
  | _ => false

/-- How many times group `u` of client `c` was completed or skipped. -/
def termCount (log : List Obs) (c : ClientUuid) (u : GroupUuid) : Nat := log.countP (isTerm c u)

/-- How many times a group is scheduled: once, except that a group without inputs is scheduled once
per execution (scheduler.rs:334-337). -/
def mult (g : ExecutionGroup) : Nat := if g.deps = [] then g.executions.length else 1

/-- Whether client `c` is connected: it asked for an evaluation and did not leave since. -/
def Connected (c : ClientUuid) : List Obs → Bool
  | [] => false
  | .ev (.evaluateDag c' _ _) :: log => decide (c' = c) || Connected c log
  | .ev (.clientDisconnected c') :: log => decide (c' ≠ c) && Connected c log
  | _ :: log => Connected c log

/-- What worker `w` is doing according to the messages exchanged with it: `none` if it is not
waiting for or doing a job, `some none` if it waits for a job, `some (some (c, u))` if it was given
group `u` of client `c` and has not answered. -/
def workerAt (w : WorkerUuid) : List Obs → Option (Option (ClientUuid × GroupUuid))
  | [] => none
  | .ev (.workerConnected w') :: log => if w' = w then some none else workerAt w log
  | .ev (.workerDisconnected w') :: log => if w' = w then none else workerAt w log
  | .ev (.workerResult w' _ _) :: log => if w' = w then none else workerAt w log
  | .out (.workerJob w' c g _) :: log => if w' = w then some (some (c, g.uuid)) else workerAt w log
  | _ :: log => workerAt w log

/-- The content recorded for file `f` of client `c`: the one most recently provided or produced. -/
def keyOf (c : ClientUuid) (f : FileUuid) : List Obs → Option FileStoreKey
  | [] => none
  | .ev (.fileReady c' f' k) :: log => if c' = c ∧ f' = f then some k else keyOf c f log
  | .completed c' _ _ os _ :: log =>
      if c' = c then (match os.get? f with | some k => some k | none => keyOf c f log)
      else keyOf c f log
  | _ :: log => keyOf c f log

/-- The client's request. -/
def Asked (log : List Obs) (c : ClientUuid) (dag : DagData) (cb : WatchSet) : Prop :=
  Obs.ev (.evaluateDag c dag cb) ∈ log

/-- Group `g` belongs to the DAG client `c` asked to evaluate. -/
def GroupOf (log : List Obs) (c : ClientUuid) (g : ExecutionGroup) : Prop :=
  ∃ dag cb, Asked log c dag cb ∧ dag.executionGroups.get? g.uuid = some g

/-- The cache mode lets the result of the group be taken from the cache: caching is on and, with a
list of excluded tags, the tag of the group (the one of its first execution) is not listed. -/
def CacheAllowed (mode : CacheMode) (g : ExecutionGroup) : Prop :=
  match mode with
  | .everything => True
  | .nothing => False
  | .except tags => ∀ e t, g.executions.head? = some e → e.tag = some t → t ∉ tags

end TM.Sched
