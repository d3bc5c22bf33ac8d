import Verif.Proto.Model
/-!
# The messages of the protocol

`task-maker-exec/src/proto.rs:47-131`.  Uuids and store keys are numbers; the parts of the messages
which the protocol does not look at (the DAG, the results, the status) are parameters.
-/
namespace TM.Proto

/-- `ExecutorClientMessage`, `task-maker-exec/src/proto.rs:47-69`.  `D` stands for the DAG and the
watch set. -/
inductive ClientMsg (D : Type) where
  | evaluate (dag : D)
  | provideFile (uuid key : Nat)
  | askFile (uuid key : Nat) (success : Bool)
  | stop
  | status
  deriving DecidableEq, Repr

/-- `ExecutorServerMessage`, `task-maker-exec/src/proto.rs:72-95`.  `R` stands for the result of an
execution and `S` for the status. -/
inductive ServerMsg (R S : Type) where
  | askFile (uuid : Nat)
  | provideFile (uuid : Nat) (success : Bool)
  | notifyStart (exec worker : Nat)
  | notifyDone (exec : Nat) (result : R)
  | notifySkip (exec : Nat)
  | error (message : String)
  | status (status : S)
  | done (files : List (Nat × Nat × Bool))
  deriving DecidableEq, Repr

/-- `WorkerClientMessage`, `task-maker-exec/src/proto.rs:98-114`. -/
inductive WorkerMsg (R : Type) where
  | getWork
  | workerDone (results : List R) (outputs : List (Nat × Nat))
  | provideFile (uuid key : Nat)
  | askFile (key : Nat)
  deriving DecidableEq, Repr

/-- `WorkerServerMessage`, `task-maker-exec/src/proto.rs:117-131`.  `J` stands for the job. -/
inductive ToWorkerMsg (J : Type) where
  | work (job : J)
  | killJob (group : Nat)
  | provideFile (key : Nat)
  | askFiles (files : List Nat)
  | exit
  deriving DecidableEq, Repr

/-- The messages after which the receiver switches to receiving a file:
`task-maker-exec/src/executor.rs:393-401`. -/
def ClientMsg.announces {D : Type} : ClientMsg D → Bool
  | .provideFile _ _ => true
  | _ => false

/-- `task-maker-exec/src/client.rs:113-119`. -/
def ServerMsg.announces {R S : Type} : ServerMsg R S → Bool
  | .provideFile _ _ => true
  | _ => false

/-- `task-maker-exec/src/worker_manager.rs:203-207`. -/
def WorkerMsg.announces {R : Type} : WorkerMsg R → Bool
  | .provideFile _ _ => true
  | _ => false

/-- `task-maker-exec/src/worker.rs:225-231`. -/
def ToWorkerMsg.announces {J : Type} : ToWorkerMsg J → Bool
  | .provideFile _ => true
  | _ => false

end TM.Proto
