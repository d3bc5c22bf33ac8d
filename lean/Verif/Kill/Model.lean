/-!
# Stopping a sandbox (`Sandbox::kill` of task-maker-exec/src/sandbox.rs and `tools_sandbox_internal` of src/sandbox.rs)

Two threads and the processes of the machine: the thread that runs the sandbox starts a process, writes its number in
`box_pid` and waits for it; the thread of the worker that stops the sandbox reads `box_pid` up to five times and sends a
signal to the process with that number.  An action is a step of one of the two or of the other processes of the machine, and
an execution is a list of actions.  A process keeps its number until it has been waited for, then the number is free, and may
be given to a new process.  The time between two reads is not in the model: what happens in it is.
-/
namespace TM.Kill

/-- The number of a process. -/
abbrev Pid := Nat

/-- A process of the machine. -/
inductive Proc where
  /-- the one of this sandbox -/
  | sandbox
  | other (n : Nat)
deriving DecidableEq, Repr

/-- `tools_sandbox_internal`, src/sandbox.rs:67-96: where the thread is. -/
inductive Runner where
  /-- `Command::spawn` -/
  | starting
  /-- `pid.store` -/
  | storing (p : Pid)
  /-- `wait_with_output` (and the configuration that is written before) -/
  | waiting (p : Pid)
  /-- it has returned; whether the process has been waited for -/
  | ended (waited : Bool)
deriving DecidableEq, Repr

/-- `Sandbox::kill`, task-maker-exec/src/sandbox.rs:202-231: where the thread is. -/
inductive Killer where
  | idle
  /-- the reads that are left -/
  | reading (left : Nat)
  /-- `signal::kill` -/
  | sending (p : Pid)
deriving DecidableEq, Repr

/-- How a call of `kill` ended. -/
inductive Outcome where
  /-- a signal to a number; the process that gets it, if there is one -/
  | signal (p : Pid) (to : Option Proc)
  /-- "the pid is unknown" -/
  | unknown
deriving DecidableEq, Repr

structure State where
  /-- `box_pid` -/
  cell : Pid
  runner : Runner
  killer : Killer
  /-- the process with a number -/
  owner : Pid → Option Proc
  /-- the calls of `kill` that have ended, the last first -/
  log : List Outcome

/-- A new sandbox on a machine with some processes; task-maker-exec/src/sandbox.rs:119-127. -/
def State.init (others : Pid → Option Nat) : State :=
  ⟨0, .starting, .idle, fun p => (others p).map .other, []⟩

inductive Action where
  /-- the process of the sandbox is started, with a number that is free -/
  | spawn (p : Pid)
  | spawnFails
  | store
  /-- the process has ended and has been waited for -/
  | reap
  /-- the configuration cannot be written: the thread returns without waiting -/
  | writeFails
  /-- `kill` is called -/
  | call
  | read
  | send
  /-- another process starts -/
  | fork (p : Pid) (n : Nat)
  /-- another process has ended and has been waited for -/
  | exit (p : Pid)
deriving DecidableEq, Repr

def set (owner : Pid → Option Proc) (p : Pid) (o : Option Proc) : Pid → Option Proc := fun q => if q = p then o else owner q

/-- A step; `none` when it cannot be made.  The runner: src/sandbox.rs:67-96; `read` and `send`:
task-maker-exec/src/sandbox.rs:211-230; the numbers: the operating system. -/
def step (s : State) : Action → Option State
  | .spawn p =>
    if s.runner = .starting ∧ p ≠ 0 ∧ s.owner p = none then
      some { s with runner := .storing p, owner := set s.owner p (some .sandbox) }
    else none
  | .spawnFails => if s.runner = .starting then some { s with runner := .ended false } else none
  | .store => match s.runner with
    | .storing p => some { s with runner := .waiting p, cell := p }
    | _ => none
  | .reap => match s.runner with
    | .waiting p => some { s with runner := .ended true, owner := set s.owner p none }
    | _ => none
  | .writeFails => match s.runner with
    | .waiting _ => some { s with runner := .ended false }
    | _ => none
  | .call => if s.killer = .idle then some { s with killer := .reading 5 } else none
  | .read => match s.killer with
    | .reading (n + 1) => some { s with killer := if s.cell ≠ 0 then .sending s.cell else .reading n }
    | .reading 0 => some { s with killer := .idle, log := .unknown :: s.log }
    | _ => none
  | .send => match s.killer with
    | .sending p => some { s with killer := .idle, log := .signal p (s.owner p) :: s.log }
    | _ => none
  | .fork p n => if p ≠ 0 ∧ s.owner p = none then some { s with owner := set s.owner p (some (.other n)) } else none
  | .exit p => match s.owner p with
    | some (.other _) => some { s with owner := set s.owner p none }
    | _ => none

/-- The steps of a list of actions, one after the other. -/
def run (s : State) : List Action → Option State
  | [] => some s
  | a :: l => match step s a with
    | none => none
    | some s' => run s' l

end TM.Kill
