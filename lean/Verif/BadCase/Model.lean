import Verif.Base.AMap
import Verif.Build.Callbacks
/-!
# The tool that looks for a bad case (`src/tools/find_bad_case/`)

The main thread evaluates one batch of random testcases after the other; another thread handles the messages of the
evaluations, that are queued.  The two share a state behind a lock (`SharedUIState`).

Testcase identifiers do not wrap around (the code casts them to 32 bits).  Not modelled: the sums of the times, the status
of the executor, the drawing of the UI, the errors of the construction of a batch (the tool ends with the error).
-/
namespace TM.BadCase
open TM TM.Build

/-- `TestcaseData`, find_bad_case/dag.rs:12-24; the paths are made of the working directory and the seed. -/
structure Case where
  args : List String
  seed : Nat
deriving DecidableEq, Repr

/-- `Batch`, find_bad_case/dag.rs:26-30. -/
abbrev Batch := AMap Nat Case

/-- `generator_args_for_testcase`, find_bad_case/dag.rs:110-118. -/
def argsFor (args : List String) (seed : Nat) : List String :=
  args.map (fun a => if a = "{}" then toString seed else a)

/-- The loop of `patch_task_for_batch`, find_bad_case/dag.rs:57-90: the data of the testcases of the batch; `seed` gives the
random seeds. -/
def makeBatch (args : List String) (size index : Nat) (seed : Nat → Nat) : Batch :=
  (List.range size).map (fun j => (index * size + j, ⟨argsFor args (seed (index * size + j)), seed (index * size + j)⟩))

/-- `TestcaseStatus`, find_bad_case/state.rs:73-98. -/
inductive TcStatus where
  | pending
  | generating
  | generated
  | validating
  | validated
  | solving
  | solved
  | checking
  | success
  | failed (message : String)
  | error
deriving DecidableEq, Repr

/-- `UIExecutionStatus`. -/
inductive Phase where
  | pending
  | started
  | done (o : Outcome)
  | skipped
deriving DecidableEq, Repr

/-- The messages the tool looks at, find_bad_case/state.rs:132-232. -/
inductive Msg where
  /-- `UIMessage::IOITask` -/
  | task
  | generation (tc : Nat) (p : Phase)
  | validation (tc : Nat) (p : Phase)
  | evaluation (tc : Nat) (p : Phase)
  | checker (tc : Nat) (p : Phase)
  /-- `UIMessage::IOITestcaseScore` -/
  | score (tc : Nat) (score : Score.Score) (message : String)
  /-- any other message -/
  | other
deriving DecidableEq, Repr

/-- `UIState`, find_bad_case/state.rs:18-38. -/
structure Ui where
  /-- `batches`: the status of the testcases of each batch -/
  batches : List (List TcStatus) := []
  inputsGenerated : Nat := 0
  inputsSolved : Nat := 0
deriving DecidableEq, Repr

/-- `SharedUIState`, find_bad_case/state.rs:100-113. -/
structure Shared where
  lastBatch : Option Batch := none
  shouldStop : Bool := false
  failing : Option (Case × String) := none
  errored : Option (Case × String × Outcome) := none
deriving DecidableEq, Repr

/-- `set`, find_bad_case/state.rs:133-137: nothing if it panics (no batch, or batches of size 0). -/
def Ui.set (size : Nat) (u : Ui) (tc : Nat) (s : TcStatus) : Option Ui :=
  if size = 0 then none
  else match u.batches.getLast? with
    | none => none
    | some last => some { u with batches := u.batches.dropLast ++ [last.set (tc % size) s] }

/-- `shared.last_batch.as_ref().unwrap().testcases.get(&testcase).unwrap()`, find_bad_case/state.rs:155-161. -/
def Shared.setError (sh : Shared) (tc : Nat) (what : String) (o : Outcome) : Option Shared :=
  match sh.lastBatch.bind (·.get? tc) with
  | none => none
  | some c => some { sh with errored := some (c, what, o) }

/-- The arms for the generator and the validator, find_bad_case/state.rs:143-190. -/
def produce (size : Nat) (u : Ui) (sh : Shared) (tc : Nat) (running over : TcStatus) (what : String) :
    Phase → Option (Ui × Shared)
  | .started => (u.set size tc running).map (·, sh)
  | .done o =>
    if o.success then (u.set size tc over).map (·, sh)
    else match u.set size tc .error, sh.setError tc what o with
      | some u, some sh => some (u, sh)
      | _, _ => none
  | _ => some (u, sh)

/-- `UIState::apply`, find_bad_case/state.rs:132-232; nothing if it panics.  `stop_evaluation` is not modelled: it makes the
evaluation end early, and evaluations may end at any point. -/
def apply (size : Nat) (u : Ui) (sh : Shared) : Msg → Option (Ui × Shared)
  | .task => some ({ u with batches := u.batches ++ [List.replicate size .pending] }, sh)
  | .generation tc p =>
    let u := match p with
      | .done _ => { u with inputsGenerated := u.inputsGenerated + 1 }
      | _ => u
    produce size u sh tc .generating .generated "Generator failed" p
  | .validation tc p => produce size u sh tc .validating .validated "Validator failed" p
  | .evaluation tc p => match p with
    | .started => (u.set size tc .solving).map (·, sh)
    | .done o =>
      (if o.success then u.set size tc .solved else some u).map
        (fun u => ({ u with inputsSolved := u.inputsSolved + 1 }, sh))
    | _ => some (u, sh)
  | .checker tc p => match p with
    | .started => (u.set size tc .checking).map (·, sh)
    | _ => some (u, sh)
  | .score tc s message =>
    if s = .num 1 then (u.set size tc .success).map (·, sh)
    else match u.set size tc (.failed message), sh.lastBatch with
      | some u, some b => some (u, { sh with
          failing := (b.get? tc).map (·, message)
          shouldStop := true })
      | _, _ => none
  | .other => some (u, sh)

/-- Where the main thread is in the loop of `main_find_bad_case`, find_bad_case/mod.rs:119-205. -/
inductive Main where
  /-- before the batch -/
  | between (next : Nat)
  /-- the batch is in the shared state, its DAG is not built yet -/
  | building (k : Nat)
  /-- the batch is evaluated -/
  | running (k : Nat)
  /-- out of the loop -/
  | ended (k : Nat)
deriving DecidableEq, Repr

/-- The two threads.  The messages are tagged with the batch they come from, and those sent and handled so far are
remembered: the code has neither the tags nor the histories. -/
structure Sys where
  main : Main := .between 0
  ui : Ui := {}
  shared : Shared := {}
  queue : List (Nat × Msg) := []
  sent : List (Nat × Msg) := []
  handled : List (Nat × Msg) := []
  /-- the thread of the UI panicked -/
  panicked : Bool := false

/-- The testcase of a message. -/
def Msg.testcase : Msg → Option Nat
  | .generation tc _ => some tc
  | .validation tc _ => some tc
  | .evaluation tc _ => some tc
  | .checker tc _ => some tc
  | .score tc _ _ => some tc
  | _ => none

/-- A step of one of the threads; `batches` are the batches made.  With `prompt` the main thread waits for the UI to handle
everything before it goes on with the next batch (the code does not do it). -/
inductive Step (prompt : Bool) (size : Nat) (batches : Nat → Batch) : Sys → Sys → Prop where
  /-- find_bad_case/mod.rs:120-133 -/
  | next (s : Sys) (k : Nat) : s.main = .between k → (prompt = true → s.queue = []) →
      Step prompt size batches s { s with
        main := .building k
        shared := { s.shared with lastBatch := some (batches k) } }
  /-- find_bad_case/mod.rs:136-140: the first message sent by `build_dag` is the task -/
  | build (s : Sys) (k : Nat) : s.main = .building k →
      Step prompt size batches s { s with
        main := .running k
        queue := s.queue ++ [(k, .task)]
        sent := s.sent ++ [(k, .task)] }
  /-- find_bad_case/mod.rs:144-160: a message of the evaluation of the batch, about one of its testcases -/
  | send (s : Sys) (k : Nat) (m : Msg) : s.main = .running k → m ≠ .task →
      (∀ tc, m.testcase = some tc → tc ∈ (batches k).keys) →
      Step prompt size batches s { s with
        queue := s.queue ++ [(k, m)]
        sent := s.sent ++ [(k, m)] }
  /-- find_bad_case/mod.rs:202-204: the evaluation is over -/
  | check (s : Sys) (k : Nat) : s.main = .running k →
      Step prompt size batches s { s with main := if s.shared.shouldStop then .ended k else .between (k + 1) }
  /-- find_bad_case/mod.rs:97-99 -/
  | handle (s : Sys) (p : Nat × Msg) (q : List (Nat × Msg)) (u : Ui) (sh : Shared) : s.panicked = false →
      s.queue = p :: q → apply size s.ui s.shared p.2 = some (u, sh) →
      Step prompt size batches s { s with
        ui := u
        shared := sh
        queue := q
        handled := s.handled ++ [p] }
  | panic (s : Sys) (p : Nat × Msg) (q : List (Nat × Msg)) : s.panicked = false →
      s.queue = p :: q → apply size s.ui s.shared p.2 = none →
      Step prompt size batches s { s with panicked := true }
  /-- find_bad_case/mod.rs:105-117: ctrl-c -/
  | interrupt (s : Sys) : Step prompt size batches s { s with shared := { s.shared with shouldStop := true } }

/-- The executions of the tool. -/
inductive Run (prompt : Bool) (size : Nat) (batches : Nat → Batch) : Sys → Prop where
  | init : Run prompt size batches {}
  | step {s t : Sys} : Run prompt size batches s → Step prompt size batches s t → Run prompt size batches t

/-- The main thread is out of the loop and the UI has handled everything: find_bad_case/mod.rs:206-211. -/
def Sys.over (s : Sys) : Prop := (∃ k, s.main = .ended k) ∧ s.queue = [] ∧ s.panicked = false

end TM.BadCase
