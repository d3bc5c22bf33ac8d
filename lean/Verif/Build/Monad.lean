import Verif.Dag.Model
/-!
# Building the DAG: the state and the elementary steps

`EvaluationData` (`task-maker-format/src/lib.rs:104-132`) owns the DAG being built.  The functions
that add executions to it take it as `&mut` and return a `Result`: here they are functions from the
state to an error or a result and a new state.  `Uuid::new_v4()` takes the next natural number: that
two random uuids differ is an assumption of the model.
-/
namespace TM.Build
open TM

/-- What the messages bound to an execution by `bind_exec_callbacks!` are about
(`UIMessage::Compilation`, `IOIGeneration`, `IOIValidation`, `IOISolution`, `IOIEvaluation`,
`IOIChecker`, `IOIBooklet`, `IOIBookletDependency`).  A solution is its position in the list of the solutions of the evaluation. -/
inductive Topic where
  | compilation (path : String)
  | generation (subtask testcase : Nat)
  | validation (subtask testcase : Nat)
  | officialOutput (subtask testcase : Nat)
  | evaluation (subtask testcase solution part parts : Nat)
  | checker (subtask testcase solution : Nat)
  | booklet (name : String)
  | bookletDependency (booklet name : String) (step : Nat)
deriving DecidableEq, Repr

/-- The closures of the sanity check `AttSampleFilesValid` (ioi/sanity_checks/att.rs), with the file they are about. -/
inductive SampleEvent where
  /-- att.rs:229-243, on the validation of a sample input -/
  | invalid (input : String)
  /-- att.rs:278-292, on the official solution run on a sample input -/
  | failed (input : String)
  /-- checker.rs:65-78 with the callback of att.rs:306-316 -/
  | diff (output : String)
  /-- checker.rs:98-143 with the callback of att.rs:306-316 -/
  | checker (output : String)
deriving DecidableEq, Repr

/-- A closure registered on an execution.  The closures themselves are functions of Rust: a
constructor stands for one of them with what it captured, `Verif.Build.Callbacks` says what calling
it does. -/
inductive Handler where
  /-- the three closures of `bind_exec_callbacks!`, task-maker-format/src/lib.rs:316-358 -/
  | report (topic : Topic)
  /-- the closures that send a diagnostic when the execution fails: source_file.rs:100-112,
  input_generator.rs:102-114, input_validator.rs:97-110, output_generator.rs:104-115 -/
  | failureDiagnostic (topic : Topic)
  /-- batch.rs:74-85 -/
  | scoreZeroOnFailure (subtask testcase solution : Nat)
  /-- checker.rs:68-82, with the callback of batch.rs:90-105 -/
  | whiteDiff (subtask testcase solution : Nat)
  /-- checker.rs:101-146, with the callback of batch.rs:90-105 -/
  | customChecker (subtask testcase solution : Nat)
  /-- communication.rs:166-175; `sender` is the shared `ScoreSender` -/
  | processOutcome (sender : Nat)
  /-- communication.rs:224-242 -/
  | managerOutcome (sender : Nat)
  /-- statement/booklet.rs:200-205: the errors of LaTeX are shown -/
  | latexErrors (booklet : String)
  /-- the sanity check of the sample files -/
  | sample (event : SampleEvent)
deriving DecidableEq, Repr

/-- `WriteToCallback`, task-maker-dag/src/file.rs: where a file is written. -/
structure WriteTo where
  dest : String
  executable : Bool
  allowFailure : Bool
deriving DecidableEq, Repr

/-- What a `ScoreSender` was made for, communication.rs:108-114. -/
structure SenderInfo where
  id : Nat
  subtask : Nat
  testcase : Nat
  solution : Nat
  answers : Nat
deriving DecidableEq, Repr

/-- `EvaluationData`: the DAG, the callbacks registered on it and the messages already sent to the
UI.  `exes` is the content of the cells `SourceFile::executable`, one per instance. -/
structure Eval where
  next : Uuid
  dag : DagData := {}
  exes : AMap Nat FileUuid := []
  handlers : List (ExecutionUuid × Handler) := []
  writes : AMap FileUuid WriteTo := []
  pending : List Topic := []
  senders : List SenderInfo := []

/-- The errors and the panics of the functions below. -/
inductive Err where
  /-- a file to provide does not exist or cannot be read -/
  | missingFile (path : String)
  /-- `expect("Testcase not found in the task")` -/
  | panicNoTestcase
  /-- `testcase.input_file.unwrap()` -/
  | panicNoInput
  /-- `generated_io`: `get_mut(&testcase_id).unwrap()` -/
  | panicNoGenerated
  /-- `ok_or_else(|| anyhow!("Missing official solution"))` -/
  | noOfficial
  /-- `assert!(self.stdin.is_none())`, task-maker-dag/src/execution.rs `stdin_redirect_path` -/
  | panicStdin
deriving DecidableEq, Repr

/-- A function with `eval: &mut EvaluationData` that returns a `Result`. -/
def B (α : Type) := Eval → Except Err (α × Eval)

namespace B
/-- A function that changes nothing. -/
def ret (a : α) : B α := fun ev => .ok (a, ev)

/-- Sequencing with `?`. -/
def andThen (m : B α) (f : α → B β) : B β := fun ev =>
  match m ev with
  | .error e => .error e
  | .ok (a, ev') => f a ev'
end B

instance : Monad B where
  pure := B.ret
  bind := B.andThen

/-- `bail!` or a panic. -/
def fail (e : Err) : B α := fun _ => .error e

/-- A change of the state. -/
def upd (f : Eval → Eval) : B Unit := fun ev => .ok ((), f ev)

/-- Reading the state. -/
def look (f : Eval → α) : B α := fun ev => .ok (f ev, ev)

/-- `Uuid::new_v4()`. -/
def fresh : B Uuid := fun ev => .ok (ev.next, { ev with next := ev.next + 1 })

/-- `for x in xs { f(x)?; }`. -/
def each (f : α → B Unit) : List α → B Unit
  | [] => pure ()
  | x :: xs => do f x; each f xs

/-- `for x in xs { acc = f(acc, x)?; }`. -/
def eachWith (f : σ → α → B σ) : List α → σ → B σ
  | [], acc => pure acc
  | x :: xs, acc => do
    let acc ← f acc x
    eachWith f xs acc

theorem pure_ok {a b : α} {ev ev' : Eval} :
    (pure a : B α) ev = .ok (b, ev') ↔ a = b ∧ ev = ev' := by
  show Except.ok (a, ev) = Except.ok (b, ev') ↔ _
  simp

theorem bind_ok {m : B α} {f : α → B β} {ev ev'' : Eval} {b : β} :
    (m >>= f) ev = .ok (b, ev'') ↔ ∃ a ev', m ev = .ok (a, ev') ∧ f a ev' = .ok (b, ev'') := by
  show B.andThen m f ev = _ ↔ _
  unfold B.andThen
  cases h : m ev with
  | error e => simp
  | ok p =>
    obtain ⟨a, ev'⟩ := p
    constructor
    · intro h'; exact ⟨a, ev', rfl, h'⟩
    · rintro ⟨a', ev1, h1, h2⟩; cases h1; exact h2

theorem fail_ok {e : Err} {ev ev' : Eval} {a : α} : (fail e : B α) ev = .ok (a, ev') ↔ False := by
  simp [fail]

theorem upd_ok {f : Eval → Eval} {ev ev' : Eval} {a : Unit} :
    upd f ev = .ok (a, ev') ↔ f ev = ev' := by
  simp [upd]

theorem look_ok {f : Eval → α} {ev ev' : Eval} {a : α} :
    look f ev = .ok (a, ev') ↔ f ev = a ∧ ev = ev' := by
  simp [look]

theorem fresh_ok {ev ev' : Eval} {u : Uuid} :
    fresh ev = .ok (u, ev') ↔ ev.next = u ∧ { ev with next := ev.next + 1 } = ev' := by
  simp [fresh]

end TM.Build
