import Verif.Build.Callbacks
import Verif.Solution.Check
/-!
# What the UI knows of an evaluation (`task-maker-format/src/ioi/ui_state.rs`)

`UIState::apply`, which all the UIs and the tools call on every message, and
`UIState::run_solution_checks`.

Simplifications: of an `ExecutionResult` only the status is kept; solutions are numbered as in
`Verif.Build` instead of being named by their path; the status of the executor, the diagnostics and the
booklets are left out (`Message.other`).
-/
namespace TM.Ui
open TM TM.Build

/-- `TestcaseGenerationStatus`, ui_state.rs:13-34. -/
inductive GenStatus where
  | pending
  | generating
  | generated
  | validating
  | validated
  | solving
  | solved
  | failed
  | skipped
  deriving DecidableEq, Repr

/-- `TestcaseEvaluationStatus`, ui_state.rs:36-65. -/
inductive EvalStatus where
  | pending
  | solving
  | solved
  | checking
  | accepted (message : String)
  | wrongAnswer (message : String)
  | partialScore (message : String)
  | timeLimit
  | wallTimeLimit
  | memoryLimit
  | runtimeError
  | failed
  | skipped
  deriving DecidableEq, Repr

/-- `From<&TestcaseEvaluationStatus> for Option<TestcaseEvaluationResult>`, ui_state.rs:67-82. -/
def EvalStatus.result : EvalStatus → Option Solution.Outcome
  | .accepted _ => some .accepted
  | .partialScore _ => some .partialScore
  | .wrongAnswer _ => some .wrongAnswer
  | .timeLimit => some .timeLimit
  | .wallTimeLimit => some .wallTimeLimit
  | .memoryLimit => some .memoryLimit
  | .runtimeError => some .runtimeError
  | _ => none

/-- `has_completed`, ui_state.rs:258-266. -/
def EvalStatus.hasCompleted : EvalStatus → Bool
  | .pending => false
  | .solving => false
  | .solved => false
  | .checking => false
  | _ => true

/-- `TestcaseGenerationState`, ui_state.rs:84-95. -/
structure GenState where
  status : GenStatus := .pending
  generation : Option ExecutionStatus := none
  validation : Option ExecutionStatus := none
  solution : Option ExecutionStatus := none
  deriving DecidableEq, Repr

/-- `SolutionTestcaseEvaluationState`, ui_state.rs:104-115. -/
structure TcEval where
  score : Option Score.Score := none
  status : EvalStatus := .pending
  results : List (Option ExecutionStatus) := []
  checker : Option ExecutionStatus := none
  deriving DecidableEq, Repr

/-- `SolutionSubtaskEvaluationState`, ui_state.rs:158-164. -/
structure StEval where
  score : Option Score.Score := none
  normalized : Option Score.Score := none
  deriving DecidableEq, Repr

/-- `SolutionEvaluationState`, ui_state.rs:167-176. -/
structure SolEval where
  score : Option Score.Score := none
  subtasks : AMap Nat StEval
  testcases : AMap Nat TcEval
  deriving DecidableEq, Repr

/-- `SolutionEvaluationState::new`, ui_state.rs:180-211. -/
def SolEval.new (task : Task) : SolEval where
  subtasks := task.subtasks.values.map (fun s => (s.id, {}))
  testcases := task.testcases.values.map (fun t => (t.id, {}))

/-- `CompilationStatus`, ui/mod.rs:133-159. -/
inductive CompStatus where
  | pending
  | running
  | done
  | failed
  | skipped
  deriving DecidableEq, Repr

/-- `SolutionCheck`, task-maker-format/src/solution.rs:79-87. -/
structure SolCheck where
  result : Solution.Check
  pattern : List Char
  deriving DecidableEq, Repr

/-- `UIExecutionStatus`, ui/mod.rs:113-131. -/
inductive Phase where
  | pending
  | told (p : Progress)
  deriving DecidableEq, Repr

/-- `BookletState`, ui_state.rs:222-229, with `BookletDependencyState`, ui_state.rs:215-220. -/
structure BookletState where
  status : Phase := .pending
  dependencies : AMap String (List Phase) := []
  deriving DecidableEq, Repr

/-- `UIState`, ui_state.rs:231-254, without the task. -/
structure State where
  solutions : AMap Nat (List SolCheck) := []
  compilations : AMap String CompStatus := []
  generations : AMap Nat (AMap Nat GenState)
  evaluations : AMap Nat SolEval := []
  booklets : AMap String BookletState := []
  deriving DecidableEq, Repr

/-- `UIState::new`, ui_state.rs:332-371. -/
def State.new (task : Task) : State where
  generations := task.subtasks.map (fun p => (p.1, p.2.owned.map (fun k => (k, {}))))

/-- `UIMessage`, ui/ui_message.rs:15-217, the messages of a IOI task. -/
inductive Message where
  /-- `Solutions` -/
  | solutions (l : List (Nat × List SolCheck))
  /-- `Compilation`, `IOIGeneration`, `IOIValidation`, `IOISolution`, `IOIEvaluation`, `IOIChecker`,
  `IOIBooklet`, `IOIBookletDependency` -/
  | progress (t : Topic) (p : Phase)
  /-- `IOITestcaseScore` -/
  | testcaseScore (subtask testcase solution : Nat) (score : Score.Score) (message : String)
  /-- `IOISubtaskScore` -/
  | subtaskScore (subtask solution : Nat) (score normalized : Score.Score)
  /-- `IOITaskScore` -/
  | taskScore (solution : Nat) (score : Score.Score)
  /-- `StopUI`, `ServerStatus`, `IOITask`, `Diagnostic` -/
  | other
  deriving DecidableEq, Repr

/-- `CompilationStatus::apply_status`, ui/mod.rs:163-192. -/
def compStatus : Phase → CompStatus
  | .pending => .pending
  | .told .started => .running
  | .told (.done r) => if r = .success then .done else .failed
  | .told .skipped => .skipped

/-- ui_state.rs:447-461. -/
def GenState.onGeneration (g : GenState) : Phase → GenState
  | .pending => { g with status := .pending }
  | .told .started => { g with status := .generating }
  | .told (.done r) =>
    { g with status := if r = .success then .generated else .failed, generation := some r }
  | .told .skipped => { g with status := .skipped }

/-- ui_state.rs:478-497. -/
def GenState.onValidation (g : GenState) : Phase → GenState
  | .pending => { g with status := .pending }
  | .told .started => { g with status := .validating }
  | .told (.done r) =>
    { g with status := if r = .success then .validated else .failed, validation := some r }
  | .told .skipped => if g.status = .failed then g else { g with status := .skipped }

/-- ui_state.rs:511-530. -/
def GenState.onSolution (g : GenState) : Phase → GenState
  | .pending => { g with status := .pending }
  | .told .started => { g with status := .solving }
  | .told (.done r) =>
    { g with status := if r = .success then .solved else .failed, solution := some r }
  | .told .skipped => if g.status = .failed then g else { g with status := .skipped }

/-- The status after the execution of a part of the solution, ui_state.rs:553-580. -/
def runStatus : ExecutionStatus → EvalStatus
  | .success => .solved
  | .returnCode _ => .runtimeError
  | .signal _ _ => .runtimeError
  | .timeLimitExceeded => .timeLimit
  | .sysTimeLimitExceeded => .timeLimit
  | .wallTimeLimitExceeded => .wallTimeLimit
  | .memoryLimitExceeded => .memoryLimit
  | .internalError _ => .failed

/-- ui_state.rs:545-586; nothing if `results[part]` panics. -/
def TcEval.onEvaluation (t : TcEval) (part parts : Nat) (p : Phase) : Option TcEval :=
  let t := if t.results.length ≠ parts then { t with results := List.replicate parts none } else t
  match p with
  | .pending => some t
  | .told .started => some { t with status := .solving }
  | .told (.done r) =>
    if part < t.results.length then
      some { t with status := runStatus r, results := t.results.set part (some r) }
    else none
  | .told .skipped => some { t with status := .skipped }

/-- ui_state.rs:600-608. -/
def TcEval.onChecker (t : TcEval) : Phase → TcEval
  | .told .started => { t with status := .checking }
  | .told (.done r) => { t with checker := some r }
  | _ => t

/-- The status of a score, ui_state.rs:625-629. -/
def scoreStatus (score : Score.Score) (message : String) : EvalStatus :=
  match Score.ScoreStatus.fromScore score (.num 1) with
  | .wrongAnswer => .wrongAnswer message
  | .accepted => .accepted message
  | .partialScore => .partialScore message

/-- ui_state.rs:623-630. -/
def TcEval.onScore (t : TcEval) (score : Score.Score) (message : String) : TcEval :=
  { t with
    score := some score
    status := if t.status.hasCompleted then t.status else scoreStatus score message }

/-- `self.evaluations.entry(solution).or_insert_with(..)`, e.g. ui_state.rs:540-544. -/
def State.evalOf (task : Task) (s : State) (sol : Nat) : SolEval :=
  (s.evaluations.get? sol).getD (SolEval.new task)

/-- A change of the generation state of a testcase; nothing if the subtask or the testcase is missing
(`expect`, ui_state.rs:440-446). -/
def State.onGen (s : State) (st tc : Nat) (f : GenState → GenState) : Option State :=
  match s.generations.get? st with
  | none => none
  | some m => match m.get? tc with
    | none => none
    | some g => some { s with generations := s.generations.insert st (m.insert tc (f g)) }

/-- A change of the evaluation state of a testcase; nothing if it is missing (`expect`) or if the
change panics. -/
def State.onTc (task : Task) (s : State) (sol tc : Nat) (f : TcEval → Option TcEval) : Option State :=
  let e := s.evalOf task sol
  match e.testcases.get? tc with
  | none => none
  | some t => match f t with
    | none => none
    | some t' => some { s with
        evaluations := s.evaluations.insert sol { e with testcases := e.testcases.insert tc t' } }

/-- `self.booklets.entry(name).or_insert_with(..)`, ui_state.rs:656-661 and 671-676. -/
def State.bookletOf (s : State) (name : String) : BookletState := (s.booklets.get? name).getD {}

/-- The steps of a dependency of a booklet: `num_steps` is always 2 (asy.rs:65, 138). -/
def BookletState.steps (b : BookletState) (name : String) : List Phase :=
  (b.dependencies.get? name).getD [.pending, .pending]

/-- `UIState::apply`, ui_state.rs:419-700; nothing if it panics. -/
def State.apply (task : Task) (s : State) : Message → Option State
  | .other => some s
  -- lines 423-428
  | .solutions l => some { s with solutions := l.foldl (fun m p => m.insert p.1 p.2) [] }
  -- lines 429-433
  | .progress (.compilation path) p =>
    some { s with compilations := s.compilations.insert path (compStatus p) }
  -- lines 435-462
  | .progress (.generation st tc) p => s.onGen st tc (·.onGeneration p)
  -- lines 463-498: a testcase of another subtask is ignored
  | .progress (.validation st tc) p =>
    match s.generations.get? st with
    | none => none
    | some m => match m.get? tc with
      | none => some s
      | some _ => s.onGen st tc (·.onValidation p)
  -- lines 499-531
  | .progress (.officialOutput st tc) p => s.onGen st tc (·.onSolution p)
  -- lines 532-587
  | .progress (.evaluation _ tc sol part parts) p => s.onTc task sol tc (·.onEvaluation part parts p)
  -- lines 588-609
  | .progress (.checker _ tc sol) p => s.onTc task sol tc (fun t => some (t.onChecker p))
  -- lines 655-663
  | .progress (.booklet name) p =>
    let b := s.bookletOf name
    some { s with booklets := s.booklets.insert name { b with status := p } }
  -- lines 664-689
  | .progress (.bookletDependency booklet name step) p =>
    let b := s.bookletOf booklet
    if step < (b.steps name).length then
      some { s with
        booklets := s.booklets.insert booklet
          { b with dependencies := b.dependencies.insert name ((b.steps name).set step p) } }
    else none
  -- lines 610-631
  | .testcaseScore _ tc sol score message => s.onTc task sol tc (fun t => some (t.onScore score message))
  -- lines 632-646
  | .subtaskScore st sol score normalized =>
    let e := s.evalOf task sol
    match e.subtasks.get? st with
    | none => none
    | some _ => some { s with
        evaluations := s.evaluations.insert sol
          { e with subtasks := e.subtasks.insert st ⟨some score, some normalized⟩ } }
  -- lines 647-654
  | .taskScore sol score =>
    let e := s.evalOf task sol
    some { s with evaluations := s.evaluations.insert sol ({ e with score := some score }) }

/-- The messages one after the other. -/
def State.applyAll (task : Task) (s : State) : List Message → Option State
  | [] => some s
  | m :: ms => match s.apply task m with
    | none => none
    | some s' => s'.applyAll task ms

/-! ## The checks of the solutions -/

/-- Some suffix of the text satisfies `f`. -/
def anySuffix (f : List Char → Bool) : List Char → Bool
  | [] => f []
  | c :: cs => f (c :: cs) || anySuffix f cs

/-- `WildMatch::matches` (crate wildmatch): `?` stands for one character, `*` for any number. -/
def wildMatch : List Char → List Char → Bool
  | [], cs => cs.isEmpty
  | p :: ps, cs =>
    if p = '*' then anySuffix (wildMatch ps) cs
    else match cs with
      | [] => false
      | c :: cs => (p == '?' || p == c) && wildMatch ps cs

/-- `find_subtasks_by_pattern_name` with `name_matches`, ioi/mod.rs:523-545; `nfkc` is the
normalisation of a text. -/
def subtasksByPattern (task : Task) (nfkc : List Char → List Char) (pattern : List Char) : List Subtask :=
  task.subtasks.values.filter (fun st => match st.name with
    | some name => wildMatch (nfkc pattern) name.toList
    | none => false)

/-- `SolutionCheckOutcome`, ui_state.rs:317-328. -/
structure CheckOutcome where
  solution : Nat
  check : SolCheck
  subtask : Nat
  success : Bool
  deriving DecidableEq, Repr

/-- The results of the testcases of a subtask, ui_state.rs:391-398; nothing if it panics. -/
def testcaseResults (e : SolEval) (tcs : List Nat) : Option (List (Option Solution.Outcome)) :=
  tcs.mapM (fun tc => (e.testcases.get? tc).map (·.status.result))

/-- The body of the loops of `run_solution_checks`, ui_state.rs:385-411. -/
def checkSubtask (task : Task) (s : State) (sol : Nat) (check : SolCheck) (st : Subtask) :
    Option (List CheckOutcome) :=
  match s.evaluations.get? sol with
  | none => some []
  | some e => match task.subtasks.get? st.id with
    | none => none
    | some info => match testcaseResults e info.testcases with
      | none => none
      | some rs =>
        if rs.any Option.isNone then some []
        else some [⟨sol, check, st.id, check.result.check (rs.filterMap id)⟩]

/-- All the answers, or nothing if one is nothing (a panic). -/
def collect {α β : Type} (f : α → Option (List β)) : List α → Option (List β)
  | [] => some []
  | a :: l => match f a with
    | none => none
    | some x => (collect f l).map (x ++ ·)

/-- `run_solution_checks`, ui_state.rs:376-414; nothing if it panics. -/
def runSolutionChecks (task : Task) (nfkc : List Char → List Char) (s : State) :
    Option (List CheckOutcome) :=
  collect (fun p => collect (fun check =>
    collect (checkSubtask task s p.1 check) (subtasksByPattern task nfkc check.pattern)) p.2) s.solutions

end TM.Ui
