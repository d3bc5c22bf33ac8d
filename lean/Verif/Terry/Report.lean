import Verif.Terry.Ui
import Verif.Report.Model
/-!
# The final report of a Terry task

Model of `print_evaluations` and `print_summary` of `FinishUI`, task-maker-format/src/terry/finish_ui.rs, over the state of
`Verif.Terry.Ui`.  Lines are made of coloured pieces as in `Verif.Report`.  What is not in the state is in `View`.  Scores
are exact numbers, so that the product of a score and of the points of the task is not rounded.  Left out: the information
about the task and the compilations (finish_ui.rs:35-44); the diagnostics are those of `Verif.Text.Diag`.
-/
namespace TM.Terry.Report
open TM TM.Terry
open TM.Report (Text Color Seg Line say byteLen padLeft padRight digits)

/-- `CaseStatus`, terry/mod.rs:96-106. -/
inductive CaseStatus where
  | missing
  | parsed
  | invalid
deriving DecidableEq, Repr

/-- `SolutionOutcome`, terry/mod.rs:63-120, with what is printed of it. -/
structure SolOutcome where
  score : Rat
  validation : List (CaseStatus × Option Text)
  feedback : List (Bool × Option Text)
deriving DecidableEq, Repr

/-- What the checker says: `Result<SolutionOutcome, String>`. -/
abbrev Said := Except Text SolOutcome

/-- What is not in the state. -/
structure View where
  /-- `format!("{:.2}", score)` -/
  fixed : Rat → Text
  /-- The name of the file of a solution. -/
  name : Nat → Text
  /-- The order of the paths of the solutions. -/
  le : Nat → Nat → Bool
  /-- `print_time_memory`, ui/mod.rs:276-282. -/
  usage : Nat → Step → Text
  /-- `print_fail_execution_status`, ui/mod.rs:285-296. -/
  fail : ExecutionStatus → Text
  cached : Nat → Step → Bool
  killed : Nat → Step → Bool
  /-- The trimmed standard error; empty if there is none. -/
  stderr : Nat → Step → Text
  /-- `state.task.max_score` -/
  maxScore : Rat

/-- `abs_diff_eq!`, with the default precision of `f64`. -/
def absDiffEq (x y : Rat) : Bool := decide (x - y ≤ 1 / 2 ^ 52 ∧ y - x ≤ 1 / 2 ^ 52)

/-- The title of a solution, finish_ui.rs:50-73. -/
def title (v : View) (j : Nat) (s : SolState Said) : List Line :=
  let name : Seg := ⟨.bold, v.name j ++ [' ']⟩
  match s.outcome with
  | some (.ok o) =>
    let text := v.fixed (o.score * v.maxScore) ++ " / ".toList ++ v.fixed v.maxScore
    if absDiffEq o.score 0 then [[name, ⟨.red, text⟩]]
    else if absDiffEq o.score 1 then [[name, ⟨.green, text⟩]]
    else [[name, ⟨.yellow, text⟩]]
  | some (.error e) => [[name], [⟨.red, "Fail: ".toList⟩, say e]]
  | none => [[name]]

/-- finish_ui.rs:74-76 -/
def seedLine (s : SolState Said) : List Line :=
  match s.seed with
  | some n => [[say ("      Seed: ".toList ++ digits n)]]
  | none => []

/-- `print_result` and `print_stderr`, finish_ui.rs:78-96 and 124-136. -/
def stepLines (v : View) (j : Nat) (label : String) (step : Step) : Option Build.Outcome → List Line
  | none => [[say label.toList, say "unknown".toList]]
  | some r =>
    ([say label.toList, say (v.usage j step)] ++
      (if r.status = .success then [] else [say " | ".toList, say (v.fail r.status)]) ++
      (if v.cached j step then [say " (cached)".toList] else []) ++
      (if v.killed j step then [say " (killed)".toList] else [])) ::
    (if v.stderr j step = [] then [] else [[⟨.yellow, "Stderr:".toList⟩], [say (v.stderr j step)]])

/-- The body of the loop of `print_feedback`, finish_ui.rs:150-170. -/
def caseLine (i : Nat) (val : CaseStatus × Option Text) (feed : Bool × Option Text) : Line :=
  [say ('#' :: padRight 3 (digits i) ++ "  ".toList),
    (match val.1 with
     | .missing => ⟨.yellow, "Missing".toList⟩
     | .parsed => ⟨.green, " Valid ".toList⟩
     | .invalid => ⟨.red, "Invalid".toList⟩),
    say " | ".toList,
    if feed.1 then ⟨.green, "Correct".toList⟩ else ⟨.red, "Wrong  ".toList⟩] ++
  (match val.2 with | some m => [say (" | ".toList ++ m)] | none => []) ++
  (match feed.2 with | some m => [say (" | ".toList ++ m)] | none => [])

/-- The lines of the cases. -/
def caseLines : Nat → List (CaseStatus × Option Text) → List (Bool × Option Text) → List Line
  | i, val :: vals, feed :: feeds => caseLine i val feed :: caseLines (i + 1) vals feeds
  | _, _, _ => []

/-- `print_feedback`, finish_ui.rs:138-171. -/
def feedback (s : SolState Said) : List Line :=
  match s.outcome with
  | some (.ok o) => caseLines 0 o.validation o.feedback
  | _ => []

/-- A solution, finish_ui.rs:48-120. -/
def evaluation (v : View) (j : Nat) (s : SolState Said) : List Line :=
  title v j s ++ seedLine s ++
  stepLines v j "Generation: " .generator s.generator ++ stepLines v j "Validation: " .validator s.validator ++
  stepLines v j "Evaluation: " .solution s.solution ++ stepLines v j "   Checker: " .checker s.checker ++
  feedback s ++ [[]]

/-- `state.solutions.iter().sorted_by_key(...)` -/
def sorted (v : View) (u : Ui Said) : List (Nat × SolState Said) := isort (fun a b => v.le a.1 b.1) u.solutions

/-- `print_evaluations`, finish_ui.rs:46-121. -/
def evaluations (v : View) (u : Ui Said) : List Line :=
  [⟨.blue, "Evaluations".toList⟩] :: (sorted v u).flatMap (fun e => evaluation v e.1 e.2)

/-- A case in the summary, finish_ui.rs:196-207. -/
def letter (val : CaseStatus × Option Text) (feed : Bool × Option Text) : Seg :=
  match val.1 with
  | .missing => say " m".toList
  | .parsed => if feed.1 then ⟨.green, " c".toList⟩ else ⟨.red, " w".toList⟩
  | .invalid => ⟨.red, " i".toList⟩

/-- The integer part of a number, `{:>3}` of `floor()`. -/
def whole (x : Rat) : Text := padLeft 3 (toString x.floor).toList

/-- `get_max_len`, ui/mod.rs:299-305. -/
def maxLen (v : View) (u : Ui Said) : Nat := u.solutions.foldl (fun w e => max w (byteLen (v.name e.1))) 0

/-- The body of the loop of `print_summary`, finish_ui.rs:176-220. -/
def summaryLine (v : View) (width j : Nat) (s : SolState Said) : Line :=
  say (padLeft width (v.name j) ++ [' ']) ::
  (match s.outcome with
   | some (.ok o) =>
     (if absDiffEq o.score 1 then ⟨.green, whole (o.score * v.maxScore)⟩
      else if absDiffEq o.score 0 then ⟨.red, whole (o.score * v.maxScore)⟩
      else ⟨.yellow, whole (o.score * v.maxScore)⟩) :: List.zipWith letter o.validation o.feedback
   | some (.error e) => [say ("    ".toList ++ e)]
   | none =>
     match s.status with
     | .failed w => [say ("    ".toList ++ w.toList)]
     | _ => [say "    Failed".toList])

/-- `print_summary`, finish_ui.rs:173-221. -/
def summary (v : View) (u : Ui Said) : List Line :=
  [⟨.blue, "Summary".toList⟩] :: (sorted v u).map (fun e => summaryLine v (maxLen v u) e.1 e.2)

/-! ## Specification -/

/-- Green for all the points, red for none, up to the precision of the numbers, yellow for the others. -/
inductive ScoreColor : Rat → Color → Prop where
  | full {x : Rat} : 1 - 1 / 2 ^ 52 ≤ x → x ≤ 1 + 1 / 2 ^ 52 → ScoreColor x .green
  | none {x : Rat} : -(1 / 2 ^ 52) ≤ x → x ≤ 1 / 2 ^ 52 → ScoreColor x .red
  | some {x : Rat} : (x < 1 - 1 / 2 ^ 52 ∨ 1 + 1 / 2 ^ 52 < x) → (x < -(1 / 2 ^ 52) ∨ 1 / 2 ^ 52 < x) →
      ScoreColor x .yellow

/-- How a case is shown: missing, correct, wrong or invalid. -/
inductive CaseShown : CaseStatus → Bool → Char → Color → Text → Color → Prop where
  | missing (b : Bool) : CaseShown .missing b 'm' .plain "Missing".toList .yellow
  | correct : CaseShown .parsed true 'c' .green " Valid ".toList .green
  | wrong : CaseShown .parsed false 'w' .red " Valid ".toList .green
  | invalid (b : Bool) : CaseShown .invalid b 'i' .red "Invalid".toList .red

/-- The largest integer that is not greater. -/
def Whole (x : Rat) (n : Int) : Prop := (n : Rat) ≤ x ∧ x < n + 1

/-- What follows the name of a solution in the summary: the points, without decimals, and the cases in order; or why it has
no points. -/
inductive SummaryTells (v : View) (s : SolState Said) : Line → Prop where
  | scored {o : SolOutcome} {n : Int} {c : Color} {letters : Line} : s.outcome = some (.ok o) →
      Whole (o.score * v.maxScore) n → ScoreColor o.score c →
      letters.length = min o.validation.length o.feedback.length →
      (∀ (i : Nat) (val : CaseStatus × Option Text) (feed : Bool × Option Text), o.validation[i]? = some val → o.feedback[i]? = some feed →
        ∃ ch col t col', CaseShown val.1 feed.1 ch col t col' ∧ letters[i]? = some ⟨col, [' ', ch]⟩) →
      SummaryTells v s (⟨c, padLeft 3 (toString n).toList⟩ :: letters)
  | refused {e : Text} : s.outcome = some (.error e) → SummaryTells v s [⟨.plain, "    ".toList ++ e⟩]
  | failed {w : String} : s.outcome = none → s.status = .failed w →
      SummaryTells v s [⟨.plain, "    ".toList ++ w.toList⟩]
  | unknown : s.outcome = none → (∀ w, s.status ≠ .failed w) → SummaryTells v s [⟨.plain, "    Failed".toList⟩]

/-- What is said first of a solution: its points, with two decimals, out of those of the task, or why it has none. -/
inductive TitleTells (v : View) (j : Nat) (s : SolState Said) : List Line → Prop where
  | scored {o : SolOutcome} {c : Color} : s.outcome = some (.ok o) → ScoreColor o.score c →
      TitleTells v j s [[⟨.bold, v.name j ++ [' ']⟩,
        ⟨c, v.fixed (o.score * v.maxScore) ++ " / ".toList ++ v.fixed v.maxScore⟩]]
  | refused {e : Text} : s.outcome = some (.error e) →
      TitleTells v j s [[⟨.bold, v.name j ++ [' ']⟩], [⟨.red, "Fail: ".toList⟩, ⟨.plain, e⟩]]
  | unknown : s.outcome = none → TitleTells v j s [[⟨.bold, v.name j ++ [' ']⟩]]

/-- What is said of a step: that it was not run, or the resources it used and how it ended, and its standard error if it
wrote something. -/
inductive StepTells (v : View) (j : Nat) (label : String) (step : Step) : Option Build.Outcome → List Line → Prop where
  | unknown : StepTells v j label step none [[⟨.plain, label.toList⟩, ⟨.plain, "unknown".toList⟩]]
  | run {r : Build.Outcome} {a b c : List Text} {rest : List Line} :
      ((r.status = .success ∧ a = []) ∨ (r.status ≠ .success ∧ a = [" | ".toList, v.fail r.status])) →
      ((v.cached j step = true ∧ b = [" (cached)".toList]) ∨ (v.cached j step = false ∧ b = [])) →
      ((v.killed j step = true ∧ c = [" (killed)".toList]) ∨ (v.killed j step = false ∧ c = [])) →
      ((v.stderr j step = [] ∧ rest = []) ∨
        (v.stderr j step ≠ [] ∧ rest = [[⟨.yellow, "Stderr:".toList⟩], [⟨.plain, v.stderr j step⟩]])) →
      StepTells v j label step (some r)
        ((label.toList :: v.usage j step :: (a ++ b ++ c)).map (fun t => ⟨.plain, t⟩) :: rest)

/-- The line of a case: its number, whether it is valid, whether it is correct, and the messages. -/
def CaseTells (i : Nat) (val : CaseStatus × Option Text) (feed : Bool × Option Text) (line : Line) : Prop :=
  ∃ ch col t col' number verdict, CaseShown val.1 feed.1 ch col t col' ∧
    line = [⟨.plain, number⟩, ⟨col', t⟩, ⟨.plain, " | ".toList⟩, verdict] ++
      (val.2.toList ++ feed.2.toList).map (fun m => ⟨.plain, " | ".toList ++ m⟩) ∧
    number = ['#'] ++ (Nat.toDigits 10 i ++ List.replicate (3 - (Nat.toDigits 10 i).length) ' ') ++ "  ".toList ∧
    verdict = (if feed.1 then ⟨.green, "Correct".toList⟩ else ⟨.red, "Wrong  ".toList⟩)

/-- What is said of a solution. -/
def BlockTells (v : View) (j : Nat) (s : SolState Said) (block : List Line) : Prop :=
  ∃ t g vl sl ch cases,
    block = t ++ (s.seed.toList.map (fun n => [⟨.plain, "      Seed: ".toList ++ Nat.toDigits 10 n⟩])) ++
      g ++ vl ++ sl ++ ch ++ cases ++ [[]] ∧
    TitleTells v j s t ∧
    StepTells v j "Generation: " .generator s.generator g ∧ StepTells v j "Validation: " .validator s.validator vl ∧
    StepTells v j "Evaluation: " .solution s.solution sl ∧ StepTells v j "   Checker: " .checker s.checker ch ∧
    match s.outcome with
    | some (.ok o) => cases.length = min o.validation.length o.feedback.length ∧
      ∀ (i : Nat) (val : CaseStatus × Option Text) (feed : Bool × Option Text), o.validation[i]? = some val → o.feedback[i]? = some feed → ∃ line, cases[i]? = some line ∧ CaseTells i val feed line
    | _ => cases = []

/-- The order of the paths. -/
def InOrder (v : View) (u : Ui Said) (order : List Nat) : Prop :=
  order.Perm u.solutions.keys ∧ order.Pairwise (fun a b => v.le a b = true)

end TM.Terry.Report
