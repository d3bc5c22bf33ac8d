import Verif.Ui.Model
import Verif.Base.Sort

/-!
# The final report of an evaluation

Model of `FinishUI` (`task-maker-format/src/ioi/finish_ui.rs`), what is printed at the end of the evaluation of an
IOI task: the generations, the evaluations, the table of the checks and the summary.

A line is a list of coloured pieces of text.  Solutions are numbered as in `Verif.Build`.  What is not in
`Verif.Ui.State` is in `View`: how floating point numbers are written, the names and the order of the solutions, the
resources used.  Left out: the basic information, the compilations, the booklets, the diagnostics, the stderr of the
generators and of the validators and the name of the solution at the right of the screen.
-/
namespace TM.Report
open TM TM.Build TM.Ui

abbrev Text := List Char

/-- The colours, ui/mod.rs:95-112. -/
inductive Color where
  | plain
  | bold
  | blue
  | green
  | red
  | yellow
  | orange
  deriving DecidableEq, Repr

/-- A piece of text, `cwrite!` or `print!`. -/
structure Seg where
  color : Color
  text : Text
  deriving DecidableEq, Repr

abbrev Line := List Seg

/-- What is read on a line. -/
def lineText (l : Line) : Text := l.flatMap (·.text)

/-- `print!`. -/
def say (t : Text) : Seg := ⟨.plain, t⟩

/-- `str::len`: the length in bytes. -/
def byteLen (t : Text) : Nat := (t.map (fun c => c.utf8Size)).sum

/-- `{:width$}` for a text: it counts the characters. -/
def padRight (w : Nat) (t : Text) : Text := t ++ List.replicate (w - t.length) ' '

/-- `{:>width$}`, and `{:width$}` for a number. -/
def padLeft (w : Nat) (t : Text) : Text := List.replicate (w - t.length) ' ' ++ t

/-- `{:^width$}`. -/
def center (w : Nat) (t : Text) : Text :=
  List.replicate ((w - t.length) / 2) ' ' ++ t ++ List.replicate ((w - t.length) - (w - t.length) / 2) ' '

/-- A number. -/
def digits (n : Nat) : Text := Nat.toDigits 10 n

/-- What is said of a part of a solution in the line of a testcase. -/
structure PartInfo where
  /-- The time and the memory it used. -/
  usage : Text
  killed : Bool
  cached : Bool

/-- What is not in the state. -/
structure View where
  /-- `format!("{:.prec$}", score)`. -/
  fixed : Nat → Score.Score → Text
  /-- `format!("{:?}", status)`. -/
  debug : ExecutionStatus → Text
  /-- How an execution that failed is described, finish_ui.rs:305-310. -/
  detail : ExecutionStatus → Text
  /-- The name of the file of a solution. -/
  name : Nat → Text
  /-- The order of the paths of the solutions. -/
  le : Nat → Nat → Bool
  /-- Whether the file of the solution is a link. -/
  symlink : Nat → Bool
  /-- `is_close_to_limits`, ui_state.rs:117-155, for a solution and a testcase. -/
  close : Nat → Nat → Bool
  /-- The points of the subtasks. -/
  points : Nat → Rat
  /-- `max_score` -/
  total : Rat
  /-- `score_precision` of the task. -/
  precision : Nat
  /-- `score_precision`, finish_ui.rs:326-335. -/
  tcPrecision : Nat
  /-- The part of a solution on a testcase. -/
  part : Nat → Nat → Nat → PartInfo
  /-- `str::nfkc`. -/
  nfkc : List Char → List Char

/-- `keys().sorted()`. -/
def sortedNats (l : List Nat) : List Nat := isort (fun a b => decide (a ≤ b)) l

/-- `score_color`, finish_ui.rs:460-467. -/
def scoreColor (normalized : Score.Score) : Color :=
  match Score.ScoreStatus.fromScore normalized (.num 1) with
  | .accepted => .green
  | .wrongAnswer => .red
  | .partialScore => .yellow

/-- Some pieces with a bar between them. -/
def bars : List Seg → Line
  | [] => []
  | [a] => [a]
  | a :: b :: l => a :: say " | ".toList :: bars (b :: l)

/-! ## The generations -/

/-- A step of the generation, finish_ui.rs:128-136, 137-149, 150-160. -/
def genStep (v : View) (good bad : String) : Option ExecutionStatus → List Seg
  | none => []
  | some r =>
    if r = .success then [⟨.green, good.toList⟩]
    else [⟨.yellow, bad.toList ++ " failed: ".toList ++ v.debug r⟩]

/-- The line of a testcase, finish_ui.rs:121-161. -/
def genLine (v : View) (k : Nat) (g : GenState) : Line :=
  say ('#' :: padRight 3 (digits k) ++ [' ']) ::
    bars (genStep v "Generated" "Generation" g.generation ++ genStep v "Validated" "Validation" g.validation ++
      genStep v "Solved" "Solution" g.solution)

/-- The name of a subtask in its line, finish_ui.rs:117-119 and 232-234. -/
def bracketed : Option String → List Seg
  | none => []
  | some n => [say (" [".toList ++ n.toList ++ "]".toList)]

/-- The points of a subtask, finish_ui.rs:120: `{}` of a floating point number. -/
def pointsText (v : View) (st : Nat) : Text := v.fixed 0 (.num (v.points st))

/-- A subtask, finish_ui.rs:115-185. -/
def genSubtask (task : Task) (v : View) (st : Nat) (m : AMap Nat GenState) : Option (List Line) :=
  match task.subtasks.get? st with
  | none => none
  | some info => some (
    (⟨.bold, "Subtask ".toList ++ digits st⟩ :: bracketed info.name ++
      [say (": ".toList ++ pointsText v st ++ " points".toList)]) ::
    (sortedNats m.keys).filterMap (fun k => (m.get? k).map (genLine v k)))

/-- `print_generations`, finish_ui.rs:112-186. -/
def generations (task : Task) (v : View) (s : State) : Option (List Line) :=
  ((sortedNats s.generations.keys).mapM (fun st => (s.generations.get? st).bind (genSubtask task v st))).map
    (fun l => [⟨.blue, "Generations".toList⟩] :: l.flatten)

/-! ## The evaluations -/

/-- `print_score_frac`, finish_ui.rs:431-457. -/
def frac (v : View) (normalized score : Option Score.Score) (max : Rat) : Seg :=
  match normalized, score with
  | some n, some x => ⟨scoreColor n, v.fixed v.precision x ++ " / ".toList ++ v.fixed v.precision (.num max)⟩
  | _, _ =>
    if v.precision = 0 then say ("X / ".toList ++ v.fixed 0 (.num max))
    else say ("X.".toList ++ List.replicate v.precision 'X' ++ " / ".toList ++ v.fixed v.precision (.num max))

/-- `TestcaseEvaluationStatus::message`, ui_state.rs:279-315. -/
def message : EvalStatus → Text
  | .pending => "Not done".toList
  | .solving => "Solution running".toList
  | .solved => "Solution completed".toList
  | .checking => "Checker running".toList
  | .accepted m => if m.toList = [] then "Output is correct".toList else m.toList
  | .wrongAnswer m => if m.toList = [] then "Output is not correct".toList else m.toList
  | .partialScore m => if m.toList = [] then "Partially correct".toList else m.toList
  | .timeLimit => "Time limit exceeded".toList
  | .wallTimeLimit => "Execution took too long".toList
  | .memoryLimit => "Memory limit exceeded".toList
  | .runtimeError => "Runtime error".toList
  | .failed => "Execution failed".toList
  | .skipped => "Execution skipped".toList

/-- The score of a testcase, finish_ui.rs:257-269; the precision of `abs_diff_eq!` is the one of `f64`. -/
def tcScore (v : View) : Option Score.Score → Seg
  | none => say ("[X.".toList ++ List.replicate v.tcPrecision 'X' ++ "]".toList)
  | some x =>
    let text := "[".toList ++ v.fixed v.tcPrecision x ++ "]".toList
    if x = .num 1 then ⟨.green, text⟩ else if x = .num 0 then ⟨.red, text⟩ else ⟨.yellow, text⟩

/-- The parts that have a result. -/
def doneParts (x : TcEval) : List (Nat × ExecutionStatus) :=
  x.results.zipIdx.filterMap (fun r => r.1.map (fun st => (r.2, st)))

/-- The line of a testcase, finish_ui.rs:246-323. -/
def tcLine (v : View) (j k : Nat) (x : TcEval) : Line :=
  say (padLeft 3 (digits k) ++ ") ".toList) :: tcScore v x.score ::
  (x.results.zipIdx.map (fun r => match r.1 with
    | none => say " [???]".toList
    | some _ => say (" [".toList ++ (v.part j k r.2).usage ++ "]".toList))) ++
  say (' ' :: message x.status) :: (doneParts x).map (fun r => say (v.detail r.2)) ++
  (if (doneParts x).any (fun r => (v.part j k r.1).killed) then [say " (killed)".toList] else []) ++
  (if (doneParts x).all (fun r => (v.part j k r.1).cached) then [say " (from cache)".toList] else [])

/-- A subtask of a solution, finish_ui.rs:230-242. -/
def evalSubtask (task : Task) (v : View) (j : Nat) (e : SolEval) (st : Nat) : Option (List Line) :=
  match task.subtasks.get? st, e.subtasks.get? st with
  | some info, some sc =>
    (info.owned.mapM (fun k => (e.testcases.get? k).map (tcLine v j k))).map (fun l =>
      (⟨.bold, "Subtask #".toList ++ digits st⟩ :: bracketed info.name ++
        [say ": ".toList, frac v sc.normalized sc.score (v.points st)]) :: l)
  | _, _ => none

/-- `score / max_score`; infinities are like `NaN` here. -/
def ratio (x : Score.Score) (m : Rat) : Score.Score :=
  match x with
  | .num q => if m = 0 then .nan else .num (q / m)
  | .nan => .nan

/-- `print_evaluation`, finish_ui.rs:199-243. -/
def evaluation (task : Task) (v : View) (j : Nat) (e : SolEval) : Option (List Line) :=
  ((sortedNats e.subtasks.keys).mapM (evalSubtask task v j e)).map (fun l =>
    [⟨.bold, v.name j⟩, say ": ".toList, frac v (e.score.map (ratio · v.total)) e.score v.total] :: l.flatten)

/-- `print_evaluations`, finish_ui.rs:189-196. -/
def evaluations (task : Task) (v : View) (s : State) : Option (List Line) :=
  ((isort v.le s.evaluations.keys).mapM (fun j => (s.evaluations.get? j).bind (evaluation task v j))).map
    (fun l => [⟨.blue, "Evaluations".toList⟩] :: (l.map (· ++ [[]])).flatten)

/-! ## The checks -/

/-- `as_compact_str`, solution.rs:231-242. -/
def compact : Solution.Check → Text
  | .accepted => "AC".toList
  | .partialScore => "PS".toList
  | .wrongAnswer => "WA".toList
  | .timeLimit => "TLE".toList
  | .wallTimeLimit => "WTLE".toList
  | .memoryLimit => "MLE".toList
  | .runtimeError => "RE".toList
  | .zero => "ZR".toList

/-- The results of a solution on a subtask, finish_ui.rs:509-514. -/
def resultsOf (rs : List CheckOutcome) (j st : Nat) : List CheckOutcome :=
  rs.filter (fun r => decide (r.solution = j) && decide (r.subtask = st))

/-- The width of the first column, finish_ui.rs:524 and 536. -/
def nameWidth (v : View) (sols : List Nat) : Nat := sols.foldl (fun w j => max w (byteLen (v.name j))) 1

/-- The width of the column of a subtask, finish_ui.rs:524-546. -/
def columnWidth (rs : List CheckOutcome) (sols : List Nat) (st : Nat) (name : Text) : Nat :=
  sols.foldl (fun w j =>
    max w (byteLen (List.intercalate [' '] ((resultsOf rs j st).map (fun r => compact r.check.result)))))
    (max 1 (byteLen name))

/-- The results that are printed in a cell, finish_ui.rs:577-587, with how many characters were printed. -/
def cellSegs : List CheckOutcome → Nat → List Seg × Nat
  | [], printed => ([], printed)
  | r :: rs, printed =>
    let space := if printed > 0 then [say [' ']] else []
    let printed := if printed > 0 then printed + 1 else printed
    let text := compact r.check.result
    let rest := cellSegs rs (printed + byteLen text)
    (space ++ ⟨if r.success then .green else .red, text⟩ :: rest.1, rest.2)

/-- A cell, finish_ui.rs:573-591; the subtraction panics when it is below zero. -/
def cell (rs : List CheckOutcome) (width : Nat) : Option Line :=
  if rs.isEmpty then some [say (padRight width ['?'])]
  else
    let r := cellSegs rs 0
    if r.2 ≤ width then some (r.1 ++ [say (List.replicate (width - r.2) ' ')]) else none

/-- The name and the width of a column; nothing if the index is out of bounds or there is no name. -/
def column (task : Task) (rs : List CheckOutcome) (sols : List Nat) (st : Nat) : Option (Text × Nat) :=
  match task.subtasks.get? st with
  | none => none
  | some info => match info.name with
    | none => none
    | some n => if st + 1 < task.subtasks.length + 1 then some (n.toList, columnWidth rs sols st n.toList) else none

/-- The line of a solution, finish_ui.rs:567-593. -/
def tableRow (task : Task) (v : View) (rs : List CheckOutcome) (sols : List Nat) (j : Nat) : Option Line :=
  ((sortedNats task.subtasks.keys).mapM (fun st =>
    (column task rs sols st).bind (fun c => (cell (resultsOf rs j st) c.2).map (say " | ".toList :: ·)))).map
    (fun l => say (padLeft (nameWidth v sols) (v.name j)) :: l.flatten)

/-- The header, finish_ui.rs:549-564. -/
def tableHeader (task : Task) (v : View) (rs : List CheckOutcome) (sols : List Nat) : Option Line :=
  ((sortedNats task.subtasks.keys).mapM (fun st =>
    (column task rs sols st).map (fun c => [say " | ".toList, ⟨.bold, padRight c.2 c.1⟩]))).map
    (fun l => say (padRight (nameWidth v sols) []) :: l.flatten)

/-- The solutions of the table, finish_ui.rs:515-520. -/
def tableSols (v : View) (s : State) : List Nat :=
  isort v.le (s.solutions.keys.filter (fun j => !v.symlink j))

/-- The lines of the table after its title. -/
def tableLines (task : Task) (v : View) (s : State) : Option (List Line) :=
  match runSolutionChecks task v.nfkc s with
  | none => none
  | some rs =>
    match tableHeader task v rs (tableSols v s), (tableSols v s).mapM (tableRow task v rs (tableSols v s)) with
    | some h, some l => some (h :: l)
    | _, _ => none

/-- `print_subtask_checks_table`, finish_ui.rs:504-602. -/
def table (task : Task) (v : View) (s : State) : Option (List Line) :=
  (tableLines task v s).map (fun l => [⟨.blue, "Subtask results".toList⟩] :: l ++ [[]])

/-! ## The summary -/

/-- The letter of a testcase, finish_ui.rs:403-421. -/
def letter (close : Bool) : EvalStatus → Seg
  | .accepted _ => ⟨if close then .orange else .green, ['A']⟩
  | .wrongAnswer _ => ⟨.red, ['W']⟩
  | .partialScore _ => ⟨if close then .orange else .yellow, ['P']⟩
  | .timeLimit => ⟨if close then .orange else .red, ['T']⟩
  | .wallTimeLimit => ⟨.red, ['T']⟩
  | .memoryLimit => ⟨if close then .orange else .red, ['M']⟩
  | .runtimeError => ⟨.red, ['R']⟩
  | .failed => ⟨.bold, ['F']⟩
  | .skipped => ⟨.bold, ['S']⟩
  | _ => ⟨.bold, ['X']⟩

/-- The score of a solution, finish_ui.rs:369-390. -/
def scoreCell (v : View) : Option Score.Score → Seg
  | some x => say (padLeft (v.precision + 4) (v.fixed v.precision x) ++ " | ".toList)
  | none =>
    if v.precision = 0 then say (padLeft 4 ['X'] ++ " | ".toList)
    else say (padLeft 4 "X.".toList ++ List.replicate v.precision 'X' ++ " | ".toList)

/-- The score of a subtask, finish_ui.rs:391-401. -/
def subtaskCell (v : View) (sc : StEval) : Seg :=
  match sc.score, sc.normalized with
  | some x, some n => ⟨scoreColor n, ' ' :: center 3 (v.fixed 0 x) ++ [' ']⟩
  | _, _ => say (' ' :: center 3 ['X'] ++ [' '])

/-- The letters of a subtask, finish_ui.rs:403-425. -/
def subtaskLetters (task : Task) (v : View) (j : Nat) (e : SolEval) (st : Nat) : Option Line :=
  match task.subtasks.get? st, e.subtasks.get? st with
  | some info, some sc =>
    (info.owned.mapM (fun k => (e.testcases.get? k).map (fun x => letter (v.close j k) x.status))).map (fun l =>
      ⟨scoreColor (sc.normalized.getD (.num 0)), ['[']⟩ :: l ++ [⟨scoreColor (sc.normalized.getD (.num 0)), [']']⟩])
  | _, _ => none

/-- `get_max_len`, ui/mod.rs:299-305. -/
def maxLen (v : View) (s : State) : Nat := s.evaluations.keys.foldl (fun w j => max w (byteLen (v.name j))) 0

/-- The line of a solution, finish_ui.rs:359-427. -/
def summaryLine (task : Task) (v : View) (s : State) (j : Nat) : Option Line :=
  match s.evaluations.get? j with
  | none => none
  | some e =>
    match (sortedNats e.subtasks.keys).mapM (fun st => (e.subtasks.get? st).map (subtaskCell v)),
      (sortedNats e.subtasks.keys).mapM (subtaskLetters task v j e) with
    | some cells, some letters => some (
        say (padLeft (maxLen v s) (v.name j) ++ [' ']) :: scoreCell v e.score :: cells ++ say "  ".toList :: letters.flatten)
    | _, _ => none

/-- The header, finish_ui.rs:343-357. -/
def summaryHeader (task : Task) (v : View) (s : State) : Line :=
  say (List.replicate (maxLen v s) ' ' ++ [' ']) ::
  ⟨.bold, padLeft (v.precision + 4) (v.fixed v.precision (.num v.total)) ++ " | ".toList⟩ ::
  (sortedNats task.subtasks.keys).map (fun st => ⟨.bold, ' ' :: center 3 (pointsText v st) ++ [' ']⟩)

/-- `print_summary`, finish_ui.rs:337-428. -/
def summary (task : Task) (v : View) (s : State) : Option (List Line) :=
  ((isort v.le s.evaluations.keys).mapM (summaryLine task v s)).map (fun l =>
    [⟨.blue, "Summary".toList⟩] :: summaryHeader task v s :: l ++ [[]])

/-- `print`, finish_ui.rs:35-59. -/
def report (task : Task) (v : View) (s : State) : Option (List Line) :=
  match (if s.generations.isEmpty then some [] else (generations task v s).map ([] :: ·)),
    (if s.evaluations.isEmpty then some [] else
      match evaluations task v s, (if task.subtasks.values.all (fun st => st.name.isSome) then table task v s else some []),
        summary task v s with
      | some a, some b, some c => some ([] :: a ++ b ++ c)
      | _, _, _ => none) with
  | some a, some b => some (a ++ b)
  | _, _ => none

end TM.Report
