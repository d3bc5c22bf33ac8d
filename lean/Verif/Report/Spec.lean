import Verif.Report.Model
/-!
# What the final report should say (C112-C116)
-/
namespace TM.Report.Spec
open TM TM.Build TM.Ui

/-- The subtasks of the task, in increasing order. -/
def Subtasks (task : Task) (ids : List Nat) : Prop :=
  ids.Pairwise (· < ·) ∧ ∀ st, st ∈ ids ↔ ∃ info, task.subtasks.get? st = some info

/-- The solutions of a list, once each, in the order of their paths. -/
def Ordered (v : View) (known : Nat → Prop) (sols : List Nat) : Prop :=
  sols.Pairwise (fun a b => v.le a b = true) ∧ sols.Nodup ∧ ∀ j, j ∈ sols ↔ known j

/-- The testcases that a subtask is the first to have. -/
def ownedBy (task : Task) (st : Nat) : List Nat := ((task.subtasks.get? st).map (·.owned)).getD []

/-- The name of a subtask. -/
def nameOf (task : Task) (st : Nat) : Text := (((task.subtasks.get? st).bind (·.name)).getD "").toList

/-- How a testcase of a solution ended. -/
def statusOf (s : State) (j k : Nat) : EvalStatus :=
  (((s.evaluations.get? j).bind (·.testcases.get? k)).map (·.status)).getD .pending

/-- The score of a solution. -/
def solutionScore (s : State) (j : Nat) : Option Score.Score := (s.evaluations.get? j).bind (·.score)

/-- The score of a solution on a subtask, and the same between 0 and 1; both or none. -/
def subtaskScore (s : State) (j st : Nat) : Option (Score.Score × Score.Score) :=
  ((s.evaluations.get? j).bind (·.subtasks.get? st)).bind (fun x => x.score.bind (fun a => x.normalized.map (fun b => (a, b))))

/-- The fraction of the points of a subtask that is used to choose the colour of its brackets. -/
def fraction (s : State) (j st : Nat) : Score.Score :=
  (((s.evaluations.get? j).bind (·.subtasks.get? st)).bind (·.normalized)).getD (.num 0)

/-- One letter for each way a testcase can end. -/
def letterOf : EvalStatus → Char
  | .accepted _ => 'A'
  | .wrongAnswer _ => 'W'
  | .partialScore _ => 'P'
  | .timeLimit => 'T'
  | .wallTimeLimit => 'T'
  | .memoryLimit => 'M'
  | .runtimeError => 'R'
  | .failed => 'F'
  | .skipped => 'S'
  | .pending => 'X'
  | .solving => 'X'
  | .solved => 'X'
  | .checking => 'X'

/-- How far the colour of a letter can be from its usual one: the solution almost exceeded a limit, or exceeded it by a
little. -/
def warns : EvalStatus → Bool
  | .accepted _ => true
  | .partialScore _ => true
  | .timeLimit => true
  | .memoryLimit => true
  | _ => false

/-- The usual colour. -/
def usual : EvalStatus → Color
  | .accepted _ => .green
  | .partialScore _ => .yellow
  | .wrongAnswer _ => .red
  | .timeLimit => .red
  | .wallTimeLimit => .red
  | .memoryLimit => .red
  | .runtimeError => .red
  | _ => .bold

/-- The colour of the letter. -/
def colorOf (close : Bool) (st : EvalStatus) : Color := if close && warns st then .orange else usual st

/-- The colour of a score between 0 and 1: 1 up to a thousandth is green, 0 is red. -/
def scoredColor : Score.Score → Color
  | .nan => .yellow
  | .num x => if x = 0 then .red else if -(1/1000) < x - 1 ∧ x - 1 < 1/1000 then .green else .yellow

/-- The score of a solution: a number, or some `X` when there is none. -/
def totalText (v : View) : Option Score.Score → Text
  | some x => padLeft (v.precision + 4) (v.fixed v.precision x)
  | none => padLeft (v.precision + 4) (if v.precision = 0 then ['X'] else 'X' :: '.' :: List.replicate v.precision 'X')

/-- The score of a solution on a subtask. -/
def subtaskSeg (v : View) : Option (Score.Score × Score.Score) → Seg
  | some (x, n) => ⟨scoredColor n, [' '] ++ center 3 (v.fixed 0 x) ++ [' ']⟩
  | none => ⟨.plain, [' '] ++ center 3 ['X'] ++ [' ']⟩

/-- The testcases of a subtask, between brackets. -/
def letters (task : Task) (v : View) (s : State) (j st : Nat) : Line :=
  [⟨scoredColor (fraction s j st), ['[']⟩] ++
  (ownedBy task st).map (fun k => ⟨colorOf (v.close j k) (statusOf s j k), [letterOf (statusOf s j k)]⟩) ++
  [⟨scoredColor (fraction s j st), [']']⟩]

/-- The line of a solution in the summary: its name, its score, the scores of the subtasks and the testcases. -/
def SummaryRow (task : Task) (v : View) (s : State) (ids : List Nat) (j : Nat) (row : Line) : Prop :=
  ∃ w, row = [⟨.plain, padLeft w (v.name j) ++ [' ']⟩, ⟨.plain, totalText v (solutionScore s j) ++ [' ', '|', ' ']⟩] ++
    ids.map (fun st => subtaskSeg v (subtaskScore s j st)) ++ [⟨.plain, [' ', ' ']⟩] ++
    ids.flatMap (letters task v s j)

/-! ## The generations -/

/-- The state of the generation of a testcase. -/
def genOf (s : State) (st k : Nat) : GenState := ((s.generations.get? st).bind (·.get? k)).getD {}

/-- The three steps of the generation of a testcase: how they are named when they go well and how they ended. -/
def steps (g : GenState) : List (Text × Option ExecutionStatus) :=
  [("Generated".toList, g.generation), ("Validated".toList, g.validation), ("Solved".toList, g.solution)]

/-- The steps that went well. -/
def done (g : GenState) : List Text := ((steps g).filter (fun p => p.2 = some .success)).map (·.1)

/-- How the others went. -/
def wrong (g : GenState) : List ExecutionStatus :=
  (steps g).filterMap (fun p => p.2.bind (fun r => if r = .success then none else some r))

/-- The line of a testcase: its number, in green the steps that went well and in yellow the others, with how each
one of them ended. -/
def GenRow (v : View) (k : Nat) (g : GenState) (row : Line) : Prop :=
  (∃ rest, row = ⟨.plain, ['#'] ++ padRight 3 (digits k) ++ [' ']⟩ :: rest) ∧
  (row.filter (fun x => x.color = .green)).map (·.text) = done g ∧
  (∃ bad : List Text, (row.filter (fun x => x.color = .yellow)).map (·.text) = bad ∧
    bad.length = (wrong g).length ∧ ∀ (i : Nat) r, (wrong g)[i]? = some r → ∃ t, bad[i]? = some (t ++ v.debug r)) ∧
  ∀ x ∈ row, x.color = .green ∨ x.color = .yellow ∨ x.color = .plain

/-- The testcases of a subtask, in increasing order. -/
def Testcases (task : Task) (st : Nat) (l : List Nat) : Prop :=
  l.Pairwise (· < ·) ∧ ∀ k, k ∈ l ↔ k ∈ ownedBy task st

/-- The part of the generations about a subtask: a title with its number and its name, and a line for each testcase. -/
def GenBlock (task : Task) (v : View) (s : State) (st : Nat) (block : List Line) : Prop :=
  ∃ title tcs rows, block = title :: rows ∧ (∃ rest, lineText title = "Subtask ".toList ++ digits st ++ rest) ∧
    Testcases task st tcs ∧ rows.length = tcs.length ∧
    ∀ (i : Nat) k, tcs[i]? = some k → ∃ row, rows[i]? = some row ∧ GenRow v k (genOf s st k) row

/-! ## The evaluations -/

/-- The state of a testcase of a solution. -/
def tcOf (s : State) (j k : Nat) : TcEval := ((s.evaluations.get? j).bind (·.testcases.get? k)).getD {}

/-- The message of the checker or, if there is none, what happened. -/
def messageOf : EvalStatus → Text
  | .accepted m => if m = "" then "Output is correct".toList else m.toList
  | .wrongAnswer m => if m = "" then "Output is not correct".toList else m.toList
  | .partialScore m => if m = "" then "Partially correct".toList else m.toList
  | .timeLimit => "Time limit exceeded".toList
  | .wallTimeLimit => "Execution took too long".toList
  | .memoryLimit => "Memory limit exceeded".toList
  | .runtimeError => "Runtime error".toList
  | .failed => "Execution failed".toList
  | .skipped => "Execution skipped".toList
  | .pending => "Not done".toList
  | .solving => "Solution running".toList
  | .solved => "Solution completed".toList
  | .checking => "Checker running".toList

/-- The score of a testcase: in green if it is 1, in red if it is 0. -/
def testcaseScore (v : View) : Option Score.Score → Seg
  | some x => ⟨if x = .num 0 then .red else if x = .num 1 then .green else .yellow, ['['] ++ v.fixed v.tcPrecision x ++ [']']⟩
  | none => ⟨.plain, ['[', 'X', '.'] ++ List.replicate v.tcPrecision 'X' ++ [']']⟩

/-- Some part of the solution that ended satisfies `p`. -/
def SomePart (x : TcEval) (p : Nat → Prop) : Prop := ∃ i r, x.results[i]? = some (some r) ∧ p i

/-- The line of a testcase: its number, its score, what each part of the solution used, what happened, and whether a
part was killed and all of them were in the cache. -/
def TcRow (v : View) (j k : Nat) (x : TcEval) (row : Line) : Prop :=
  ∃ (usage details : Line) (killed cached : Bool),
    row = [⟨.plain, padLeft 3 (digits k) ++ [')', ' ']⟩, testcaseScore v x.score] ++ usage ++
      [⟨.plain, [' '] ++ messageOf x.status⟩] ++ details ++
      (if killed then [⟨.plain, " (killed)".toList⟩] else []) ++
      (if cached then [⟨.plain, " (from cache)".toList⟩] else []) ∧
    usage.length = x.results.length ∧
    (∀ (i : Nat) r, x.results[i]? = some r → usage[i]? = some ⟨.plain, match r with
      | some _ => [' ', '['] ++ (v.part j k i).usage ++ [']']
      | none => [' ', '[', '?', '?', '?', ']']⟩) ∧
    details.map (·.text) = (x.results.filterMap id).map v.detail ∧
    (killed = true ↔ SomePart x (fun i => (v.part j k i).killed = true)) ∧
    (cached = false ↔ SomePart x (fun i => (v.part j k i).cached = false))

/-- A score that is not there. -/
def noScore (v : View) : Text := if v.precision = 0 then ['X'] else 'X' :: '.' :: List.replicate v.precision 'X'

/-- A part of the points of the task. -/
def fractionOf (x : Score.Score) (m : Rat) : Score.Score :=
  match x with
  | .num q => if m = 0 then .nan else .num (q / m)
  | .nan => .nan

/-- The part of the evaluations about a subtask of a solution. -/
def EvalBlock (task : Task) (v : View) (s : State) (j st : Nat) (block : List Line) : Prop :=
  ∃ (title : Line) (rows : List Line), block = title :: rows ∧ rows.length = (ownedBy task st).length ∧
    (∀ (i : Nat) k, (ownedBy task st)[i]? = some k → ∃ row, rows[i]? = some row ∧ TcRow v j k (tcOf s j k) row) ∧
    (∃ rest, lineText title = "Subtask #".toList ++ digits st ++ rest) ∧
    title.getLast? = some (match subtaskScore s j st with
      | some (x, n) => ⟨scoredColor n, v.fixed v.precision x ++ [' ', '/', ' '] ++ v.fixed v.precision (.num (v.points st))⟩
      | none => ⟨.plain, noScore v ++ [' ', '/', ' '] ++ v.fixed v.precision (.num (v.points st))⟩)

/-- The part of the evaluations about a solution. -/
def SolBlock (task : Task) (v : View) (s : State) (ids : List Nat) (j : Nat) (block : List Line) : Prop :=
  ∃ (title : Line) (blocks : List (List Line)), block = title :: blocks.flatten ∧ (∃ rest, lineText title = v.name j ++ rest) ∧
    title.getLast? = some (match solutionScore s j with
      | some x => ⟨scoredColor (fractionOf x v.total), v.fixed v.precision x ++ [' ', '/', ' '] ++ v.fixed v.precision (.num v.total)⟩
      | none => ⟨.plain, noScore v ++ [' ', '/', ' '] ++ v.fixed v.precision (.num v.total)⟩) ∧
    blocks.length = ids.length ∧
    ∀ (i : Nat) st, ids[i]? = some st → ∃ b, blocks[i]? = some b ∧ EvalBlock task v s j st b

/-! ## The table of the checks -/

/-- The short name of a check. -/
def codeOf : Solution.Check → Text
  | .accepted => ['A', 'C']
  | .partialScore => ['P', 'S']
  | .wrongAnswer => ['W', 'A']
  | .timeLimit => ['T', 'L', 'E']
  | .wallTimeLimit => ['W', 'T', 'L', 'E']
  | .memoryLimit => ['M', 'L', 'E']
  | .runtimeError => ['R', 'E']
  | .zero => ['Z', 'R']

/-- What a cell says: the checks, in green those that succeeded and in red the others; a question mark if there is
none. -/
def CellShows (rs : List CheckOutcome) (c : Line) : Prop :=
  c.filter (fun x => x.color ≠ .plain) = rs.map (fun r => ⟨if r.success then .green else .red, codeOf r.check.result⟩) ∧
  (∀ x ∈ c, x.color = .plain → ∀ ch ∈ x.text, ch = ' ' ∨ (ch = '?' ∧ rs = [])) ∧ (rs = [] → '?' ∈ lineText c)

/-- A line of the table: the name of the solution and a cell for each subtask. -/
def TableRow (v : View) (results : Nat → Nat → List CheckOutcome) (ids : List Nat) (j : Nat) (row : Line) : Prop :=
  ∃ (w : Nat) (cells : List Line),
    row = ⟨.plain, padLeft w (v.name j)⟩ :: cells.flatMap (fun c => ⟨.plain, [' ', '|', ' ']⟩ :: c) ∧
    cells.length = ids.length ∧
    ∀ (i : Nat) st, ids[i]? = some st → ∃ c, cells[i]? = some c ∧ CellShows (results j st) c

end TM.Report.Spec
