import Verif.Base.Sort
import Verif.Base.AMap
/-!
# Expected results of the solutions (`task-maker-format/src/solution.rs`,
`src/tools/add_solution_checks.rs`)
-/
namespace TM.Solution

/-- `TestcaseEvaluationResult`, `task-maker-format/src/solution.rs:107-122`. -/
inductive Outcome where
  | accepted
  | partialScore
  | wrongAnswer
  | timeLimit
  | wallTimeLimit
  | memoryLimit
  | runtimeError
  deriving DecidableEq, Repr

/-- `TestcaseEvaluationResult::proj`, `task-maker-format/src/solution.rs:125-135`. -/
def Outcome.proj : Outcome → Nat
  | .accepted => 2
  | .partialScore => 1
  | .wrongAnswer => 0
  | .timeLimit => 0
  | .wallTimeLimit => 0
  | .memoryLimit => 0
  | .runtimeError => 0

/-- `partial_cmp`, `task-maker-format/src/solution.rs:139-146`; `none` is "not comparable". -/
def Outcome.cmp (a b : Outcome) : Option Ordering :=
  if a.proj > b.proj then some .gt
  else if a.proj < b.proj then some .lt
  else if a.proj = b.proj ∧ a = b then some .eq
  else none

/-- `a < b`: the operator derived from `partial_cmp`. -/
def Outcome.lt (a b : Outcome) : Bool := a.cmp b == some .lt

/-- `res as u32`: the discriminant, `task-maker-format/src/solution.rs:107-122`. -/
def Outcome.tag : Outcome → Nat
  | .accepted => 0
  | .partialScore => 1
  | .wrongAnswer => 2
  | .timeLimit => 3
  | .wallTimeLimit => 4
  | .memoryLimit => 5
  | .runtimeError => 6

/-- `SolutionCheckResult`, `task-maker-format/src/solution.rs:158-179`. -/
inductive Check where
  | accepted
  | partialScore
  | wrongAnswer
  | timeLimit
  | wallTimeLimit
  | memoryLimit
  | runtimeError
  | zero
  deriving DecidableEq, Repr

/-- The derived order of `SolutionCheckResult`: the one of the declarations,
`task-maker-format/src/solution.rs:157-179`. -/
def Check.tag : Check → Nat
  | .accepted => 0
  | .partialScore => 1
  | .wrongAnswer => 2
  | .timeLimit => 3
  | .wallTimeLimit => 4
  | .memoryLimit => 5
  | .runtimeError => 6
  | .zero => 7

/-- `SolutionCheckResult::from_str`, `task-maker-format/src/solution.rs:184-197`. -/
def Check.fromStr (s : String) : Option Check :=
  if s = "accepted" then some .accepted
  else if s = "partial-score" then some .partialScore
  else if s = "wrong-answer" then some .wrongAnswer
  else if s = "time-limit-exceeded" then some .timeLimit
  else if s = "wall-time-limit-exceeded" then some .wallTimeLimit
  else if s = "memory-limit-exceeded" then some .memoryLimit
  else if s = "runtime-error" then some .runtimeError
  else if s = "zero" then some .zero
  else none

/-- `SolutionCheckResult::sorted_all`, `task-maker-format/src/solution.rs:202-213`. -/
def Check.sortedAll : List Check :=
  [.accepted, .partialScore, .wrongAnswer, .timeLimit, .wallTimeLimit, .memoryLimit, .runtimeError,
   .zero]

/-- `SolutionCheckResult::as_str`, `task-maker-format/src/solution.rs:216-227`. -/
def Check.asStr : Check → String
  | .accepted => "accepted"
  | .partialScore => "partial-score"
  | .wrongAnswer => "wrong-answer"
  | .timeLimit => "time-limit-exceeded"
  | .wallTimeLimit => "wall-time-limit-exceeded"
  | .memoryLimit => "memory-limit-exceeded"
  | .runtimeError => "runtime-error"
  | .zero => "zero"

/-- `SolutionCheckResult::minimals`, `task-maker-format/src/solution.rs:267-285`. -/
def Check.minimals : Check → List Outcome
  | .accepted => [.accepted]
  | .partialScore => [.partialScore]
  | .wrongAnswer => [.wrongAnswer]
  | .timeLimit => [.timeLimit]
  | .wallTimeLimit => [.wallTimeLimit]
  | .memoryLimit => [.memoryLimit]
  | .runtimeError => [.runtimeError]
  | .zero => [.wrongAnswer, .timeLimit, .wallTimeLimit, .memoryLimit, .runtimeError]

/-- The loop of `SolutionCheckResult::check`, `task-maker-format/src/solution.rs:247-255`. -/
def Check.loop (c : Check) (outcomes : List Outcome) : List Outcome → Bool
  | [] => false
  | o :: rest =>
    if outcomes.any (fun o' => o'.lt o) then c.loop outcomes rest
    else if c.minimals.contains o then true
    else c.loop outcomes rest

/-- `SolutionCheckResult::check`, `task-maker-format/src/solution.rs:246-265`. -/
def Check.check (c : Check) (outcomes : List Outcome) : Bool :=
  if c.loop outcomes outcomes then true
  else if outcomes.isEmpty && c.minimals.contains .accepted then true
  else false

/-- `Vec::dedup`: consecutive equal elements. -/
def dedup : List Outcome → List Outcome
  | [] => []
  | [a] => [a]
  | a :: b :: rest => if a = b then dedup (b :: rest) else a :: dedup (b :: rest)

/-- The results left by the filter of `choose_check_for_subtask`,
`src/tools/add_solution_checks.rs:225-240`. -/
def minimalResults (results : List Outcome) : List Outcome :=
  let l := dedup (isort (fun a b => decide (a.tag ≤ b.tag)) results)
  l.filter (fun res => l.all (fun res2 => decide (res2.cmp res ≠ some .lt)))

/-- `choose_check_for_subtask`, `src/tools/add_solution_checks.rs:222-253`; `none` is the
`unreachable!`. -/
def chooseCheck (results : List Outcome) : Option Check :=
  let m := minimalResults results
  Check.sortedAll.find? (fun c => m.all (fun res => c.minimals.contains res))

/-- The first loop of `process_solution`, `src/tools/add_solution_checks.rs:161-186`: the name and the
results of each subtask in the order of the ids give the names of the subtasks of each check.  `none` is
the `unreachable!` of `choose_check_for_subtask`. -/
def collectChecks : List (String × List Outcome) → AMap Check (List String) →
    Option (AMap Check (List String))
  | [], m => some m
  | (name, results) :: rest, m => match chooseCheck results with
    | none => none
    | some c => collectChecks rest (m.insert c ((m.get? c).getD [] ++ [name]))

/-- The checks to write: `src/tools/add_solution_checks.rs:161-195` (the sort makes the
iteration order of the hash map irrelevant, its keys being distinct). -/
def checksToWrite (subtasks : List (String × List Outcome)) :
    Option (List (Check × List String)) :=
  (collectChecks subtasks []).map (isort (fun a b => decide (a.1.tag ≤ b.1.tag)))

end TM.Solution
