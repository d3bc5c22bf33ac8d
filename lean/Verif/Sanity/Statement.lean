import Verif.Format.PropsNumbers
/-!
# The subtasks of the statement (`ioi/sanity_checks/statement.rs`)

`StatementSubtasks`: the subtasks are looked for in the text of the statement with three regular expressions,
the first that finds something is used; then they are compared with the ones of the task.

A statement is the list of its lines: `.` does not match a new line, so that each match of the expressions is
inside a line.  (The only exception is the content of `\phantom{..}`, taken here to be on one line.)  `\d` is
restricted to the ASCII digits.  Scores are exact rationals.
-/
namespace TM.Sanity
open TM TM.Text

/-- `ExtractedSubtask`, statement.rs:287-296, without the spans. -/
structure StSub where
  id : Nat
  score : Option Rat
  deriving DecidableEq, Repr

/-- What is after the literal `p` at the start of `s`. -/
def after (p s : Text) : Option Text := if p.isPrefixOf s then some (s.drop p.length) else none

/-- The last place of the line where the expression matches: it starts with a greedy `.*`. -/
def lastMatch {A : Type} (f : Text → Option A) : Text → Option A
  | [] => f []
  | c :: r => match lastMatch f r with
    | some a => some a
    | none => f (c :: r)

/-- `[0-9]+` at the start of `s` and the rest; nothing if there are no digits. -/
def takeDigits (s : Text) : Option (Text × Text) :=
  if s.takeWhile Format.isDigit = [] then none
  else some (s.takeWhile Format.isDigit, s.dropWhile Format.isDigit)

/-- `(?:\\phantom\{[^\}]+\})?` at the start of `s`; if it does not match, neither does the digit that has to
follow. -/
def skipPhantom (s : Text) : Option Text :=
  match after "\\phantom{".toList s with
  | none => some s
  | some r => if r.takeWhile (fun c => decide (c ≠ '}')) = [] then none
    else after "}".toList (r.dropWhile (fun c => decide (c ≠ '}')))

/-- The expression of `check_subtasks_oii` without the `.*` at its ends, statement.rs:305-307. -/
def oiiAt (s : Text) : Option (Text × Text) :=
  (after "{Subtask ".toList s).bind fun s =>
  (takeDigits s).bind fun (num, s) =>
  (after "}".toList s).bind fun s =>
  (after "[".toList (s.dropWhile (fun c => decide (c = ' ')))).bind fun s =>
  (skipPhantom s).bind fun s =>
  (takeDigits s).bind fun (score, s) =>
  if ']' ∈ s then some (num, score) else none

/-- The number read from digits, if it is a `u32`. -/
def parseU32 (d : Text) : Option Nat :=
  if Format.digitsVal d < 2 ^ 32 then some (Format.digitsVal d) else none

/-- The loop of `check_subtasks_oii`, statement.rs:310-335: it stops at a number that cannot be read. -/
def oiiLoop : List (Text × Text) → Option (List StSub)
  | [] => some []
  | (num, score) :: rest =>
    match parseU32 num with
    | none => none
    | some n => (oiiLoop rest).map (⟨n, some (Format.digitsVal score : Rat)⟩ :: ·)

/-- `None` for an empty list, statement.rs:336-340. -/
def nonEmpty (l : List StSub) : Option (List StSub) := if l.isEmpty then none else some l

/-- `check_subtasks_oii`, statement.rs:303-341. -/
def subtasksOii (lines : List Text) : Option (List StSub) :=
  (oiiLoop (lines.filterMap (lastMatch oiiAt))).bind nonEmpty

/-- `check_subtasks_oii_new`, statement.rs:346-369: the lines with `\subtask`. -/
def subtasksNew (lines : List Text) : Option (List StSub) :=
  nonEmpty ((lines.filterMap (lastMatch (after "\\subtask".toList))).zipIdx.map (fun p => ⟨p.2, none⟩))

/-- The expression of `check_subtasks_ois` without the `.*` at its ends, statement.rs:376-378. -/
def oisAt (s : Text) : Option Text :=
  ((after "\\OISubtask{".toList s).or (after "\\IIOTsubtask{".toList s)).bind fun s =>
  (takeDigits s).bind fun (score, s) =>
  (after "}{".toList s).bind fun s =>
  (takeDigits s).bind fun (_, s) =>
  (after "}{".toList s).bind fun s =>
  if '}' ∈ s.drop 1 then some score else none

/-- `check_subtasks_ois`, statement.rs:374-402. -/
def subtasksOis (lines : List Text) : Option (List StSub) :=
  nonEmpty ((lines.filterMap (lastMatch oisAt)).zipIdx.map (fun p => ⟨p.2, some (Format.digitsVal p.1 : Rat)⟩))

/-- `extract_subtasks`, statement.rs:406-410. -/
def extractSubtasks (lines : List Text) : Option (List StSub) :=
  (subtasksOii lines).or ((subtasksNew lines).or (subtasksOis lines))

/-- The errors. -/
inductive StErr where
  /-- "The subtasks in .. are not sequentially numbered": the expected one, the one found -/
  | numbering (expected found : Nat)
  /-- "The score of subtask .. doesn't match the task's one" -/
  | score (id : Nat) (expected found : Rat)
  /-- "Wrong number of subtasks in .." -/
  | count (expected found : Nat)
  deriving DecidableEq, Repr

/-- `abs_diff_ne!` with the default precision, the one of `f64::EPSILON`. -/
def scoreDiffers (a b : Rat) : Bool := decide (¬ ((if a ≤ b then b - a else a - b) ≤ 1 / 2 ^ 52))

/-- The loop on the pairs, statement.rs:53-88: it stops at the first error. -/
def compareLoop (oneBased : Nat) : List (Nat × Rat) → List StSub → List StErr
  | (id, max) :: exp, a :: act =>
    if id + oneBased ≠ a.id then [.numbering (id + oneBased) a.id]
    else match a.score with
      | some s => if scoreDiffers max s then [.score a.id max s] else compareLoop oneBased exp act
      | none => compareLoop oneBased exp act
  | _, _ => []

/-- The comparison for one statement, statement.rs:48-101; `task` are the ids and the scores of the subtasks of
the task, by id. -/
def statementErrors (task : List (Nat × Rat)) (lines : List Text) : List StErr :=
  match extractSubtasks lines with
  | none => []
  | some subs =>
    compareLoop (if (subs.headD ⟨0, none⟩).id = 1 then 1 else 0) task subs ++
      (if task.length ≠ subs.length then [.count task.length subs.length] else [])

/-- The booklets, statement.rs:43-103: only those with one statement are looked at; the errors with the booklet
they are about. -/
def statementSubtasks (task : List (Nat × Rat)) (booklets : List (List (List Text))) : List (Nat × StErr) :=
  booklets.zipIdx.flatMap fun p => match p.1 with
    | [lines] => (statementErrors task lines).map (fun e => (p.2, e))
    | _ => []

end TM.Sanity
