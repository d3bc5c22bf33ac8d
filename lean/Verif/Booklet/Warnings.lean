import Verif.Booklet.Tex
/-!
# The errors in the log of latexmk

Model of `Booklet::emit_warnings` (task-maker-format/src/ioi/statement/booklet.rs:264-306).
-/
namespace TM.Booklet
open TM TM.Text

/-- `!(?: LaTeX Error:)? ([^\n]+)` on a line, booklet.rs:272: the first group.  The optional part is preferred when the rest
matches after it. -/
def errorMessage (l : Text) : Option Text :=
  match l with
  | '!' :: rest =>
    if " LaTeX Error: ".toList.isPrefixOf rest && decide (" LaTeX Error: ".length < rest.length) then
      some (rest.drop " LaTeX Error: ".length)
    else match rest with
      | ' ' :: c :: cs => some (c :: cs)
      | _ => none
  | _ => none

/-- `l\.\d+` at the beginning of a line, booklet.rs:272: the digits.  Only the ASCII digits. -/
def lineNumber (l : Text) : Option Text :=
  match l with
  | 'l' :: '.' :: ds =>
    let d := ds.takeWhile Char.isDigit
    if d = [] then none else some d
  | _ => none

/-- `FIND_ERRORS.captures_iter`, booklet.rs:270-283, on the lines of the log.  The regex is
`(?ms)^!(?: LaTeX Error:)? ([^\n]+).*?(^l\.\d+)`: it begins at a line, `([^\n]+)` takes the rest of that line and the lazy `.*?` ends
at the first later line that begins with `l.` and a digit; the search of the next match continues after it.  The first argument is
the message of the match that has begun.  Without a line with `l.` after it there is no match, nor is there one that begins later. -/
def findErrors : Option Text → List Text → List (Text × Text)
  | _, [] => []
  | none, l :: ls => findErrors (errorMessage l) ls
  | some m, l :: ls =>
    match lineNumber l with
    | some d => (d, m) :: findErrors none ls
    | none => findErrors (some m) ls

/-- `line.parse::<i32>().ok()` of a string of digits, booklet.rs:279-281. -/
def parseI32 (d : Text) : Option Nat :=
  let n := d.foldl (fun n c => n * 10 + (c.toNat - '0'.toNat)) 0
  if n < 2 ^ 31 then some n else none

/-- `Option<i32>` in the order of Rust: `None` first. -/
def lineLe : Option Nat → Option Nat → Bool
  | none, _ => true
  | some _, none => false
  | some a, some b => decide (a ≤ b)

/-- The set of the errors, booklet.rs:277-283. -/
def errorSet (log : Text) : List (Option Nat × Text) :=
  ((findErrors none (splitNl log)).map (fun p => (parseI32 p.1, p.2))).foldl insertNew []

/-- A line of the note, booklet.rs:288-294. -/
def noteLine : Option Nat × Text → Text
  | (some n, m) => "Line ".toList ++ (toString n).toList ++ ": ".toList ++ m
  | (none, m) => m

/-- The errors of the note, in order. -/
def sortedErrors (log : Text) : List (Option Nat × Text) := isort (lexLe lineLe textLe) (errorSet log)

/-- The note of the diagnostic, if there is one: `Booklet::emit_warnings`, booklet.rs:284-303. -/
def warning (log : Text) : Option Text :=
  if errorSet log = [] then none else some (joinNl ((sortedErrors log).map noteLine))

end TM.Booklet
