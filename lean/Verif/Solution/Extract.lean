import Verif.Solution.Check
import Verif.Text.Span
/-!
# The `@check` comments of a solution: reading (`task-maker-format/src/solution.rs:288-368`) and writing
(`src/tools/add_solution_checks.rs:196-205, 255-300`)

The two regular expressions are modelled by what they match: `.*(@check-.*)` finds the last `@check-` of
the line; the other one the first `@check-NAME:` with one of seven names, and then everything up to the
end of the line (the blanks and the words after the colon).  Diagnostics are the lines they are about.
The file is readable.
-/
namespace TM.Solution
open TM.Text

/-- `char::is_whitespace` and `\s` of the regular expressions: the `White_Space` characters. -/
def isWs (c : Char) : Bool :=
  let n := c.toNat
  (9 ≤ n && n ≤ 13) || n == 0x20 || n == 0x85 || n == 0xA0 || n == 0x1680 ||
  (0x2000 ≤ n && n ≤ 0x200A) || n == 0x2028 || n == 0x2029 || n == 0x202F || n == 0x205F || n == 0x3000

/-- The loop of `str::split_whitespace`, with the current word; empty words are dropped. -/
def splitWsAux : Text → Text → List Text
  | [], [] => []
  | [], cur => [cur]
  | c :: cs, cur =>
    if isWs c then
      if cur.isEmpty then splitWsAux cs [] else cur :: splitWsAux cs []
    else splitWsAux cs (cur ++ [c])

/-- `split_patterns`, `task-maker-format/src/solution.rs:359-368`. -/
def splitWs (t : Text) : List Text := splitWsAux t []

/-- What both regular expressions look for. -/
def marker : Text := ['@', 'c', 'h', 'e', 'c', 'k', '-']

/-- `.*(@check-.*)`: the start of the last `@check-` of the line,
`task-maker-format/src/solution.rs:295, 321`. -/
def lastMarker : Text → Option Nat
  | [] => none
  | c :: cs => match lastMarker cs with
    | some i => some (i + 1)
    | none => if marker.isPrefixOf (c :: cs) then some 0 else none

/-- The names in the regular expression, `task-maker-format/src/solution.rs:299`. -/
def regexNames : List String :=
  ["accepted", "partial-score", "wrong-answer", "time-limit-exceeded", "memory-limit-exceeded",
   "runtime-error", "zero"]

/-- A match of the second regular expression at the beginning of a text: the name and what follows the
colon, `task-maker-format/src/solution.rs:296-310`. -/
def matchAt (t : Text) : Option (String × Text) :=
  if marker.isPrefixOf t then
    regexNames.findSome? (fun n =>
      if (n.toList ++ [':']).isPrefixOf (t.drop marker.length) then
        some (n, (t.drop marker.length).drop (n.toList.length + 1))
      else none)
  else none

/-- `EXTRACT_CHECKS.captures_iter(line).next()`: the leftmost match with its position,
`task-maker-format/src/solution.rs:325`. -/
def firstCheck : Text → Option (Nat × String × Text)
  | [] => none
  | c :: cs => match matchAt (c :: cs) with
    | some (n, r) => some (0, n, r)
    | none => match firstCheck cs with
      | some (i, n, r) => some (i + 1, n, r)
      | none => none

/-- `SolutionCheck`, `task-maker-format/src/solution.rs:79-87`. -/
structure SolutionCheck where
  result : Check
  pattern : Text
  span : CodeSpan
  deriving DecidableEq, Repr

/-- The checks and the lines that got an error diagnostic, or an error of the whole extraction (which
makes `Solution::new` forget the solution, `task-maker-format/src/solution.rs:31-49`). -/
abbrev Extracted := Except Unit (List SolutionCheck × List Text)

/-- The loop of `extract_check_list`, `task-maker-format/src/solution.rs:318-356`. -/
def extractLoop (content : Text) : List Text → Nat → Extracted
  | [], _ => .ok ([], [])
  | line :: lines, before =>
    let fileOffset := before + (line.length + 1)
    match lastMarker line with
    | none => extractLoop content lines fileOffset
    | some start =>
      let offset := fileOffset - 1 - line.length + start
      match firstCheck line with
      | some (pos, name, rest) =>
        match CodeSpan.fromStr content offset (line.length - pos) with
        | .error _ => .error ()
        | .ok span => match Check.fromStr name with
          | none => .error ()
          | some c => match extractLoop content lines fileOffset with
            | .error e => .error e
            | .ok (cs, ds) => .ok ((splitWs rest).map (fun p => ⟨c, p, span⟩) ++ cs, ds)
      | none => match extractLoop content lines fileOffset with
        | .error e => .error e
        | .ok (cs, ds) => .ok (cs, line :: ds)

/-- `SolutionCheck::extract_check_list`, `task-maker-format/src/solution.rs:290-357`. -/
def extract (content : Text) : Extracted := extractLoop content (splitNl content) 0

/-! ## Writing -/

/-- The names of the subtasks separated by spaces (`join(" ")`). -/
def joinSp : List Text → Text
  | [] => []
  | [w] => w
  | w :: ws => w ++ ' ' :: joinSp ws

/-- The comment with a check, `src/tools/add_solution_checks.rs:196-204`. -/
def comment (pre : Text) (c : Check) (names : List Text) : Text :=
  pre ++ ' ' :: (marker ++ (c.asStr.toList ++ (':' :: ' ' :: joinSp names)))

/-- The removal of the carriage return before a newline in `str::lines`. -/
def stripCr (l : Text) : Text := if l.getLast? = some '\r' then l.dropLast else l

/-- `str::lines`: the pieces between newlines, without a final empty one. -/
def linesOf (content : Text) : List Text :=
  let ps := splitNl content
  ps.dropLast.map stripCr ++ (match ps.getLast? with
    | some [] => []
    | some l => [l]
    | none => [])

/-- Removal of the distinct elements of the list, `collect::<HashSet>`. -/
def distinct : List Nat → List Nat
  | [] => []
  | a :: l => if a ∈ l then distinct l else a :: distinct l

/-- `lines.remove(i)` for each line, `src/tools/add_solution_checks.rs:277-279`; `none` is the panic
when there is no such line. -/
def removeLines : List Nat → List Text → Option (List Text)
  | [], ls => some ls
  | i :: is, ls => if i < ls.length then removeLines is (ls.eraseIdx i) else none

/-- `write_comments_to_file`, `src/tools/add_solution_checks.rs:255-300`: the new content of the file;
`none` is a panic. -/
def writeComments (content : Text) (comments : List Text) (toRemove : List SolutionCheck) :
    Option Text :=
  let toRemove := distinct (toRemove.map (fun c => c.span.lineNumber - 1))
  match removeLines (isort (fun a b => decide (a ≤ b)) toRemove).reverse (linesOf content) with
  | none => none
  | some lines =>
    let position := if ['#', '!'].isPrefixOf content then 1 else 0
    if position ≤ lines.length then
      some (joinNl (lines.take position ++ joinNl comments :: lines.drop position) ++ ['\n'])
    else none

end TM.Solution
