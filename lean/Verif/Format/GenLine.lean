import Verif.Format.Entries

/-!
# The grammar of `gen/GEN`

Model of `task-maker-format/src/ioi/format/italian_yaml/GEN.pest`, rule by rule.  A rule is a function
from the remaining text to the value it produces and the text that is left, or nothing when the rule
does not match: as in `pest`, choices are ordered and repetitions are greedy, and neither is ever
reconsidered.
-/
namespace TM.Format

/-- `whitespace = _{ " " | "\t" }` (GEN.pest:10). -/
def isWs (c : Char) : Bool := c == ' ' || c == '\t'

/-- The first character of `NEWLINE`, which is `"\n" | "\r\n" | "\r"` in pest. -/
def isNl (c : Char) : Bool := c == '\n' || c == '\r'

/-- A character of a `word`: `!(whitespace | "#") ~ non_newline` (GEN.pest:11,14). -/
def isWord (c : Char) : Bool := !(isWs c || c == '#') && !isNl c

/-- `ASCII_DIGIT`. -/
def isDigit (c : Char) : Bool := decide ('0'.toNat ≤ c.toNat) && decide (c.toNat ≤ '9'.toNat)

/-- `whitespace*`. -/
def skipWs (s : Text) : Text := s.dropWhile isWs

/-- `spaces = _{ whitespace+ }` (GEN.pest:15). -/
def spaces? (s : Text) : Option Text :=
  match s with
  | c :: _ => if isWs c then some (skipWs s) else none
  | [] => none

/-- `word` (GEN.pest:14): one or more characters. -/
def word? (s : Text) : Option (Text × Text) :=
  match s.takeWhile isWord with
  | [] => none
  | w => some (w, s.dropWhile isWord)

/-- `number = { ASCII_DIGIT+ }` (GEN.pest:12). -/
def number? (s : Text) : Option (Text × Text) :=
  match s.takeWhile isDigit with
  | [] => none
  | w => some (w, s.dropWhile isDigit)

/-- A literal. -/
def lit? : Text → Text → Option Text
  | [], s => some s
  | c :: cs, d :: ds => if c = d then lit? cs ds else none
  | _ :: _, [] => none

/-- `non_newline*`. -/
def skipLine (s : Text) : Text := s.dropWhile (fun c => !isNl c)

/-- A parsed line.  The `number` of a subtask is kept as it is written, as in the code. -/
inductive GenLine where
  | subtask (score : Text)
  | subtaskName (name : Text)
  | subtaskDep (names : List Text)
  | copy (path : Text)
  | command (args : List Text)
  | comment
  | empty
  deriving DecidableEq, Repr

/-- `comment = { "#" ~ spaces ~ non_newline* | "#" }` (GEN.pest:17). -/
def comment? (s : Text) : Option Text :=
  match lit? ['#'] s with
  | none => none
  | some r =>
    match spaces? r with
    | some r' => some (skipLine r')
    | none => some r

/-- `risky_comment = { "#" ~ non_newline* | "#" }` (GEN.pest:18). -/
def riskyComment? (s : Text) : Option Text := (lit? ['#'] s).map skipLine

/-- `subtask = { "#ST:" ~ whitespace* ~ number ~ whitespace* }` (GEN.pest:19). -/
def subtask? (s : Text) : Option (GenLine × Text) :=
  match lit? "#ST:".toList s with
  | none => none
  | some r =>
    match number? (skipWs r) with
    | none => none
    | some (n, r') => some (.subtask n, skipWs r')

/-- `subtask_name = { "#STNAME:" ~ whitespace* ~ word ~ whitespace* }` (GEN.pest:20). -/
def subtaskName? (s : Text) : Option (GenLine × Text) :=
  match lit? "#STNAME:".toList s with
  | none => none
  | some r =>
    match word? (skipWs r) with
    | none => none
    | some (n, r') => some (.subtaskName n, skipWs r')

/-- `(whitespace* ~ word)*`: the number bounds the repetitions; each one consumes a character, so the
length of the text is enough. -/
def depWords : Nat → Text → List Text × Text
  | 0, s => ([], s)
  | n + 1, s =>
    match word? (skipWs s) with
    | none => ([], s)
    | some (w, r) => let (ws, r') := depWords n r; (w :: ws, r')

/-- `subtask_dep = { "#STDEP:" ~ (whitespace* ~ word)* ~ whitespace* }` (GEN.pest:21). -/
def subtaskDep? (s : Text) : Option (GenLine × Text) :=
  match lit? "#STDEP:".toList s with
  | none => none
  | some r => let (ws, r') := depWords r.length r; some (.subtaskDep ws, skipWs r')

/-- `copy = { "#COPY:" ~ whitespace* ~ word ~ whitespace* }` (GEN.pest:22). -/
def copy? (s : Text) : Option (GenLine × Text) :=
  match lit? "#COPY:".toList s with
  | none => none
  | some r =>
    match word? (skipWs r) with
    | none => none
    | some (n, r') => some (.copy n, skipWs r')

/-- `(spaces ~ word)*`, bounded like `depWords`. -/
def cmdWords : Nat → Text → List Text × Text
  | 0, s => ([], s)
  | n + 1, s =>
    match spaces? s with
    | none => ([], s)
    | some r =>
      match word? r with
      | none => ([], s)
      | some (w, r') => let (ws, r'') := cmdWords n r'; (w :: ws, r'')

/-- `command = { !"#" ~ whitespace* ~ word ~ (spaces ~ word)* ~ whitespace* }` (GEN.pest:23). -/
def command? (s : Text) : Option (GenLine × Text) :=
  match lit? ['#'] s with
  | some _ => none
  | none =>
    match word? (skipWs s) with
    | none => none
    | some (w, r) => let (ws, r') := cmdWords r.length r; some (.command (w :: ws), skipWs r')

/-- The alternatives of `line` (GEN.pest:26) in their order; `empty = { whitespace* }` always
matches. -/
def lineBody (s : Text) : GenLine × Text :=
  match subtask? s with
  | some r => r
  | none =>
  match subtaskName? s with
  | some r => r
  | none =>
  match subtaskDep? s with
  | some r => r
  | none =>
  match copy? s with
  | some r => r
  | none =>
  match comment? s with
  | some r => (.comment, r)
  | none =>
  match command? s with
  | some r => r
  | none => (.empty, skipWs s)

/-- `line = { (...) ~ risky_comment? }` (GEN.pest:26). -/
def line (s : Text) : GenLine × Text :=
  let (l, r) := lineBody s
  (l, (riskyComment? r).getD r)

/-- `NEWLINE`. -/
def newline? : Text → Option Text
  | '\n' :: s => some s
  | '\r' :: '\n' :: s => some s
  | '\r' :: s => some s
  | _ => none

/-- `file = { SOI ~ (line ~ NEWLINE)* ~ line ~ NEWLINE? ~ EOI }` (GEN.pest:29).  The number bounds the
repetitions of `line ~ NEWLINE`, each of which consumes a character.  The iteration stops at the first
line that is not followed by a newline; the last `line` of the rule starts where the failed iteration
started, so it is the same line, and what is left must be the end of the text. -/
def fileLines : Nat → Text → Option (List GenLine)
  | 0, _ => none
  | n + 1, s =>
    let (l, r) := line s
    match newline? r with
    | some r' => (fileLines n r').map (l :: ·)
    | none => if r.isEmpty then some [l] else none

/-- The whole grammar: `GENParser::parse(Rule::file, content)` (gen_gen.rs:46-48). -/
def parseGen (content : Text) : Option (List GenLine) := fileLines (content.length + 1) content

end TM.Format
