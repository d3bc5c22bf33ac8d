import Verif.Format.GenGen

/-!
# The grammar of `gen/cases.gen`

Model of `task-maker-format/src/ioi/format/italian_yaml/cases.gen.pest`, rule by rule, with the same
conventions as `Verif.Format.GenLine`.  `whitespace`, `word` and `NEWLINE` are the same rules as those
of `GEN.pest`.
-/
namespace TM.Format

/-- `ConstraintOperator` (cases_gen.rs:56-67). -/
inductive CmpOp where
  | less | lessEqual | greater | greaterEqual | equal
  deriving DecidableEq, Repr

/-- An operand of a `:CONSTRAINT` line: a `number` as it is written or a `variable` without the `$`. -/
inductive CTerm where
  | number (text : Text)
  | var (name : Text)
  deriving DecidableEq, Repr

/-- A command of `cases.gen`.  `:GEN` and `:VAL` with more than a name are definitions; the text of the
list of variables is kept as it is written, like all the numbers. -/
inductive CCommand where
  | genSelect (name : Text)
  | genDefine (name path vars : Text)
  | valSelect (name : Text)
  | valDefine (name path vars : Text)
  | constraint (first : CTerm) (rest : List (CmpOp × CTerm))
  | subtask (score : Text) (description : Option Text)
  | stDep (names : List Text)
  | copy (path : Text)
  | run (name args : Text)
  deriving DecidableEq, Repr

/-- A line of `cases.gen`. -/
inductive CLine where
  | command (c : CCommand)
  | testcase (text : Text)
  | comment
  | empty
  deriving DecidableEq, Repr

/-- A character of `rest`: `!"#" ~ non_newline`. -/
def isRest (c : Char) : Bool := c != '#' && !isNl c

/-- `rest = { (!"#" ~ non_newline)+ }` (cases.gen.pest:7). -/
def rest? (s : Text) : Option (Text × Text) :=
  match s.takeWhile isRest with
  | [] => none
  | w => some (w, s.dropWhile isRest)

/-- `number = { ("-" | "+")? ~ ASCII_DIGIT+ }` (cases.gen.pest:4). -/
def signed? (s : Text) : Option (Text × Text) :=
  match s with
  | '-' :: r => (number? r).map fun p => ('-' :: p.1, p.2)
  | '+' :: r => (number? r).map fun p => ('+' :: p.1, p.2)
  | _ => number? s

/-- `float = { ASCII_DIGIT+ ~ ("." ~ ASCII_DIGIT+)? }` (cases.gen.pest:5). -/
def float? (s : Text) : Option (Text × Text) :=
  match number? s with
  | none => none
  | some (i, r) =>
    match lit? ['.'] r with
    | none => some (i, r)
    | some r' =>
      match number? r' with
      | none => some (i, r)
      | some (f, r'') => some (i ++ '.' :: f, r'')

/-- `variable = { "$" ~ word }` (cases.gen.pest:8) without the `$`. -/
def variable? (s : Text) : Option (Text × Text) :=
  match lit? ['$'] s with
  | none => none
  | some r => word? r

/-- `comp_operator = { "<=" | "<" | ">=" | ">" | "=" }` (cases.gen.pest:10). -/
def compOp? (s : Text) : Option (CmpOp × Text) :=
  match lit? ['<', '='] s with
  | some r => some (.lessEqual, r)
  | none =>
  match lit? ['<'] s with
  | some r => some (.less, r)
  | none =>
  match lit? ['>', '='] s with
  | some r => some (.greaterEqual, r)
  | none =>
  match lit? ['>'] s with
  | some r => some (.greater, r)
  | none =>
  match lit? ['='] s with
  | some r => some (.equal, r)
  | none => none

/-- `number | variable`. -/
def operand? (s : Text) : Option (CTerm × Text) :=
  match signed? s with
  | some (n, r) => some (.number n, r)
  | none =>
    match variable? s with
    | some (v, r) => some (.var v, r)
    | none => none

/-- The words after `GEN` and `VAL` (cases.gen.pest:13-14):
`whitespace+ ~ word ~ (whitespace+ ~ word ~ variables_list)? ~ whitespace*`. -/
def manager? (s : Text) : Option ((Text × Option (Text × Text)) × Text) :=
  match spaces? s with
  | none => none
  | some r =>
  match word? r with
  | none => none
  | some (name, r) =>
  match spaces? r with
  | none => some ((name, none), skipWs r)
  | some r1 =>
  match word? r1 with
  | none => some ((name, none), skipWs r)
  | some (path, r2) =>
    let (_, r3) := cmdWords r2.length r2
    some ((name, some (path, r2.take (r2.length - r3.length))), skipWs r3)

/-- `GEN` (cases.gen.pest:13). -/
def gen? (s : Text) : Option (CCommand × Text) :=
  match lit? "GEN".toList s with
  | none => none
  | some r =>
    match manager? r with
    | none => none
    | some ((n, none), r') => some (.genSelect n, r')
    | some ((n, some (p, v)), r') => some (.genDefine n p v, r')

/-- `VAL` (cases.gen.pest:14). -/
def val? (s : Text) : Option (CCommand × Text) :=
  match lit? "VAL".toList s with
  | none => none
  | some r =>
    match manager? r with
    | none => none
    | some ((n, none), r') => some (.valSelect n, r')
    | some ((n, some (p, v)), r') => some (.valDefine n p v, r')

/-- `(whitespace* ~ comp_operator ~ whitespace* ~ (number | variable))*`; the number bounds the
repetitions. -/
def comparisons : Nat → Text → List (CmpOp × CTerm) × Text
  | 0, s => ([], s)
  | n + 1, s =>
    match compOp? (skipWs s) with
    | none => ([], s)
    | some (o, r) =>
      match operand? (skipWs r) with
      | none => ([], s)
      | some (x, r') => let (xs, r'') := comparisons n r'; ((o, x) :: xs, r'')

/-- `CONSTRAINT` (cases.gen.pest:15). -/
def constraint? (s : Text) : Option (CCommand × Text) :=
  match lit? "CONSTRAINT".toList s with
  | none => none
  | some r =>
  match spaces? r with
  | none => none
  | some r =>
  match operand? r with
  | none => none
  | some (x, r) =>
  match comparisons r.length r with
  | ([], _) => none
  | (xs, r') => some (.constraint x xs, skipWs r')

/-- `SUBTASK` (cases.gen.pest:16). -/
def cSubtask? (s : Text) : Option (CCommand × Text) :=
  match lit? "SUBTASK".toList s with
  | none => none
  | some r =>
  match spaces? r with
  | none => none
  | some r =>
  match float? r with
  | none => none
  | some (score, r) =>
  match spaces? r with
  | none => some (.subtask score none, skipWs r)
  | some r1 =>
  match rest? r1 with
  | none => some (.subtask score none, skipWs r)
  | some (d, r2) => some (.subtask score (some d), skipWs r2)

/-- `STDEP` (cases.gen.pest:17). -/
def stDep? (s : Text) : Option (CCommand × Text) :=
  match lit? "STDEP".toList s with
  | none => none
  | some r => let (ws, r') := cmdWords r.length r; some (.stDep ws, skipWs r')

/-- `COPY` (cases.gen.pest:18). -/
def cCopy? (s : Text) : Option (CCommand × Text) :=
  match lit? "COPY".toList s with
  | none => none
  | some r =>
  match spaces? r with
  | none => none
  | some r =>
  match rest? r with
  | none => none
  | some (p, r) => some (.copy p, skipWs r)

/-- `RUN` (cases.gen.pest:19). -/
def run? (s : Text) : Option (CCommand × Text) :=
  match lit? "RUN".toList s with
  | none => none
  | some r =>
  match spaces? r with
  | none => none
  | some r =>
  match word? r with
  | none => none
  | some (n, r) =>
  match spaces? r with
  | none => none
  | some r =>
  match rest? r with
  | none => none
  | some (a, r) => some (.run n a, r)

/-- `command = { ":" ~ whitespace* ~ (GEN | VAL | ...) }` (cases.gen.pest:21). -/
def cCommand? (s : Text) : Option (CCommand × Text) :=
  match lit? [':'] s with
  | none => none
  | some r =>
    let r := skipWs r
    (gen? r).orElse fun _ => (val? r).orElse fun _ => (constraint? r).orElse fun _ =>
    (cSubtask? r).orElse fun _ => (stDep? r).orElse fun _ => (cCopy? r).orElse fun _ => run? r

/-- `testcase = { !("#"|":") ~ rest }` (cases.gen.pest:22). -/
def cTestcase? (s : Text) : Option (Text × Text) :=
  match lit? ['#'] s, lit? [':'] s with
  | none, none => rest? s
  | _, _ => none

/-- `line = { (comment | command | testcase | empty) ~ comment? }` (cases.gen.pest:25);
`comment = { "#" ~ whitespace* ~ non_newline* }` matches up to the end of the line. -/
def cLine (s : Text) : CLine × Text :=
  let (l, r) : CLine × Text :=
    match riskyComment? s with
    | some r => (.comment, r)
    | none =>
    match cCommand? s with
    | some (c, r) => (.command c, r)
    | none =>
    match cTestcase? s with
    | some (t, r) => (.testcase t, r)
    | none => (.empty, skipWs s)
  (l, (riskyComment? r).getD r)

/-- `file` (cases.gen.pest:27), as `fileLines`. -/
def cFileLines : Nat → Text → Option (List CLine)
  | 0, _ => none
  | n + 1, s =>
    let (l, r) := cLine s
    match newline? r with
    | some r' => (cFileLines n r').map (l :: ·)
    | none => if r.isEmpty then some [l] else none

/-- `CasesGenParser::parse(Rule::file, &content)` (cases_gen.rs:142). -/
def parseCases (content : Text) : Option (List CLine) := cFileLines (content.length + 1) content

end TM.Format
