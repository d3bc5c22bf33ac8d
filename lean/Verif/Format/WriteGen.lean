import Verif.Format.Cases
/-!
# Writing `gen/GEN`

Model of `CasesGen::write_gen_gen` (`task-maker-format/src/ioi/format/italian_yaml/cases_gen.rs` lines 228-280), the text.  When
the file is (not) overwritten is in `Verif.Clean.Model`.
-/
namespace TM.Format
open TM AMap

/-- What the writer takes from outside. -/
structure Writer where
  /-- `path.strip_prefix(&self.task_dir)`, displayed. -/
  strip : Text → Option Text
  /-- `Display` of `f64`. -/
  showScore : Rat → Text

/-- `SourceFile::name`, task-maker-lang/src/source_file.rs:224-230: the file name of the path. -/
def sourceName (p : Source) : Text := (p.reverse.takeWhile (· ≠ '/')).reverse

/-- `Display for ConstraintOperator`, cases_gen.rs:717-727. -/
def CmpOp.text : CmpOp → Text
  | .less => ['<']
  | .lessEqual => ['<', '=']
  | .greater => ['>']
  | .greaterEqual => ['>', '=']
  | .equal => ['=']

/-- `Display for i64`. -/
def i64Text : Int → Text
  | .ofNat n => natText n
  | .negSucc n => '-' :: natText (n + 1)

/-- `Display for ConstraintOperand`, cases_gen.rs:750-757. -/
def Operand.text : Operand → Text
  | .const k => i64Text k
  | .var v => '$' :: v

/-- `Debug for Constraint`, cases_gen.rs:777-786 (there is always an operand). -/
def Constraint.text (c : Constraint) : Text :=
  match c.operands with
  | [] => []
  | x :: xs => x.text ++ (c.operators.zip xs).flatMap (fun p => ' ' :: (p.1.text ++ ' ' :: p.2.text))

/-- `TM_ALLOW_DELETE_COOKIE`, italian_yaml/mod.rs:286. -/
def cookie : Text := "tm-allow-delete".toList

/-- A line with `# ` and a text. -/
def note (t : Text) : Text := '#' :: ' ' :: t

/-- The first lines, cases_gen.rs:238-240. -/
def headerLines : List Text :=
  [note "Generated by task-maker. Do not edit!".toList, note cookie,
   note "Removing or changing the line above will prevent task-maker from touching this file again.".toList, []]

/-- The global constraints, cases_gen.rs:241-246. -/
def constraintLines (cs : List Constraint) : List Text :=
  if cs.isEmpty then [] else note "Constraints:".toList :: cs.map (fun c => note c.text)

/-- `args.join(" ")`. -/
def joinSp : List Text → Text
  | [] => []
  | [a] => a
  | a :: as => a ++ ' ' :: joinSp as

/-- The lines of an entry, cases_gen.rs:247-277; `subs` are the constraints of the subtasks, in order. -/
def entryLines (w : Writer) (subs : List (List Constraint)) : Entry → List Text
  | .subtask s =>
    [[], note ("Subtask ".toList ++ natText s.id), "#ST: ".toList ++ w.showScore s.maxScore] ++
    (match s.name with
      | some n => ["#STNAME: ".toList ++ n]
      | none => []) ++
    ((subs[s.id]?).getD []).map (fun c => note c.text)
  | .testcase t =>
    [note ("Testcase ".toList ++ natText t.id),
     match t.input with
     | .staticFile p => "#COPY: ".toList ++ (w.strip p).getD p
     | .custom source args => sourceName source ++ ' ' :: joinSp args]

/-- The lines of the file. -/
def genTextLines (w : Writer) (constraints : List Constraint) (subs : List (List Constraint)) (es : List Entry) : List Text :=
  headerLines ++ constraintLines constraints ++ es.flatMap (entryLines w subs)

/-- The text of the file. -/
def writeGen (w : Writer) (constraints : List Constraint) (subs : List (List Constraint)) (es : List Entry) : Text :=
  (genTextLines w constraints subs es).flatMap (· ++ ['\n'])

/-- `CasesGen::new` and then `write_gen_gen` (italian_yaml/mod.rs:563-568): the text written and the entries of the task. -/
def writeFromCases (env : CasesEnv) (w : Writer) (content : Text) : Except CasesErr (Text × List Entry) :=
  match parseCases content with
  | none => .error .syntax
  | some lines =>
    match casesLoop env {} lines with
    | .error e => .error e
    | .ok st =>
      match interpCases env lines with
      | .error e => .error e
      | .ok es => .ok (writeGen w st.constraints st.subConstraints.reverse es, es)

end TM.Format
