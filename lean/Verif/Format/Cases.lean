import Verif.Format.CasesLine

/-!
# Reading `gen/cases.gen`

Model of `CasesGen` and `Constraint`
(`task-maker-format/src/ioi/format/italian_yaml/cases_gen.rs` lines 32-786).
-/
namespace TM.Format
open TM AMap

/-- What the reader takes from outside of the file. -/
structure CasesEnv where
  /-- `get_output_gen(id)`. -/
  outputGen : Nat → OutputGen
  /-- `task_dir.join(path)`. -/
  join : Text → Text
  /-- `path.exists()`. -/
  pathExists : Text → Bool
  /-- `SourceFile::new(path, ...)`: nothing when the language is unknown (or the path has no file
  name). -/
  source : Text → Option Source
  /-- `shell_words::split`: nothing when the quotes do not match. -/
  split : Text → Option (List Text)

/-- The reasons why a file is rejected.  `panic` stands for an `unwrap` of nothing, an index out of
bounds or an underflow. -/
inductive CasesErr where
  | syntax
  | noSubtask
  | noGenerator
  | invalidArgs
  | unknownGenerator
  | violated
  | notFound
  | unknownLanguage
  | duplicateManager
  | notAfterSubtask
  | unknownValidator
  | unknownVariable
  | badNumber
  | mixedDirections
  | malformed
  | duplicateName
  | unknownName
  | panic
  deriving DecidableEq, Repr

/-- `Manager` (cases_gen.rs:34-41). -/
structure Manager where
  source : Source
  args : List Text
  deriving DecidableEq, Repr

/-- `ConstraintOperand` (cases_gen.rs:46-53). -/
inductive Operand where
  | const (k : Int)
  | var (name : Text)
  deriving DecidableEq, Repr

/-- `Constraint` (cases_gen.rs:76-81). -/
structure Constraint where
  operands : List Operand := []
  operators : List CmpOp := []
  deriving DecidableEq, Repr

/-- `i64::from_str`: a sign, if any, then one or more digits, in range. -/
def parseI64 (s : Text) : Option Int :=
  let digits : Text → Option Nat := fun d =>
    if d ≠ [] ∧ d.all isDigit = true then some (digitsVal d) else none
  match s with
  | '-' :: d => match digits d with
    | some n => if n ≤ 2 ^ 63 then some (-(n : Int)) else none
    | none => none
  | '+' :: d => match digits d with
    | some n => if n < 2 ^ 63 then some (n : Int) else none
    | none => none
  | d => match digits d with
    | some n => if n < 2 ^ 63 then some (n : Int) else none
    | none => none

/-- `f64::from_str` on the `float` rule, exact. -/
def floatVal (s : Text) : Rat :=
  let i := s.takeWhile isDigit
  match s.dropWhile isDigit with
  | '.' :: f => (digitsVal i : Rat) + (digitsVal f : Rat) / (10 ^ f.length : Nat)
  | _ => (digitsVal i : Rat)

/-- `ConstraintOperator::is_valid` (cases_gen.rs:691-699). -/
def CmpOp.holds : CmpOp → Int → Int → Bool
  | .less, a, b => decide (a < b)
  | .lessEqual, a, b => decide (a ≤ b)
  | .equal, a, b => decide (a = b)
  | .greater, a, b => decide (a > b)
  | .greaterEqual, a, b => decide (a ≥ b)

/-- `ConstraintOperand::get_val` (cases_gen.rs:733-748). -/
def Operand.value (vars : AMap Text Text) : Operand → Option Int
  | .const k => some k
  | .var v =>
    match vars.get? v with
    | some t => parseI64 t
    | none => none

/-- The loop of `Constraint::is_valid` (cases_gen.rs:766-772). -/
def chainValid (vars : AMap Text Text) : Int → List (CmpOp × Operand) → Option Bool
  | _, [] => some true
  | last, (o, x) :: rest =>
    match x.value vars with
    | none => none
    | some this => if !o.holds last this then some false else chainValid vars this rest

/-- `Constraint::is_valid` (cases_gen.rs:764-774).  A constraint without operands would panic. -/
def Constraint.isValid (c : Constraint) (vars : AMap Text Text) : Except CasesErr (Option Bool) :=
  match c.operands with
  | [] => .error .panic
  | x :: xs =>
    match x.value vars with
    | none => .ok none
    | some v => .ok (chainValid vars v (c.operators.zip xs))

/-- `CasesGen` (cases_gen.rs:87-124) without the texts that are only used for messages and for writing
`gen/GEN`.  The entries and the lists of constraints of the subtasks are in reverse order, so that the
heads are `last()`. -/
structure CasesState where
  rev : List Entry := []
  constraints : List Constraint := []
  subConstraints : List (List Constraint) := []
  generators : AMap Text Manager := []
  validators : AMap Text Manager := []
  defaultGen : Option Text := none
  defaultVal : Option Text := none
  currentGen : Option Text := none
  subtaskId : Nat := 0
  subtaskName : Option Text := none
  nameToId : AMap Text Nat := []
  deps : AMap Nat (List Text) := []
  testcaseId : Nat := 0

/-- `TM_VALIDATION_FILE_NAME` (ioi/dag/input_validator.rs:17). -/
def validationFile : Text := "tm_validation_file".toList

/-- `to_string` of an unsigned number. -/
def natText (n : Nat) : Text := Nat.toDigits 10 n

/-- `get_auto_variables` (cases_gen.rs:678-686). -/
def autoVars (st : CasesState) : Except CasesErr (AMap Text Text) :=
  match st.subtaskId with
  | 0 => .error .panic
  | n + 1 =>
    let vars : AMap Text Text := AMap.insert [] "INPUT".toList validationFile
    let vars := AMap.insert vars "ST_NUM".toList (natText n)
    match st.subtaskName with
    | some name => .ok (AMap.insert vars "ST_NAME".toList name)
    | none => .ok vars

/-- The loop of `get_variables` (cases_gen.rs:671-673). -/
def insertAll (vars : AMap Text Text) : List (Text × Text) → AMap Text Text
  | [] => vars
  | (k, v) :: rest => insertAll (AMap.insert vars k v) rest

/-- `get_variables` (cases_gen.rs:669-675). -/
def getVariables (st : CasesState) (definition args : List Text) :
    Except CasesErr (AMap Text Text) :=
  match autoVars st with
  | .error e => .error e
  | .ok vars => .ok (insertAll vars (definition.zip args))

/-- The loop of `parse_testcase` over the constraints (cases_gen.rs:339-354). -/
def checkAll (vars : AMap Text Text) : List Constraint → Except CasesErr Unit
  | [] => .ok ()
  | c :: cs =>
    match c.isValid vars with
    | .error e => .error e
    | .ok (some false) => .error .violated
    | .ok _ => checkAll vars cs

/-- `parse_testcase` (cases_gen.rs:319-363). -/
def parseTestcase (env : CasesEnv) (st : CasesState) (line : Text) (current : Option Text) :
    Except CasesErr CasesState :=
  if st.subtaskId = 0 then .error .noSubtask
  else match current with
  | none => .error .noGenerator
  | some name =>
  match env.split line with
  | none => .error .invalidArgs
  | some args =>
  match st.generators.get? name with
  | none => .error .unknownGenerator
  | some generator =>
  match getVariables st generator.args args with
  | .error e => .error e
  | .ok vars =>
  match st.subConstraints with
  | [] => .error .panic
  | cs :: _ =>
  match checkAll vars (st.constraints ++ cs) with
  | .error e => .error e
  | .ok () =>
    .ok { st with
      rev := .testcase ⟨st.testcaseId, .custom generator.source args,
                        env.outputGen st.testcaseId⟩ :: st.rev
      testcaseId := st.testcaseId + 1 }

/-- `define_gen_val` (cases_gen.rs:367-408): the new map and the new default. -/
def defineManager (env : CasesEnv) (name path vars : Text) (dflt : Option Text)
    (managers : AMap Text Manager) : Except CasesErr (Option Text × AMap Text Manager) :=
  let path := env.join path
  if !env.pathExists path then .error .notFound
  else match env.source path with
  | none => .error .unknownLanguage
  | some source =>
  match env.split vars with
  | none => .error .invalidArgs
  | some args =>
    if managers.contains name then .error .duplicateManager
    else
      .ok (if dflt.isNone || name == "default".toList then some name else dflt,
           AMap.insert managers name ⟨source, args⟩)

/-- The loop of `get_validator` over the arguments (cases_gen.rs:635-643). -/
def substArgs (vars : AMap Text Text) : List Text → Except CasesErr (List Text)
  | [] => .ok []
  | a :: as =>
    let a := match a with | '$' :: r => r | _ => a
    match vars.get? a with
    | none => .error .unknownVariable
    | some v =>
      match substArgs vars as with
      | .error e => .error e
      | .ok vs => .ok (v :: vs)

/-- `get_validator` (cases_gen.rs:621-650). -/
def getValidator (st : CasesState) (validator : Option Text) (vars : AMap Text Text) :
    Except CasesErr Validator :=
  match validator with
  | none => .ok .assumeValid
  | some val =>
  match st.validators.get? val with
  | none => .error .unknownValidator
  | some m =>
    if m.args.isEmpty then
      match vars.get? "INPUT".toList, vars.get? "ST_NUM".toList with
      | some i, some n => .ok (.custom m.source [i, n])
      | _, _ => .error .panic
    else
      match substArgs vars m.args with
      | .error e => .error e
      | .ok args => .ok (.custom m.source args)

/-- The direction of an operator (cases_gen.rs:492-498). -/
def CmpOp.direction : CmpOp → Option Bool
  | .less | .lessEqual => some true
  | .greater | .greaterEqual => some false
  | .equal => none

/-- One of the items of a `:CONSTRAINT` line, as they come from the parser. -/
inductive CItem where
  | term (t : CTerm)
  | op (o : CmpOp)
  deriving DecidableEq, Repr

/-- The items of a line. -/
def flatItems (first : CTerm) (rest : List (CmpOp × CTerm)) : List CItem :=
  .term first :: rest.flatMap fun p => [.op p.1, .term p.2]

/-- The loop of `parse_constraint` over the items (cases_gen.rs:467-507). -/
def constraintItems (c : Constraint) (dir : Option Bool) : List CItem → Except CasesErr Constraint
  | [] => .ok c
  | .term (.number t) :: rest =>
    match parseI64 t with
    | none => .error .badNumber
    | some k => constraintItems { c with operands := c.operands ++ [.const k] } dir rest
  | .term (.var v) :: rest => constraintItems { c with operands := c.operands ++ [.var v] } dir rest
  | .op o :: rest =>
    let d := o.direction
    let dir := if dir.isNone then d else dir
    if d.isSome && dir != d then .error .mixedDirections
    else constraintItems { c with operators := c.operators ++ [o] } dir rest

/-- `parse_constraint` (cases_gen.rs:462-525). -/
def parseConstraint (st : CasesState) (items : List CItem) : Except CasesErr CasesState :=
  match constraintItems {} none items with
  | .error e => .error e
  | .ok c =>
    if c.operators.length + 1 ≠ c.operands.length then .error .malformed
    else if c.operands.length < 2 then .error .malformed
    else if st.subtaskId = 0 then .ok { st with constraints := st.constraints ++ [c] }
    else match st.subConstraints with
      | [] => .error .panic
      | cs :: rest => .ok { st with subConstraints := (cs ++ [c]) :: rest }

/-- The name of a subtask (cases_gen.rs:544-546). -/
def nameOf (description : Text) : Text := description.filter fun c => c != ' ' && c != '\t'

/-- `parse_subtask` (cases_gen.rs:528-578). -/
def parseSubtask (st : CasesState) (score : Text) (description : Option Text) :
    Except CasesErr CasesState :=
  let st := { st with currentGen := st.defaultGen, subConstraints := [] :: st.subConstraints }
  let name := description.map nameOf
  let st := { st with subtaskName := name }
  let dup := match name with | some n => (st.nameToId.get? n).isSome | none => false
  if dup then .error .duplicateName
  else
    let st := match name with
      | some n => { st with nameToId := AMap.insert st.nameToId n st.subtaskId }
      | none => st
    let st := { st with subtaskId := st.subtaskId + 1 }
    match autoVars st with
    | .error e => .error e
    | .ok vars =>
    match getValidator st st.defaultVal vars with
    | .error e => .error e
    | .ok v =>
      .ok { st with rev := .subtask { id := st.subtaskId - 1, name := name, description := description
                                      maxScore := floatVal score, isDefault := false
                                      validator := v } :: st.rev }

/-- `parse_command` (cases_gen.rs:283-316) with the functions it calls. -/
def parseCommand (env : CasesEnv) (st : CasesState) : CCommand → Except CasesErr CasesState
  -- `parse_gen` (cases_gen.rs:411-432)
  | .genSelect name =>
    if st.subtaskId = 0 then .error .noSubtask
    else if !st.generators.contains name then .error .unknownGenerator
    else .ok { st with currentGen := some name }
  | .genDefine name path vars =>
    match defineManager env name path vars st.defaultGen st.generators with
    | .error e => .error e
    | .ok (d, m) => .ok { st with defaultGen := d, generators := m }
  -- `parse_val` (cases_gen.rs:435-459)
  | .valSelect name =>
    if st.subtaskId = 0 then .error .noSubtask
    else match autoVars st with
    | .error e => .error e
    | .ok vars =>
    match getValidator st (some name) vars with
    | .error e => .error e
    | .ok v =>
    match st.rev with
    | .subtask s :: rest => .ok { st with rev := .subtask { s with validator := v } :: rest }
    | _ => .error .notAfterSubtask
  | .valDefine name path vars =>
    match defineManager env name path vars st.defaultVal st.validators with
    | .error e => .error e
    | .ok (d, m) => .ok { st with defaultVal := d, validators := m }
  | .constraint first rest => parseConstraint st (flatItems first rest)
  | .subtask score description => parseSubtask st score description
  -- `parse_st_dep` (cases_gen.rs:581-592)
  | .stDep names =>
    if names.isEmpty then .ok st
    else match st.rev with
    | .subtask s :: _ =>
      .ok { st with deps := AMap.insert st.deps s.id ((st.deps.get? s.id).getD [] ++ names) }
    | _ => .error .notAfterSubtask
  -- `parse_copy` (cases_gen.rs:595-618)
  | .copy path =>
    if st.subtaskId = 0 then .error .noSubtask
    else
      let path := env.join path
      if !env.pathExists path then .error .notFound
      else .ok { st with
        rev := .testcase ⟨st.testcaseId, .staticFile path, env.outputGen st.testcaseId⟩ :: st.rev
        testcaseId := st.testcaseId + 1 }
  -- `parse_run` (cases_gen.rs:653-665)
  | .run name args =>
    if st.subtaskId = 0 then .error .noSubtask
    else if !st.generators.contains name then .error .unknownGenerator
    else parseTestcase env st args (some name)

/-- The body of the loop over the lines (cases_gen.rs:171-197). -/
def casesStep (env : CasesEnv) (st : CasesState) : CLine → Except CasesErr CasesState
  | .command c => parseCommand env st c
  | .testcase text => parseTestcase env st text st.currentGen
  | .comment => .ok st
  | .empty => .ok st

/-- The loop over the lines (cases_gen.rs:171-197). -/
def casesLoop (env : CasesEnv) (st : CasesState) : List CLine → Except CasesErr CasesState
  | [] => .ok st
  | l :: ls =>
    match casesStep env st l with
    | .error e => .error e
    | .ok st' => casesLoop env st' ls

/-- `CasesGen::new` (cases_gen.rs:135-221) on the parsed lines, then `get_task_entries`
(cases_gen.rs:224-226).  The resolution of the dependencies (cases_gen.rs:199-218) is the same code as
in `gen_gen.rs`. -/
def interpCases (env : CasesEnv) (lines : List CLine) : Except CasesErr (List Entry) :=
  match casesLoop env {} lines with
  | .error e => .error e
  | .ok st =>
    match resolveAll st.nameToId st.deps st.subtaskId st.rev.reverse with
    | .error _ => .error .unknownName
    | .ok es => .ok es

/-- `CasesGen::new` on the content of the file. -/
def parseCasesGen (env : CasesEnv) (content : Text) : Except CasesErr (List Entry) :=
  match parseCases content with
  | none => .error .syntax
  | some lines => interpCases env lines

end TM.Format
