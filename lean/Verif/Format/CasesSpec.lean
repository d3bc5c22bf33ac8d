import Verif.Format.Cases
import Verif.Format.GenSpec

/-!
# What a `gen/cases.gen` file means

A specification of the content of `gen/cases.gen` without any state.  What a line means depends on the
lines above it, given as a list with the nearest one first (`above`).
-/
namespace TM.Format

/-- Lines that start a subtask. -/
def isSub : CLine → Bool
  | .command (.subtask _ _) => true
  | _ => false

/-- Lines that make a testcase. -/
def isTest : CLine → Bool
  | .testcase _ | .command (.copy _) | .command (.run _ _) => true
  | _ => false

/-- `:GEN name path variables`. -/
def genDef : CLine → Option (Text × Text × Text)
  | .command (.genDefine n p v) => some (n, p, v)
  | _ => none

/-- `:VAL name path variables`. -/
def valDef : CLine → Option (Text × Text × Text)
  | .command (.valDefine n p v) => some (n, p, v)
  | _ => none

/-- `:GEN name`. -/
def genSel : CLine → Option Text
  | .command (.genSelect n) => some n
  | _ => none

/-- The constraint of a `:CONSTRAINT` line. -/
def constrOf : CLine → Option (CTerm × List (CmpOp × CTerm))
  | .command (.constraint x xs) => some (x, xs)
  | _ => none

/-- The name of a subtask: its description without blanks. -/
def subName : CLine → Option Text
  | .command (.subtask _ d) => d.map nameOf
  | _ => none

/-- Number of subtasks. -/
def nSubs (ls : List CLine) : Nat := (ls.filter isSub).length

/-- Number of testcases. -/
def nTests (ls : List CLine) : Nat := (ls.filter isTest).length

/-- The lines of the current subtask. -/
def sinceSub (above : List CLine) : List CLine := above.takeWhile (fun l => !isSub l)

/-- The line that starts the current subtask and those above it. -/
def fromSub (above : List CLine) : List CLine := above.dropWhile (fun l => !isSub l)

/-- The default generator or validator, given the definitions with the last one first: the one named
`default`, or else the first of the file. -/
def defaultOf (defs : List (Text × Text × Text)) : Option Text :=
  if (defs.map (·.1)).contains "default".toList then some "default".toList
  else defs.getLast?.map (·.1)

/-- The generator of a testcase line: the one of the nearest `:GEN name` of the subtask, or else the one
that was the default when the subtask started. -/
def currentGen (above : List CLine) : Option Text :=
  match (sinceSub above).filterMap genSel with
  | n :: _ => some n
  | [] => match fromSub above with
    | [] => none
    | above' => defaultOf (above'.filterMap genDef)

/-- The program and the parameters of a definition. -/
def managerOf (env : CasesEnv) (path vars : Text) : Option Manager :=
  match env.source (env.join path), env.split vars with
  | some s, some a => some ⟨s, a⟩
  | _, _ => none

/-- The generator or validator with a name. -/
def named (env : CasesEnv) (defs : List (Text × Text × Text)) (name : Text) : Option Manager :=
  match defs.find? (fun d => d.1 == name) with
  | some d => managerOf env d.2.1 d.2.2
  | none => none

/-- The value of a variable: an argument of the generator with that parameter (the last one if the
parameter is repeated), or an automatic variable. -/
def varValue (params args : List Text) (num : Nat) (stName : Option Text) (x : Text) : Option Text :=
  match (params.zip args).reverse.find? (fun p => p.1 == x) with
  | some p => some p.2
  | none =>
    if x = "ST_NAME".toList then stName
    else if x = "ST_NUM".toList then some (natText num)
    else if x = "INPUT".toList then some validationFile
    else none

/-- The name of the current subtask. -/
def currentName (above : List CLine) : Option Text := (fromSub above).head?.bind subName

/-- The value of an operand. -/
def termValue (value : Text → Option Text) : CTerm → Option Int
  | .number t => parseI64 t
  | .var v => (value v).bind parseI64

/-- What an operator means. -/
def CmpOp.Means : CmpOp → Int → Int → Prop
  | .less, a, b => a < b
  | .lessEqual, a, b => a ≤ b
  | .equal, a, b => a = b
  | .greater, a, b => a > b
  | .greaterEqual, a, b => a ≥ b

/-- A constraint `x o₁ x₁ o₂ x₂ ...` is violated: one of the comparisons is false, and all the operands
up to that point are known. -/
def Violated (value : Text → Option Text) : CTerm → List (CmpOp × CTerm) → Prop
  | _, [] => False
  | x, (o, y) :: rest => ∃ a b, termValue value x = some a ∧ termValue value y = some b ∧
      (¬ o.Means a b ∨ Violated value y rest)

/-- The constraints in force: those above all the subtasks and those of the current subtask. -/
def InForce (above : List CLine) (c : CTerm × List (CmpOp × CTerm)) : Prop :=
  .command (.constraint c.1 c.2) ∈ above.reverse.takeWhile (fun l => !isSub l) ∨
  .command (.constraint c.1 c.2) ∈ sinceSub above

/-- A testcase made by the generator `gen` with the arguments `text` is accepted. -/
def TestOk (env : CasesEnv) (above : List CLine) (gen : Option Text) (text : Text) : Prop :=
  0 < nSubs above ∧ ∃ g m args, gen = some g ∧ named env (above.filterMap genDef) g = some m ∧
    env.split text = some args ∧
    ∀ c, InForce above c →
      ¬ Violated (varValue m.args args (nSubs above - 1) (currentName above)) c.1 c.2

/-- The nearest line that makes a subtask or a testcase makes a subtask. -/
def AfterSub (above : List CLine) : Prop :=
  ∃ l rest, above.dropWhile (fun l => !(isSub l || isTest l)) = l :: rest ∧ isSub l = true

/-- The validator with the arguments it is given in subtask number `num`: the input file and the number
of the subtask when there are no parameters. -/
def validatorOf (env : CasesEnv) (above : List CLine) (num : Nat) (stName : Option Text)
    (name : Text) : Option Validator :=
  match named env (above.filterMap valDef) name with
  | none => none
  | some m =>
    if m.args.isEmpty then some (.custom m.source [validationFile, natText num])
    else
      (m.args.mapM fun a => varValue [] [] num stName (match a with | '$' :: r => r | _ => a)).map
        (.custom m.source)

/-- The validator a subtask starts with. -/
def startValidator (env : CasesEnv) (above : List CLine) (name : Option Text) : Option Validator :=
  match defaultOf (above.filterMap valDef) with
  | none => some .assumeValid
  | some v => validatorOf env above (nSubs above) name v

/-- The operators of a constraint do not mix the two directions. -/
def OneDirection (rest : List (CmpOp × CTerm)) : Prop :=
  (∀ p ∈ rest, p.1 = .less ∨ p.1 = .lessEqual ∨ p.1 = .equal) ∨
  (∀ p ∈ rest, p.1 = .greater ∨ p.1 = .greaterEqual ∨ p.1 = .equal)

/-- The numbers of a constraint fit in 64 bits. -/
def InRange : CTerm → Prop
  | .number t => (parseI64 t).isSome = true
  | .var _ => True

/-- A definition is accepted. -/
def DefOk (env : CasesEnv) (defs : List (Text × Text × Text)) (name path vars : Text) : Prop :=
  env.pathExists (env.join path) = true ∧ (managerOf env path vars).isSome = true ∧
  name ∉ defs.map (·.1)

/-- A line is accepted below other lines. -/
def LineOk (env : CasesEnv) (above : List CLine) : CLine → Prop
  | .comment | .empty => True
  | .testcase text => TestOk env above (currentGen above) text
  | .command (.run name args) => TestOk env above (some name) args
  | .command (.copy path) => 0 < nSubs above ∧ env.pathExists (env.join path) = true
  | .command (.genSelect name) => 0 < nSubs above ∧ name ∈ (above.filterMap genDef).map (·.1)
  | .command (.genDefine name path vars) => DefOk env (above.filterMap genDef) name path vars
  | .command (.valDefine name path vars) => DefOk env (above.filterMap valDef) name path vars
  | .command (.valSelect name) =>
    AfterSub above ∧ (validatorOf env above (nSubs above - 1) (currentName above) name).isSome = true
  | .command (.constraint first rest) =>
    rest ≠ [] ∧ InRange first ∧ (∀ p ∈ rest, InRange p.2) ∧ OneDirection rest
  | .command (.subtask _ d) =>
    (∀ n, d.map nameOf = some n → n ∉ above.filterMap subName) ∧
    (startValidator env above (d.map nameOf)).isSome = true
  | .command (.stDep names) => names = [] ∨ AfterSub above

/-- The files that are accepted: every line is accepted below those above it, and the dependencies are
names of subtasks of the file. -/
structure CasesAccepted (env : CasesEnv) (lines : List CLine) : Prop where
  each : ∀ pre l post, lines = pre ++ l :: post → LineOk env pre.reverse l
  known : ∀ ws, CLine.command (.stDep ws) ∈ lines → ∀ w ∈ ws, w = ['*'] ∨ w ∈ lines.filterMap subName

end TM.Format
