import Verif.Format.CasesLine
import Verif.Format.GenSyntaxSpec

/-!
# The syntax of `gen/cases.gen`

What the lines of a `gen/cases.gen` file look like, without any parser.
-/
namespace TM.Format

/-- One or more characters up to a comment or to the end of the line. -/
def Free (t : Text) : Prop := t ≠ [] ∧ ∀ c ∈ t, c ≠ '#' ∧ c ≠ '\n' ∧ c ≠ '\r'

/-- The text does not start with a blank. -/
def NoBlank (t : Text) : Prop := ∀ c, t.head? = some c → c ≠ ' ' ∧ c ≠ '\t'

/-- The text is empty or starts with a blank. -/
def Gap (t : Text) : Prop := ∀ c, t.head? = some c → c = ' ' ∨ c = '\t'

/-- A decimal number. -/
inductive FloatIs : Text → Prop
  | int {i : Text} : Digits i → FloatIs i
  | frac {i f : Text} : Digits i → Digits f → FloatIs (i ++ '.' :: f)

/-- An operand of a constraint. -/
inductive OperandIs : Text → CTerm → Prop
  | number {d : Text} : Digits d → OperandIs d (.number d)
  | minus {d : Text} : Digits d → OperandIs ('-' :: d) (.number ('-' :: d))
  | plus {d : Text} : Digits d → OperandIs ('+' :: d) (.number ('+' :: d))
  | var {w : Text} : Word w → OperandIs ('$' :: w) (.var w)

/-- An operator. -/
inductive OpIs : Text → CmpOp → Prop
  | lessEqual : OpIs ['<', '='] .lessEqual
  | less : OpIs ['<'] .less
  | greaterEqual : OpIs ['>', '='] .greaterEqual
  | greater : OpIs ['>'] .greater
  | equal : OpIs ['='] .equal

/-- A variable is followed by a blank or by nothing. -/
def Closed (x : CTerm) (m : Text) : Prop := ∀ v, x = .var v → Gap m

/-- The operators and the operands after the first one. -/
inductive CmpsIs : List (CmpOp × CTerm) → Text → Prop
  | nil : CmpsIs [] []
  | cons {a ot b xt m : Text} {o : CmpOp} {x : CTerm} {rest : List (CmpOp × CTerm)} :
      Blank a → OpIs ot o → Blank b → OperandIs xt x → Closed x m → CmpsIs rest m →
      CmpsIs ((o, x) :: rest) (a ++ (ot ++ (b ++ (xt ++ m))))

/-- What a command says. -/
inductive CmdIs : Text → CCommand → Prop
  | genSelect {a n z : Text} : Blank a → a ≠ [] → Word n → Blank z →
      CmdIs ("GEN".toList ++ (a ++ (n ++ z))) (.genSelect n)
  | genDefine {a n b p m z : Text} {vs : List Text} : Blank a → a ≠ [] → Word n → Blank b → b ≠ [] →
      Word p → Words vs m → Blank z →
      CmdIs ("GEN".toList ++ (a ++ (n ++ (b ++ (p ++ (m ++ z)))))) (.genDefine n p m)
  | valSelect {a n z : Text} : Blank a → a ≠ [] → Word n → Blank z →
      CmdIs ("VAL".toList ++ (a ++ (n ++ z))) (.valSelect n)
  | valDefine {a n b p m z : Text} {vs : List Text} : Blank a → a ≠ [] → Word n → Blank b → b ≠ [] →
      Word p → Words vs m → Blank z →
      CmdIs ("VAL".toList ++ (a ++ (n ++ (b ++ (p ++ (m ++ z)))))) (.valDefine n p m)
  | constraint {a xt m z : Text} {x : CTerm} {rest : List (CmpOp × CTerm)} : Blank a → a ≠ [] →
      OperandIs xt x → Closed x m → CmpsIs rest m → rest ≠ [] → Blank z →
      CmdIs ("CONSTRAINT".toList ++ (a ++ (xt ++ (m ++ z)))) (.constraint x rest)
  | subtask {a f z : Text} : Blank a → a ≠ [] → FloatIs f → Blank z →
      CmdIs ("SUBTASK".toList ++ (a ++ (f ++ z))) (.subtask f none)
  | described {a f b d : Text} : Blank a → a ≠ [] → FloatIs f → Blank b → b ≠ [] → Free d → NoBlank d →
      CmdIs ("SUBTASK".toList ++ (a ++ (f ++ (b ++ d)))) (.subtask f (some d))
  | stDep {m z : Text} {ws : List Text} : Words ws m → Blank z →
      CmdIs ("STDEP".toList ++ (m ++ z)) (.stDep ws)
  | copy {a p : Text} : Blank a → a ≠ [] → Free p → NoBlank p →
      CmdIs ("COPY".toList ++ (a ++ p)) (.copy p)
  | run {a n b t : Text} : Blank a → a ≠ [] → Word n → Blank b → b ≠ [] → Free t → NoBlank t →
      CmdIs ("RUN".toList ++ (a ++ (n ++ (b ++ t)))) (.run n t)

/-- What a line of `gen/cases.gen` says. -/
inductive CasesLineIs : Text → CLine → Prop
  | comment {u : Text} : OneLine u → CasesLineIs ('#' :: u) .comment
  | command {a s t : Text} {c : CCommand} : Blank a → CmdIs s c → Tail t →
      CasesLineIs (':' :: (a ++ (s ++ t))) (.command c)
  | testcase {s t : Text} : Free s → s.head? ≠ some ':' → Tail t → CasesLineIs (s ++ t) (.testcase s)
  | empty : CasesLineIs [] .empty

end TM.Format
