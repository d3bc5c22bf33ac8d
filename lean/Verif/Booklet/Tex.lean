import Verif.Text.Lines
import Verif.Base.Sort
/-!
# The text of the statements and of the booklet

Model of `Statement::tex`, `Statement::packages` (task-maker-format/src/ioi/statement/statement.rs) and of
`Booklet::make_tex` (booklet.rs) with the templates `task.tex` and `booklet.tex`.  A text is a list of characters.
The numbers in the heading of a statement come already printed.
-/
namespace TM.Booklet
open TM TM.Text

/-- The literal part of `USE_PACKAGE_REGEX`, statement.rs:15-18. -/
def USE : Text := ['\\', 'u', 's', 'e', 'p', 'a', 'c', 'k', 'a', 'g', 'e']

/-- `USE_PACKAGE_REGEX` (`\\usepackage.+`, statement.rs:17) anchored at the beginning of the text: the match and what follows
it.  `.` is every character but the newline and `+` is greedy. -/
def matchHere (t : Text) : Option (Text × Text) :=
  if USE.isPrefixOf t then
    let arg := (t.drop USE.length).takeWhile (· ≠ '\n')
    if arg = [] then none else some (USE ++ arg, t.drop (USE.length + arg.length))
  else none

/-- A piece of a text: a character outside of the matches, or a match. -/
inductive Piece where
  | char (c : Char)
  | pkg (m : Text)
deriving DecidableEq, Repr

/-- The search of `find_iter` and `replace_all`: from left to right, without overlaps.  `fuel` is the length of the text. -/
def piecesFrom : Nat → Text → List Piece
  | 0, _ => []
  | fuel + 1, t =>
    match matchHere t with
    | some (m, rest) => .pkg m :: piecesFrom fuel rest
    | none =>
      match t with
      | [] => []
      | c :: cs => .char c :: piecesFrom fuel cs

/-- All the pieces of a text. -/
def pieces (t : Text) : List Piece := piecesFrom t.length t

/-- What a piece is replaced by: `r"% $0"`, statement.rs:159. -/
def Piece.commented : Piece → Text
  | .char c => [c]
  | .pkg m => '%' :: ' ' :: m

/-- The match of a piece. -/
def Piece.package : Piece → Option Text
  | .char _ => none
  | .pkg m => some m

/-- `USE_PACKAGE_REGEX.replace_all(&self.content, r"% $0")`, statement.rs:158-160. -/
def commentOut (content : Text) : Text := (pieces content).flatMap Piece.commented

/-- `Statement::packages`, statement.rs:166-172. -/
def packages (content : Text) : List Text := (pieces content).filterMap Piece.package

/-- The configuration of a statement, statement.rs:21-39, with the numbers already printed (empty when there are none). -/
structure Heading where
  name : Text
  title : Text
  infile : Text
  outfile : Text
  timeLimit : Text
  memoryLimit : Text
  difficulty : Text
  syllabusLevel : Text
deriving DecidableEq, Repr

/-- An argument of a LaTeX command. -/
def arg (t : Text) : Text := '{' :: t ++ ['}']

/-- `Statement::tex`, statement.rs:131-163, with templates/task.tex. -/
def statementTex (h : Heading) (content : Text) : Text :=
  "\\begin{problem}".toList ++ arg h.title ++ arg h.name ++ arg h.infile ++ arg h.outfile ++ arg h.timeLimit ++
    arg h.memoryLimit ++ arg h.difficulty ++ arg h.syllabusLevel ++ '\n' :: commentOut content ++
    "\n\\end{problem}".toList

/-- The configuration of a booklet, booklet.rs:20-43.  `introPage` is the content of the file, empty when there is none or
when it cannot be read (booklet.rs:248-254). -/
structure BookletInfo where
  language : Text
  showSolutions : Bool
  showSummary : Bool
  fontEnc : Text
  inputEnc : Text
  description : Text
  location : Text
  date : Text
  logo : Text
  introPage : Text
deriving DecidableEq, Repr

/-- `Booklet::bool_to_tpl_string`, booklet.rs:259-262. -/
def boolToTpl (b : Bool) (ifTrue : String) : Text := if b then ifTrue.toList else []

/-- Comparison of texts by code points, as `Ord for str`. -/
def textLe (a b : Text) : Bool := decide (a ≤ b)

/-- Insertion in a `HashSet`. -/
def insertNew [DecidableEq α] (s : List α) (x : α) : List α := if x ∈ s then s else x :: s

/-- The set of the packages of the statements, booklet.rs:219-224; the order stands for that of the iteration. -/
def packageSet (contents : List Text) : List Text := (contents.flatMap packages).foldl insertNew []

/-- `packages.iter().sorted().join("\n")`, booklet.rs:246. -/
def preamble (contents : List Text) : Text := joinNl (isort textLe (packageSet contents))

/-- The line that imports a statement, booklet.rs:225-228. -/
def importLine (name : Text) : Text := "\\subimport{./".toList ++ name ++ "/}{statement.tex}".toList

/-- `Booklet::make_tex`, booklet.rs:216-257, with templates/booklet.tex (askama drops the newline at its end): `sts` are the names and the contents of the
statements. -/
def bookletTex (b : BookletInfo) (sts : List (Text × Text)) : Text :=
  "\\documentclass[%\n\t".toList ++ b.language ++ ",%\n\t".toList ++ boolToTpl b.showSolutions "showsolutions" ++
    ",%\n\t".toList ++ boolToTpl b.showSummary "showsummary" ++ ",%\n]{cms-contest}\n\n\\usepackage[".toList ++ b.fontEnc ++
    "]{fontenc}\n\\usepackage[".toList ++ b.inputEnc ++ "]{inputenc}\n\\usepackage[".toList ++ b.language ++
    "]{babel}\n\\usepackage{bookmark}\n\\usepackage{import}\n\n".toList ++
    preamble (sts.map (·.2)) ++
    "\n\n\\begin{document}\n\t".toList ++ b.introPage ++ "\n\t\\begin{contest}".toList ++ arg b.description ++
    arg b.location ++ arg b.date ++ "\n\t\t\\setContestLogo".toList ++ arg b.logo ++ "\n\t\t".toList ++
    joinNl (sts.map (fun s => importLine s.1)) ++
    "\n\t\\end{contest}\n\\end{document}".toList

end TM.Booklet
