import Verif.Solution.Extract

/-!
# The imports written in a source file

Model of `extract_includes` (`task-maker-lang/src/languages/cpp.rs` lines 121-142) and of
`extract_imports` (`task-maker-lang/src/languages/python.rs` lines 107-132).  The regular expressions are
modelled by what they match; the matches of `captures_iter` are searched from left to right and do not
overlap.  The file is readable.
-/
namespace TM.Lang
open TM TM.Text

/-- `#include`. -/
abbrev includeWord : Text := ['#', 'i', 'n', 'c', 'l', 'u', 'd', 'e']
/-- `import`. -/
abbrev importWord : Text := ['i', 'm', 'p', 'o', 'r', 't']
/-- `import` after a blank. -/
abbrev blankImport : Text := [' ', 'i', 'm', 'p', 'o', 'r', 't']
/-- `from`. -/
abbrev fromWord : Text := ['f', 'r', 'o', 'm']

/-- The character ends a file name in `#include`. -/
def isQuote (c : Char) : Bool := c == '"' || c == '>'

/-- A match of `#include\s*[<"]([^">]+)[>"]` at the start of the text: what is captured and what comes
after the match (cpp.rs:123). -/
def includeAt (t : Text) : Option (Text × Text) :=
  if includeWord.isPrefixOf t then
    match (t.drop 8).dropWhile TM.Solution.isWs with
    | [] => none
    | c :: r =>
      if c == '<' || c == '"' then
        match r.takeWhile (fun x => !isQuote x), r.dropWhile (fun x => !isQuote x) with
        | [], _ => none
        | _, [] => none
        | name, _ :: rest => some (name, rest)
      else none
  else none

/-- `captures_iter` of a regular expression given by its matches at the start of a text; the number is
a bound on the characters. -/
def scan {α : Type} (at_ : Text → Option (α × Text)) : Nat → Text → List α
  | 0, _ => []
  | _, [] => []
  | n + 1, c :: cs =>
    match at_ (c :: cs) with
    | some (x, rest) => x :: scan at_ n rest
    | none => scan at_ n cs

/-- `extract_includes`, cpp.rs:121-142: the names of the included files.  (The local path of each is the
name next to the including file, `path.with_file_name`.) -/
def extractIncludes (content : Text) : List Text := scan includeAt content.length content

/-- The last way to write the text as `a ++ " import" ++ b` with a non-empty `a`. -/
def lastImport : Text → Option (Text × Text)
  | [] => none
  | c :: cs =>
    match lastImport cs with
    | some (a, b) => some (c :: a, b)
    | none => if blankImport.isPrefixOf cs then some ([c], cs.drop 7) else none

/-- What the regular expression of python.rs:110 captures. -/
inductive PyCap where
  /-- `import +(.+)` -/
  | import_ (names : Text)
  /-- `from +(.+) +import` -/
  | from_ (name : Text)
  deriving DecidableEq

/-- Not the end of the line. -/
def notNl (c : Char) : Bool := c != '\n'

/-- A match of `import +(.+)|from +(.+) +import` at the start of the text (python.rs:110).  The blanks
before the group are greedy and give back one or more of themselves only if the group would be empty
otherwise. -/
def importAt (t : Text) : Option (PyCap × Text) :=
  if importWord.isPrefixOf t then
    let r := t.drop 6
    let line := (r.dropWhile (· == ' ')).takeWhile notNl
    let rest := (r.dropWhile (· == ' ')).dropWhile notNl
    match r.takeWhile (· == ' '), line with
    | [], _ => none
    | _, _ :: _ => some (.import_ line, rest)
    | _ :: _ :: _, [] => some (.import_ [' '], rest)
    | [_], [] => none
  else if fromWord.isPrefixOf t then
    let r := t.drop 4
    let line := (r.dropWhile (· == ' ')).takeWhile notNl
    let rest := (r.dropWhile (· == ' ')).dropWhile notNl
    match r.takeWhile (· == ' ') with
    | [] => none
    | _ :: sp =>
      match lastImport line with
      | some (a, b) => some (.from_ a, b ++ rest)
      | none =>
        if decide (2 ≤ sp.length) && importWord.isPrefixOf line then
          some (.from_ [' '], line.drop 6 ++ rest)
        else none
  else none

/-- `str::split(',')`. -/
def splitComma : Text → List Text
  | [] => [[]]
  | c :: cs =>
    if c = ',' then [] :: splitComma cs
    else
      match splitComma cs with
      | [] => [[c]]
      | p :: ps => (c :: p) :: ps

/-- `str::trim`. -/
def trim (s : Text) : Text :=
  ((s.dropWhile TM.Solution.isWs).reverse.dropWhile TM.Solution.isWs).reverse

/-- The loop body at python.rs:118-129. -/
def PyCap.files : PyCap → List Text
  | .import_ names => (splitComma names).map (fun p => trim p ++ ['.', 'p', 'y'])
  | .from_ name => [trim name ++ ['.', 'p', 'y']]

/-- `extract_imports`, python.rs:107-132: both paths of a pair are the same. -/
def extractImports (content : Text) : List Text :=
  (scan importAt content.length content).flatMap PyCap.files

end TM.Lang
