import Verif.Sanity.Statement
import Verif.Text.Span
import Verif.Solution.Extract
/-!
# The inclusion of all the standard library (`ioi/sanity_checks/task.rs`)

Model of `NoBitsStdCpp`, task-maker-format/src/ioi/sanity_checks/task.rs:81-136.  Paths are lists of names; what is on the
disk is a function of the whole path, with no content if the file cannot be read or is not UTF-8.  A text is a list of
characters and its offsets are counted in characters, as in `Verif.Text.Span`.
-/
namespace TM.Sanity.Bits
open TM TM.Text TM.Sanity

abbrev Path := List Text

/-- One of two characters. -/
def oneOf (a b : Char) : Text → Option Text
  | c :: r => if c = a ∨ c = b then some r else none
  | [] => none

/-- `#\s*include\s*(?:<|")bits/stdc\+\+\.h(?:>|")` at the start of `s`: what follows it.  The character after the spaces is
never a space, so that there is nothing to try again. -/
def directive (s : Text) : Option Text :=
  (after ['#'] s).bind fun s =>
  (after "include".toList (s.dropWhile Solution.isWs)).bind fun s =>
  (oneOf '<' '"' (s.dropWhile Solution.isWs)).bind fun s =>
  (after "bits/stdc++.h".toList s).bind fun s =>
  oneOf '>' '"' s

/-- The length of the match that starts here: `.*$` goes to the end of the line. -/
def matchLen (s : Text) : Option Nat :=
  (directive s).map fun r => (s.length - r.length) + (r.takeWhile (fun c => decide (c ≠ '\n'))).length

/-- `RE.find`, task.rs:103-105 and 111: the first match; `start` tells whether here a line starts. -/
def find (start : Bool) (pos : Nat) : Text → Option (Nat × Nat)
  | [] => none
  | c :: r =>
    match (if start then matchLen (c :: r) else none) with
    | some n => some (pos, n)
    | none => find (c = '\n') (pos + 1) r

/-- The files of the warning with the place, task.rs:107-133.  `files` are those of `list_files`, relative to the directory
of the task (`path_of`); they are read from the current directory. -/
def check (disk : Path → Option Text) (cwd : Path) : List Path → Except SpanError (List (Path × CodeSpan))
  | [] => .ok []
  | file :: files =>
    match disk (cwd ++ file) with
    | none => check disk cwd files
    | some content =>
      match find true 0 content with
      | none => check disk cwd files
      | some (start, len) =>
        match CodeSpan.fromStr content start len with
        | .error e => .error e
        | .ok span =>
          match check disk cwd files with
          | .error e => .error e
          | .ok spans => .ok ((file, span) :: spans)

/-- Whether there is the warning, task.rs:129-131. -/
def warns (spans : List (Path × CodeSpan)) : Bool := !spans.isEmpty

/-! ## Specification -/

/-- White space. -/
def Blank (w : Text) : Prop := ∀ c ∈ w, Solution.isWs c = true

/-- A directive that includes the file, to the end of the line; `gaps` is the white space in it. -/
def Directive (d gaps : Text) : Prop :=
  ∃ w w' tail a b, Blank w ∧ Blank w' ∧ gaps = w ++ w' ∧ (a = '<' ∨ a = '"') ∧ (b = '>' ∨ b = '"') ∧ '\n' ∉ tail ∧
    d = '#' :: (w ++ "include".toList ++ w' ++ [a] ++ "bits/stdc++.h".toList ++ [b] ++ tail)

/-- The text has a directive that starts a line, after `pre`. -/
def Includes (content pre d gaps : Text) : Prop :=
  ∃ post, content = pre ++ d ++ post ∧ Directive d gaps ∧ (pre = [] ∨ ∃ p, pre = p ++ ['\n']) ∧
    (post = [] ∨ ∃ p, post = '\n' :: p)

/-- ... and it is the first. -/
def FirstIncludes (content pre d gaps : Text) : Prop :=
  Includes content pre d gaps ∧ ∀ pre' d' gaps', Includes content pre' d' gaps' → pre.length ≤ pre'.length

end TM.Sanity.Bits
