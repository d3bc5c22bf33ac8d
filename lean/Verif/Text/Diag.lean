import Verif.Text.Lines
/-!
# Diagnostics (`task-maker-diagnostics/src/lib.rs`, `CodeSpan::to_string`)

What a diagnostic prints, as a text without the colours.  The attachment is the text after `String::from_utf8_lossy`.
-/
namespace TM.Diag
open TM.Text

/-- `{:>width$}`: at least `w` characters, aligned to the right. -/
def right (w : Nat) (t : Text) : Text := List.replicate (w - t.length) ' ' ++ t

/-- A number. -/
def number (n : Nat) : Text := Nat.toDigits 10 n

/-- `str::strip_suffix('\r')`, if it is there. -/
def stripCr (t : Text) : Text := if t.getLast? = some '\r' then t.dropLast else t

/-- `str::lines`: the pieces between the newlines, without the `\r` before them; no last empty piece. -/
def strLines (t : Text) : List Text :=
  (splitNl t).dropLast.map stripCr ++ (if (splitNl t).getLast? = some [] then [] else (splitNl t).getLast?.toList)

/-- `DiagnosticLevel`, lib.rs:17-24. -/
inductive Level where
  | warning
  | error
deriving DecidableEq, Repr

/-- `DiagnosticLevel::as_str`, lib.rs:27-33. -/
def Level.text : Level → Text
  | .error => "Error".toList
  | .warning => "Warning".toList

/-- The derived order, lib.rs:18. -/
def Level.le : Level → Level → Bool
  | .error, .warning => false
  | _, _ => true

/-- `CodeSpan`, span.rs:14-29; the offset and the length are in bytes. -/
structure Span where
  file : Text
  lineNumber : Nat
  lineOffset : Nat
  len : Nat
  line : Text
deriving DecidableEq, Repr

/-- `CodeSpan::to_string`, span.rs:74-95. -/
def Span.text (s : Span) : Text :=
  s.file ++ ':' :: number s.lineNumber ++ ':' :: number s.lineOffset ++ '\n' ::
  (number s.lineNumber ++ " | ".toList ++ s.line ++ '\n' ::
  (List.replicate ((number s.lineNumber).length + 3 + s.lineOffset) ' ' ++
   List.replicate (max s.len 1) '^' ++ ['\n']))

/-- `Diagnostic`, lib.rs:53-68. -/
structure Diagnostic where
  level : Level
  message : Text
  note : Option Text := none
  help : Option Text := none
  attachment : Option Text := none
  spans : List Span := []
deriving DecidableEq, Repr

/-- `writeln!`. -/
def ln (t : Text) : Text := t ++ ['\n']

/-- The note, lib.rs:133-142. -/
def noteText (pad : Nat) (note : Text) : Text :=
  right pad "Note".toList ++ ": ".toList ++
  match strLines note with
  | [] => []
  | l :: ls => ln l ++ ls.flatMap (fun l => ln (right pad [] ++ "  ".toList ++ l))

/-- The help, lib.rs:143-145. -/
def helpText (pad : Nat) (help : Text) : Text := ln (right pad "Help".toList ++ ": ".toList ++ help)

/-- A line of the attachment, with its index. -/
def attachmentLine (pad : Nat) (p : Text × Nat) : Text := ln (right pad (number (p.2 + 1)) ++ " | ".toList ++ p.1)

/-- The attachment, lib.rs:146-162. -/
def attachmentText (pad : Nat) (attachment : Text) : Text :=
  let lines := strLines attachment
  if lines.length > 5 + 1 + 5 then
    (lines.zipIdx.take 5).flatMap (attachmentLine pad) ++ ln (right pad "...".toList ++ " |".toList) ++
    (lines.zipIdx.drop (lines.length - 5)).flatMap (attachmentLine pad)
  else lines.zipIdx.flatMap (attachmentLine pad)

/-- The code spans, lib.rs:163-167. -/
def spansText (pad : Nat) (spans : List Span) : Text :=
  spans.flatMap (fun s => (strLines s.text).flatMap (fun l => ln (right (pad + 1) [] ++ ' ' :: l)))

/-- `if let Some`. -/
def optText (f : Text → Text) : Option Text → Text
  | some t => f t
  | none => []

/-- `Diagnostic::print`, lib.rs:122-169. -/
def Diagnostic.print (d : Diagnostic) : Text :=
  let pad := d.level.text.length
  ln (d.level.text ++ ": ".toList ++ d.message) ++
  optText (noteText pad) d.note ++ optText (helpText pad) d.help ++ optText (attachmentText pad) d.attachment ++
  spansText pad d.spans

/-- `Itertools::sorted_by_key` with the level: a stable sort. -/
def sorted (ds : List Diagnostic) : List Diagnostic := ds.mergeSort (fun a b => a.level.le b.level)

/-- `FinishUIUtils::print_diagnostic_messages`, task-maker-format/src/ui/mod.rs:308-315. -/
def printAll (ds : List Diagnostic) : Text := (sorted ds).flatMap (fun d => ln d.print)

end TM.Diag
