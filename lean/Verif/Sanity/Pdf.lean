import Verif.Disk.Model
/-!
# The official statement (`ioi/sanity_checks/statement.rs`)

Model of `StatementValid`, `StatementCompiled`, `StatementGit` and `find_statement_pdf`,
task-maker-format/src/ioi/sanity_checks/statement.rs:107-282 and 411-419.  A file is the list of its bytes, as characters.
In the warning of `StatementCompiled` the compiled files are their real paths, not made relative to the task.
-/
namespace TM.Sanity.Pdf
open TM.Disk

/-- The places of the statement, statement.rs:412. -/
inductive Official where
  | statement
  | testo
deriving DecidableEq, Repr

/-- The path inside the task. -/
def Official.rel : Official → Path
  | .statement => ["statement".toList, "statement.pdf".toList]
  | .testo => ["testo".toList, "testo.pdf".toList]

/-- ... as a text. -/
def Official.name (o : Official) : Text := List.intercalate ['/'] o.rel

def Official.path (task : Path) (o : Official) : Path := task ++ o.rel

/-- `path.exists() || path.read_link().is_ok()` -/
def isThere (d : Disk) (p : Path) : Bool := d.exists p || (d.readLink p).isSome

/-- `find_statement_pdf`, statement.rs:411-419. -/
def findPdf (d : Disk) (task : Path) : Option Official :=
  if isThere d (Official.path task .statement) then some .statement
  else if isThere d (Official.path task .testo) then some .testo
  else none

/-- The diagnostics of `StatementValid`. -/
inductive Says where
  /-- with the file to link -/
  | missing (link : Option Text)
  | invalid (o : Official)
  | broken (o : Official)
deriving DecidableEq, Repr

/-- The magic number, statement.rs:145-152. -/
def isPdf (content : Text) : Bool := content.take 4 = "%PDF".toList

/-- `StatementValid::post_hook`, statement.rs:122-170; `booklets` are the files of the booklets of the task. -/
def valid (d : Disk) (task : Path) (booklets : List Path) : List Says :=
  match findPdf d task with
  | none => [.missing (booklets.head?.bind (·.getLast?))]
  | some o =>
    if d.exists (o.path task) then
      match d.read (o.path task) with
      | none => [.invalid o]
      | some content => if isPdf content then [] else [.invalid o]
    else if (d.readLink (o.path task)).isSome then [.broken o]
    else []

/-- The loop of `StatementCompiled`, statement.rs:211-222: nothing if one of them is the statement. -/
def otherPdfs (d : Disk) (target : Path) : List Path → Option (List Path)
  | [] => some []
  | b :: booklets =>
    match d.canonicalize b with
    | none => otherPdfs d target booklets
    | some dest =>
      if dest = target then none
      else (otherPdfs d target booklets).map (dest :: ·)

/-- `StatementCompiled::post_hook`, statement.rs:190-243: the warning, with the compiled files. -/
def compiled (d : Disk) (task : Path) (booklets : List Path) : Option (Official × List Path) :=
  if booklets = [] then none
  else match findPdf d task with
    | none => none
    | some o =>
      match d.canonicalize (o.path task) with
      | none => none
      | some target => (otherPdfs d target booklets).map (fun dests => (o, dests))

/-- `output.stdout.split(|&b| b == 0)`. -/
def splitNul : Text → List Text
  | [] => [[]]
  | c :: r =>
    if c = '\x00' then [] :: splitNul r
    else match splitNul r with
      | [] => [[c]]
      | w :: ws => (c :: w) :: ws

/-- `StatementGit::post_hook`, statement.rs:261-282: the error.  `git` is the output of `git ls-files -z` in the task; nothing
if git is not there or failed. -/
def gitCheck (d : Disk) (task : Path) (git : Option Text) : Option Official :=
  match findPdf d task with
  | none => none
  | some o =>
    match git with
    | none => none
    | some out => if out ≠ [] ∧ o.name ∉ splitNul out then some o else none

/-! ## Specification -/

/-- Something is there, maybe a broken link. -/
def Present (d : Disk) (p : Path) : Prop := (∃ r, LeadsTo d p r) ∨ ∃ t, LinkAt d p t

/-- The statement that is imported. -/
def IsOfficial (d : Disk) (task : Path) (o : Official) : Prop :=
  (o = .statement ∧ Present d (task ++ ["statement".toList, "statement.pdf".toList])) ∨
  (o = .testo ∧ ¬ Present d (task ++ ["statement".toList, "statement.pdf".toList]) ∧
    Present d (task ++ ["testo".toList, "testo.pdf".toList]))

/-- The path is of a PDF, maybe through links. -/
def PdfAt (d : Disk) (p : Path) : Prop := ∃ r content, LeadsTo d p r ∧ d.node r = some (.file content) ∧ "%PDF".toList <+: content

end TM.Sanity.Pdf
