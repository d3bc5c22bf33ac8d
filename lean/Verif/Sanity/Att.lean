import Verif.Sanity.Graders
import Verif.Disk.Model
/-!
# The files of the attachments (`ioi/sanity_checks/att.rs`, `sol.rs`, `task.rs`)

Model of `AttSampleFiles`, `AttTemplates`, `AttNoDirectory`, `SolTemplateSymlink` and `BrokenSymlinks` on the disk of
`Verif.Disk.Model`.  The names of a directory are given, in the order of `list_files` (or of `read_dir`).
-/
namespace TM.Sanity.Att
open TM.Disk TM.Sanity TM.Ui

/-- `list_files(&task.path, vec!["att/*input*.txt", "att/*output*.txt"])`, lib.rs:225-237; a file may be there twice. -/
def sampleNames (names : List Name) : List Name :=
  names.filter (wildMatch "*input*.txt".toList) ++ names.filter (wildMatch "*output*.txt".toList)

/-- `extract_sample_files_from_task`, att.rs:88-106: for each testcase of the subtask 0, its file, or nothing if it is
generated; nothing if there is no subtask 0. -/
def taskSamples (d : Disk) : Option (List (Option Path)) → List Path
  | none => []
  | some inputs => go inputs []
where
  go : List (Option Path) → List Path → List Path
    | [], acc => acc
    | none :: _, _ => []
    | some p :: rest, acc => go rest (acc ++ [(d.canonicalize p).getD p])

/-- The diagnostics of `AttSampleFiles`. -/
inductive Says where
  | broken (name : Name) (target : Path)
  | notLink (name : Name)
  | missingAtt (files : List Path)
  | missingTask (files : List Path)
  | noSample
deriving DecidableEq, Repr

/-- `file_name.contains("input")`. -/
def hasInput (name : Name) : Bool := wildMatch "*input*".toList name

/-- One sample, att.rs:127-146. -/
def sampleSays (d : Disk) (att : Path) (name : Name) : List Says :=
  match d.readLink (att ++ [name]) with
  | some target => if (d.canonicalize (att ++ [name])).isNone then [.broken name target] else []
  | none => [.notLink name]

/-- Its file, att.rs:147-152. -/
def sampleInput (d : Disk) (att : Path) (name : Name) : Option Path :=
  match d.canonicalize (att ++ [name]) with
  | none => none
  | some path => if hasInput (path.getLast?.getD []) then some path else none

/-- The two sets, att.rs:154-180; an order of the files is not in the model. -/
def differ (inTask inAtt : List Path) : List Says :=
  if inTask ≠ [] ∧ ¬ (inTask.all (· ∈ inAtt) ∧ inAtt.all (· ∈ inTask)) then
    let missingAtt := inTask.filter (· ∉ inAtt)
    let missingTask := inAtt.filter (· ∉ inTask)
    (if missingAtt ≠ [] then [.missingAtt missingAtt] else []) ++ (if missingTask ≠ [] then [.missingTask missingTask] else [])
  else []

/-- `AttSampleFiles::post_hook`, att.rs:120-187. -/
def samples (d : Disk) (att : Path) (names : List Name) (inputs : Option (List (Option Path))) : List Says :=
  let files := sampleNames names
  files.flatMap (sampleSays d att) ++ differ (taskSamples d inputs) (files.filterMap (sampleInput d att)) ++
    (if files = [] then [.noSample] else [])

/-- `att/{task}.{ext}`, att.rs:62. -/
def templateName (task ext : Name) : Name := task ++ '.' :: ext

/-- `AttTemplates::pre_hook`, att.rs:56-74: the templates that are missing, each with its grader; `none` if a grader has no
extension. -/
def templates (d : Disk) (att : Path) (task : Name) : List Name → Option (List (Name × Name))
  | [] => some []
  | grader :: graders =>
    match (splitDot grader).2 with
    | none => none
    | some ext =>
      match templates d att task graders with
      | none => none
      | some rest => some (if d.exists (att ++ [templateName task ext]) then rest else (templateName task ext, grader) :: rest)

/-- The loop of `AttNoDirectory`, att.rs:528-542: the directories and, if it stopped, the name where it did. -/
def directories (d : Disk) (att : Path) : List Name → List Name × Option Name
  | [] => ([], none)
  | name :: names =>
    match d.canonicalize (att ++ [name]) with
    | none => ([], some name)
    | some path =>
      let (dirs, failed) := directories d att names
      (if d.isDir path then name :: dirs else dirs, failed)

/-- `SolTemplateSymlink::pre_hook`, sol.rs:49-69: the templates that are not links, each with the file it should point to. -/
def solTemplates (d : Disk) (sol : Path) (task : Name) (names : List Name) : List (Name × Name) :=
  (names.filter (wildMatch "template.*".toList)).flatMap (fun name =>
    match (splitDot name).2 with
    | none => []
    | some ext => if (d.readLink (sol ++ [name])).isSome then [] else [(name, templateName task ext)])

/-- `BrokenSymlinks::post_hook`, task.rs:62-80, on the files of the task as paths inside it: the broken links, each with
its target. -/
def brokenLinks (d : Disk) (task : Path) (files : List Path) : List (Path × Path) :=
  files.flatMap (fun file =>
    if d.exists (task ++ file) then []
    else if file.head? = some "fuzz".toList then []
    else match d.readLink (task ++ file) with
      | some target => [(file, target)]
      | none => [])

/-! ## Specification -/

/-- The names of the samples. -/
def IsSample (name : Name) : Prop := Glob "*input*.txt".toList name ∨ Glob "*output*.txt".toList name

/-- The path is a link that leads nowhere. -/
def BrokenAt (d : Disk) (p target : Path) : Prop := LinkAt d p target ∧ ¬ ∃ r, LeadsTo d p r

/-- The file is a sample of the task: the input of a testcase of the first subtask, whose testcases are all files. -/
def InTask (d : Disk) (inputs : Option (List (Option Path))) (file : Path) : Prop :=
  ∃ l, inputs = some l ∧ none ∉ l ∧ ∃ p, some p ∈ l ∧ (LeadsTo d p file ∨ ((¬ ∃ r, LeadsTo d p r) ∧ file = p))

/-- The file is an input among the attachments. -/
def InAtt (d : Disk) (att : Path) (names : List Name) (file : Path) : Prop :=
  ∃ name ∈ names, Glob "*input*.txt".toList name ∧ LeadsTo d (att ++ [name]) file

/-- The inputs lead to files called `...input...`, and the outputs do not. -/
def Named (d : Disk) (att : Path) (names : List Name) : Prop :=
  ∀ name ∈ names, ∀ file, LeadsTo d (att ++ [name]) file →
    (Glob "*input*.txt".toList name → ∃ c, file.getLast? = some c ∧ Glob "*input*".toList c) ∧
    (¬ Glob "*input*.txt".toList name → Glob "*output*.txt".toList name → ∀ c, file.getLast? = some c → ¬ Glob "*input*".toList c)

end TM.Sanity.Att
