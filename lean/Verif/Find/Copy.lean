import Verif.Find.Contest

/-!
# The files for the contestants

Model of `src/tools/copy_competition_files.rs` and of the statements and attachments of `IOITaskInfo::new`
(`task-maker-format/src/ioi/task_info.rs` lines 104-136).

Simplifications: the contents of the files are of any type (`β`; `default` is the empty file), the permissions are
left out; there are no symbolic links and the disk is only changed by task-maker; what the evaluation of the
booklets of a task does to the disk is a parameter (`Work.run`), and so are the tasks that are loaded at the
beginning (`IOITask::new`, C106 for the booklets).  The order of the attachments is the one of `read_dir`, that is
not specified: here it is the order of the map, and no theorem depends on it.
-/
namespace TM.Find
open TM AMap

/-- What is in a place of the disk. -/
inductive Item (β : Type) where
  | file (content : β)
  | dir
  deriving DecidableEq, Repr

/-- The disk and the working directory. -/
structure Disk (β : Type) where
  cwd : Place
  items : AMap Place (Item β)

/-- The place a path leads to. -/
def place (cwd : Place) (p : RPath) : Place := p.comps.foldl step (if p.abs then [] else cwd)

/-- Whether the place is a directory: the root always is. -/
def Disk.isDir {β : Type} (d : Disk β) (q : Place) : Bool :=
  q.isEmpty || (match d.items.get? q with
    | some .dir => true
    | _ => false)

/-- How the copy fails. -/
inductive CopyFail where
  /-- `create_dir` fails. -/
  | mkdir (q : Place)
  /-- `copy` fails. -/
  | copy (src dst : Place)
  /-- The panic of `file_name().unwrap()`. -/
  | panic
  /-- The evaluation of the booklets fails. -/
  | run
  deriving DecidableEq, Repr

/-- `std::fs::create_dir`. -/
def Disk.mkdir {β : Type} (d : Disk β) (q : Place) : Except CopyFail (Disk β) :=
  if q ≠ [] ∧ d.items.contains q = false ∧ d.isDir q.dropLast = true then
    .ok { d with items := d.items.insert q .dir }
  else .error (.mkdir q)

/-- `if !p.exists() { create_dir(p)? }`, copy_competition_files.rs:47-49 and 86-88. -/
def Disk.ensureDir {β : Type} (d : Disk β) (q : Place) : Except CopyFail (Disk β) :=
  if q = [] ∨ d.items.contains q = true then .ok d else d.mkdir q

/-- `std::fs::copy`: the source must be a file, the target is created or truncated before it is written, so
that a file copied on itself is lost. -/
def Disk.copy {β : Type} [Inhabited β] (d : Disk β) (src dst : Place) : Except CopyFail (Disk β) :=
  match d.items.get? src with
  | some (.file c) =>
    if dst ≠ [] ∧ d.isDir dst = false ∧ d.isDir dst.dropLast = true then
      .ok { d with items := d.items.insert dst (.file (if src = dst then default else c)) }
    else .error (.copy src dst)
  | _ => .error (.copy src dst)

/-- The loops of `copy_files`, copy_competition_files.rs:91-104. -/
def copyAll {β : Type} [Inhabited β] (task files : RPath) : List RPath → Disk β → Except CopyFail (Disk β)
  | [], d => .ok d
  | p :: ps, d =>
    match p.fileName with
    | none => .error .panic
    | some n =>
      match d.copy (place d.cwd (task.join p)) (place d.cwd (files.join ⟨false, [n]⟩)) with
      | .error e => .error e
      | .ok d' => copyAll task files ps d'

/-- The paths of `IOITaskInfo` that are used. -/
structure TaskPaths where
  statements : List RPath
  attachments : List RPath

/-- `copy_files`, copy_competition_files.rs:84-107. -/
def copyFiles {β : Type} [Inhabited β] (info : TaskPaths) (task files : RPath) (d : Disk β) :
    Except CopyFail (Disk β) :=
  match d.ensureDir (place d.cwd files) with
  | .error e => .error e
  | .ok d1 =>
    match copyAll task files info.statements d1 with
    | .error e => .error e
    | .ok d2 => copyAll task files info.attachments d2

/-- `IOITask::path_of`, ioi/mod.rs:246-248. -/
def pathOf (task p : RPath) : RPath :=
  if p.abs = task.abs ∧ task.comps.isPrefixOf p.comps = true then ⟨false, p.comps.drop task.comps.length⟩ else p

/-- A task that has been loaded: its name, its directory and where its booklets are written. -/
structure LoadedTask where
  name : Name
  path : RPath
  booklets : List RPath
  deriving DecidableEq, Repr

abbrev attName : Name := "att".toList
abbrev filesName : Name := "competition-files".toList

/-- The files directly in a directory. -/
def Disk.filesIn {β : Type} (d : Disk β) (q : Place) : List Name :=
  d.items.keys.filterMap (fun k => match d.items.get? k with
    | some (.file _) => if k ≠ [] ∧ k.dropLast = q then k.getLast? else none
    | _ => none)

/-- The statements and attachments of `IOITaskInfo::new`, task_info.rs:104-136. -/
def taskPaths {β : Type} (d : Disk β) (t : LoadedTask) : TaskPaths :=
  ⟨t.booklets.map (pathOf t.path),
   (d.filesIn (place d.cwd (t.path.push attName))).map (fun n => pathOf t.path ((t.path.push attName).push n))⟩

/-- What the evaluation of the booklets of a task does; nothing if it is an error. -/
structure Work (β : Type) where
  run : LoadedTask → Disk β → Option (Disk β)

/-- The loop of `copy_competition_files_main`, copy_competition_files.rs:51-79. -/
def copyTasks {β : Type} [Inhabited β] (wk : Work β) (contest : RPath) :
    List LoadedTask → Disk β → Except CopyFail (Disk β)
  | [], d => .ok d
  | t :: ts, d =>
    match wk.run t d with
    | none => .error .run
    | some d1 =>
      match copyFiles (taskPaths d1 t) (contest.join (RPath.ofText t.name))
          ((contest.join ⟨false, [filesName]⟩).join (RPath.ofText t.name)) d1 with
      | .error e => .error e
      | .ok d2 => copyTasks wk contest ts d2

/-- `copy_competition_files_main`, copy_competition_files.rs:31-82, once the tasks are loaded (what is loaded does
not depend on the directory that is created first). -/
def competitionFiles {β : Type} [Inhabited β] (wk : Work β) (contest : RPath) (ts : List LoadedTask)
    (d : Disk β) : Except CopyFail (Disk β) :=
  match d.ensureDir (place d.cwd (contest.join ⟨false, [filesName]⟩)) with
  | .error e => .error e
  | .ok d1 => copyTasks wk contest ts d1

end TM.Find
