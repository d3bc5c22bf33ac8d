import Verif.Find.Model

/-!
# The booklets of a contest and the files for the contestants

Model of `task-maker-format/src/ioi/statement/mod.rs`, of the functions of `src/tools/booklet.rs` that choose the
tasks, of the statements and attachments of `task-maker-format/src/ioi/task_info.rs` and of `copy_files` in
`src/tools/copy_competition_files.rs`.

Simplifications: of a task only the name and the path are kept, of the configuration of a booklet only the
language; the contents of `contest.yaml` other than the tasks are left out.  The order in which
`make_contest_booklets` gives the booklets is the one of a `HashMap`: here it is fixed, and no theorem is about it.
-/
namespace TM.Find
open TM AMap

/-- `Path::file_stem` of a name. -/
def stemOf (n : Name) : Name := (Sanity.splitDot n).1

/-- `Path::with_extension`: the extension of the last component is replaced, or added. -/
def RPath.withExtension (p : RPath) (ext : Name) : RPath :=
  match p.fileName with
  | none => p
  | some n => ⟨p.abs, p.comps.dropLast ++ [stemOf n ++ '.' :: ext]⟩

/-- The patterns of the statements, statement/mod.rs:101. -/
def statementPattern : RPath := ⟨false, ["statement".toList, "*.tex".toList]⟩
def testoPattern : RPath := ⟨false, ["testo".toList, "*.tex".toList]⟩

/-- The language of a statement, statement/mod.rs:104-107. -/
def languageOf (p : RPath) : Option (Name × RPath) := p.fileName.map (fun n => (stemOf n, p))

/-- `find_statement_files`, statement/mod.rs:99-111; nothing is the panic of `list_files`. -/
def findStatements (w : World) (dir : RPath) : Option (List (Name × RPath)) :=
  (listFiles w dir [statementPattern, testoPattern]).map (·.filterMap languageOf)

/-- The part of an `IOITask` that is used. -/
structure TaskAt where
  name : Name
  path : RPath
  deriving DecidableEq, Repr

/-- A `Statement`: its task and its file. -/
structure StatementOf where
  task : TaskAt
  path : RPath
  deriving DecidableEq, Repr

/-- A `Booklet`. -/
structure BookletOf where
  language : Name
  dest : RPath
  statements : List StatementOf
  deriving DecidableEq, Repr

/-- How a function ends without a result. -/
inductive Fail where
  /-- A panic. -/
  | panic
  /-- "Task is at the root" -/
  | atRoot
  /-- "The tasks are not all in the same directory" -/
  | otherContest
  /-- The statement cannot be read. -/
  | unreadable (path : RPath)
  /-- `contest.yaml` cannot be read. -/
  | badContest
  /-- "Missing contest.yaml" -/
  | noContest
  /-- The directory is not an IOI task. -/
  | notTask (path : RPath)
  deriving DecidableEq, Repr

/-- `contest.yaml`: the tasks of the contest, nothing if it cannot be parsed. -/
structure ContestFile where
  parse : Text → Option (List RPath)

abbrev contestName : Name := "contest.yaml".toList

/-- `BookletConfig::contest_yaml`, booklet.rs:333-355: nothing if there is no such file. -/
def contestYaml (w : World) (cf : ContestFile) (dir : RPath) : Option (Option (List RPath)) :=
  if w.exists (dir.join ⟨false, [contestName]⟩) then
    some (match w.read (dir.join ⟨false, [contestName]⟩) with
      | none => none
      | some t => cf.parse t)
  else none

/-- Whether `BookletConfig::from_contest` works, booklet.rs:294-331. -/
def configOk (w : World) (cf : ContestFile) (dir : RPath) : Bool := contestYaml w cf dir != some none

/-- The loop of `make_task_booklets`, statement/mod.rs:27-43. -/
def taskBooklets (w : World) (cf : ContestFile) (t : TaskAt) :
    List (Name × RPath) → Except Fail (List BookletOf)
  | [] => .ok []
  | (lang, p) :: rest =>
    if (w.read p).isNone then .error (.unreadable p)
    else match t.path.parent with
      | none => .error .atRoot
      | some contest =>
        if configOk w cf contest = false then .error .badContest
        else match taskBooklets w cf t rest with
          | .error e => .error e
          | .ok bs => .ok (⟨lang, p.withExtension "pdf".toList, [⟨t, p⟩]⟩ :: bs)

/-- `make_task_booklets`, statement/mod.rs:19-45. -/
def makeTaskBooklets (w : World) (cf : ContestFile) (t : TaskAt) : Except Fail (List BookletOf) :=
  match findStatements w t.path with
  | none => .error .panic
  | some l => taskBooklets w cf t l

/-- statement/mod.rs:59-67. -/
def sameContest (contest : RPath) : List TaskAt → Except Fail Unit
  | [] => .ok ()
  | t :: ts =>
    match t.path.parent with
    | none => .error .atRoot
    | some d => if contest ≠ d then .error .otherContest else sameContest contest ts

/-- `by_language`, statement/mod.rs:69-78: the statements of the tasks are added to their language. -/
def byLanguage (w : World) : List TaskAt → AMap Name (List StatementOf) → Option (AMap Name (List StatementOf))
  | [], m => some m
  | t :: ts, m =>
    match findStatements w t.path with
    | none => none
    | some l => byLanguage w ts (l.foldl (fun m q => m.insert q.1 ((m.get? q.1).getD [] ++ [⟨t, q.2⟩])) m)

/-- The loop of `make_contest_booklets`, statement/mod.rs:80-95. -/
def contestLoop (w : World) (cf : ContestFile) (contest : RPath) :
    List (Name × List StatementOf) → Except Fail (List BookletOf)
  | [] => .ok []
  | (lang, sts) :: rest =>
    if configOk w cf contest = false then .error .badContest
    else match sts.find? (fun s => (w.read s.path).isNone) with
      | some s => .error (.unreadable s.path)
      | none => match contestLoop w cf contest rest with
        | .error e => .error e
        | .ok bs => .ok (⟨lang, contest.join ⟨false, [lang ++ ".pdf".toList]⟩, sts⟩ :: bs)

/-- `make_contest_booklets`, statement/mod.rs:47-97.  The statements of all the tasks are looked for before the
booklets are made. -/
def makeContestBooklets (w : World) (cf : ContestFile) : List TaskAt → Except Fail (List BookletOf)
  | [] => .ok []
  | t :: ts =>
    match t.path.parent with
    | none => .error .atRoot
    | some contest =>
      match sameContest contest (t :: ts) with
      | .error e => .error e
      | .ok () =>
        match byLanguage w (t :: ts) [] with
        | none => .error .panic
        | some m => contestLoop w cf contest m

/-- The tasks that are loaded from a list of directories, src/tools/booklet.rs:107-121: `load` is
`IOITask::new`, that gives the name of the task. -/
def loadTasks (load : RPath → Option Name) : List RPath → Except Fail (List TaskAt)
  | [] => .ok []
  | p :: ps =>
    match load p with
    | none => .error (.notTask p)
    | some n => match loadTasks load ps with
      | .error e => .error e
      | .ok ts => .ok (⟨n, p⟩ :: ts)

/-- `get_booklets_from_task_dirs`, src/tools/booklet.rs:107-128. -/
def bookletsOfDirs (w : World) (cf : ContestFile) (load : RPath → Option Name) (dirs : List RPath) :
    Except Fail (List BookletOf) :=
  match loadTasks load dirs with
  | .error e => .error e
  | .ok ts => makeContestBooklets w cf ts

/-- `get_booklets_from_contest_dir`, src/tools/booklet.rs:88-105. -/
def bookletsOfContest (w : World) (cf : ContestFile) (load : RPath → Option Name) (contest : RPath) :
    Except Fail (List BookletOf) :=
  match contestYaml w cf contest with
  | none => .error .noContest
  | some none => .error .badContest
  | some (some tasks) => bookletsOfDirs w cf load (tasks.map contest.join)

end TM.Find
