import Verif.Base.AMap
import Verif.Base.Sort
import Verif.Clean.Model
import Verif.Sanity.Graders
import Verif.Solution.Extract

/-!
# Which task and which solutions are evaluated

Model of `find_task` (`task-maker-format/src/detect_format.rs`), `EvaluationConfig::find_solutions` and
`list_files` (`task-maker-format/src/lib.rs` lines 157-236), `Solution::new`
(`task-maker-format/src/solution.rs` lines 27-50) and of the part of `std::path` and of the crate `glob`
they use.

Simplifications: there are no symbolic links, so that `..` goes to the directory that comes before it, and
`a/..` is taken to exist whether or not `a` does; file names are texts (the conversions from `OsStr` are left
out); `*` of a pattern is not `**`; the file system does not change meanwhile.
-/
namespace TM.Find
open TM AMap

abbrev Text := TM.Text.Text

/-- A component of a path. -/
abbrev Name := Text

/-- A place of the file system: the components from the root. -/
abbrev Place := List Name

abbrev dotdot : Name := ['.', '.']
abbrev dot : Name := ['.']

/-- A `Path`, as the list of its components (`Path::components`), on which `==` and `Hash` of a path are
defined: `..` is kept, `.` only at the beginning of a relative path. -/
structure RPath where
  abs : Bool
  comps : List Name
  deriving DecidableEq, Repr

/-- What is between the slashes. -/
def pieces : Text → List Text
  | [] => [[]]
  | c :: cs =>
    if c = '/' then [] :: pieces cs
    else match pieces cs with
      | [] => [[c]]
      | p :: ps => (c :: p) :: ps

/-- `PathBuf::from` on a text. -/
def RPath.ofText (t : Text) : RPath :=
  let abs := t.head? = some '/'
  let ps := (pieces t).filter (fun p => p ≠ [])
  if decide abs then ⟨true, ps.filter (fun p => p ≠ dot)⟩
  else match ps with
    | [] => ⟨false, []⟩
    | p :: rest => ⟨false, p :: rest.filter (fun q => q ≠ dot)⟩

/-- `Path::file_name`: the last component, unless it is `..` or `.`. -/
def RPath.fileName (p : RPath) : Option Name :=
  match p.comps.getLast? with
  | none => none
  | some n => if n = dotdot ∨ n = dot then none else some n

/-- `Path::parent`: without the last component, whatever it is; the root and the empty path have none. -/
def RPath.parent (p : RPath) : Option RPath :=
  if p.comps = [] then none else some ⟨p.abs, p.comps.dropLast⟩

/-- `Path::join`. -/
def RPath.join (a b : RPath) : RPath :=
  if b.abs then b
  else if a.comps = [] ∧ a.abs = false then b
  else ⟨a.abs, a.comps ++ (if b.comps.head? = some dot then b.comps.tail else b.comps)⟩

/-- A path with a component more. -/
def RPath.push (a : RPath) (n : Name) : RPath := ⟨a.abs, a.comps ++ [n]⟩

/-- What is in a place.  The content of a file is nothing when it is not a text (`read_to_string` fails), or
cannot be read. -/
inductive Node where
  | file (content : Option Text)
  | dir
  deriving DecidableEq, Repr

/-- The file system and the working directory. -/
structure World where
  cwd : Place
  fs : AMap Place Node

/-- One component further. -/
def step (at_ : Place) (n : Name) : Place :=
  if n = dotdot then at_.dropLast else if n = dot then at_ else at_ ++ [n]

/-- The place a path leads to. -/
def World.resolve (w : World) (p : RPath) : Place :=
  p.comps.foldl step (if p.abs then [] else w.cwd)

/-- `Path::exists`. -/
def World.exists (w : World) (p : RPath) : Bool := w.fs.contains (w.resolve p)

/-- `File::open` and `read_to_string` (solution.rs:313-315): a directory cannot be read. -/
def World.read (w : World) (p : RPath) : Option Text :=
  match w.fs.get? (w.resolve p) with
  | some (.file c) => c
  | _ => none

/-! ## The files of a pattern -/

/-- The order of the names. -/
def nameLe : Name → Name → Bool
  | [], _ => true
  | _ :: _, [] => false
  | a :: x, b :: y => if a.toNat < b.toNat then true else if b.toNat < a.toNat then false else nameLe x y

/-- The entries of a directory, in the order in which `glob` gives them. -/
def World.entries (w : World) (d : Place) : List Name :=
  isort nameLe (w.fs.keys.filterMap (fun p => if p ≠ [] ∧ p.dropLast = d then p.getLast? else none))

/-- Whether the component of the pattern has to be matched. -/
def hasMeta (n : Name) : Bool := n.any (fun c => c == '*' || c == '?' || c == '[')

/-- `Pattern::matches` on a component. -/
def nameMatches (pat n : Name) : Bool :=
  match Clean.tokens none pat with
  | none => false
  | some ts => Clean.matchToks ts n

/-- `glob::glob`, the components that are not patterns are followed as they are. -/
def globFrom (w : World) : RPath → List Name → List RPath
  | acc, [] => if w.exists acc then [acc] else []
  | acc, p :: ps =>
    if hasMeta p then
      ((w.entries (w.resolve acc)).filter (nameMatches p)).flatMap (fun n => globFrom w (acc.push n) ps)
    else globFrom w (acc.push p) ps

/-- `glob::glob`: nothing if the pattern is not valid. -/
def globPath (w : World) (pattern : RPath) : Option (List RPath) :=
  if pattern.comps.all (fun c => (Clean.tokens none c).isSome) then
    some (globFrom w ⟨pattern.abs, []⟩ pattern.comps)
  else none

/-- `list_files`, lib.rs:222-236; nothing is the panic on an invalid pattern. -/
def listFiles (w : World) (base : RPath) : List RPath → Option (List RPath)
  | [] => some []
  | p :: ps =>
    match globPath w (base.join p) with
    | none => none
    | some l => (listFiles w base ps).map (l ++ ·)

/-! ## The solutions -/

/-- The options of `EvaluationConfig` (lib.rs:86-103) about the solutions. -/
structure Config where
  /-- `solution_filter` -/
  filters : List Text
  /-- `solution_paths` -/
  paths : List RPath

/-- A filter is reduced to its file name, lib.rs:163-174; nothing is the panic "Invalid filter provided". -/
def filterName (f : Text) : Option Name := (RPath.ofText f).fileName

/-- `solution_filters`, lib.rs:160-176. -/
def solutionFilters : List Text → Option (List Name)
  | [] => some []
  | f :: fs =>
    match filterName f with
    | none => none
    | some n => (solutionFilters fs).map (n :: ·)

/-- `solution_paths`, lib.rs:178-186. -/
def solutionPaths (w : World) (c : Config) (base : RPath) (patterns : List RPath) : Option (List RPath) :=
  if c.paths = [] then listFiles w base patterns else some c.paths

/-- A `Solution`, solution.rs:18-25: the path, the language (of its `SourceFile`) and the checks; `invalid`
are the lines a diagnostic is emitted for while reading the checks. -/
structure Found where
  path : RPath
  language : Sanity.Language
  checks : List Solution.SolutionCheck
  invalid : List Text

/-- `Solution::new`, solution.rs:31-50.  The outer `none` is the panic of `file_name().unwrap()`, the inner
one is the `None` that is returned when the language is unknown or the checks cannot be read. -/
def solutionNew (w : World) (p : RPath) : Option (Option Found) :=
  match p.fileName with
  | none => none
  | some n =>
    match Sanity.detectLanguage n with
    | none => some none
    | some l =>
      match w.read p with
      | none => some none
      | some content =>
        match Solution.extract content with
        | .error _ => some none
        | .ok (cs, ds) => some (some ⟨p, l, cs, ds⟩)

/-- The filter of lib.rs:206-214; nothing is the panic of `file_name().unwrap()`. -/
def kept (filters : List Name) (p : RPath) : Option Bool :=
  if filters = [] then some true
  else p.fileName.map (fun n => filters.any (fun f => f.isPrefixOf n))

/-- The chain of iterators of lib.rs:202-216. -/
def pick (w : World) (graders : List RPath) (filters : List Name) : List RPath → Option (List Found)
  | [] => some []
  | p :: ps =>
    if p ∈ graders then pick w graders filters ps
    else if w.exists p = false then pick w graders filters ps
    else match kept filters p with
      | none => none
      | some false => pick w graders filters ps
      | some true =>
        match solutionNew w p with
        | none => none
        | some none => pick w graders filters ps
        | some (some s) => (pick w graders filters ps).map (s :: ·)

/-- `find_solutions`, lib.rs:188-218; nothing is a panic.  The graders are the values of the map, if there
is one. -/
def findSolutions (w : World) (c : Config) (base : RPath) (patterns graders : List RPath) :
    Option (List Found) :=
  match solutionPaths w c base patterns with
  | none => none
  | some paths =>
    match solutionFilters c.filters with
    | none => none
    | some filters => pick w graders filters paths

/-- The pattern of `IOITask::build_dag`, ioi/mod.rs:272-277. -/
def solPattern : RPath := ⟨false, ["sol".toList, ['*']]⟩

/-- The pattern of `TerryTask::build_dag`, terry/mod.rs:174. -/
def terryPattern : RPath := ⟨false, ["solutions".toList, ['*']]⟩

/-- The paths of the `GraderMap` made by `parse_task` (italian_yaml/mod.rs:539-540, grader_map.rs:31-51 and
103-105): the files of `sol/`, in the order of `list_files`, are given to the map. -/
def taskGraders (w : World) (base : RPath) : List RPath :=
  (Sanity.taskGraders (w.entries (w.resolve (base.push "sol".toList)))).values.map
    (fun n => (base.push "sol".toList).push n)

/-- The solutions of an IOI task, ioi/mod.rs:272-277. -/
def ioiSolutions (w : World) (c : Config) (base : RPath) : Option (List Found) :=
  findSolutions w c base [solPattern] (taskGraders w base)

/-- The solutions of a Terry task, terry/mod.rs:174: there are no graders. -/
def terrySolutions (w : World) (c : Config) (base : RPath) : Option (List Found) :=
  findSolutions w c base [terryPattern] []

/-! ## The task -/

/-- The formats of the tasks. -/
inductive Fmt where
  | ioi
  | terry
  deriving DecidableEq, Repr

/-- What the parsers say of the directories.  `is_valid` looks for `task.yaml` (or `task.yaml.orig`,
ioi/mod.rs:236-238, terry/mod.rs:145-147); `parse` is whether `IOITask::new` or `TerryTask::new` accept the
directory: what they do is not modelled here. -/
structure Parsers where
  parse : Fmt → RPath → Bool

/-- `is_valid`. -/
def isValid (w : World) (f : Fmt) (d : RPath) : Bool :=
  match f with
  | .ioi => w.exists (d.push "task.yaml".toList) || w.exists (d.push "task.yaml.orig".toList)
  | .terry => w.exists (d.push "task.yaml".toList)

/-- How the search ends. -/
inductive Search where
  | found (f : Fmt) (dir : RPath)
  /-- "Ambiguous task directory" -/
  | ambiguous (dir : RPath)
  /-- "Cannot find a valid task directory", with the tasks that could not be parsed. -/
  | missing (fails : List (Fmt × RPath))
  deriving DecidableEq, Repr

/-- The body of the loop, detect_format.rs:21-42: the end of the search, or the failures. -/
def lookAt (w : World) (ps : Parsers) (d : RPath) : Search ⊕ List (Fmt × RPath) :=
  let ioiOk := isValid w .ioi d && ps.parse .ioi d
  let ioiFail := isValid w .ioi d && !ps.parse .ioi d
  let fails := if ioiFail then [(Fmt.ioi, d)] else []
  if isValid w .terry d then
    if ps.parse .terry d then
      if ioiOk then .inl (.ambiguous d) else .inl (.found .terry d)
    else if ioiOk then .inl (.found .ioi d)
    else .inr (fails ++ [(Fmt.terry, d)])
  else if ioiOk then .inl (.found .ioi d)
  else .inr fails

/-- The loop, detect_format.rs:20-48. -/
def searchLoop (w : World) (ps : Parsers) : Nat → RPath → List (Fmt × RPath) → Search
  | 0, _, fails => .missing fails
  | k + 1, d, fails =>
    match lookAt w ps d with
    | .inl r => r
    | .inr more =>
      match d.parent with
      | none => .missing (fails ++ more)
      | some d' => searchLoop w ps k d' (fails ++ more)

/-- `find_task`, detect_format.rs:9-63.  Without a directory the working directory is used (`getcwd`,
detect_format.rs:65-73, `$PWD` is taken to be the working directory). -/
def findTask (w : World) (ps : Parsers) (base : Option RPath) (maxDepth : Nat) : Search :=
  let start : RPath := match base with
    | none => ⟨true, w.cwd⟩
    | some b => if b.abs then b else RPath.join ⟨true, w.cwd⟩ b
  searchLoop w ps maxDepth start []

end TM.Find
