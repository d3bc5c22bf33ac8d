import Verif.Base.AMap

/-!
# The files a source file imports

Model of `find_dependencies` (`task-maker-lang/src/languages/mod.rs` lines 20-62).
-/
namespace TM.Lang
open TM

/-- A `Dependency` (lib.rs:48-61): where the file is and its name in the sandbox. -/
structure Dep where
  localPath : String
  sandbox : String
  deriving DecidableEq, Repr

/-- What `find_dependencies` is run on: the imports of a file (`extract_imports`, with the local paths
already joined to the directory of the source file, line 42) and the files that exist. -/
structure Files where
  imports : String → List Dep
  pathExists : String → Bool

/-- The variables of `find_dependencies`, lines 31-34.  `result_files` is the set of the sandbox paths
of `result`, so it is not kept apart. -/
structure St where
  result : List Dep := []
  pending : List String
  done : List String := []

/-- `result_files`. -/
def St.names (s : St) : List String := s.result.map (·.sandbox)

/-- The body of the inner loop, lines 41-58. -/
def addImport (fs : Files) (s : St) (d : Dep) : St :=
  if fs.pathExists d.localPath && !s.done.contains d.localPath && !s.names.contains d.sandbox then
    { s with result := s.result ++ [d], pending := s.pending ++ [d.localPath] }
  else s

/-- One round of the outer loop, lines 38-58. -/
def round (fs : Files) (s : St) (path : String) (rest : List String) : St :=
  (fs.imports path).foldl (addImport fs) { s with pending := rest, done := path :: s.done }

/-- The outer loop, lines 37-59, with a bound on the number of rounds (nothing if it is not enough,
see `deps_terminates`). -/
def loop (fs : Files) : Nat → St → Option (List Dep)
  | 0, _ => none
  | n + 1, s =>
    match s.pending with
    | [] => some s.result
    | path :: rest => loop fs n (round fs s path rest)

/-- `find_dependencies`, lines 27-62. -/
def findDependencies (fs : Files) (rounds : Nat) (path : String) : Option (List Dep) :=
  loop fs rounds { pending := [path] }

end TM.Lang
