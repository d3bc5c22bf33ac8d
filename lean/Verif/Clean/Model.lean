import Verif.Base.AMap
import Verif.Text.Lines

/-!
# Cleaning a task directory

Model of `IOITask::clean` (`task-maker-format/src/ioi/mod.rs` lines 417-513), `TerryTask::clean`
(`task-maker-format/src/terry/mod.rs` lines 233-257), `is_tm_deletable`
(`task-maker-format/src/ioi/format/italian_yaml/mod.rs` lines 711-717), and of the two files that
loading a task writes in its directory: `CasesGen::write_gen_gen`
(`.../italian_yaml/cases_gen.rs` lines 229-280) and the `task.yaml` made from `task.yaml.orig`
(`.../italian_yaml/mod.rs` lines 638-674).

A file system is a finite map from absolute paths (lists of components, `.`, `..` and links are left
out) to files and directories.  The map is a list and the directories are listed in its order: every
order is the order of some list, so no theorem depends on it.  Nobody else changes the file system
meanwhile.  Any operation may fail, as said by `Faults`.
-/
namespace TM.Clean
open TM AMap

abbrev Text := TM.Text.Text

/-- A component of a path. -/
abbrev Name := Text

/-- An absolute path. -/
abbrev Path := List Name

/-- What a path names.  The content of a file is a text: that `is_tm_deletable` reads bytes and makes
a text out of them with `from_utf8_lossy` is left out, that conversion neither adds nor drops an ASCII
word. -/
inductive Node where
  | file (content : Text)
  | dir
  deriving DecidableEq, Repr

/-- The file system. -/
abbrev FS := AMap Path Node

/-- The failures of the operating system. -/
structure Faults where
  /-- Reading, writing or removing this path fails. -/
  denied : Path → Bool
  /-- When a recursive removal fails, this path was not reached yet. -/
  unreached : Path → Bool
  /-- Writing this file fails after so many characters. -/
  short : Path → Option Nat

/-- No failures. -/
def Faults.none : Faults := ⟨fun _ => false, fun _ => false, fun _ => Option.none⟩

/-- `Path::exists`. -/
def pathExists (fs : FS) (p : Path) : Bool := (fs.get? p).isSome

/-- `std::fs::remove_file`: the file system afterwards and whether it worked. -/
def removeFile (fl : Faults) (p : Path) (fs : FS) : FS × Bool :=
  match fs.get? p with
  | some (.file _) => if fl.denied p then (fs, false) else (fs.erase p, true)
  | _ => (fs, false)

/-- Whether something lies strictly below `p`. -/
def hasEntries (fs : FS) (p : Path) : Bool :=
  fs.keys.any (fun q => p.isPrefixOf q && decide (q ≠ p))

/-- How `std::fs::remove_dir` ends. -/
inductive RmDir where
  | done
  /-- The message contains "Directory not empty". -/
  | notEmpty
  | failed
  deriving DecidableEq

/-- `std::fs::remove_dir`. -/
def removeDir (fl : Faults) (p : Path) (fs : FS) : FS × RmDir :=
  match fs.get? p with
  | some .dir =>
    if fl.denied p then (fs, .failed)
    else if hasEntries fs p then (fs, .notEmpty)
    else (fs.erase p, .done)
  | _ => (fs, .failed)

/-- Whether `e` is still there after a recursive removal that failed: it was not reached, it could
not be removed, or it is a directory where something was left. -/
def survives (fl : Faults) (fs : FS) (e : Path) : Bool :=
  fs.keys.any (fun q => e.isPrefixOf q && (fl.denied q || fl.unreached q))

/-- `std::fs::remove_dir_all`. -/
def removeDirAll (fl : Faults) (p : Path) (fs : FS) : FS × Bool :=
  match fs.get? p with
  | some .dir =>
    if fs.keys.any (fun q => p.isPrefixOf q && fl.denied q) then
      (fs.filter (fun e => !p.isPrefixOf e.1 || survives fl fs e.1), false)
    else (fs.filter (fun e => !p.isPrefixOf e.1), true)
  | _ => (fs, false)

/-- A piece of a glob pattern. -/
inductive Tok where
  | lit (c : Char)
  | any
  | star
  /-- A set of characters in brackets. -/
  | set (cs : Text)
  deriving DecidableEq

/-- `glob::Pattern::new` on one component; the first argument is the set being read.  Nothing when a
bracket is not closed.  Simplified: `**` is a plain `*`. -/
def tokens : Option Text → Text → Option (List Tok)
  | none, [] => some []
  | some _, [] => none
  | none, c :: cs =>
    if c = '*' then (tokens none cs).map (Tok.star :: ·)
    else if c = '?' then (tokens none cs).map (Tok.any :: ·)
    else if c = '[' then tokens (some []) cs
    else (tokens none cs).map (Tok.lit c :: ·)
  | some acc, c :: cs =>
    if c = ']' ∧ acc ≠ [] ∧ acc ≠ ['!'] then (tokens none cs).map (Tok.set acc :: ·)
    else tokens (some (acc ++ [c])) cs

/-- Membership in a list of characters and ranges, as in `glob`'s `CharSpecifier`. -/
def inRanges (c : Char) : Text → Bool
  | [] => false
  | [a] => c == a
  | [a, b] => c == a || c == b
  | a :: b :: d :: rest =>
    if b = '-' then (decide (a ≤ c) && decide (c ≤ d)) || inRanges c rest
    else c == a || inRanges c (b :: d :: rest)

/-- A set in brackets: a leading `!` complements it. -/
def inSet (c : Char) (cs : Text) : Bool :=
  match cs with
  | '!' :: rest => !inRanges c rest
  | _ => inRanges c cs

/-- Whether the test accepts some tail of the text. -/
def anyTail (f : Text → Bool) : Text → Bool
  | [] => f []
  | c :: cs => f (c :: cs) || anyTail f cs

/-- `Pattern::matches` on one component. -/
def matchToks : List Tok → Text → Bool
  | [], n => n.isEmpty
  | .star :: ts, n => anyTail (matchToks ts) n
  | .any :: ts, _ :: n => matchToks ts n
  | .lit a :: ts, c :: n => a == c && matchToks ts n
  | .set cs :: ts, c :: n => inSet c cs && matchToks ts n
  | _, [] => false

/-- A pattern against a path, component by component. -/
def matchPath : List (List Tok) → Path → Bool
  | [], [] => true
  | p :: ps, n :: ns => matchToks p n && matchPath ps ns
  | _, _ => false

/-- The components of a pattern, if all are valid. -/
def patterns : Path → Option (List (List Tok))
  | [] => some []
  | p :: ps =>
    match tokens none p, patterns ps with
    | some t, some ts => some (t :: ts)
    | _, _ => none

/-- `glob::glob`: the paths that match, nothing when the pattern is invalid. -/
def glob (fs : FS) (pattern : Path) : Option (List Path) :=
  (patterns pattern).map (fun ts => fs.keys.filter (matchPath ts))

/-- The generators of a testcase: the path of the file for `StaticFile`, nothing for the other ones
(ioi/dag/input_generator.rs, ioi/dag/output_generator.rs). -/
structure Testcase where
  input : Option Path
  output : Option Path
  deriving DecidableEq

/-- `TaskType`, as far as `clean` looks into it (ioi/mod.rs:471-472). -/
inductive Kind where
  | batch (customChecker : Bool)
  | communication
  deriving DecidableEq

/-- `IOITask`, as far as `clean` looks into it. -/
structure Task where
  path : Path
  testcases : List Testcase
  kind : Kind

/-- The match at ioi/mod.rs:434-440: an or-pattern, the second alternative is tried only if the first
one does not match. -/
def isStatic (file : Path) (tc : Testcase) : Bool :=
  match tc.input, tc.output with
  | some path, _ => decide (path = file)
  | none, some path => decide (path = file)
  | none, none => false

/-- The loop at ioi/mod.rs:423-446. -/
def removeFiles (t : Task) (fl : Faults) : List Path → FS → FS × Bool
  | [], fs => (fs, true)
  | file :: rest, fs =>
    if t.testcases.any (isStatic file) then removeFiles t fl rest fs
    else
      match removeFile fl file fs with
      | (fs', true) => removeFiles t fl rest fs'
      | (fs', false) => (fs', false)

/-- One round of the loop at ioi/mod.rs:418-456. -/
def cleanDir (t : Task) (fl : Faults) (d : Name) (fs : FS) : FS × Bool :=
  let dir := t.path ++ [d]
  if !pathExists fs dir then (fs, true)
  else
    match glob fs (dir ++ ["*.txt".toList]) with
    | none => (fs, false)
    | some files =>
      match removeFiles t fl files fs with
      | (fs', false) => (fs', false)
      | (fs', true) =>
        match removeDir fl dir fs' with
        | (fs'', .failed) => (fs'', false)
        | (fs'', _) => (fs'', true)

/-- ioi/mod.rs:458-464. -/
def cleanBin (root : Path) (fl : Faults) (fs : FS) : FS × Bool :=
  let bin := root ++ ["bin".toList]
  if pathExists fs bin then removeDirAll fl bin fs else (fs, true)

/-- `if path.exists() { remove_file(path)?; }`, ioi/mod.rs:474-480. -/
def removeIfExists (fl : Faults) (p : Path) (fs : FS) : FS × Bool :=
  if pathExists fs p then removeFile fl p fs else (fs, true)

/-- Sequence with `?`. -/
def seq (a b : FS → FS × Bool) (fs : FS) : FS × Bool :=
  match a fs with
  | (fs', true) => b fs'
  | (fs', false) => (fs', false)

/-- ioi/mod.rs:466-482. -/
def cleanCheckers (t : Task) (fl : Faults) (fs : FS) : FS × Bool :=
  match t.kind with
  | .batch true =>
    seq (removeIfExists fl (t.path ++ ["check".toList, "checker".toList]))
      (removeIfExists fl (t.path ++ ["cor".toList, "correttore".toList])) fs
  | _ => (fs, true)

/-- `TM_ALLOW_DELETE_COOKIE` (italian_yaml/mod.rs:286). -/
def cookie : Text := "tm-allow-delete".toList

/-- `str::contains`. -/
def hasWord (w : Text) (t : Text) : Bool := anyTail (fun s => w.isPrefixOf s) t

/-- `is_tm_deletable` (italian_yaml/mod.rs:711-717), nothing when the file cannot be read. -/
def deletable (fl : Faults) (p : Path) (fs : FS) : Option Bool :=
  match fs.get? p with
  | some (.file content) => if fl.denied p then none else some (hasWord cookie content)
  | _ => none

/-- The last two steps, ioi/mod.rs:480-495 and 496-511: `made` is removed if `source` exists and the
content of `made` allows it. -/
def cleanMade (fl : Faults) (source made : Path) (fs : FS) : FS × Bool :=
  if pathExists fs source && pathExists fs made then
    match deletable fl made fs with
    | none => (fs, false)
    | some true => removeFile fl made fs
    | some false => (fs, true)
  else (fs, true)

/-- `gen/GEN`. -/
def genGen (root : Path) : Path := root ++ ["gen".toList, "GEN".toList]
/-- `gen/cases.gen`. -/
def casesGen (root : Path) : Path := root ++ ["gen".toList, "cases.gen".toList]
/-- `task.yaml`. -/
def taskYaml (root : Path) : Path := root ++ ["task.yaml".toList]
/-- `task.yaml.orig`. -/
def taskYamlOrig (root : Path) : Path := root ++ ["task.yaml.orig".toList]

/-- `IOITask::clean`, ioi/mod.rs:417-513. -/
def clean (t : Task) (fl : Faults) : FS → FS × Bool :=
  seq (cleanDir t fl "input".toList) <|
  seq (cleanDir t fl "output".toList) <|
  seq (cleanBin t.path fl) <|
  seq (cleanCheckers t fl) <|
  seq (cleanMade fl (casesGen t.path) (genGen t.path)) <|
  cleanMade fl (taskYamlOrig t.path) (taskYaml t.path)

/-- `fs::write` and `File::create` followed by writes: the parent has to be a directory and the path
must not be one; the write may stop half way. -/
def writeFile (fl : Faults) (p : Path) (content : Text) (fs : FS) : FS × Bool :=
  if fl.denied p || decide (fs.get? p = some .dir) || decide (fs.get? p.dropLast ≠ some .dir) then
    (fs, false)
  else
    match fl.short p with
    | some n => (fs.insert p (.file (content.take n)), false)
    | none => (fs.insert p (.file content), true)

/-- The lines before and after the cookie, cases_gen.rs:238-240 and italian_yaml/mod.rs:660-662. -/
def headerTop : Text := "# Generated by task-maker. Do not edit!\n# ".toList
/-- See `headerTop`. -/
def headerEnd : Text :=
  "\n# Removing or changing the line above will prevent task-maker from touching this file again.\n".toList

/-- The first lines of the two files, cases_gen.rs:238-240 and italian_yaml/mod.rs:660-662. -/
def header : Text := headerTop ++ cookie ++ headerEnd

/-- `if !dest.exists() || is_tm_deletable(dest)? { write }`, cases_gen.rs:230-237 and
italian_yaml/mod.rs:639-663; `body` is what comes after the header. -/
def writeMade (fl : Faults) (made : Path) (body : Text) (fs : FS) : FS × Bool :=
  if pathExists fs made then
    match deletable fl made fs with
    | none => (fs, false)
    | some true => writeFile fl made (header ++ body) fs
    | some false => (fs, true)
  else writeFile fl made (header ++ body) fs

/-- What loading a task writes in its directory: `gen/GEN` when there is `gen/cases.gen`
(italian_yaml/mod.rs:561-567), `task.yaml` when there is `task.yaml.orig` (638-674).  The contents
are parameters; the errors of the parsers between the two writes are `parse`.  When the second file
cannot be read the load fails also in a dry run. -/
def load (fl : Faults) (root : Path) (dry : Bool) (gen yaml : Text) (parse : Bool) :
    FS → FS × Bool :=
  seq (fun fs =>
      if pathExists fs (casesGen root) && !dry then writeMade fl (genGen root) gen fs else (fs, true)) <|
  seq (fun fs => (fs, parse)) <|
  fun fs =>
    if pathExists fs (taskYamlOrig root) then
      if dry then
        (fs, !pathExists fs (taskYaml root) || (deletable fl (taskYaml root) fs).isSome)
      else writeMade fl (taskYaml root) yaml fs
    else (fs, true)

/-- `Path::file_stem` on a file name: what comes before the last dot, the whole name if there is no
dot or only the first character is one. -/
def fileStem (n : Name) : Name :=
  match n.reverse.dropWhile (· ≠ '.') with
  | [] => n
  | _ :: r => if r.isEmpty then n else r.reverse

/-- The last component of a path. -/
def fileName (p : Path) : Name := p.getLast?.getD []

/-- The loop at terry/mod.rs:239-249. -/
def removeManagers (fl : Faults) (all : List Name) : List Path → FS → FS × Bool
  | [], fs => (fs, true)
  | f :: rest, fs =>
    if all.contains (fileStem (fileStem (fileName f))) then
      match removeFile fl f fs with
      | (fs', true) => removeManagers fl all rest fs'
      | (fs', false) => (fs', false)
    else removeManagers fl all rest fs

/-- `TerryTask::clean`, terry/mod.rs:233-257.  `list_files` panics on an invalid pattern (lib.rs:230):
nothing is removed. -/
def terryClean (root : Path) (fl : Faults) (fs : FS) : FS × Bool :=
  match glob fs (root ++ ["managers".toList, "*.*".toList]),
      glob fs (root ++ ["managers".toList, "*.*.*".toList]) with
  | some managers, some maybe =>
    seq (removeManagers fl (managers.map (fun f => fileStem (fileName f))) maybe)
      (cleanBin root fl) fs
  | _, _ => (fs, false)

end TM.Clean
