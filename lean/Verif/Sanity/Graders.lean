import Verif.Sanity.Samples
/-!
# The languages and the graders (`task-maker-lang/src/lib.rs`, `grader_map.rs`,
`ioi/sanity_checks/mod.rs`)

A file is its name inside the folder `sol/`.  Simplification: the extensions are made lowercase as ASCII
text (no other character becomes a letter of a known extension); there are no broken links.
-/
namespace TM.Sanity
open TM TM.Ui

/-- A `Language`, task-maker-lang/src/language.rs. -/
structure Language where
  name : String
  extensions : List String
  compiled : Bool
  deriving DecidableEq, Repr

/-- `LanguageManager::new`, task-maker-lang/src/lib.rs:72-91, with `name`, `extensions` and
`need_compilation` of the files of task-maker-lang/src/languages/. -/
def knownLanguages : List Language :=
  [⟨"C++", ["cpp", "cc", "c++"], true⟩, ⟨"C", ["c"], true⟩, ⟨"Python / Autodetect", ["py"], false⟩,
   ⟨"Shell", ["sh"], false⟩, ⟨"Pascal / fpc", ["pas"], true⟩, ⟨"Rust", ["rs"], true⟩, ⟨"C#", ["cs"], true⟩,
   ⟨"JavaScript", ["js", "cjs", "mjs"], false⟩]

/-- `Path::file_stem` and `Path::extension`: the name is split at the last dot, unless it is the first
character (and `..` is not split). -/
def splitDot (f : Name) : Name × Option Name :=
  let r := f.reverse
  let ext := (r.takeWhile (· ≠ '.')).reverse
  let rest := r.dropWhile (· ≠ '.')
  match rest with
  | [] => (f, none)
  | _ :: stem => if stem = [] ∨ f = "..".toList then (f, none) else (stem.reverse, some ext)

/-- `LanguageManager::detect_language`, lib.rs:105-121. -/
def detectLanguage (f : Name) : Option Language :=
  let ext := (((splitDot f).2).getD []).map Char.toLower
  knownLanguages.find? (fun l => l.extensions.any (fun e => ext == e.toList))

/-- `GraderMap::new`, grader_map.rs:31-51: from the name of the language to the file. -/
def graderMap (graders : List Name) : AMap String Name :=
  graders.foldl (fun m g => match detectLanguage g with
    | none => m
    | some l => m.insert l.name g) []

/-- The graders of a task, italian_yaml/mod.rs:539-540. -/
def taskGraders (files : List Name) : AMap String Name :=
  graderMap (files.filter (wildMatch "grader.*".toList) ++ files.filter (wildMatch "stub.*".toList))

/-- `get_compilation_deps`, grader_map.rs:66-72. -/
def compilationGrader (m : AMap String Name) (l : Language) : Option Name :=
  if l.compiled = false ∨ m.contains l.name = false then none else m.get? l.name

/-- `get_runtime_deps`, grader_map.rs:86-92. -/
def runtimeGraders (m : AMap String Name) (l : Language) : List Name :=
  if l.compiled = true ∨ m.contains l.name = false then [] else (m.get? l.name).toList

/-- The name of the grader that is looked for, ioi/sanity_checks/mod.rs:49-54 and 69. -/
def wantedGrader (m : AMap String Name) (ext : String) : Name :=
  (if m.values.any (fun p => (splitDot p).1 == "stub".toList) then "stub." else "grader.").toList ++ ext.toList

/-- The loop on the files, ioi/sanity_checks/mod.rs:55-74: from the first extension of the language to the
name of the grader and of the file that needs it. -/
def neededGraders (m : AMap String Name) (files : List Name) : AMap String (Name × Name) :=
  (files.filter (wildMatch "*.*".toList)).foldl (fun by_ext f =>
    if (splitDot f).1 = "grader".toList ∨ (splitDot f).1 = "stub".toList then by_ext
    else match detectLanguage f with
      | none => by_ext
      | some l => by_ext.insert (l.extensions.headD "") (wantedGrader m (l.extensions.headD ""), f)) []

/-- `check_missing_graders` on the folder `sol`, ioi/sanity_checks/mod.rs:40-84: the errors, with the name
of the missing grader and the file that needs it. -/
def checkMissingGraders (m : AMap String Name) (files : List Name) : List (Name × Name) :=
  if m.isEmpty then []
  else (neededGraders m files).values.filter (fun p => decide (p.1 ∉ files))

/-! ## Specification -/

/-- The file is a source in the language: the part of its name after the last dot is, up to the case, an
extension of the language. -/
def SourceIn (l : Language) (f : Name) : Prop :=
  l ∈ knownLanguages ∧ ∃ stem ext, f = stem ++ '.' :: ext ∧ stem ≠ [] ∧ '.' ∉ ext ∧
    ∃ e ∈ l.extensions, ext.map Char.toLower = e.toList

/-- The file is called `grader` or `stub`, with the extension of the language. -/
def GraderIn (l : Language) (f : Name) : Prop :=
  SourceIn l f ∧ ∃ ext, f = "grader.".toList ++ ext ∨ f = "stub.".toList ++ ext

end TM.Sanity
