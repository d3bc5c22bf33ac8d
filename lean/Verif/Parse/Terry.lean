import Verif.Parse.Spec

/-!
# Loading a Terry task

Model of `parse_task` and `get_manager`, task-maker-format/src/terry/format/mod.rs:12-86, with the `find_source_file` and the
decoders of `Verif.Parse.Model`.  The name of the platform (`EXE_EXTENSION`, mod.rs:14-18) is a parameter.  The sanity
checks of the task (mod.rs:54-61) are not modelled.
-/
namespace TM.Parse.Terry
open TM AMap TM.Find TM.Parse

/-- `TaskYAML`, mod.rs:20-29. -/
structure Yaml where
  name : Text
  description : Text
  maxScore : Rat
  deriving DecidableEq

/-- The deserialization of `TaskYAML`. -/
def readYaml (d : Doc) : Option Yaml := do
  let name ← required asText d ["name".toList]
  let description ← required asText d ["description".toList]
  let maxScore ← required asNum d ["max_score".toList]
  some ⟨name, description, maxScore⟩

/-- Why a task is refused. -/
inductive Err where
  /-- `list_files` fails. -/
  | panic
  /-- `task.yaml` cannot be opened. -/
  | noYaml
  | badYaml
  /-- "No generator found in managers/", "No checker found in managers/" -/
  | missing (manager : String)
  /-- "Multiple managers found" -/
  | multiple (manager : String)
  deriving DecidableEq, Repr

/-- `TerryTask`, terry/mod.rs. -/
structure Task where
  path : RPath
  name : Text
  description : Text
  maxScore : Rat
  generator : Src
  validator : Option Src
  checker : Src
  official : Option Src
  deriving DecidableEq

/-- `get_manager`, mod.rs:66-86. -/
def getManager (w : World) (base : RPath) (exe : Name) (manager : String) : Except Err (Option Src) :=
  match only .multipleManagers (findSource w base [⟨false, ["managers".toList, manager.toList ++ ['.', '*']]⟩] false
      (.path ⟨false, ["managers".toList, manager.toList ++ '.' :: exe]⟩)) with
  | .error .panic => .error .panic
  | .error _ => .error (.multiple manager)
  | .ok o => .ok (o.map Src.shipped)

/-- A manager that has to be there, mod.rs:39-45. -/
def needManager (w : World) (base : RPath) (exe : Name) (manager : String) : Except Err Src :=
  match getManager w base exe manager with
  | .error e => .error e
  | .ok none => .error (.missing manager)
  | .ok (some s) => .ok s

/-- `File::open` and `serde_yaml::from_reader`, mod.rs:37. -/
def readTaskYaml (env : Env) (w : World) (base : RPath) : Except Err Yaml :=
  if w.exists (base.push "task.yaml".toList) then
    match ((w.read (base.push "task.yaml".toList)).bind env.yaml).bind readYaml with
    | none => .error .badYaml
    | some y => .ok y
  else .error .noYaml

/-- `parse_task`, mod.rs:32-63. -/
def parseTask (env : Env) (w : World) (base : RPath) (exe : Name) : Except Err Task := do
  let y ← readTaskYaml env w base
  let generator ← needManager w base exe "generator"
  let validator ← getManager w base exe "validator"
  let checker ← needManager w base exe "checker"
  let official ← getManager w base exe "solution"
  return { path := base
           name := y.name
           description := y.description
           maxScore := y.maxScore
           generator := generator
           validator := validator
           checker := checker
           official := official }

/-! ## Specification -/

/-- Where a manager is. -/
def place (manager : String) : List (String × String) := [("managers", manager)]

/-- The managers. -/
def managerNames : List String := ["generator", "validator", "checker", "solution"]

/-- The manager is the only source with that name in `managers/`.  It is compiled statically, and the executable is
always copied beside the source, with the name of the platform. -/
def ManagerOf (w : World) (base : RPath) (exe : Name) (manager : String) (s : Src) : Prop :=
  ∃ p l, OnlyPart w base (place manager) p l ∧
    s = { path := p, language := l, graders := false, copyExe := true, linkStatic := true,
          writeBin := some (inDir base "managers".toList (manager.toList ++ '.' :: exe)) }

/-- A manager that may be missing. -/
def MayManager (w : World) (base : RPath) (exe : Name) (manager : String) (o : Option Src) : Prop :=
  (NoPart w base (place manager) ∧ o = none) ∨ ∃ s, ManagerOf w base exe manager s ∧ o = some s

/-- What `task.yaml` says. -/
def YamlOf (env : Env) (w : World) (base : RPath) (y : Yaml) : Prop :=
  ∃ text d, HasFile w base ["task.yaml".toList] text ∧ env.yaml text = some d ∧
    Needs IsText d ["name"] y.name ∧ Needs IsText d ["description"] y.description ∧ Needs IsNum d ["max_score"] y.maxScore

/-- The task of the directory. -/
structure TaskOf (env : Env) (w : World) (base : RPath) (exe : Name) (t : Task) : Prop where
  path : t.path = base
  yaml : YamlOf env w base ⟨t.name, t.description, t.maxScore⟩
  generator : ManagerOf w base exe "generator" t.generator
  validator : MayManager w base exe "validator" t.validator
  checker : ManagerOf w base exe "checker" t.checker
  official : MayManager w base exe "solution" t.official

/-- There is exactly one. -/
def One (w : World) (base : RPath) (manager : String) : Prop := ∃ p l, OnlyPart w base (place manager) p l

/-- There are two. -/
def Two (w : World) (base : RPath) (manager : String) : Prop := ManyParts w base (place manager)

/-- There is none. -/
def Zero (w : World) (base : RPath) (manager : String) : Prop := NoPart w base (place manager)

/-- Why the directory is not a task: the first thing that is wrong. -/
inductive Refused (env : Env) (w : World) (base : RPath) : Err → Prop where
  | noYaml : Missing w base ["task.yaml".toList] → Refused env w base .noYaml
  | badYaml : ¬ Missing w base ["task.yaml".toList] → (∀ y, ¬ YamlOf env w base y) → Refused env w base .badYaml
  | generators {y} : YamlOf env w base y → Two w base "generator" → Refused env w base (.multiple "generator")
  | noGenerator {y} : YamlOf env w base y → Zero w base "generator" → Refused env w base (.missing "generator")
  | validators {y} : YamlOf env w base y → One w base "generator" → Two w base "validator" →
      Refused env w base (.multiple "validator")
  | checkers {y} : YamlOf env w base y → One w base "generator" → ¬ Two w base "validator" → Two w base "checker" →
      Refused env w base (.multiple "checker")
  | noChecker {y} : YamlOf env w base y → One w base "generator" → ¬ Two w base "validator" → Zero w base "checker" →
      Refused env w base (.missing "checker")
  | solutions {y} : YamlOf env w base y → One w base "generator" → ¬ Two w base "validator" → One w base "checker" →
      Two w base "solution" → Refused env w base (.multiple "solution")

/-- The two file systems have the same `task.yaml` and the same sources in `managers/`. -/
def SameTask (w w' : World) (base : RPath) : Prop :=
  (Missing w base ["task.yaml".toList] ↔ Missing w' base ["task.yaml".toList]) ∧
  (∀ t, HasFile w base ["task.yaml".toList] t ↔ HasFile w' base ["task.yaml".toList] t) ∧
  ∀ n l, Sanity.SourceIn l n → (HasEntry w base "managers".toList n ↔ HasEntry w' base "managers".toList n)

end TM.Parse.Terry
