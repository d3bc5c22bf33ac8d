import Verif.Clean.Model

/-!
# What cleaning may remove

Written from the documentation of `task-maker --clean` and not from the code of `clean`: the words
"generated", "needed" and "tree" used by the theorems of `Verif.Clean.Props`.
-/
namespace TM.Clean
open TM AMap

/-- A file some testcase is read from: it was put there by the authors of the task. -/
def Needed (t : Task) (p : Path) : Prop :=
  ∃ tc ∈ t.testcases, tc.input = some p ∨ tc.output = some p

/-- The name of a text file. -/
def IsTxt (n : Name) : Prop := ∃ base, n = base ++ ['.', 't', 'x', 't']

/-- The text contains the words `tm-allow-delete`. -/
def AllowsDelete (content : Text) : Prop := ∃ a b, content = a ++ "tm-allow-delete".toList ++ b

/-- The paths of the task directory that task-maker makes by itself. -/
inductive Generated (t : Task) (fs : FS) : Path → Prop where
  /-- The inputs and the outputs no testcase is read from. -/
  | io (d : String) (n : Name) (hd : d = "input" ∨ d = "output") (hn : IsTxt n)
      (hu : ¬ Needed t (t.path ++ [d.toList, n])) : Generated t fs (t.path ++ [d.toList, n])
  /-- Their directories. -/
  | ioDir (d : String) (hd : d = "input" ∨ d = "output") : Generated t fs (t.path ++ [d.toList])
  /-- Everything in `bin/`. -/
  | bin (q : Path) : Generated t fs (t.path ++ "bin".toList :: q)
  /-- The compiled checker. -/
  | checker (h : t.kind = .batch true) : Generated t fs (t.path ++ ["check".toList, "checker".toList])
  | correttore (h : t.kind = .batch true) :
      Generated t fs (t.path ++ ["cor".toList, "correttore".toList])
  /-- The compiled manager. -/
  | manager (h : t.kind = .communication) :
      Generated t fs (t.path ++ ["check".toList, "manager".toList])
  | corManager (h : t.kind = .communication) :
      Generated t fs (t.path ++ ["cor".toList, "manager".toList])
  /-- `gen/GEN`, when it is made from `gen/cases.gen` and its content says so. -/
  | gen (content : Text)
      (hs : ∃ n, fs.get? (t.path ++ ["gen".toList, "cases.gen".toList]) = some n)
      (hc : fs.get? (t.path ++ ["gen".toList, "GEN".toList]) = some (.file content))
      (ha : AllowsDelete content) : Generated t fs (t.path ++ ["gen".toList, "GEN".toList])
  /-- `task.yaml`, when it is made from `task.yaml.orig` and its content says so. -/
  | yaml (content : Text)
      (hs : ∃ n, fs.get? (t.path ++ ["task.yaml.orig".toList]) = some n)
      (hc : fs.get? (t.path ++ ["task.yaml".toList]) = some (.file content))
      (ha : AllowsDelete content) : Generated t fs (t.path ++ ["task.yaml".toList])

/-- The two directories of the generated inputs and outputs. -/
def IoDir (root p : Path) : Prop := p = root ++ ["input".toList] ∨ p = root ++ ["output".toList]

/-- The places where something may be generated, whatever the task is. -/
def Territory (root p : Path) : Prop :=
  IoDir root p ∨
  (∃ n, IsTxt n ∧ (p = root ++ ["input".toList, n] ∨ p = root ++ ["output".toList, n])) ∨
  (∃ r, p = root ++ "bin".toList :: r) ∨
  p = root ++ ["check".toList, "checker".toList] ∨ p = root ++ ["cor".toList, "correttore".toList] ∨
  p = root ++ ["gen".toList, "GEN".toList] ∨ p = root ++ ["task.yaml".toList]

/-- The path is made of plain characters: no wildcards. -/
def Plain (p : Path) : Prop := ∀ n ∈ p, ∀ c ∈ n, c ≠ '*' ∧ c ≠ '?' ∧ c ≠ '['

/-- Whatever exists lies in a directory. -/
def Tree (fs : FS) : Prop :=
  ∀ p n, (∃ x, fs.get? (p ++ [n]) = some x) → fs.get? p = some .dir

/-- The name has the form `base.Y.Z` with no dots in `Y` and `Z`. -/
def TwoExt (base n : Name) : Prop :=
  ∃ y z, n = base ++ '.' :: y ++ '.' :: z ∧ '.' ∉ y ∧ '.' ∉ z

/-- The name has the form `base.X` with no dots in `X`. -/
def OneExt (base n : Name) : Prop := ∃ x, n = base ++ '.' :: x ∧ '.' ∉ x

end TM.Clean
