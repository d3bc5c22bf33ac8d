import Verif.Find.Model
import Verif.Solution.PropsExtract

/-!
# Which solutions and which task: specification
-/
namespace TM.Find
open TM AMap

/-- The file `n` of the directory `dir` of the task. -/
def inDir (base : RPath) (dir n : Name) : RPath := ⟨base.abs, base.comps ++ [dir, n]⟩

/-- There is something called `n` in the directory `dir` of the task. -/
def HasEntry (w : World) (base : RPath) (dir n : Name) : Prop :=
  w.resolve base ++ [dir, n] ∈ w.fs.keys

/-- No component of the path has a character that is special in patterns. -/
def Plain (p : RPath) : Prop := ∀ n ∈ p.comps, ∀ c ∈ n, c ≠ '*' ∧ c ≠ '?' ∧ c ≠ '['

/-- The names of a real file system: not empty, neither `.` nor `..`. -/
def RealNames (w : World) : Prop := ∀ p ∈ w.fs.keys, ∀ n ∈ p, n ≠ [] ∧ n ≠ dot ∧ n ≠ dotdot

/-- The solutions that are considered: those given by the user or, when there are none, everything that is in
the directory of the solutions. -/
def Candidate (w : World) (c : Config) (base : RPath) (dir : Name) (p : RPath) : Prop :=
  (c.paths ≠ [] ∧ p ∈ c.paths) ∨ (c.paths = [] ∧ ∃ n, HasEntry w base dir n ∧ p = inDir base dir n)

/-- The name of the file has the filter (what follows its last slash) as prefix, for one of the filters. -/
def Selected (c : Config) (p : RPath) : Prop :=
  c.filters = [] ∨ ∃ f ∈ c.filters, ∃ a b rest, (f = a ∨ ∃ d, f = d ++ '/' :: a) ∧ '/' ∉ a ∧
    p.comps.getLast? = some b ∧ b = a ++ rest

/-- The filter ends with a name: after the last slash there is something that is not `.` or `..`. -/
def GoodFilter (f : Text) : Prop :=
  ∃ a, (f = a ∨ ∃ d, f = d ++ '/' :: a) ∧ '/' ∉ a ∧ a ≠ [] ∧ a ≠ dot ∧ a ≠ dotdot

/-- The path ends with the name of a file. -/
def Named (p : RPath) : Prop := ∃ n, p.comps.getLast? = some n ∧ n ≠ dot ∧ n ≠ dotdot

/-- The file is a text in a known language, whose checks can be read (C51): it is there, and no line has a
check followed by another `@check-`. -/
def Loadable (w : World) (p : RPath) (l : Sanity.Language) (content : Text) : Prop :=
  (∃ n, p.comps.getLast? = some n ∧ Sanity.SourceIn l n) ∧
  w.fs.get? (w.resolve p) = some (.file (some content)) ∧
  ∀ line ∈ TM.Text.splitNl content, ¬ Solution.Ambiguous line

/-! ## The task -/

/-- The directory `k` levels above. -/
def RPath.up (d : RPath) (k : Nat) : RPath := ⟨d.abs, d.comps.take (d.comps.length - k)⟩

/-- The directory looks like a task of that format: it has its `task.yaml`. -/
def LooksLike (w : World) (f : Fmt) (d : RPath) : Prop :=
  w.resolve ⟨d.abs, d.comps ++ ["task.yaml".toList]⟩ ∈ w.fs.keys ∨
    (f = .ioi ∧ w.resolve ⟨d.abs, d.comps ++ ["task.yaml.orig".toList]⟩ ∈ w.fs.keys)

/-- The directory has a task of that format that can be loaded. -/
def IsTask (w : World) (ps : Parsers) (f : Fmt) (d : RPath) : Prop :=
  LooksLike w f d ∧ ps.parse f d = true

/-- The directory has a task of that format that cannot be loaded. -/
def IsBroken (w : World) (ps : Parsers) (f : Fmt) (d : RPath) : Prop :=
  LooksLike w f d ∧ ps.parse f d = false

/-- Where the search starts. -/
def startDir (w : World) (base : Option RPath) : RPath :=
  match base with
  | none => ⟨true, w.cwd⟩
  | some b => if b.abs = true then b else ⟨true, w.cwd ++ b.comps.filter (· ≠ dot)⟩

end TM.Find
