import Verif.Find.Contest
import Verif.Find.Spec

/-!
# The booklets of a contest: specification
-/
namespace TM.Find
open TM AMap

/-- The directories of the statements. -/
def texDirs : List Name := ["statement".toList, "testo".toList]

/-- `p` is a statement of the task in the language: `statement/LANG.tex` or `testo/LANG.tex`. -/
def TexFile (w : World) (task : RPath) (lang : Name) (p : RPath) : Prop :=
  lang ≠ [] ∧ ∃ d ∈ texDirs, HasEntry w task d (lang ++ ".tex".toList) ∧ p = inDir task d (lang ++ ".tex".toList)

/-- No statement is called just `.tex`. -/
def NoHiddenTex (w : World) (task : RPath) : Prop := ∀ d ∈ texDirs, ¬ HasEntry w task d ".tex".toList

/-- The statements of a task in a language, the one in `statement/` first. -/
def statementsIn (w : World) (t : TaskAt) (lang : Name) : List StatementOf :=
  texDirs.filterMap (fun d =>
    if w.resolve t.path ++ [d, lang ++ ".tex".toList] ∈ w.fs.keys
    then some ⟨t, inDir t.path d (lang ++ ".tex".toList)⟩ else none)

/-- The file is a text. -/
def IsText (w : World) (p : RPath) : Prop := ∃ content, w.fs.get? (w.resolve p) = some (.file (some content))

/-- The `contest.yaml` of the directory can be used: it is not there, or it can be parsed. -/
def ContestOk (w : World) (cf : ContestFile) (dir : RPath) : Prop :=
  w.resolve (dir.join ⟨false, [contestName]⟩) ∉ w.fs.keys ∨
    ∃ content tasks, w.fs.get? (w.resolve (dir.join ⟨false, [contestName]⟩)) = some (.file (some content)) ∧
      cf.parse content = some tasks

/-- The directory that contains the task. -/
def ContestOf (t : TaskAt) (contest : RPath) : Prop := ∃ n, t.path = ⟨contest.abs, contest.comps ++ [n]⟩

end TM.Find
