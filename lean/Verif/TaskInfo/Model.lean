import Verif.Score.Model
/-!
# The information on a task (`ioi/task_info.rs`, `terry/task_info.rs`)

Model of `IOITaskInfo::new` (its scoring and its limits) and of `TerryTaskInfo::new`.  The statements and the attachments are
in `Verif.Find.Copy`.  A score is an exact number, in the code it is a float.
-/
namespace TM.TaskInfo
open TM TM.Score

abbrev Text := List Char

/-- The fields of `IOITask` used here, ioi/mod.rs:109-153. -/
structure Ioi where
  name : Text
  title : Text
  timeLimit : Option Rat
  memoryLimit : Option Nat
  task : Score.Task

/-- `TaskInfoSubtask`, task_info.rs:48-54. -/
structure SubtaskInfo where
  maxScore : Rat
  testcases : Nat
deriving DecidableEq, Repr

/-- `IOITaskInfo`, `TaskInfoScoring` and `TaskInfoLimits`, task_info.rs:10-36 and 56-63. -/
structure Info where
  version : Nat
  name : Text
  title : Text
  maxScore : Rat
  subtasks : List SubtaskInfo
  time : Option Rat
  memory : Option Nat
deriving DecidableEq, Repr

/-- `sorted_by_key(|(&id, _)| id)`: an insertion that is stable. -/
def insertById (p : SubtaskId × Subtask) : List (SubtaskId × Subtask) → List (SubtaskId × Subtask)
  | [] => [p]
  | q :: l => if p.1 ≤ q.1 then p :: q :: l else q :: insertById p l

def sortById (l : List (SubtaskId × Subtask)) : List (SubtaskId × Subtask) := l.foldr insertById []

/-- `IOITaskInfo::new`, task_info.rs:76-103. -/
def ioiInfo (t : Ioi) : Info where
  version := 1
  name := t.name
  title := t.title
  maxScore := t.task.subtasks.foldl (fun sum p => sum + p.2.maxScore) 0
  subtasks := (sortById t.task.subtasks).map (fun p => ⟨p.2.maxScore, p.2.testcases.length⟩)
  time := t.timeLimit
  memory := t.memoryLimit

end TM.TaskInfo
