import Verif.Ui.Sample
/-!
# The theorems about the UI on the samples (C71, C72, C73, C74)
-/
namespace TM.Ui
open TM TM.Build DagSpec Build.Spec Ui.Spec

namespace Sample
open TM.Build.Sample

theorem batch_keyed : Keyed batch := by
  refine ⟨by unfold AMap.Wf; decide +kernel, ?_⟩
  intro st info h
  simp only [batch, subtasks, AMap.get?] at h
  grind

theorem communication_keyed : Keyed communication := batch_keyed

theorem batch_wf : batch.testcases.Wf := by unfold AMap.Wf; decide +kernel

theorem batch_covered : Covered batch := by
  simp [Covered, batch, subtasks, AMap.values]

theorem batch_nodup : ∀ st ∈ batch.subtasks.values, st.testcases.Nodup := by
  simp [batch, subtasks, AMap.values]

theorem batch_order : (scoreTask batch maxScore .min).Order subtaskOrder := by
  refine ⟨by decide +kernel, ?_⟩
  intro st
  simp [scoreTask, batch, subtasks, subtaskOrder]
  grind

theorem served_numbers (ev : Eval) : Numbers (served ev) := by
  intro u o x hm hx
  have hm := (List.mem_filter.1 hm).1
  obtain ⟨p, -, hm⟩ := List.mem_flatMap.1 hm
  rcases List.mem_append.1 hm with hm | hm
  · obtain ⟨e, -, he⟩ := List.mem_map.1 hm; cases he
  obtain ⟨e, -, he⟩ := List.mem_map.1 hm
  split at he
  · cases he; cases hx
  · split at he
    · cases he
    · cases he; cases hx; exact ⟨_, rfl⟩
  · cases he; cases hx; exact ⟨_, rfl⟩

/-- The evaluation of the sample goes well and `f` holds at the end. -/
def demo (task : Task) (f : Eval → Live → State → Bool) : Bool :=
  holds (fun _ ev => orderedFrom ev.dag [] (served ev) && historyOk ev.dag (served ev) &&
    match live task ev (served ev) with
    | none => false
    | some l => match l.ui task with
      | none => false
      | some s => f ev l s) (buildDag fs "/task" task sols (start 10 {}))

/-- The hypotheses of the theorems, for a task. -/
def Demo (task : Task) (f : Eval → Live → State → Bool) : Prop :=
  ∃ io ev ms l s, buildDag fs "/task" task sols (start 10 {}) = .ok (io, ev) ∧
    newManagers (scoreTask task maxScore .min) (fun _ => subtaskOrder) (List.range sols.length) = some ms ∧
    Ordered ev.dag (served ev) ∧ History ev.dag (served ev) ∧ Numbers (served ev) ∧
    Live.follow (fun _ => subtaskOrder) ev ms solChecks (served ev) = some l ∧ l.ui task = some s ∧
    f ev l s = true

theorem of_demo {task : Task} {f : Eval → Live → State → Bool} (h : demo task f = true) : Demo task f := by
  obtain ⟨io, ev, h1, h2⟩ := of_holds h
  rw [Bool.and_eq_true, Bool.and_eq_true] at h2
  obtain ⟨⟨a, b⟩, c⟩ := h2
  split at c
  · cases c
  · next l hl =>
    split at c
    · cases c
    · next s hs =>
      obtain ⟨ms, hms, hf⟩ := of_live hl
      exact ⟨io, ev, ms, l, s, h1, hms, orderedOk_ordered a, historyOk_history b, served_numbers ev, hf, hs, c⟩

/-- The first execution that reports about a topic. -/
def execOf (ev : Eval) (t : Topic) : Option ExecutionUuid :=
  ((allExecs ev.dag).find? (fun e => (reportsOn ev e.uuid).contains t)).map (·.uuid)

/-- The first process of solution 0 exceeds the time limit on testcase 1. -/
def tooSlow (ev : Eval) (parts : Nat) : Bool :=
  match execOf ev (.evaluation 1 1 0 0 parts) with
  | none => false
  | some u => outcomeOf (served ev) u == some { status := .timeLimitExceeded, shown := "too slow" }

end Sample

open Sample in
/-- The solution that exceeds the time limit is shown as such, the other one with its partial score; the
scores of the subtasks and of the solutions. -/
example : Demo Build.Sample.batch (fun ev _ s => decide (
    tooSlow ev 1 ∧
    shown Build.Sample.batch s 0 1 = some (.timeLimit, some (.num 0)) ∧
    shown Build.Sample.batch s 1 1 = some (.partialScore "half", some (.num (1/2))) ∧
    shown Build.Sample.batch s 0 0 = some (.partialScore "half", some (.num (1/2))) ∧
    (s.evalOf Build.Sample.batch 0).score = some (.num 20) ∧
    (s.evalOf Build.Sample.batch 1).score = some (.num 50) ∧
    ((s.evalOf Build.Sample.batch 1).subtasks.get? 1).bind (·.score) = some (.num 30))) :=
  of_demo (by decide +kernel)

open Sample in
/-- The hypotheses of `evaluation_followed`, `subtask_score_shown`, `solution_score_shown` and
`checks_schedule_independent` on the task. -/
example : Fits 10 Build.Sample.batch Build.Sample.sols ∧ Keyed Build.Sample.batch ∧
    Build.Sample.batch.testcases.Wf ∧ Covered Build.Sample.batch ∧
    (∀ st ∈ Build.Sample.batch.subtasks.values, st.testcases.Nodup) ∧
    (scoreTask Build.Sample.batch maxScore .min).Order subtaskOrder :=
  ⟨Build.Sample.batch_fits, batch_keyed, batch_wf, batch_covered, batch_nodup, batch_order⟩

open Sample in
/-- The checks of the solutions: the second one passes, the first one (which is expected to exceed the time
limit in the first subtask too) does not. -/
example : Demo Build.Sample.batch (fun _ _ s =>
    (runSolutionChecks Build.Sample.batch id s).any (fun r => decide (
      r.map (fun (o : CheckOutcome) => (o.solution, o.subtask, o.check.result, o.success)) =
        [(1, 0, .partialScore, true), (0, 0, .timeLimit, false)]))) :=
  of_demo (by decide +kernel)

open Sample in
/-- **C71** ... and the same is false for the communication tasks: the first process of the solution exceeded
the time limit and the UI shows a wrong answer. -/
theorem communication_status_lost : Demo Build.Sample.communication (fun ev _ s => decide (
    tooSlow ev 2 ∧
    shown Build.Sample.communication s 0 1 = some (.wrongAnswer "too slow", some (.num 0)))) :=
  of_demo (by decide +kernel)

end TM.Ui
