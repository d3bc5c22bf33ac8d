import Verif.Ui.PropsScores
import Verif.Build.Sample
/-!
# The hypotheses of the theorems about the UI are met
-/
namespace TM.Ui
open TM TM.Build DagSpec Build.Spec Ui.Spec

/-! ## `Ordered`, computed -/

/-- `Fed`, computed. -/
def fedOk (d : DagData) (pre : List Notice) (u : ExecutionUuid) : Bool :=
  (allExecs d).all (fun e => e.uuid != u || (allExecs d).all (fun p => e.dependencies.all (fun f =>
    !p.outputFiles.contains f || pre.any (fun x => match x with
      | .done v o => v == p.uuid && o.status == .success
      | _ => false))))

theorem fedOk_fed {d : DagData} {pre : List Notice} {u : ExecutionUuid} (h : fedOk d pre u = true) :
    Fed d pre u := by
  intro e he heu p hp f hf hfo
  unfold fedOk at h
  have h1 := List.all_eq_true.1 h e he
  simp only [heu, bne_self_eq_false, Bool.false_or, List.all_eq_true] at h1
  have h2 := h1 p hp f hf
  have h3 : p.outputFiles.contains f = true := by simpa using hfo
  rw [h3] at h2
  simp only [Bool.not_true, Bool.false_or, List.any_eq_true] at h2
  obtain ⟨x, hx, hx2⟩ := h2
  cases x with
  | started v => cases hx2
  | skipped v => cases hx2
  | done v o =>
    simp only [Bool.and_eq_true, beq_iff_eq] at hx2
    exact ⟨o, by rw [← hx2.1]; exact hx, hx2.2⟩

/-- The execution has not ended. -/
def notEnded (pre : List Notice) (u : ExecutionUuid) : Bool :=
  pre.all (fun x => match x with
    | .done v _ => v != u
    | .skipped v => v != u
    | _ => true)

theorem notEnded_not {pre : List Notice} {u : ExecutionUuid} (h : notEnded pre u = true) :
    (∀ o, .done u o ∉ pre) ∧ .skipped u ∉ pre := by
  unfold notEnded at h
  rw [List.all_eq_true] at h
  refine ⟨fun o ho => ?_, fun ho => ?_⟩
  · have := h _ ho; simp at this
  · have := h _ ho; simp at this

/-- The notice may come after the others. -/
def stepOk (d : DagData) (pre : List Notice) : Notice → Bool
  | .started u => notEnded pre u && fedOk d pre u
  | .done u _ => notEnded pre u && fedOk d pre u
  | .skipped u => notEnded pre u && pre.all (fun x => match x with | .started v => v != u | _ => true)

/-- `Ordered`, computed. -/
def orderedFrom (d : DagData) (pre : List Notice) : List Notice → Bool
  | [] => true
  | x :: r => stepOk d pre x && orderedFrom d (pre ++ [x]) r

theorem orderedFrom_at {d : DagData} : ∀ {ns pre : List Notice}, orderedFrom d pre ns = true →
    ∀ a x b, ns = a ++ x :: b → stepOk d (pre ++ a) x = true := by
  intro ns
  induction ns with
  | nil => intro pre _ a x b h; cases a <;> cases h
  | cons y ns ih =>
    intro pre h a x b he
    simp only [orderedFrom, Bool.and_eq_true] at h
    cases a with
    | nil => simp only [List.nil_append, List.cons.injEq] at he; rw [List.append_nil, ← he.1]; exact h.1
    | cons z a =>
      simp only [List.cons_append, List.cons.injEq] at he
      obtain ⟨rfl, he⟩ := he
      have := ih h.2 a x b he
      simpa using this

theorem orderedOk_ordered {d : DagData} {ns : List Notice} (h : orderedFrom d [] ns = true) : Ordered d ns where
  start := fun pre u post he => by
    have := orderedFrom_at h pre _ post he
    simp only [List.nil_append, stepOk, Bool.and_eq_true] at this
    obtain ⟨h1, h2⟩ := notEnded_not this.1
    exact ⟨h1, h2, fedOk_fed this.2⟩
  done := fun pre u o post he => by
    have := orderedFrom_at h pre _ post he
    simp only [List.nil_append, stepOk, Bool.and_eq_true] at this
    obtain ⟨h1, h2⟩ := notEnded_not this.1
    exact ⟨h1, h2, fedOk_fed this.2⟩
  skip := fun pre u post he => by
    have := orderedFrom_at h pre _ post he
    simp only [List.nil_append, stepOk, Bool.and_eq_true] at this
    obtain ⟨h1, h2⟩ := notEnded_not this.1
    refine ⟨h1, h2, fun hm => ?_⟩
    have := List.all_eq_true.1 this.2 _ hm
    simp at this

namespace Sample
open TM.Build.Sample

/-- The notices of a server that runs the groups of the sample as soon as it can, in order.  The first
process of the first solution exceeds the time limit on testcase 1. -/
def notices (ev : Eval) : List Notice :=
  ev.dag.executionGroups.reverse.flatMap (fun p =>
    p.2.executions.map (fun e => .started e.uuid) ++
    p.2.executions.map (fun e => match reportsOn ev e.uuid with
      | [.evaluation 1 1 0 0 _] => .done e.uuid { status := .timeLimitExceeded, shown := "too slow" }
      | [.checker 1 1 0] =>
        if ev.senders.isEmpty then .skipped e.uuid
        else .done e.uuid { status := .success, score := some (.num (1/2)), message := "half" }
      | _ => .done e.uuid { status := .success, score := some (.num (1/2)), message := "half" }))

/-- A skipped execution does not start. -/
def served (ev : Eval) : List Notice :=
  (notices ev).filter (fun x => match x with
    | .started u => !(notices ev).any (fun y => match y with | .skipped v => v == u | _ => false)
    | _ => true)

/-- The iteration order of the subtasks. -/
def subtaskOrder : List Nat := [1, 0]

def maxScore (st : Nat) : Rat := if st = 0 then 40 else 60

/-- The first solution should exceed the time limit in the second subtask. -/
def solChecks : List (Nat × List SolCheck) :=
  [(0, [⟨.timeLimit, ['*']⟩]), (1, [⟨.partialScore, ['*']⟩])]

/-- The evaluation. -/
def live (task : Task) (ev : Eval) (ns : List Notice) : Option Live :=
  match newManagers (scoreTask task maxScore .min) (fun _ => subtaskOrder) (List.range sols.length) with
  | none => none
  | some ms => Live.follow (fun _ => subtaskOrder) ev ms solChecks ns

theorem of_live {task : Task} {ev : Eval} {ns : List Notice} {l : Live} (h : live task ev ns = some l) :
    ∃ ms, newManagers (scoreTask task maxScore .min) (fun _ => subtaskOrder) (List.range sols.length) = some ms ∧
      Live.follow (fun _ => subtaskOrder) ev ms solChecks ns = some l := by
  unfold live at h
  split at h
  · cases h
  · next ms hms => exact ⟨ms, hms, h⟩

/-- What is shown. -/
def shown (task : Task) (s : State) (j k : Nat) : Option (EvalStatus × Option Score.Score) :=
  ((s.evaluations.get? j).bind (·.testcases.get? k)).map (fun t => (t.status, t.score))

end Sample
end TM.Ui
