import Verif.Report.Lemmas
/-!
# The summary of the final report
-/
namespace TM.Report
open TM TM.Build TM.Ui Report.Spec

variable {task : Task} {v : View} {s : State}

/-- The testcases of the subtasks are testcases of the task. -/
def Inside (task : Task) : Prop :=
  ∀ st ∈ task.subtasks.values, ∀ k ∈ st.owned, k ∈ task.testcases.values.map (·.id)

theorem inside_get (hin : Inside task) {st : Nat} {info : Subtask} (h : task.subtasks.get? st = some info) {e : SolEval}
    (he : Shape task e) {k : Nat} (hk : k ∈ info.owned) : ∃ x, e.testcases.get? k = some x :=
  AMap.mem_keys_iff.1 ((he.tcs k).2 (hin info (List.mem_map.2 ⟨_, AMap.mem_of_get? h, rfl⟩) k hk))

theorem shape_get (hk : Keyed task) {e : SolEval} (he : Shape task e) {st : Nat} {info : Subtask}
    (h : task.subtasks.get? st = some info) : ∃ x, e.subtasks.get? st = some x :=
  AMap.mem_keys_iff.1 ((he.sts st).2 ((keyed_id_keys hk st).2 ⟨info, h⟩))

theorem subtaskCell_eq (x : StEval) :
    subtaskCell v x = subtaskSeg v (x.score.bind (fun a => x.normalized.map (fun b => (a, b)))) := by
  unfold subtaskCell subtaskSeg
  cases x.score with
  | none => rfl
  | some a =>
    cases x.normalized with
    | none => rfl
    | some b => simp only [Option.bind_some, Option.map_some, scoreColor_eq]; rfl

theorem subtaskLetters_eq (hk : Keyed task) (hin : Inside task) {j : Nat} {e : SolEval} (hj : s.evaluations.get? j = some e)
    (he : Shape task e) {st : Nat} (hst : ∃ info, task.subtasks.get? st = some info) :
    subtaskLetters task v j e st = some (letters task v s j st) := by
  obtain ⟨info, hi⟩ := hst
  obtain ⟨x, hx⟩ := shape_get hk he hi
  unfold subtaskLetters
  simp only [hi, hx]
  rw [mapM_map (g := fun k => ⟨colorOf (v.close j k) (statusOf s j k), [letterOf (statusOf s j k)]⟩)]
  · simp only [Option.map_some, letters, ownedBy, hi, Option.getD_some, fraction, hj, Option.bind_some, hx, scoreColor_eq]
    simp
  · intro k hkk
    obtain ⟨y, hy⟩ := inside_get hin hi he hkk
    simp only [hy, Option.map_some, letter_eq, statusOf, hj, Option.bind_some, Option.getD_some]

theorem summaryLine_full (hk : Keyed task) (hin : Inside task) {j : Nat} {e : SolEval} (hj : s.evaluations.get? j = some e)
    (he : Shape task e) :
    summaryLine task v s j = some ([⟨.plain, padLeft (maxLen v s) (v.name j) ++ [' ']⟩,
      ⟨.plain, totalText v (solutionScore s j) ++ [' ', '|', ' ']⟩] ++
      (sortedNats task.subtasks.keys).map (fun st => subtaskSeg v (subtaskScore s j st)) ++ [⟨.plain, [' ', ' ']⟩] ++
      (sortedNats task.subtasks.keys).flatMap (letters task v s j)) := by
  unfold summaryLine
  simp only [hj, eval_keys hk he]
  rw [mapM_map (g := fun st => subtaskSeg v (subtaskScore s j st)), mapM_map (g := letters task v s j)]
  · simp only [say, scoreCell_eq, solutionScore, hj, Option.bind_some, List.flatMap_def]
    have h2 : ("  ".toList : List Char) = [' ', ' '] := rfl
    rw [h2]
    simp
  · intro st hst
    exact subtaskLetters_eq hk hin hj he (((subtasks_sorted hk).2 st).1 hst)
  · intro st hst
    obtain ⟨info, hi⟩ := ((subtasks_sorted hk).2 st).1 hst
    obtain ⟨x, hx⟩ := shape_get hk he hi
    simp only [hx, Option.map_some, subtaskCell_eq, subtaskScore, hj, Option.bind_some]

theorem summaryLine_eq (hk : Keyed task) (hin : Inside task) {j : Nat} {e : SolEval} (hj : s.evaluations.get? j = some e)
    (he : Shape task e) :
    ∃ row, summaryLine task v s j = some row ∧ SummaryRow task v s (sortedNats task.subtasks.keys) j row :=
  ⟨_, summaryLine_full hk hin hj he, maxLen v s, rfl⟩

/-- The solutions of a map, in the order of their paths. -/
theorem ordered_keys (hle : TotalLe v.le) {V : Type} {m : AMap Nat V} (hm : m.Wf) :
    Spec.Ordered v (fun j => ∃ x, m.get? j = some x) (isort v.le m.keys) :=
  ⟨isort_sorted hle _, (isort_perm _ _).nodup_iff.2 hm, fun j => by rw [(isort_perm _ _).mem_iff, AMap.mem_keys_iff]⟩

theorem summary_eq (hk : Keyed task) (hin : Inside task) (hle : TotalLe v.le) (hx : Exact task s) :
    ∃ header sols rows, summary task v s = some ([⟨.blue, "Summary".toList⟩] :: header :: rows ++ [[]]) ∧
      Spec.Ordered v (fun j => ∃ e, s.evaluations.get? j = some e) sols ∧ rows.length = sols.length ∧
      ∀ (i : Nat) j, sols[i]? = some j → ∃ row, rows[i]? = some row ∧
        SummaryRow task v s (sortedNats task.subtasks.keys) j row := by
  obtain ⟨rows, hr⟩ : ∃ rows, (isort v.le s.evaluations.keys).mapM (summaryLine task v s) = some rows := by
    refine mapM_total (fun j hj => ?_)
    obtain ⟨e, he⟩ := ((ordered_keys hle hx.evalWf).2.2 j).1 hj
    obtain ⟨row, h1, -⟩ := summaryLine_eq (v := v) hk hin he (hx.eval j e he)
    exact ⟨row, h1⟩
  refine ⟨summaryHeader task v s, _, rows, by unfold summary; rw [hr]; rfl, ordered_keys hle hx.evalWf, (mapM_get hr).1, ?_⟩
  intro i j hij
  obtain ⟨row, h1, h2⟩ := (mapM_get hr).2 i j hij
  obtain ⟨e, he⟩ := ((ordered_keys hle hx.evalWf).2.2 j).1 (List.mem_of_getElem? hij)
  obtain ⟨row', h3, h4⟩ := summaryLine_eq (v := v) hk hin he (hx.eval j e he)
  rw [h2] at h3
  cases h3
  exact ⟨row, h1, h4⟩

end TM.Report
