import Verif.Report.Lines
import Verif.Ui.PropsGen
/-!
# The final report of an evaluation (C112-C116)
-/
namespace TM.Report
open TM TM.Build TM.Ui DagSpec Build.Spec Ui.Spec Report.Spec

section reached
variable {task : Task} {v : View} {s : State}

/-- What is expected of a task: the maps have the right keys, the testcases of the subtasks are of the task and a subtask
does not own a testcase twice. -/
structure Sound (task : Task) : Prop where
  keyed : Keyed task
  owned : ∀ st ∈ task.subtasks.values, st.owned.Nodup ∧ ∀ k ∈ st.owned, k ∈ task.testcases.values.map (·.id)
  testcases : ∀ st ∈ task.subtasks.values, ∀ k ∈ st.testcases, k ∈ task.testcases.values.map (·.id)
  numbered : ∀ st info, task.subtasks.get? st = some info → st < task.subtasks.length

/-- A state of the UI: after some messages about the task. -/
def Reached (task : Task) (s : State) : Prop :=
  ∃ ms, (∀ m ∈ ms, m.Known task) ∧ (State.new task).applyAll task ms = some s

theorem Sound.inside (h : Sound task) : Inside task := fun st hst => (h.owned st hst).2

theorem reached_exact (h : Sound task) (hr : Reached task s) : Exact task s := by
  obtain ⟨ms, -, h2⟩ := hr
  exact applyAll_exact h.keyed (new_exact h.keyed (fun st hst => (h.owned st hst).1)) h2

/-- **C112** The report never panics, whatever the state of the evaluation. -/
theorem report_never_panics (h : Sound task) (hle : TotalLe v.le) (hr : Reached task s) :
    ∃ lines, report task v s = some lines := by
  have hx := reached_exact h hr
  have hin := h.inside
  obtain ⟨blocks, hg, -⟩ := generations_eq (v := v) h.keyed hx
  obtain ⟨_, _, he, -⟩ := evaluations_eq h.keyed hin hle hx
  obtain ⟨_, _, _, hs, -⟩ := summary_eq h.keyed hin hle hx
  have ht : ∃ t, (if task.subtasks.values.all (fun st => st.name.isSome) then table task v s else some []) = some t := by
    by_cases hn : task.subtasks.values.all (fun st => st.name.isSome) = true
    · rw [if_pos hn]
      obtain ⟨ms, h1, h2⟩ := hr
      obtain ⟨rs, hrs⟩ := checks_total h.keyed h.testcases v.nfkc h1 h2
      have hnamed : Named task := by
        intro st info hi
        exact ⟨h.numbered st info hi, List.all_eq_true.1 hn info (List.mem_map.2 ⟨_, AMap.mem_of_get? hi, rfl⟩)⟩
      obtain ⟨_, _, _, h3, -⟩ := tableLines_eq h.keyed hnamed hle hx hrs
      exact ⟨_, by unfold table; rw [h3]; rfl⟩
    · rw [if_neg hn]; exact ⟨_, rfl⟩
  obtain ⟨t, ht⟩ := ht
  have ha : ∃ a, (if s.generations.isEmpty then some [] else (generations task v s).map ([] :: ·)) = some a := by
    rw [hg]; split
    · exact ⟨_, rfl⟩
    · exact ⟨_, rfl⟩
  obtain ⟨a, ha⟩ := ha
  unfold report
  rw [ha]
  by_cases hemp : s.evaluations.isEmpty = true
  · rw [if_pos hemp]; exact ⟨_, rfl⟩
  · rw [if_neg hemp, he, ht, hs]; exact ⟨_, rfl⟩

/-- **C112** ... and it has all the parts: the generations, then the evaluations, the table of the checks if all the
subtasks have a name, and the summary; nothing about the solutions if there are none. -/
theorem report_parts {lines : List Line} (hl : report task v s = some lines) :
    (s.generations ≠ [] → ∃ g rest, generations task v s = some g ∧ lines = [] :: g ++ rest) ∧
    (s.evaluations ≠ [] → ∃ pre e t sm, evaluations task v s = some e ∧ summary task v s = some sm ∧
      lines = pre ++ [] :: e ++ t ++ sm ∧
      ((∀ st ∈ task.subtasks.values, st.name.isSome) → table task v s = some t) ∧
      ((∃ st ∈ task.subtasks.values, st.name = none) → t = [])) ∧
    (s.evaluations = [] → s.generations = [] → lines = []) := by
  unfold report at hl
  split at hl
  · next a b ha hb =>
    cases hl
    refine ⟨fun hg => ?_, fun he => ?_, fun he hg => ?_⟩
    · rw [if_neg (by simpa using hg)] at ha
      cases h1 : generations task v s with
      | none => rw [h1] at ha; cases ha
      | some g => rw [h1] at ha; cases ha; exact ⟨g, b, rfl, rfl⟩
    · rw [if_neg (by simpa using he)] at hb
      split at hb
      · next e t sm h1 h2 h3 =>
        cases hb
        refine ⟨a, e, t, sm, h1, h3, by simp, fun hn => ?_, fun ⟨st, hst, hn⟩ => ?_⟩
        · rw [if_pos (List.all_eq_true.2 hn)] at h2
          exact h2
        · rw [if_neg (fun hall => by have := List.all_eq_true.1 hall st hst; rw [hn] at this; cases this)] at h2
          cases h2; rfl
      · cases hb
    · subst_vars
      simp [he, hg] at ha hb
      rw [ha, hb]; rfl
  · cases hl

/-- **C113** The summary has exactly one line for each solution, in the order of their paths.  It shows the score of the
solution, the score of each subtask and, subtask by subtask in increasing order, a letter for each testcase. -/
theorem summary_exact (h : Sound task) (hle : TotalLe v.le) (hr : Reached task s) :
    ∃ header sols rows ids, summary task v s = some ([⟨.blue, "Summary".toList⟩] :: header :: rows ++ [[]]) ∧
      Spec.Ordered v (fun j => ∃ e, s.evaluations.get? j = some e) sols ∧ Subtasks task ids ∧
      rows.length = sols.length ∧
      ∀ (i : Nat) j, sols[i]? = some j → ∃ row, rows[i]? = some row ∧ SummaryRow task v s ids j row := by
  obtain ⟨header, sols, rows, h1, h2, h3, h4⟩ := summary_eq h.keyed h.inside hle (reached_exact h hr)
  exact ⟨header, sols, rows, _, h1, h2, subtasks_sorted h.keyed, h3, h4⟩

/-- **C113** ... and the columns are aligned, as long as the numbers are not too long: each line is as long as the header
before the letters. -/
theorem summary_aligned (h : Sound task) (hle : TotalLe v.le) (hr : Reached task s)
    (htotal : ∀ x, (v.fixed v.precision x).length ≤ v.precision + 4) (hpoints : ∀ x, (v.fixed 0 x).length ≤ 3)
    {header : Line} {rows : List Line}
    (hs : summary task v s = some ([⟨.blue, "Summary".toList⟩] :: header :: rows ++ [[]])) :
    ∀ row ∈ rows, ∃ front back, row = front ++ back ∧ (lineText front).length = (lineText header).length ∧
      ∃ j ids, Subtasks task ids ∧ back = ⟨.plain, [' ', ' ']⟩ :: ids.flatMap (letters task v s j) := by
  have hx := reached_exact h hr
  have hin := h.inside
  intro row hrow
  unfold summary at hs
  cases hm : (isort v.le s.evaluations.keys).mapM (summaryLine task v s) with
  | none => rw [hm] at hs; cases hs
  | some rows' =>
    rw [hm] at hs
    simp only [Option.map_some, Option.some.injEq, List.cons_append, List.cons.injEq, true_and] at hs
    obtain ⟨hh, hrows⟩ := hs
    have hrows : rows' = rows := List.append_cancel_right hrows
    subst hrows
    obtain ⟨i, hi⟩ := List.mem_iff_getElem?.1 hrow
    have hlt : i < (isort v.le s.evaluations.keys).length := by
      rw [← (mapM_get hm).1]
      exact (List.getElem?_eq_some_iff.1 hi).1
    obtain ⟨row', h1, h2⟩ := (mapM_get hm).2 i _ (List.getElem?_eq_getElem hlt)
    rw [hi] at h1
    cases h1
    generalize hj : (isort v.le s.evaluations.keys)[i] = j at h2
    have hjm : j ∈ isort v.le s.evaluations.keys := hj ▸ List.getElem_mem hlt
    obtain ⟨e, he⟩ := ((ordered_keys hle hx.evalWf).2.2 j).1 hjm
    have h3 := summaryLine_full (v := v) h.keyed hin he (hx.eval j e he)
    rw [h2] at h3
    cases h3
    refine ⟨[⟨.plain, padLeft (maxLen v s) (v.name j) ++ [' ']⟩,
      ⟨.plain, totalText v (solutionScore s j) ++ [' ', '|', ' ']⟩] ++
      (sortedNats task.subtasks.keys).map (fun st => subtaskSeg v (subtaskScore s j st)),
      ⟨.plain, [' ', ' ']⟩ :: (sortedNats task.subtasks.keys).flatMap (letters task v s j), ?_, ?_, j, _,
      subtasks_sorted h.keyed, rfl⟩
    · simp only [List.append_assoc, List.cons_append, List.nil_append]
    have h0 : ∀ (a : Seg) (l : Line), lineText (a :: l) = a.text ++ lineText l := fun a l => rfl
    have hflat : ∀ (f : Nat → Seg) (l : List Nat), (∀ st, (f st).text.length = 5) → (lineText (l.map f)).length = 5 * l.length := by
      intro f l hf
      induction l with
      | nil => rfl
      | cons a l ih => rw [List.map_cons, h0, List.length_append, hf, ih]; simp; omega
    rw [← hh]
    unfold summaryHeader
    rw [h0, h0, lineText_append, h0, h0]
    simp only [List.length_append]
    rw [hflat _ _ (fun st => ?_), hflat _ _ (fun st => ?_)]
    · have hname : (padLeft (maxLen v s) (v.name j)).length = maxLen v s := by
        refine padLeft_length ?_
        have g1 := foldl_max_mem (fun j => byteLen (v.name j)) s.evaluations.keys 0 j ((isort_perm _ _).mem_iff.1 hjm)
        have g2 := length_le_byteLen (v.name j)
        unfold maxLen
        omega
      have htot : (totalText v (solutionScore s j)).length = v.precision + 4 := by
        unfold totalText
        split
        · exact padLeft_length (htotal _)
        · refine padLeft_length ?_
          split
          · simp
          · simp
      simp only [say, List.length_append, hname, htot, List.length_replicate, padLeft_length (htotal _)]
      simp [lineText]; omega
    · simp only [List.cons_append, List.length_cons, List.length_append, pointsText]
      rw [center_length (hpoints _)]
      rfl
    · unfold subtaskSeg
      split
      · simp only [List.length_append]; rw [center_length (hpoints _)]; rfl
      · rfl

/-- **C114** The table of the checks: a line for each solution that is not a link, in the order of their paths, with a
cell for each subtask in increasing order; the cell has exactly the checks of the solution that match the name of the
subtask and have a result, in green if they hold and in red otherwise. -/
theorem table_exact (h : Sound task) (hle : TotalLe v.le) (hr : Reached task s)
    (hnames : ∀ st ∈ task.subtasks.values, st.name.isSome) :
    ∃ header sols rows ids results, table task v s = some ([⟨.blue, "Subtask results".toList⟩] :: header :: rows ++ [[]]) ∧
      Spec.Ordered v (fun j => (∃ c, s.solutions.get? j = some c) ∧ v.symlink j = false) sols ∧ Subtasks task ids ∧
      rows.length = sols.length ∧
      (∀ (i : Nat) j, sols[i]? = some j → ∃ row, rows[i]? = some row ∧ TableRow v results ids j row) ∧
      ∀ j st o, o ∈ results j st ↔ o.solution = j ∧ o.subtask = st ∧
        ∃ checks info name outcomes, (j, checks) ∈ s.solutions ∧ o.check ∈ checks ∧
          task.subtasks.get? st = some info ∧ info.name = some name ∧ Glob (v.nfkc o.check.pattern) name.toList ∧
          (s.evaluations.get? j).isSome ∧ info.testcases.map (resultOf s j) = outcomes.map some ∧
          o.success = o.check.result.check outcomes := by
  have hx := reached_exact h hr
  obtain ⟨ms, h1, h2⟩ := hr
  obtain ⟨rs, hrs⟩ := checks_total h.keyed h.testcases v.nfkc h1 h2
  have hnamed : Named task := fun st info hi =>
    ⟨h.numbered st info hi, hnames info (List.mem_map.2 ⟨_, AMap.mem_of_get? hi, rfl⟩)⟩
  obtain ⟨header, sols, rows, h3, h4, h5, h6, -⟩ := tableLines_eq h.keyed hnamed hle hx hrs
  refine ⟨header, sols, rows, _, resultsOf rs, by unfold table; rw [h3]; rfl, h4, subtasks_sorted h.keyed, h5, h6, ?_⟩
  intro j st o
  unfold resultsOf
  rw [List.mem_filter, checks_exact h.keyed hrs o]
  simp only [Bool.and_eq_true, decide_eq_true_eq]
  constructor
  · rintro ⟨hc, rfl, rfl⟩; exact ⟨rfl, rfl, hc⟩
  · rintro ⟨rfl, rfl, hc⟩; exact ⟨hc, rfl, rfl⟩

/-- **C114** ... and all its lines are as long as the header, so that the columns are aligned. -/
theorem table_aligned (h : Sound task) (hle : TotalLe v.le) (hr : Reached task s)
    (hnames : ∀ st ∈ task.subtasks.values, st.name.isSome) {lines : List Line}
    (hl : table task v s = some ([⟨.blue, "Subtask results".toList⟩] :: lines ++ [[]])) :
    ∃ w, ∀ row ∈ lines, (lineText row).length = w := by
  have hx := reached_exact h hr
  obtain ⟨ms, h1, h2⟩ := hr
  obtain ⟨rs, hrs⟩ := checks_total h.keyed h.testcases v.nfkc h1 h2
  have hnamed : Named task := fun st info hi =>
    ⟨h.numbered st info hi, hnames info (List.mem_map.2 ⟨_, AMap.mem_of_get? hi, rfl⟩)⟩
  obtain ⟨header, sols, rows, h3, -, -, -, w, h7⟩ := tableLines_eq h.keyed hnamed hle hx hrs
  unfold table at hl
  rw [h3] at hl
  simp only [Option.map_some, Option.some.injEq, List.cons_append, List.cons.injEq, true_and] at hl
  have : lines = header :: rows := by
    rw [← List.cons_append] at hl
    exact (List.append_cancel_right hl).symm
  rw [this]
  exact ⟨w, h7⟩

/-- **C115** The report of the generations: the subtasks in increasing order, and in each one a line for each testcase
that it owns, in increasing order, with the steps that went well in green and the others in yellow. -/
theorem generations_exact (h : Sound task) (hr : Reached task s) :
    ∃ (ids : List Nat) (blocks : List (List Line)), generations task v s = some ([⟨.blue, "Generations".toList⟩] :: blocks.flatten) ∧ Subtasks task ids ∧
      blocks.length = ids.length ∧
      ∀ (i : Nat) st, ids[i]? = some st → ∃ b, blocks[i]? = some b ∧ GenBlock task v s st b := by
  obtain ⟨blocks, h1, h2, h3⟩ := generations_eq (v := v) h.keyed (reached_exact h hr)
  exact ⟨_, blocks, h1, subtasks_sorted h.keyed, h2, h3⟩

/-- **C116** The report of the evaluations: the solutions in the order of their paths with their score, in each one the
subtasks in increasing order with their score, and in each one a line for each testcase that it owns. -/
theorem evaluations_exact (h : Sound task) (hle : TotalLe v.le) (hr : Reached task s) :
    ∃ (sols ids : List Nat) (blocks : List (List Line)), evaluations task v s = some ([⟨.blue, "Evaluations".toList⟩] :: blocks.flatMap (· ++ [[]])) ∧
      Spec.Ordered v (fun j => ∃ e, s.evaluations.get? j = some e) sols ∧ Subtasks task ids ∧
      blocks.length = sols.length ∧
      ∀ (i : Nat) j, sols[i]? = some j → ∃ b, blocks[i]? = some b ∧ SolBlock task v s ids j b := by
  obtain ⟨sols, blocks, h1, h2, h3, h4⟩ := evaluations_eq h.keyed h.inside hle (reached_exact h hr)
  exact ⟨sols, _, blocks, h1, h2, subtasks_sorted h.keyed, h3, h4⟩

end reached
end TM.Report
