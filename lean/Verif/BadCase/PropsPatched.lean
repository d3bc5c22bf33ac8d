import Verif.BadCase.PatchDag
import Verif.BadCase.Spec
/-!
# The DAG of a batch (C96)
-/
namespace TM.BadCase
open TM TM.Build TM.DagSpec TM.Build.Spec TM.BadCase.Spec

variable {task task' : Task} {v : InputValidator} {args : List String} {size index : Nat} {seed : Nat → Nat} {batch : Batch}
  {n : Uuid} {cfg : DagConfig} {fs : FS} {root : String} {sol : Src} {io : GeneratedIo} {ev ev' : Eval}
  {name : Nat → String} {work : String}

theorem under_iff (dir s : String) : under dir.toList s.toList = true ↔ s = dir ∨ ∃ x, s = dir ++ "/" ++ x := by
  unfold under
  rw [Bool.or_eq_true, decide_eq_true_eq, List.isPrefixOf_iff_prefix]
  constructor
  · rintro (h | ⟨x, h⟩)
    · exact .inl (String.toList_inj.1 h)
    · refine .inr ⟨String.ofList x, String.toList_inj.1 ?_⟩
      simp only [String.toList_append, String.toList_ofList, ← h]
      rfl
  · rintro (rfl | ⟨x, rfl⟩)
    · exact .inl rfl
    · exact .inr ⟨x.toList, by simp only [String.toList_append]; rfl⟩

theorem patched_path (hp : patchTask task v args size index seed = some (task', batch)) : task'.path = task.path := by
  obtain ⟨t, src, a, h1, h2, h3, h4⟩ := patchTask_some hp
  rw [h4]

theorem patched_outfile (hp : patchTask task v args size index seed = some (task', batch)) : task'.outfile = task.outfile := by
  obtain ⟨t, src, a, h1, h2, h3, h4⟩ := patchTask_some hp
  rw [h4]

/-- What becomes of a file to write. -/
theorem patchWrite_cases (h : Fits n task [sol]) (hv : ∀ s ∈ validatorSources v, s ∈ sources task [sol])
    (hpl : Places root task sol) (hp : patchTask task v args size index seed = some (task', batch))
    (hr : buildDag fs root task' [sol] (start n cfg) = .ok (io, ev)) {f : FileUuid} {w : WriteTo}
    (hw : ev.writes.get? f = some w) :
    (w.executable = false ∧ ∃ k c, batch.get? k = some c ∧ ∃ x ∈ ["input.txt", "correct_output.txt"],
      patchWrite root work batch w = some ⟨c.file work x, false, true⟩) ∨
    (w.executable = true ∧ patchWrite root work batch w = some w) := by
  have hfit := batch_fits h hv hp
  rcases nothing_else_written hfit hr hw with ⟨h1, k, tc, h2, h3⟩ | ⟨h1, s, h2, h3, h4, -⟩
  · left
    obtain ⟨t, src, a, -, -, -, h4⟩ := patchTask_some hp
    have hk : ∃ c, batch.get? k = some c := by
      rw [h4] at h2
      simp only [get_map_testcase, Option.map_eq_some_iff] at h2
      obtain ⟨c, hc, -⟩ := h2
      exact ⟨c, hc⟩
    obtain ⟨c, hc⟩ := hk
    rw [patched_path hp, hpl.path] at h3
    rcases h3 with h3 | h3
    · exact ⟨h1, k, c, hc, "input.txt", by simp, by rw [patchWrite_input hc h3, h1]⟩
    · exact ⟨h1, k, c, hc, "correct_output.txt", by simp, by rw [patchWrite_output hc h3, h1]⟩
  · right
    refine ⟨h1, ?_⟩
    obtain ⟨r, h5, h6⟩ := hpl.exes s (batch_sources hv hp s h2) _ h4
    have h7 : ∀ dir ∈ ["input", "output"], under dir.toList r.toList = false := by
      intro dir hd
      cases hu : under dir.toList r.toList with
      | false => rfl
      | true =>
        rcases (under_iff dir r).1 hu with h8 | ⟨x, h8⟩
        · exact absurd h8 (h6 dir hd).1
        · exact absurd h8 ((h6 dir hd).2 x)
    unfold patchWrite
    have h8 : w.dest.toList = root.toList ++ ('/' :: r.toList) := by
      rw [h5]
      simp only [String.toList_append, List.append_assoc]
      rfl
    rw [h8, stripRoot_append]
    simp only [h7 "input" (by simp), h7 "output" (by simp)]
    simp

/-- Both loops succeed. -/
theorem loops (h : Fits n task [sol]) (hv : ∀ s ∈ validatorSources v, s ∈ sources task [sol])
    (hpl : Places root task sol) (hp : patchTask task v args size index seed = some (task', batch))
    (hr : buildDag fs root task' [sol] (start n cfg) = .ok (io, ev)) :
    patchWrites root work batch ev.writes =
      some (ev.writes.map (fun p => (p.1, (patchWrite root work batch p.2).getD p.2))) ∧
    newWrites name work batch ev (executions ev) =
      some ((executions ev).flatMap (fun e => (outputOfExec name work batch ev e).getD [])) := by
  have hfit := batch_fits h hv hp
  constructor
  · refine patchWrites_some (fun p hm => ?_)
    have hg : ev.writes.get? p.1 = some p.2 := AMap.get?_of_mem (buildDag_done hfit hr).1.inv.writesWf hm
    rcases patchWrite_cases (work := work) h hv hpl hp hr hg with ⟨-, k, c, -, x, -, h1⟩ | ⟨-, h1⟩ <;> rw [h1] <;> rfl
  · refine newWrites_some (fun e he => ?_)
    by_cases ht : e.tag = some "evaluation"
    · obtain ⟨k, c, t, -, -, -, h1⟩ := outputOf_processed (name := name) (work := work) hfit hp hr he ht
      rw [h1]; rfl
    · unfold outputOfExec
      rw [if_neg ht]; rfl

/-- **C96** The tool knows what to do exactly with the tasks where a solution is one process: the batch tasks and the
communication tasks with one process (and it always does if the batches are empty). -/
theorem patch_succeeds (h : Fits n task [sol]) (hv : ∀ s ∈ validatorSources v, s ∈ sources task [sol])
    (hpl : Places root task sol) (hp : patchTask task v args size index seed = some (task', batch))
    (hr : buildDag fs root task' [sol] (start n cfg) = .ok (io, ev)) :
    (∃ ev', patchDag name root work size batch ev = some ev') ↔
      size = 0 ∨ (∃ checker, task.type = .batch checker) ∨ ∃ manager io, task.type = .communication manager 1 io := by
  obtain ⟨h1, h2⟩ := loops (name := name) (work := work) h hv hpl hp hr
  have h3 := processed_count (batch_fits h hv hp) hp hr
  rw [processed_length hp] at h3
  unfold patchDag
  rw [h1, h2]
  simp only [h3]
  have hif : ∀ (P : Prop) [Decidable P] (x : Eval), (∃ y, (if P then none else some x) = some y) ↔ ¬ P := by
    intro P _ x
    by_cases hP : P
    · simp [hP]
    · simp [hP]
  rw [hif, Decidable.not_not]
  constructor
  · intro hn
    rcases Nat.eq_zero_or_pos size with h0 | h0
    · exact .inl h0
    · right
      have hn := Nat.eq_of_mul_eq_mul_left h0 hn
      split at hn
      · next c hc => exact .inl ⟨c, hc⟩
      · next m k i hc => exact .inr ⟨m, i, by rw [hc]; congr 1; omega⟩
      · omega
  · rintro (rfl | ⟨c, hc⟩ | ⟨m, i, hc⟩)
    · simp
    · rw [hc]
    · rw [hc]

/-- The result of the tool. -/
theorem patchDag_eq (h : Fits n task [sol]) (hv : ∀ s ∈ validatorSources v, s ∈ sources task [sol])
    (hpl : Places root task sol) (hp : patchTask task v args size index seed = some (task', batch))
    (hr : buildDag fs root task' [sol] (start n cfg) = .ok (io, ev))
    (hd : patchDag name root work size batch ev = some ev') :
    ev' = ((executions ev).flatMap (fun e => (outputOfExec name work batch ev e).getD [])).foldl writeAllowFail
      { ev with
        writes := ev.writes.map (fun p => (p.1, (patchWrite root work batch p.2).getD p.2))
        dag := patched ev.dag } := by
  obtain ⟨h1, h2⟩ := loops (name := name) (work := work) h hv hpl hp hr
  unfold patchDag at hd
  rw [h1, h2] at hd
  simp only at hd
  split at hd
  · cases hd
  · exact (Option.some.inj hd).symm

theorem config_same (hfit : Fits n task' [sol]) (hr : buildDag fs root task' [sol] (start n cfg) = .ok (io, ev)) :
    ev.dag.config = cfg := by
  obtain ⟨-, h2, -, -⟩ := buildDag_done hfit hr
  rw [h2.step.ext.config]; rfl

theorem patched_state (h : Fits n task [sol]) (hv : ∀ s ∈ validatorSources v, s ∈ sources task [sol])
    (hpl : Places root task sol) (hp : patchTask task v args size index seed = some (task', batch))
    (hr : buildDag fs root task' [sol] (start n cfg) = .ok (io, ev)) (hdry : cfg.dryRun = false)
    (hd : patchDag name root work size batch ev = some ev') :
    ev' = { ev with
      dag := patched ev.dag
      writes := ((executions ev).flatMap (fun e => (outputOfExec name work batch ev e).getD [])).foldl
        (fun m p => m.insert p.1 ⟨p.2, false, true⟩)
        (ev.writes.map (fun p => (p.1, (patchWrite root work batch p.2).getD p.2))) } := by
  rw [patchDag_eq h hv hpl hp hr hd]
  rw [fold_writes _ _ (by show ev.dag.config.dryRun = false; rw [config_same (batch_fits h hv hp) hr]; exact hdry)]

/-- What is saved because of an execution is its standard output. -/
theorem mem_new (hfit : Fits n task' [sol]) (hp : patchTask task v args size index seed = some (task', batch))
    (hr : buildDag fs root task' [sol] (start n cfg) = .ok (io, ev)) {p : FileUuid × String}
    (hm : p ∈ (executions ev).flatMap (fun e => (outputOfExec name work batch ev e).getD [])) :
    ∃ e ∈ allExecs ev.dag, e.tag = some "evaluation" ∧ e.stdout = some p.1 ∧ ∃ k c t, batch.get? k = some c ∧
      t ∈ evaluationMessages task'.type 0 k 0 ∧ Reports ev e.uuid t ∧ p.2 = c.file work "output.txt" := by
  obtain ⟨e, he, h1⟩ := List.mem_flatMap.1 hm
  by_cases ht : e.tag = some "evaluation"
  · obtain ⟨k, c, t, h2, h3, h4, h5⟩ := outputOf_processed (name := name) (work := work) hfit hp hr he ht
    rw [h5] at h1
    simp only [Option.getD_some, List.mem_map, Option.mem_toList] at h1
    obtain ⟨f, h6, rfl⟩ := h1
    exact ⟨e, he, ht, h6, k, c, t, h2, h3, h4, rfl⟩
  · unfold outputOfExec at h1
    rw [if_neg ht] at h1
    cases h1

theorem stdout_mem {e : Execution} {f : FileUuid} (h : e.stdout = some f) : f ∈ e.outputFiles := by
  simp [Execution.outputFiles, h]

/-- A file not written by a solution or by a manager is not replaced. -/
theorem patched_get (h : Fits n task [sol]) (hv : ∀ s ∈ validatorSources v, s ∈ sources task [sol])
    (hpl : Places root task sol) (hp : patchTask task v args size index seed = some (task', batch))
    (hr : buildDag fs root task' [sol] (start n cfg) = .ok (io, ev)) (hdry : cfg.dryRun = false)
    (hd : patchDag name root work size batch ev = some ev') {f : FileUuid}
    (hf : ∀ e ∈ allExecs ev.dag, e.tag = some "evaluation" → e.stdout ≠ some f) :
    ev'.writes.get? f = (ev.writes.get? f).map (fun w => (patchWrite root work batch w).getD w) := by
  rw [patched_state h hv hpl hp hr hdry hd]
  show AMap.get? _ f = _
  rw [fold_get, get_map_write (fun w => (patchWrite root work batch w).getD w)]
  rintro p hm rfl
  obtain ⟨e, h1, h2, h3, -⟩ := mem_new (batch_fits h hv hp) hp hr hm
  exact hf e h1 h2 h3

/-- **C96** The input of each testcase of the batch, and the correct output, are saved in the directory of the testcase, named
after its seed, also if the solution or the validator fails. -/
theorem patched_io (h : Fits n task [sol]) (hv : ∀ s ∈ validatorSources v, s ∈ sources task [sol])
    (hpl : Places root task sol) (hp : patchTask task v args size index seed = some (task', batch))
    (hr : buildDag fs root task' [sol] (start n cfg) = .ok (io, ev)) (hdry : cfg.dryRun = false)
    (hd : patchDag name root work size batch ev = some ev') {k : Nat} {c : Case} (hc : batch.get? k = some c) :
    ∃ input output, io.get? k = some (input, some output) ∧
      ev'.writes.get? input = some ⟨work ++ "/testcase-" ++ toString c.seed ++ "/" ++ "input.txt", false, true⟩ ∧
      ev'.writes.get? output =
        some ⟨work ++ "/testcase-" ++ toString c.seed ++ "/" ++ "correct_output.txt", false, true⟩ := by
  have hfit := batch_fits h hv hp
  obtain ⟨t0, src0, a0, -, h2, -, h4⟩ := patchTask_some hp
  have hst : batchSubtask v index (AMap.keys (batch.map (testcaseOf t0))) ∈ task'.subtasks.values := by
    rw [h4]; simp [AMap.values]
  have hkey : k ∈ (batchSubtask v index (AMap.keys (batch.map (testcaseOf t0)))).owned := by
    show k ∈ AMap.keys (batch.map (testcaseOf t0))
    rw [keys_map_testcase]
    exact AMap.mem_keys_iff.2 ⟨c, hc⟩
  obtain ⟨input, output, h5, h6, h7⟩ := io_written hfit hdry hr hst hkey
  obtain ⟨tc, input', handle, output', h8, h9, h10⟩ := testcase_prepared hfit hr hst hkey
  rw [h5] at h9
  cases h9
  have hdone := (buildDag_done hfit hr).1
  have htag : ∀ {e f}, e ∈ allExecs ev.dag → e.tag = some "generation" → f ∈ e.outputFiles →
      ∀ e' ∈ allExecs ev.dag, e'.tag = some "evaluation" → e'.stdout ≠ some f := by
    intro e f he ht hf e' he' ht' hs
    have := hdone.producer he he' hf (stdout_mem hs)
    subst this
    rw [ht] at ht'
    exact absurd ht' (by simp)
  have hprov : ∀ {f p}, ev.dag.providedFiles.get? f = some p →
      ∀ e' ∈ allExecs ev.dag, e'.tag = some "evaluation" → e'.stdout ≠ some f := by
    intro f p hg e' he' _ hs
    have h1 := hdone.inv.files
    rw [List.nodup_append] at h1
    refine h1.2.2 f ?_ f ?_ rfl
    · rw [groupOuts_eq]
      exact List.mem_flatMap.2 ⟨e', he', stdout_mem hs⟩
    · simp only [outsOf, List.flatMap_nil, List.nil_append]
      exact AMap.mem_keys_iff.2 ⟨p, hg⟩
  have hinput : ∀ e' ∈ allExecs ev.dag, e'.tag = some "evaluation" → e'.stdout ≠ some input := by
    have hg := h10.generated
    unfold Generated at hg
    split at hg
    · obtain ⟨_, -, hg⟩ := hg
      exact hprov hg
    · obtain ⟨e, q1, q2, -, -, -, -, q3, -⟩ := hg
      exact htag q1.added q3.1 (stdout_mem q2)
  have houtput : ∀ e' ∈ allExecs ev.dag, e'.tag = some "evaluation" → e'.stdout ≠ some output := by
    have hg := h10.solved
    unfold Solved at hg
    split at hg
    · exact hprov hg
    · obtain ⟨_, -, hg⟩ := hg
      exact hprov hg
    · obtain ⟨e, q1, -, -, q2, -, -, q3, -⟩ := hg
      refine htag q1.added q3.1 ?_
      unfold Build.Spec.Writes at q2
      split at q2
      · exact stdout_mem q2
      · simp only [Execution.outputFiles, List.mem_append]
        exact .inr (.inr (List.mem_map.2 ⟨_, AMap.mem_of_get? q2, rfl⟩))
  refine ⟨input, output, h5, ?_, ?_⟩
  · rw [patched_get h hv hpl hp hr hdry hd hinput, h6]
    simp only [Option.map_some]
    rw [patchWrite_input hc rfl]
    rfl
  · rw [patched_get h hv hpl hp hr hdry hd houtput, h7]
    simp only [Option.map_some]
    rw [patchWrite_output hc (by rw [patched_path hp, hpl.path])]
    rfl

/-- **C96** If the solutions of a batch task write on the standard output, what the solution wrote is saved there too. -/
theorem patched_answer_partial (h : Fits n task [sol]) (hv : ∀ s ∈ validatorSources v, s ∈ sources task [sol])
    (hpl : Places root task sol) (hp : patchTask task v args size index seed = some (task', batch))
    (hr : buildDag fs root task' [sol] (start n cfg) = .ok (io, ev)) (hdry : cfg.dryRun = false)
    (hd : patchDag name root work size batch ev = some ev') {checker : Checker} (hb : task.type = .batch checker)
    (ho : task.outfile = none) {k : Nat} {c : Case} (hc : batch.get? k = some c) :
    ∃ e ∈ allExecs ev.dag, ∃ answer, Reports ev e.uuid (.evaluation 0 k 0 0 1) ∧ e.stdout = some answer ∧
      ev'.writes.get? answer = some ⟨work ++ "/testcase-" ++ toString c.seed ++ "/" ++ "output.txt", false, true⟩ := by
  have hfit := batch_fits h hv hp
  have hdone := (buildDag_done hfit hr).1
  obtain ⟨hid, htc⟩ := patched_ids hp
  obtain ⟨st, tc, input, handle, output, p1, p2, p3, p4, p5⟩ := prepared_of hfit hp hr hc
  have hev := p5.evaluated 0 sol rfl
  rw [p1, p4] at hev
  unfold Evaluated at hev
  rw [type_same hp, hb] at hev
  obtain ⟨e, kk, out, q1, -, -, q2, -, q3, -, q4, -⟩ := hev
  unfold Build.Spec.Writes at q2
  rw [patched_outfile hp, ho] at q2
  simp only at q2
  refine ⟨e, q1.added, out, q4, q2, ?_⟩
  have hpair : (out, c.file work "output.txt") ∈
      (executions ev).flatMap (fun e => (outputOfExec name work batch ev e).getD []) := by
    refine List.mem_flatMap.2 ⟨e, q1.added, ?_⟩
    obtain ⟨k', c', t, r1, r2, r3, r4⟩ := outputOf_processed (name := name) (work := work) hfit hp hr q1.added q3.1
    obtain ⟨t', r5, -⟩ := reported_once hfit hr q1.added
    have r6 := mem_reportsOn.2 r3
    have r7 := mem_reportsOn.2 q4
    rw [r5, List.mem_singleton] at r6 r7
    rw [← r6] at r7
    subst r7
    have := (evaluationMessages_about r2).1
    simp only [topicTc, Option.some.injEq] at this
    subst this
    rw [hc] at r1
    cases r1
    rw [r4, q2]
    simp
  rw [patched_state h hv hpl hp hr hdry hd]
  refine fold_get_only _ _ hpair (fun q hq hqo => ?_)
  obtain ⟨e', r1, r2, r3, k', c', t, r4, r5, r6, r7⟩ := mem_new hfit hp hr hq
  rw [hqo] at r3
  have := hdone.producer q1.added r1 (stdout_mem q2) (stdout_mem r3)
  subst this
  obtain ⟨t', s1, -⟩ := reported_once hfit hr q1.added
  have s2 := mem_reportsOn.2 r6
  have s3 := mem_reportsOn.2 q4
  rw [s1, List.mem_singleton] at s2 s3
  rw [← s2] at s3
  subst s3
  have := (evaluationMessages_about r5).1
  simp only [topicTc, Option.some.injEq] at this
  subst this
  rw [hc] at r4
  cases r4
  exact r7

/-- **C96** Nothing is written in the directory of the task, except the executables the user asked for: everything else
goes in the directory of a testcase of the batch. -/
theorem patched_elsewhere (h : Fits n task [sol]) (hv : ∀ s ∈ validatorSources v, s ∈ sources task [sol])
    (hpl : Places root task sol) (hp : patchTask task v args size index seed = some (task', batch))
    (hr : buildDag fs root task' [sol] (start n cfg) = .ok (io, ev))
    (hd : patchDag name root work size batch ev = some ev') {f : FileUuid} {w : WriteTo}
    (hw : ev'.writes.get? f = some w) :
    (∃ k c, batch.get? k = some c ∧ ∃ x ∈ ["input.txt", "correct_output.txt", "output.txt"],
      w = ⟨work ++ "/testcase-" ++ toString c.seed ++ "/" ++ x, false, true⟩) ∨
    (w.executable = true ∧ ev.writes.get? f = some w) := by
  have hfit := batch_fits h hv hp
  have key : ∀ {w}, AMap.get? (ev.writes.map (fun p => (p.1, (patchWrite root work batch p.2).getD p.2))) f = some w →
      (∃ k c, batch.get? k = some c ∧ ∃ x ∈ ["input.txt", "correct_output.txt", "output.txt"],
        w = ⟨work ++ "/testcase-" ++ toString c.seed ++ "/" ++ x, false, true⟩) ∨
      (w.executable = true ∧ ev.writes.get? f = some w) := by
    intro w hw
    rw [get_map_write (fun w => (patchWrite root work batch w).getD w)] at hw
    obtain ⟨w0, h1, h2⟩ := Option.map_eq_some_iff.1 hw
    rcases patchWrite_cases (work := work) h hv hpl hp hr h1 with ⟨-, k, c, h3, x, h4, h5⟩ | ⟨h3, h4⟩
    · rw [h5] at h2
      refine .inl ⟨k, c, h3, x, ?_, h2.symm⟩
      simp only [List.mem_cons, List.not_mem_nil, or_false] at h4 ⊢
      rcases h4 with h4 | h4 <;> simp [h4]
    · rw [h4] at h2
      cases h2
      exact .inr ⟨h3, h1⟩
  cases hdry : cfg.dryRun with
  | true =>
    rw [patchDag_eq h hv hpl hp hr hd,
      fold_dry _ _ (by show ev.dag.config.dryRun = true; rw [config_same hfit hr]; exact hdry)] at hw
    exact key hw
  | false =>
    rw [patched_state h hv hpl hp hr hdry hd] at hw
    rcases fold_get_mem _ _ _ _ hw with ⟨p, h1, -, h3⟩ | h1
    · obtain ⟨e, -, -, -, k, c, t, h4, -, -, h5⟩ := mem_new hfit hp hr h1
      refine .inl ⟨k, c, h4, "output.txt", by simp, ?_⟩
      rw [h3, h5]
      rfl
    · exact key h1

/-- **C96** The executions are the ones of the task: only the priority of the evaluations and of the checkers changes, to be
higher than that of all the generations and validations, so that the first testcases are evaluated before the last are
generated.  The files and the callbacks are the same. -/
theorem patched_dag (h : Fits n task [sol]) (hv : ∀ s ∈ validatorSources v, s ∈ sources task [sol])
    (hpl : Places root task sol) (hp : patchTask task v args size index seed = some (task', batch))
    (hr : buildDag fs root task' [sol] (start n cfg) = .ok (io, ev))
    (hd : patchDag name root work size batch ev = some ev') :
    ev'.dag.providedFiles = ev.dag.providedFiles ∧ ev'.dag.executionGroups.keys = ev.dag.executionGroups.keys ∧
    ev'.handlers = ev.handlers ∧
    ((allExecs ev'.dag).map (fun e => { e with priority := 0 }) =
      (allExecs ev.dag).map (fun e => { e with priority := 0 })) ∧
    (∀ e ∈ allExecs ev'.dag, if e.tag = some "evaluation" ∨ e.tag = some "checking"
      then e.priority = 1000001 else e ∈ allExecs ev.dag) := by
  have hsame : ∀ (l : List (FileUuid × String)) (e0 : Eval), (l.foldl writeAllowFail e0).dag = e0.dag ∧
      (l.foldl writeAllowFail e0).handlers = e0.handlers := by
    intro l
    induction l with
    | nil => intro e0; exact ⟨rfl, rfl⟩
    | cons p l ih =>
      intro e0
      obtain ⟨h1, h2⟩ := ih (writeAllowFail e0 p)
      rw [List.foldl_cons, h1, h2]
      unfold writeAllowFail
      split <;> exact ⟨rfl, rfl⟩
  have hev := patchDag_eq h hv hpl hp hr hd
  have hdag : ev'.dag = patched ev.dag := by rw [hev, (hsame _ _).1]
  have hhan : ev'.handlers = ev.handlers := by rw [hev, (hsame _ _).2]
  refine ⟨by rw [hdag]; rfl, ?_, hhan, ?_, ?_⟩
  · rw [hdag]
    simp only [patched, AMap.keys, List.map_map]
    rfl
  · rw [hdag, allExecs_patched, List.map_map]
    refine List.map_congr_left (fun e _ => ?_)
    simp only [Function.comp]
    rw [patchExec_eq]
  · intro e he
    rw [hdag, allExecs_patched, List.mem_map] at he
    obtain ⟨e0, h1, rfl⟩ := he
    have ht : (patchExec e0).tag = e0.tag := by rw [patchExec_eq]
    rw [ht]
    by_cases h2 : e0.tag = some "evaluation" ∨ e0.tag = some "checking"
    · rw [if_pos h2]
      unfold patchExec
      rw [if_pos (by unfold isProcessed; rcases h2 with h2 | h2 <;> simp [h2])]
      rfl
    · rw [if_neg h2]
      unfold patchExec
      rw [if_neg (by
        unfold isProcessed
        simp only [Bool.or_eq_true, decide_eq_true_eq]
        exact h2)]
      exact h1

/-- **C96** ... so the server accepts it. -/
theorem patched_accepted (h : Fits n task [sol]) (hv : ∀ s ∈ validatorSources v, s ∈ sources task [sol])
    (hpl : Places root task sol) (hp : patchTask task v args size index seed = some (task', batch))
    (hr : buildDag fs root task' [sol] (start n cfg) = .ok (io, ev))
    (hd : patchDag name root work size batch ev = some ev') :
    CheckDag.checkDag ev'.dag (callbacks ev') = .ok () := by
  have hfit := batch_fits h hv hp
  have hdone := (buildDag_done hfit hr).1
  obtain ⟨h1, h2, h3⟩ := dag_executable hfit hr
  have hfiles : ∀ f ∈ ev'.writes.keys, f ∈ allFiles ev.dag := by
    intro f hf
    obtain ⟨w, hw⟩ := AMap.mem_keys_iff.1 hf
    have key : ∀ {w}, AMap.get? (ev.writes.map (fun p => (p.1, (patchWrite root work batch p.2).getD p.2))) f = some w →
        f ∈ allFiles ev.dag := by
      intro w hw
      rw [get_map_write (fun w => (patchWrite root work batch w).getD w)] at hw
      obtain ⟨w0, h4, -⟩ := Option.map_eq_some_iff.1 hw
      exact h1.fileCallbacks f (AMap.mem_keys_iff.2 ⟨w0, h4⟩)
    cases hdry : cfg.dryRun with
    | true =>
      rw [patchDag_eq h hv hpl hp hr hd,
        fold_dry _ _ (by show ev.dag.config.dryRun = true; rw [config_same hfit hr]; exact hdry)] at hw
      exact key hw
    | false =>
      rw [patched_state h hv hpl hp hr hdry hd] at hw
      rcases fold_get_mem _ _ _ _ hw with ⟨p, h4, rfl, -⟩ | h4
      · obtain ⟨e, h5, -, h6, -⟩ := mem_new hfit hp hr h4
        rw [mem_allFiles, groupOuts_eq]
        exact .inl (List.mem_flatMap.2 ⟨e, h5, stdout_mem h6⟩)
      · exact key h4
  have hsame : ∀ (l : List (FileUuid × String)) (e0 : Eval), (l.foldl writeAllowFail e0).dag = e0.dag := by
    intro l
    induction l with
    | nil => intro e0; rfl
    | cons p l ih =>
      intro e0
      rw [List.foldl_cons, ih]
      unfold writeAllowFail
      split <;> rfl
  have hdag : ev'.dag = patched ev.dag := by rw [patchDag_eq h hv hpl hp hr hd, hsame]
  have hhan := (patched_dag h hv hpl hp hr hd).2.2.1
  rw [hdag]
  refine (CheckDag.checkDag_ok_iff _ _ (patched_wf hdone.inv.wf)).2 (patched_ok h1 h2 h3 hfiles ?_)
  simp only [callbacks, hhan]

end TM.BadCase
