import Verif.BadCase.PatchLemmas
/-!
# The task and the DAG of a batch (C96)
-/
namespace TM.BadCase
open TM TM.Build TM.DagSpec TM.Build.Spec

variable {task task' : Task} {v : InputValidator} {args : List String} {size index : Nat} {seed : Nat → Nat} {batch : Batch}
  {n : Uuid} {cfg : DagConfig} {fs : FS} {root : String} {sol : Src} {io : GeneratedIo} {ev ev' : Eval}
  {name : Nat → String} {work : String}

/-! ## The task of a batch -/

/-- **C96** A batch is made of `size` new testcases, all in one subtask: their inputs are made by a generator of the task with
the arguments given, where the placeholder is replaced by the seed; these are the arguments and the seed the tool remembers.
The rest of the task is the same. -/
theorem batch_task (h : patchTask task v args size index seed = some (task', batch)) :
    ∃ t src a, t ∈ task.testcases.values ∧ t.input = .custom src a ∧
      (∀ k, k ∈ task'.testcases.keys ↔ index * size ≤ k ∧ k < index * size + size) ∧
      (∀ k tc, task'.testcases.get? k = some tc →
        let given := args.map (fun a => if a = "{}" then toString (seed k) else a)
        tc = ⟨k, .custom src given, t.output⟩ ∧ batch.get? k = some ⟨given, seed k⟩) ∧
      (∃ st, task'.subtasks = [(0, st)] ∧ st.id = 0 ∧ st.validator = v ∧ st.owned = task'.testcases.keys ∧
        st.testcases = task'.testcases.keys) ∧
      task' = { task with
        testcases := task'.testcases
        subtasks := task'.subtasks } := by
  obtain ⟨t, src, a, h1, h2, h3, h4⟩ := patchTask_some h
  refine ⟨t, src, a, h1, h2, fun k => ?_, fun k tc hk => ?_, ⟨_, by rw [h4], rfl, rfl, by rw [h4]; rfl, by rw [h4]; rfl⟩,
    by rw [h4]⟩
  · rw [h4, keys_map_testcase, h3]
    exact mem_batch
  · rw [h4] at hk
    simp only [get_map_testcase, Option.map_eq_some_iff] at hk
    obtain ⟨c, h5, h6⟩ := hk
    have h7 := batch_get (args := args) (size := size) (seed := seed) (k := index) (by rw [h3] at h5; exact h5)
    subst h7
    refine ⟨?_, h5⟩
    rw [← h6]
    simp only [testcaseOf, h2, withArgs, argsFor]

/-- There is no batch only if no testcase of the task has a generator. -/
theorem no_batch : patchTask task v args size index seed = none ↔
    ∀ t ∈ task.testcases.values, ∃ p, t.input = .staticFile p := by
  unfold patchTask
  constructor
  · intro h t ht
    split at h
    · next hn =>
      have := List.find?_eq_none.1 hn t ht
      unfold hasGenerator at this
      split at this
      · exact absurd rfl this
      · next p hp => exact ⟨p, hp⟩
    · cases h
  · intro h
    have : task.testcases.values.find? hasGenerator = none := by
      refine List.find?_eq_none.2 (fun t ht => ?_)
      obtain ⟨p, hp⟩ := h t ht
      unfold hasGenerator
      rw [hp]
      simp
    rw [this]

/-- A batch has no source files of its own. -/
theorem batch_sources (hv : ∀ s ∈ validatorSources v, s ∈ sources task [sol])
    (hp : patchTask task v args size index seed = some (task', batch)) :
    ∀ s ∈ sources task' [sol], s ∈ sources task [sol] := by
  obtain ⟨t, src, a, h1, h2, h3, h4⟩ := patchTask_some hp
  intro s hs
  rw [h4] at hs
  simp only [sources, List.mem_append, List.mem_flatMap] at hs ⊢
  rcases hs with (h | ⟨st, hst, hs⟩) | ⟨tc, htc, hs⟩
  · exact .inl (.inl h)
  · simp only [AMap.values, List.map_cons, List.map_nil, List.mem_singleton] at hst
    subst hst
    have := hv s hs
    simpa only [sources, List.mem_append, List.mem_flatMap] using this
  · simp only [AMap.values, List.map_map, List.mem_map] at htc
    obtain ⟨p, -, rfl⟩ := htc
    refine .inr ⟨t, h1, ?_⟩
    simp only [Function.comp, testcaseOf, h2, withArgs, inputSources] at hs ⊢
    exact hs

/-- The task of a batch is as the loaders make them, so all the properties of `build_dag` hold. -/
theorem batch_fits (h : Fits n task [sol]) (hv : ∀ s ∈ validatorSources v, s ∈ sources task [sol])
    (hp : patchTask task v args size index seed = some (task', batch)) : Fits n task' [sol] := by
  obtain ⟨t, src, a, h1, h2, h3, h4⟩ := patchTask_some hp
  have hsub := batch_sources hv hp
  have hk : task'.testcases.keys.Nodup := by
    rw [h4, keys_map_testcase, h3]
    exact batch_keys_nodup _ _ _ _
  obtain ⟨t', src', a', -, -, -, h5, ⟨st, h6, -, -, h7, -⟩, -⟩ := batch_task hp
  refine ⟨fun s hs t ht => h.instances s (hsub s hs) t (hsub t ht), fun s hs => h.graders s (hsub s hs),
    fun s hs t ht => h.graderPath s (hsub s hs) t (hsub t ht), fun k tc hk => ?_, ?_⟩
  · rw [(h5 k tc hk).1]
  · rw [h6]
    simp only [AMap.values, List.map_cons, List.map_nil, List.flatMap_cons, List.flatMap_nil, List.append_nil]
    rw [h7]
    exact hk

/-- **C96** The input of each testcase of the batch is made by running the generator with the arguments the tool shows; it
is validated, and the solution is evaluated on it as on the testcases of the task. -/
theorem batch_prepared (h : Fits n task [sol]) (hv : ∀ s ∈ validatorSources v, s ∈ sources task [sol])
    (hp : patchTask task v args size index seed = some (task', batch))
    (hr : buildDag fs root task' [sol] (start n cfg) = .ok (io, ev)) {k : Nat} {c : Case} (hc : batch.get? k = some c) :
    ∃ t src a input handle output, t ∈ task.testcases.values ∧ t.input = .custom src a ∧
      io.get? k = some (input, some output) ∧
      Generated fs ev (.custom src c.args) 0 k input ∧
      Validated fs ev v 0 (some ("batch-" ++ toString index)) k input handle ∧
      Solved fs ev task' t.output 0 k input handle output ∧
      Evaluated fs ev task' 0 k 0 sol input handle output := by
  have hfit := batch_fits h hv hp
  obtain ⟨t, src, a, h1, h2, h3, h4⟩ := patchTask_some hp
  have hkey : k ∈ (batchSubtask v index (AMap.keys (batch.map (testcaseOf t)))).owned := by
    show k ∈ AMap.keys (batch.map (testcaseOf t))
    rw [keys_map_testcase]
    exact AMap.mem_keys_iff.2 ⟨c, hc⟩
  obtain ⟨tc, input, handle, output, h5, h6, h7⟩ := testcase_prepared hfit hr
    (st := batchSubtask v index (AMap.keys (batch.map (testcaseOf t)))) (by rw [h4]; simp [AMap.values]) hkey
  have h8 : tc = ⟨k, .custom src c.args, t.output⟩ := by
    rw [h4] at h5
    simp only [get_map_testcase, hc, Option.map_some, Option.some.injEq] at h5
    rw [← h5]
    simp only [testcaseOf, h2, withArgs]
  subst h8
  exact ⟨t, src, a, input, handle, output, h1, h2, h6, h7.generated, h7.validated, h7.solved, h7.evaluated 0 sol rfl⟩

/-! ## What is run -/

theorem prepared_of (hfit : Fits n task' [sol])
    (hp : patchTask task v args size index seed = some (task', batch))
    (hr : buildDag fs root task' [sol] (start n cfg) = .ok (io, ev)) {k : Nat} {c : Case} (hc : batch.get? k = some c) :
    ∃ st tc input handle output, st.id = 0 ∧ st.validator = v ∧ task'.testcases.get? k = some tc ∧ tc.id = k ∧
      Prepared fs ev task' [sol] st tc input handle output := by
  obtain ⟨t, src, a, h1, h2, h3, h4⟩ := patchTask_some hp
  have hkey : k ∈ (batchSubtask v index (AMap.keys (batch.map (testcaseOf t)))).owned := by
    show k ∈ AMap.keys (batch.map (testcaseOf t))
    rw [keys_map_testcase]
    exact AMap.mem_keys_iff.2 ⟨c, hc⟩
  obtain ⟨tc, input, handle, output, h5, h6, h7⟩ := testcase_prepared hfit hr
    (st := batchSubtask v index (AMap.keys (batch.map (testcaseOf t)))) (by rw [h4]; simp [AMap.values]) hkey
  exact ⟨_, tc, input, handle, output, rfl, rfl, h5, hfit.testcaseIds _ _ h5, h7⟩

/-- The topics of the executions the tool looks for. -/
def processedTopics (task' : Task) (keys : List Nat) : List Topic :=
  keys.flatMap (fun k => evaluationMessages task'.type 0 k 0)

theorem patched_messages (hp : patchTask task v args size index seed = some (task', batch)) {t : Topic} :
    t ∈ messages task' 1 ↔ ∃ k c tc, batch.get? k = some c ∧ task'.testcases.get? k = some tc ∧
      ((t = .generation 0 k ∧ inputSources tc.input ≠ []) ∨ (t = .validation 0 k ∧ validatorSources v ≠ []) ∨
       (t = .officialOutput 0 k ∧ outputSources tc.output ≠ []) ∨ t ∈ evaluationMessages task'.type 0 k 0) := by
  obtain ⟨t0, src, a, h1, h2, h3, h4⟩ := patchTask_some hp
  have hst : task'.subtasks = [(0, batchSubtask v index (AMap.keys (batch.map (testcaseOf t0))))] := by rw [h4]
  have hid : ∀ {k tc}, task'.testcases.get? k = some tc → tc.id = k := by
    intro k tc hg
    rw [h4] at hg
    simp only [get_map_testcase, Option.map_eq_some_iff] at hg
    obtain ⟨c, -, hg⟩ := hg
    rw [← hg]; rfl
  unfold messages
  rw [hst]
  simp only [AMap.values, List.map_cons, List.map_nil, List.flatMap_cons, List.flatMap_nil, List.append_nil,
    List.mem_append, List.mem_flatMap, List.mem_filterMap]
  constructor
  · rintro (⟨tc, ⟨k, hk, hg⟩, ht⟩ | ⟨k, hk, ht⟩)
    · have hk' : k ∈ batch.keys := by rw [← keys_map_testcase t0]; exact hk
      obtain ⟨c, hc⟩ := AMap.mem_keys_iff.1 hk'
      refine ⟨k, c, tc, hc, hg, ?_⟩
      simp only [testcaseMessages, List.mem_append, List.mem_map, List.mem_flatMap, List.mem_range, hid hg] at ht
      rcases ht with ((⟨_, hm, ht⟩ | ⟨_, hm, ht⟩) | ⟨_, hm, ht⟩) | ⟨j, hj, ht⟩
      · exact .inl ⟨ht.symm, List.ne_nil_of_mem hm⟩
      · exact .inr (.inl ⟨ht.symm, List.ne_nil_of_mem hm⟩)
      · exact .inr (.inr (.inl ⟨ht.symm, List.ne_nil_of_mem hm⟩))
      · obtain rfl : j = 0 := by omega
        exact .inr (.inr (.inr ht))
    · exfalso
      rw [List.mem_filter] at hk
      simp [batchSubtask] at hk
  · rintro ⟨k, c, tc, hc, hg, ht⟩
    refine .inl ⟨tc, ⟨k, ?_, hg⟩, ?_⟩
    · show k ∈ AMap.keys (batch.map (testcaseOf t0))
      rw [keys_map_testcase]; exact AMap.mem_keys_iff.2 ⟨c, hc⟩
    · simp only [testcaseMessages, List.mem_append, List.mem_map, List.mem_flatMap, List.mem_range, hid hg]
      rcases ht with ⟨rfl, hm⟩ | ⟨rfl, hm⟩ | ⟨rfl, hm⟩ | ht
      · obtain ⟨x, hx⟩ := List.exists_mem_of_ne_nil _ hm
        exact .inl (.inl (.inl ⟨x, hx, rfl⟩))
      · obtain ⟨x, hx⟩ := List.exists_mem_of_ne_nil _ hm
        exact .inl (.inl (.inr ⟨x, hx, rfl⟩))
      · obtain ⟨x, hx⟩ := List.exists_mem_of_ne_nil _ hm
        exact .inl (.inr ⟨x, hx, rfl⟩)
      · exact .inr ⟨0, by omega, ht⟩

/-- The conditions of `one_execution_each`. -/
theorem patched_ids (hp : patchTask task v args size index seed = some (task', batch)) :
    (task'.subtasks.values.map (·.id)).Nodup ∧ ∀ st ∈ task'.subtasks.values, st.testcases.Nodup := by
  obtain ⟨t0, src, a, h1, h2, h3, h4⟩ := patchTask_some hp
  rw [h4]
  refine ⟨by simp [AMap.values], fun st hst => ?_⟩
  simp only [AMap.values, List.map_cons, List.map_nil, List.mem_singleton] at hst
  subst hst
  show (AMap.keys (batch.map (testcaseOf t0))).Nodup
  rw [keys_map_testcase, h3]
  exact batch_keys_nodup _ _ _ _

/-- The executions the tool looks for are those of the solution and of the checkers. -/
theorem processed_iff (hfit : Fits n task' [sol]) (hp : patchTask task v args size index seed = some (task', batch))
    (hr : buildDag fs root task' [sol] (start n cfg) = .ok (io, ev)) {e : Execution} (he : e ∈ allExecs ev.dag) :
    isProcessed e = true ↔ ∃ t ∈ processedTopics task' batch.keys, Reports ev e.uuid t := by
  obtain ⟨hid, htc⟩ := patched_ids hp
  have huniq : ∀ {t : Topic} {e' : Execution}, t ∈ messages task' 1 → e' ∈ allExecs ev.dag → Reports ev e.uuid t →
      Reports ev e'.uuid t → e = e' := by
    intro t e' ht he' h1 h2
    obtain ⟨e0, -, -, h3⟩ := one_execution_each hfit hid htc hr ht
    rw [h3 e he h1, h3 e' he' h2]
  constructor
  · intro hpr
    obtain ⟨t, h1, h2⟩ := reported_once hfit hr he
    have hrep : Reports ev e.uuid t := mem_reportsOn.1 (by rw [h1]; simp)
    split at h2
    · next hc => simp [isProcessed, hc] at hpr
    · obtain ⟨k, c, tc, hc, hg, ht⟩ := (patched_messages hp).1 h2
      obtain ⟨st, tc', input, handle, output, p1, p2, p3, p4, p5⟩ := prepared_of hfit hp hr hc
      obtain rfl : tc' = tc := by rw [hg] at p3; cases p3; rfl
      have hgen := p5.generated
      have hval := p5.validated
      have hsol := p5.solved
      rw [p1, p4] at hgen hval hsol
      rcases ht with ⟨rfl, hne⟩ | ⟨rfl, hne⟩ | ⟨rfl, hne⟩ | ht
      · cases hi : tc'.input with
        | staticFile p => rw [hi] at hne; exact absurd rfl hne
        | custom s a =>
          rw [hi] at hgen
          obtain ⟨e0, q1, -, -, -, -, -, q2, q3, -⟩ := hgen
          have := huniq h2 q1.added hrep q3
          subst this
          simp [isProcessed, q2.1] at hpr
      · rw [p2] at hval
        cases v with
        | assumeValid => exact absurd rfl hne
        | custom s a =>
          obtain ⟨f, e0, -, q1, -, -, -, -, -, -, -, q2, q3, -⟩ := hval
          have := huniq h2 q1.added hrep q3
          subst this
          simp [isProcessed, q2.1] at hpr
      · cases hi : tc'.output with
        | staticFile p => rw [hi] at hne; exact absurd rfl hne
        | notAvailable => rw [hi] at hne; exact absurd rfl hne
        | custom s a =>
          rw [hi] at hsol
          obtain ⟨e0, q1, -, -, -, -, -, q2, q3, -⟩ := hsol
          have := huniq h2 q1.added hrep q3
          subst this
          simp [isProcessed, q2.1] at hpr
      · exact ⟨t, List.mem_flatMap.2 ⟨k, AMap.mem_keys_iff.2 ⟨c, hc⟩, ht⟩, hrep⟩
  · rintro ⟨t, ht, hrep⟩
    obtain ⟨k, hk, ht⟩ := List.mem_flatMap.1 ht
    obtain ⟨c, hc⟩ := AMap.mem_keys_iff.1 hk
    obtain ⟨st, tc, input, handle, output, p1, p2, p3, p4, p5⟩ := prepared_of hfit hp hr hc
    have hm : t ∈ messages task' 1 := (patched_messages hp).2 ⟨k, c, tc, hc, p3, .inr (.inr (.inr ht))⟩
    have hev := p5.evaluated 0 sol rfl
    rw [p1, p4] at hev
    unfold Evaluated at hev
    unfold evaluationMessages at ht
    split at hev
    · next checker htype =>
      rw [htype] at ht
      obtain ⟨e1, k1, out, q1, -, -, -, -, q2, -, q3, -, q4⟩ := hev
      simp only [List.mem_cons, List.not_mem_nil, or_false] at ht
      rcases ht with rfl | rfl
      · have := huniq hm q1.added hrep q3
        subst this
        simp [isProcessed, q2.1]
      · obtain ⟨r1, r2, r3, -⟩ := q4
        have := huniq hm r1 hrep r2
        subst this
        simp [isProcessed, r3.1]
    · next manager np ui htype =>
      rw [htype] at ht
      obtain ⟨sender, -, p, hpm, fifos, procs, man, q1, q2, q3, q4, q5, q6, q7⟩ := hev
      simp only [List.mem_append, List.mem_map, List.mem_range, List.mem_singleton] at ht
      rcases ht with ⟨i, hi, rfl⟩ | rfl
      · have := q6 i fifos[i] procs[i] (by simp [q4, hi]) (by simp [q5, hi])
        have h' := huniq hm this.run.added hrep this.reported
        subst h'
        simp [isProcessed, this.ranked.1]
      · have h' := huniq hm q7.run.added hrep q7.reported
        subst h'
        simp [isProcessed, q7.ranked.1]
    · next htype => rw [htype] at ht; cases ht

end TM.BadCase
