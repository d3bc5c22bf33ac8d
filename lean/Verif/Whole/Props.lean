import Verif.Whole.Lemmas
/-!
# The evaluation of a task, client and server together (C63, C64)

The client builds the DAG of the task, sends it to a server and handles what the server says.  The server
is any reachable state of the scheduler: other clients, workers that come, go and fail, cached results.
-/
namespace TM.Whole
open TM TM.Build TM.Sched TM.DagSpec Build.Spec

variable {n : Uuid} {cfg : DagConfig} {fs : FS} {root : String} {task : Build.Task} {sols : List Src}
  {io : GeneratedIo} {ev : Eval} {st : St} {c : ClientUuid} {look : ExecutionResult → Outcome}

/-- The groups of the DAG of a task have inputs, or one execution: the theorems about the scheduler that
exclude the other groups hold of them. -/
theorem built_runs_once (h : Fits n task sols)
    (hr : buildDag fs root task sols (start n cfg) = .ok (io, ev)) {u : GroupUuid} {g : ExecutionGroup}
    (hg : ev.dag.executionGroups.get? u = some g) : RunsOnce g :=
  (buildDag_done h hr).1.inv.once u g (AMap.mem_of_get? hg)

theorem built_once (h : Fits n task sols)
    (hr : buildDag fs root task sols (start n cfg) = .ok (io, ev)) (hs : Reachable st)
    (ha : Asked st.log c ev.dag (callbacks ev)) {g : ExecutionGroup} (hg : GroupOf st.log c g) :
    RunsOnce g :=
  built_runs_once h hr ((reachable_aux hs).hist.groupOf_dag hg ha)

theorem built_watched (h : Fits n task sols)
    (hr : buildDag fs root task sols (start n cfg) = .ok (io, ev)) {e : Execution}
    (he : e ∈ allExecs ev.dag) : e.uuid ∈ (callbacks ev).executions := by
  obtain ⟨t, ht, -⟩ := reported_once h hr he
  have : Reports ev e.uuid t := mem_reportsOn.1 (by rw [ht]; simp)
  exact List.mem_map.2 ⟨_, this, rfl⟩

/-- The groups of a client that all run once end at most once. -/
theorem groups_end_once_of (hs : Reachable st) (honce : ∀ g, GroupOf st.log c g → RunsOnce g) (u : GroupUuid) :
    termCount st.log c u ≤ 1 := by
  have hh := (reachable_aux hs).hist
  rcases Nat.eq_zero_or_pos (termCount st.log c u) with h0 | h0
  · omega
  · obtain ⟨x, hx, hxt⟩ := List.countP_pos_iff.1 h0
    obtain ⟨g, hg, hu⟩ : ∃ g, GroupOf st.log c g ∧ g.uuid = u := by
      cases x with
      | completed c' g' rs os b =>
        simp [isTerm] at hxt
        obtain ⟨rfl, hu⟩ := hxt
        exact ⟨g', hh.completed_groupOf hx, hu⟩
      | skipped c' g' =>
        simp [isTerm] at hxt
        obtain ⟨rfl, hu⟩ := hxt
        exact ⟨g', hh.skipped_groupOf hx, hu⟩
      | _ => simp [isTerm] at hxt
    subst hu
    exact group_ends_once_partial hs hg (honce g hg)

/-- **C63** A group of the DAG of a task is completed or skipped at most once, whatever happens to the
workers. -/
theorem task_groups_end_once (h : Fits n task sols)
    (hr : buildDag fs root task sols (start n cfg) = .ok (io, ev)) (hs : Reachable st)
    (ha : Asked st.log c ev.dag (callbacks ev)) (u : GroupUuid) : termCount st.log c u ≤ 1 :=
  groups_end_once_of hs (fun _ hg => built_once h hr hs ha hg) u

/-- The executions of a DAG that are all watched, and run once, are notified exactly once. -/
theorem executions_notified_of {dag : DagData} {cb : WatchSet} (hs : Reachable st) (ha : Asked st.log c dag cb)
    (hw : ∀ e ∈ allExecs dag, e.uuid ∈ cb.executions) (honce : ∀ g, GroupOf st.log c g → RunsOnce g)
    (hend : Ended c st.log) {e : Execution} (he : e ∈ allExecs dag) :
    (noticesFor c look st.log).countP (fun x => decide (x.exec = e.uuid ∧ x.kind ≠ .start)) = 1 := by
  have hh := (reachable_aux hs).hist
  have hwf := (hh.asked_ok ha).1
  obtain ⟨u, g, hg, heg⟩ := group_of_exec he hwf
  obtain ⟨hgo, rfl⟩ := groupOf_of_get? ha hwf hg
  have h1 := watched_execution_once hs ha hgo heg (hw e he) (honce g hgo)
  have hsub : ∀ {o : Obs} {post pre : List Obs}, st.log = post ++ o :: pre → ∀ x ∈ pre, x ∈ st.log := by
    intro o post pre hl x hx
    rw [hl]
    exact List.mem_append.2 (.inr (List.mem_cons.2 (.inr hx)))
  have hpos : 0 < termCount st.log c g.uuid := by
    obtain ⟨post, pre, hl, hc⟩ := hend
    rcases (announced_only_when_finished_partial hs hl hc ha hg).1 with ⟨g', rs, os, b, hm, hu⟩ | ⟨g', hm, hu⟩
    · exact List.countP_pos_iff.2 ⟨_, hsub hl _ hm, by simp [isTerm, hu]⟩
    · exact List.countP_pos_iff.2 ⟨_, hsub hl _ hm, by simp [isTerm, hu]⟩
  rw [if_pos hpos] at h1
  rw [← h1]
  unfold noticesFor
  rw [List.countP_filterMap, List.countP_reverse]
  generalize st.log = log
  induction log with
  | nil => rfl
  | cons o log ih =>
    simp only [List.countP_cons, ih]
    have : (if (Option.map (fun x : Notice => decide (x.exec = e.uuid ∧ x.kind ≠ .start))
        (noticeTo c look o)).getD false = true then 1 else 0) =
        (if isDoneMsg c e.uuid o = true then 1 else 0) + (if isSkipMsg c e.uuid o = true then 1 else 0) := by
      cases o with
      | out m =>
        cases m with
        | started c' e' w =>
          by_cases hc : c' = c <;> simp [noticeTo, hc, isDoneMsg, isSkipMsg, Notice.kind]
        | done c' e' r =>
          by_cases hc : c' = c <;> simp [noticeTo, hc, isDoneMsg, isSkipMsg, Notice.kind, Notice.exec]
        | skipped c' e' =>
          by_cases hc : c' = c <;> simp [noticeTo, hc, isDoneMsg, isSkipMsg, Notice.kind, Notice.exec]
        | _ => simp [noticeTo, isDoneMsg, isSkipMsg]
      | _ => simp [noticeTo, isDoneMsg, isSkipMsg]
    omega

/-- **C63** When the end of the evaluation is announced, every execution of the DAG of the task was
notified to the client as done or as skipped, exactly once and not as both. -/
theorem task_executions_notified (h : Fits n task sols)
    (hr : buildDag fs root task sols (start n cfg) = .ok (io, ev)) (hs : Reachable st)
    (ha : Asked st.log c ev.dag (callbacks ev)) (hend : Ended c st.log) {e : Execution}
    (he : e ∈ allExecs ev.dag) :
    (noticesFor c look st.log).countP (fun x => decide (x.exec = e.uuid ∧ x.kind ≠ .start)) = 1 :=
  executions_notified_of hs ha (fun _ he => built_watched h hr he) (fun _ hg => built_once h hr hs ha hg) hend he

/-- **C63** What a server says about the DAG of a task is a history, in the sense of C61 and C62. -/
theorem task_history (h : Fits n task sols)
    (hr : buildDag fs root task sols (start n cfg) = .ok (io, ev)) (hs : Reachable st)
    (ha : Asked st.log c ev.dag (callbacks ev)) (hl : Reading look) :
    History ev.dag (noticesFor c look st.log) :=
  history_of_server hs hl ha (fun _ he => built_watched h hr he) (fun _ hg => built_once h hr hs ha hg)

/-! ## C64 -/

theorem ended_all (hs : Reachable st) {dag : DagData} {cb : WatchSet} (ha : Asked st.log c dag cb)
    (hend : Ended c st.log) {u : GroupUuid} {g : ExecutionGroup}
    (hg : dag.executionGroups.get? u = some g) : Completed st.log c u ∨ WasSkipped st.log c u := by
  obtain ⟨post, pre, hl, hc⟩ := hend
  have hsub : ∀ x ∈ pre, x ∈ st.log := by
    intro x hx
    rw [hl]
    exact List.mem_append.2 (.inr (List.mem_cons.2 (.inr hx)))
  rcases (announced_only_when_finished_partial hs hl hc ha hg).1 with ⟨g', rs, os, b, hm, hu⟩ | ⟨g', hm, hu⟩
  · exact .inl ⟨g', rs, os, b, hsub _ hm, hu⟩
  · exact .inr ⟨g', hsub _ hm, hu⟩

/-- The groups that succeed if the executions end as `ρ` says. -/
def succeeds (dag : DagData) (ρ : ExecutionUuid → Outcome) (u : GroupUuid) : Bool :=
  match dag.executionGroups.get? u with
  | some g => g.executions.all (fun e => (ρ e.uuid).status == .success)
  | none => false

theorem success_is (hs : Reachable st) {dag : DagData} {cb : WatchSet} (ha : Asked st.log c dag cb)
    (hw : ∀ e ∈ allExecs dag, e.uuid ∈ cb.executions) (honce : ∀ g, GroupOf st.log c g → RunsOnce g)
    (hl : Reading look) {ρ : ExecutionUuid → Outcome} (hd : Deterministic c look ρ st.log) :
    SuccessIs st.log c (succeeds dag ρ) := by
  have hh := (reachable_aux hs).hist
  intro g rs os b hm
  have hg := hh.completed_groupOf hm
  have hgd := hh.groupOf_dag hg ha
  have hlen : rs.length = g.executions.length := by
    obtain ⟨post, pre, -, ⟨-, -, hok, -⟩, -⟩ := hh.mem hm
    exact hok.len
  unfold succeeds
  rw [hgd]
  simp only [List.all_eq_true, beq_iff_eq]
  constructor
  · intro hall x hx
    obtain ⟨r, hz, hdone⟩ := done_of_completed hs ha hw honce hm hx
    rw [← hd _ _ hdone, hl r]
    exact hall r (List.of_mem_zip hz).2
  · intro hall r hr
    obtain ⟨i, hi, rfl⟩ := List.getElem_of_mem hr
    have hi' : i < g.executions.length := by omega
    have hz : (g.executions[i], rs[i]) ∈ g.executions.zip rs := by
      have := List.getElem_mem (l := g.executions.zip rs) (n := i) (by rw [List.length_zip]; omega)
      simpa using this
    obtain ⟨r', hz', hdone⟩ := done_of_completed hs ha hw honce hm (List.of_mem_zip hz).1
    have := zip_unique (group_execs_nodup hh hg) hz hz' rfl
    rw [this, ← hl r', hd _ _ hdone]
    exact hall _ (List.of_mem_zip hz).1

/-- How an execution ended, for the client. -/
theorem outcome_completed (hs : Reachable st) {dag : DagData} {cb : WatchSet} (ha : Asked st.log c dag cb)
    (hw : ∀ e ∈ allExecs dag, e.uuid ∈ cb.executions) (honce : ∀ g, GroupOf st.log c g → RunsOnce g)
    {ρ : ExecutionUuid → Outcome} (hd : Deterministic c look ρ st.log) {u : GroupUuid} {g : ExecutionGroup}
    (hg : dag.executionGroups.get? u = some g) {e : Execution} (he : e ∈ g.executions) :
    (Completed st.log c u → outcomeOf (noticesFor c look st.log) e.uuid = some (ρ e.uuid)) ∧
    (¬ Completed st.log c u → outcomeOf (noticesFor c look st.log) e.uuid = none) := by
  have hh := (reachable_aux hs).hist
  have hwf := (hh.asked_ok ha).1
  obtain ⟨hgo, rfl⟩ := groupOf_of_get? ha hwf hg
  constructor
  · rintro ⟨g', rs, os, b, hm, hu⟩
    have := hh.group_unique (hh.completed_groupOf hm) hgo hu
    subst this
    obtain ⟨r, -, hdone⟩ := done_of_completed hs ha hw honce hm he
    rw [outcome_of_done hs honce hdone, hd _ _ hdone]
  · intro hn
    cases hx : outcomeOf (noticesFor c look st.log) e.uuid with
    | none => rfl
    | some o =>
      obtain ⟨r, hr, -⟩ := mem_done.1 (outcome_mem hx)
      obtain ⟨g', rs, os, b, x, h1, h2, h3⟩ := completed_of_done hs hr
      have := same_group hh (hh.completed_groupOf h1) hgo (List.of_mem_zip h2).1 he h3
      subst this
      exact absurd ⟨g', rs, os, b, h1, rfl⟩ hn

/-- Two complete evaluations of a DAG whose executions are all watched and whose groups run once. -/
theorem same_outcomes_of {dag : DagData} {cb : WatchSet} {st st' : St} {c c' : ClientUuid}
    (hs : Reachable st) (hs' : Reachable st') (ha : Asked st.log c dag cb)
    (ha' : Asked st'.log c' dag cb) (hw : ∀ e ∈ allExecs dag, e.uuid ∈ cb.executions)
    (ho : ∀ g, GroupOf st.log c g → RunsOnce g) (ho' : ∀ g, GroupOf st'.log c' g → RunsOnce g)
    (hend : Ended c st.log) (hend' : Ended c' st'.log)
    (hl : Reading look) {ρ : ExecutionUuid → Outcome} (hd : Deterministic c look ρ st.log)
    (hd' : Deterministic c' look ρ st'.log) :
    SameOutcomes (noticesFor c look st.log) (noticesFor c' look st'.log) := by
  have hh := (reachable_aux hs).hist
  have hwf := (hh.asked_ok ha).1
  intro u
  by_cases hu : ∃ e ∈ allExecs dag, e.uuid = u
  · obtain ⟨e, he, rfl⟩ := hu
    obtain ⟨v, g, hg, heg⟩ := group_of_exec he hwf
    have hiff := (outcome_schedule_independent hs hs' ha ha' (success_is hs ha hw ho hl hd)
      (success_is hs' ha' hw ho' hl hd') (fun u g hg => ended_all hs ha hend hg)
      (fun u g hg => ended_all hs' ha' hend' hg) v g hg).1
    obtain ⟨a1, a2⟩ := outcome_completed hs ha hw ho hd hg heg
    obtain ⟨b1, b2⟩ := outcome_completed hs' ha' hw ho' hd' hg heg
    by_cases hc : Completed st.log c v
    · rw [a1 hc, b1 (hiff.1 hc)]
    · rw [a2 hc, b2 (fun h => hc (hiff.2 h))]
  · have key : ∀ {st : St} {c : ClientUuid}, Reachable st → Asked st.log c dag cb →
        outcomeOf (noticesFor c look st.log) u = none := by
      intro st c hs ha
      cases hx : outcomeOf (noticesFor c look st.log) u with
      | none => rfl
      | some o =>
        obtain ⟨r, hr, -⟩ := mem_done.1 (outcome_mem hx)
        obtain ⟨g', rs, os, b, x, h1, h2, h3⟩ := completed_of_done hs hr
        have hh := (reachable_aux hs).hist
        have hgd := hh.groupOf_dag (hh.completed_groupOf h1) ha
        exact absurd ⟨x, List.mem_flatMap.2 ⟨_, AMap.mem_of_get? hgd, (List.of_mem_zip h2).1⟩, h3⟩ hu
    rw [key hs ha, key hs' ha']

/-- **C64** Two complete evaluations of the DAG of a task, on whatever servers: if the executions are
deterministic they end in the same way for both clients. -/
theorem same_outcomes (h : Fits n task sols)
    (hr : buildDag fs root task sols (start n cfg) = .ok (io, ev)) {st st' : St} {c c' : ClientUuid}
    (hs : Reachable st) (hs' : Reachable st') (ha : Asked st.log c ev.dag (callbacks ev))
    (ha' : Asked st'.log c' ev.dag (callbacks ev)) (hend : Ended c st.log) (hend' : Ended c' st'.log)
    (hl : Reading look) {ρ : ExecutionUuid → Outcome} (hd : Deterministic c look ρ st.log)
    (hd' : Deterministic c' look ρ st'.log) :
    SameOutcomes (noticesFor c look st.log) (noticesFor c' look st'.log) :=
  same_outcomes_of hs hs' ha ha' (fun _ he => built_watched h hr he) (fun _ hg => built_once h hr hs ha hg)
    (fun _ hg => built_once h hr hs' ha' hg) hend hend' hl hd hd'

/-- **C64** ... so the scores are the same: they do not depend on the workers, on how many they are, on
which of them fail, on the other clients, nor on the order in which anything happens. -/
theorem same_scores (h : Fits n task sols) (hid : (task.subtasks.values.map (·.id)).Nodup)
    (htc : ∀ s ∈ task.subtasks.values, s.testcases.Nodup)
    (hr : buildDag fs root task sols (start n cfg) = .ok (io, ev)) {st st' : St} {c c' : ClientUuid}
    (hs : Reachable st) (hs' : Reachable st') (ha : Asked st.log c ev.dag (callbacks ev))
    (ha' : Asked st'.log c' ev.dag (callbacks ev)) (hend : Ended c st.log) (hend' : Ended c' st'.log)
    (hl : Reading look) {ρ : ExecutionUuid → Outcome} (hd : Deterministic c look ρ st.log)
    (hd' : Deterministic c' look ρ st'.log) (hnum : ∀ r x, (look r).score = some x → ∃ q, x = .num q)
    {k k' : Build.Client} (hk : ev.follow (noticesFor c look st.log) = .ok k)
    (hk' : ev.follow (noticesFor c' look st'.log) = .ok k') (s tc sol : Nat) :
    (scoresGiven k s tc sol).map (·.1) = (scoresGiven k' s tc sol).map (·.1) := by
  have num : ∀ {st : St} {c : ClientUuid}, Numbers (noticesFor c look st.log) := by
    intro st c u o x ho hx
    obtain ⟨r, -, rfl⟩ := mem_done.1 ho
    exact hnum r x hx
  exact scores_schedule_independent h hid htc hr (task_history h hr hs ha hl)
    (task_history h hr hs' ha' hl) num num
    (same_outcomes h hr hs hs' ha ha' hend hend' hl hd hd') hk hk' s tc sol

/-- **C64** ... and whether an evaluation goes on to its end does not depend on them either. -/
theorem same_completion (h : Fits n task sols) (hid : (task.subtasks.values.map (·.id)).Nodup)
    (htc : ∀ s ∈ task.subtasks.values, s.testcases.Nodup)
    (hr : buildDag fs root task sols (start n cfg) = .ok (io, ev)) {st st' : St} {c c' : ClientUuid}
    (hs : Reachable st) (hs' : Reachable st') (ha : Asked st.log c ev.dag (callbacks ev))
    (ha' : Asked st'.log c' ev.dag (callbacks ev)) (hend : Ended c st.log) (hend' : Ended c' st'.log)
    (hl : Reading look) {ρ : ExecutionUuid → Outcome} (hd : Deterministic c look ρ st.log)
    (hd' : Deterministic c' look ρ st'.log) :
    (∃ k, ev.follow (noticesFor c look st.log) = .ok k) ↔
      (∃ k, ev.follow (noticesFor c' look st'.log) = .ok k) := by
  rw [completes_iff h hid htc hr (task_history h hr hs ha hl),
    completes_iff h hid htc hr (task_history h hr hs' ha' hl)]
  have hsame := same_outcomes h hr hs hs' ha ha' hend hend' hl hd hd'
  unfold SameOutcomes at hsame
  simp only [hsame]

end TM.Whole
