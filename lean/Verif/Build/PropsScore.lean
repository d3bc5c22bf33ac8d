import Verif.Build.ScoreLemmas
/-!
# What decides the scores (C61, C62)
-/
namespace TM.Build
open TM DagSpec Spec

variable {n : Uuid} {cfg : DagConfig} {fs : FS} {root : String} {task : Task} {sols : List Src}
  {io : GeneratedIo} {ev : Eval} {ns : List Notice} {c : Client}

/-- The same, if no notice is repeated. -/
theorem batch_scores_once (h : Fits n task sols) (hid : (task.subtasks.values.map (·.id)).Nodup)
    (htc : ∀ st ∈ task.subtasks.values, st.testcases.Nodup)
    (hr : buildDag fs root task sols (start n cfg) = .ok (io, ev)) {checker : Checker}
    (ht : task.type = .batch checker) (once : Once ns) (hist : History ev.dag ns) (hc : ev.follow ns = .ok c)
    {st : Subtask} (hst : st ∈ task.subtasks.values) {k : Nat} (hk : k ∈ st.owned)
    {j : Nat} (hj : j < sols.length) {e q : Execution} (he : e ∈ allExecs ev.dag)
    (hq : q ∈ allExecs ev.dag) (hre : Reports ev e.uuid (.evaluation st.id k j 0 1))
    (hrq : Reports ev q.uuid (.checker st.id k j)) :
    scoresGiven c st.id k j = batchScores checker (outcomeOf ns e.uuid) (outcomeOf ns q.uuid) := by
  obtain ⟨e', q', f, h1, h2, h3, h4, h5, h6, h7, h8, h9, h10⟩ := batch_executions h hr ht hst hk hj
  have ee := reported_unique h hid htc hr h9 h1 he h5 hre
  have eq := reported_unique h hid htc hr h10 h2 hq h6 hrq
  subst ee eq
  have hsc := (handlers_scoring h hr).1
  rw [ht, batch_scoring] at hsc
  refine batch_key_scores once (evaluations_nodup h) hsc hc
    (mem_evaluations.2 ⟨hj, st, hst, rfl, hk⟩) h7 h8 ?_ ?_
  · intro o ho hs
    cases hx : outcomeOf ns q'.uuid with
    | none => rfl
    | some o' =>
      obtain ⟨o'', h11, h12⟩ := check_after_run hist h1 h2 h3 h4 hx
      rw [ho] at h11
      cases h11
      simp [Outcome.success, h12] at hs
  · intro ho
    cases hx : outcomeOf ns q'.uuid with
    | none => rfl
    | some o' =>
      obtain ⟨o'', h11, -⟩ := check_after_run hist h1 h2 h3 h4 hx
      rw [ho] at h11
      cases h11

/-- **C61** In a batch task the score given for solution `j` on testcase `k` is decided by two
executions: that of the solution, `e`, and that of the checker, `q` (the ones the UI is told about as
such).  If the solution fails the score is 0; if it succeeds it is what the checker says; before that
there is none. -/
theorem batch_scores (h : Fits n task sols) (hid : (task.subtasks.values.map (·.id)).Nodup)
    (htc : ∀ st ∈ task.subtasks.values, st.testcases.Nodup)
    (hr : buildDag fs root task sols (start n cfg) = .ok (io, ev)) {checker : Checker}
    (ht : task.type = .batch checker) (hist : History ev.dag ns) (hc : ev.follow ns = .ok c)
    {st : Subtask} (hst : st ∈ task.subtasks.values) {k : Nat} (hk : k ∈ st.owned)
    {j : Nat} (hj : j < sols.length) {e q : Execution} (he : e ∈ allExecs ev.dag)
    (hq : q ∈ allExecs ev.dag) (hre : Reports ev e.uuid (.evaluation st.id k j 0 1))
    (hrq : Reports ev q.uuid (.checker st.id k j)) :
    scoresGiven c st.id k j = batchScores checker (outcomeOf ns e.uuid) (outcomeOf ns q.uuid) := by
  rw [← outcomeOf_firsts ns e.uuid, ← outcomeOf_firsts ns q.uuid]
  exact batch_scores_once h hid htc hr ht (firsts_once ns) (history_firsts hist)
    (by rw [follow_firsts]; exact hc) hst hk hj he hq hre hrq

/-- The same, if no notice is repeated. -/
theorem communication_scores_once (h : Fits n task sols) (hid : (task.subtasks.values.map (·.id)).Nodup)
    (htc : ∀ st ∈ task.subtasks.values, st.testcases.Nodup)
    (hr : buildDag fs root task sols (start n cfg) = .ok (io, ev)) {manager : Src} {m : Nat} {uio : UserIo}
    (ht : task.type = .communication manager m uio) (once : Once ns) (hnum : Numbers ns)
    (hc : ev.follow ns = .ok c) {st : Subtask} (hst : st ∈ task.subtasks.values) {k : Nat}
    (hk : k ∈ st.owned) {j : Nat} (hj : j < sols.length) {procs : List Execution} {man : Execution}
    (hlen : procs.length = m)
    (hp : ∀ i e, procs[i]? = some e → e ∈ allExecs ev.dag ∧ Reports ev e.uuid (.evaluation st.id k j i m))
    (hm : man ∈ allExecs ev.dag) (hrm : Reports ev man.uuid (.checker st.id k j)) :
    ((∃ e ∈ procs ++ [man], outcomeOf ns e.uuid = none) → scoresGiven c st.id k j = []) ∧
    (∀ (os : List Outcome) (om : Outcome), procs.map (fun e => outcomeOf ns e.uuid) = os.map some → outcomeOf ns man.uuid = some om →
      Least (os.flatMap processScores ++ managerScores om) (scoresGiven c st.id k j)) := by
  obtain ⟨s, procs', man', h1, h2, h3, h4, h5, h6, h7, h8⟩ := comm_executions h hr ht hst hk hj
  have em := reported_unique h hid htc hr h8 h4 hm h5 hrm
  subst em
  have ep : procs' = procs := by
    apply List.ext_getElem?
    intro i
    rcases Nat.lt_or_ge i m with hi | hi
    · obtain ⟨a1, a2, -⟩ := h3 i procs'[i] (by simp [h2, hi])
      obtain ⟨b1, b2⟩ := hp i procs[i] (by simp [hlen, hi])
      have := reported_unique h hid htc hr (h7 i hi) a1 b1 a2 b2
      rw [List.getElem?_eq_getElem (by omega), List.getElem?_eq_getElem (by omega), this]
    · rw [List.getElem?_eq_none (by omega), List.getElem?_eq_none (by omega)]
  subst ep
  have hsc := (handlers_scoring h hr).1
  have hse := (handlers_scoring h hr).2
  rw [ht] at hsc hse
  obtain ⟨g1, g2⟩ := comm_key_scores (procs := procs'.map (·.uuid)) (man := man'.uuid) once
    (evaluations_nodup h) hsc hse hc h1 (by simp [h2]) (procs_nodup h hr hp) (by
      intro u hu
      obtain ⟨e, he, rfl⟩ := List.mem_map.1 hu
      obtain ⟨i, hi⟩ := List.mem_iff_getElem?.1 he
      exact (h3 i e hi).2.2) h6 (fun o x ho hx => hnum _ o x (outcome_mem ho) hx)
  constructor
  · rintro ⟨e, he, hn⟩
    refine g1 ⟨e.uuid, ?_, hn⟩
    rcases List.mem_append.1 he with he | he
    · exact List.mem_append.2 (.inl (List.mem_map.2 ⟨e, he, rfl⟩))
    · rw [List.mem_singleton] at he
      subst he
      exact List.mem_append.2 (.inr (by simp))
  · intro os om hos hom
    exact g2 os om (by rw [List.map_map]; exact hos) hom

/-- **C61** In a communication task the score given for solution `j` on testcase `k` is decided by the
executions of its processes and by that of the manager.  There is no score before the last of them
ends; then the score is the least of those they answer: 0 for each process that fails, what the manager
prints, or 0 if it fails. -/
theorem communication_scores (h : Fits n task sols) (hid : (task.subtasks.values.map (·.id)).Nodup)
    (htc : ∀ st ∈ task.subtasks.values, st.testcases.Nodup)
    (hr : buildDag fs root task sols (start n cfg) = .ok (io, ev)) {manager : Src} {m : Nat} {uio : UserIo}
    (ht : task.type = .communication manager m uio) (hnum : Numbers ns)
    (hc : ev.follow ns = .ok c) {st : Subtask} (hst : st ∈ task.subtasks.values) {k : Nat}
    (hk : k ∈ st.owned) {j : Nat} (hj : j < sols.length) {procs : List Execution} {man : Execution}
    (hlen : procs.length = m)
    (hp : ∀ i e, procs[i]? = some e → e ∈ allExecs ev.dag ∧ Reports ev e.uuid (.evaluation st.id k j i m))
    (hm : man ∈ allExecs ev.dag) (hrm : Reports ev man.uuid (.checker st.id k j)) :
    ((∃ e ∈ procs ++ [man], outcomeOf ns e.uuid = none) → scoresGiven c st.id k j = []) ∧
    (∀ (os : List Outcome) (om : Outcome), procs.map (fun e => outcomeOf ns e.uuid) = os.map some → outcomeOf ns man.uuid = some om →
      Least (os.flatMap processScores ++ managerScores om) (scoresGiven c st.id k j)) := by
  have := communication_scores_once h hid htc hr ht (firsts_once ns)
    (numbers_firsts hnum) (by rw [follow_firsts]; exact hc) hst hk hj hlen hp hm hrm
  simpa only [outcomeOf_firsts] using this

/-- **C61** A process that fails makes the score 0, unless the manager answers a negative one. -/
theorem failing_process (h : Fits n task sols) (hid : (task.subtasks.values.map (·.id)).Nodup)
    (htc : ∀ st ∈ task.subtasks.values, st.testcases.Nodup)
    (hr : buildDag fs root task sols (start n cfg) = .ok (io, ev)) {manager : Src} {m : Nat} {uio : UserIo}
    (ht : task.type = .communication manager m uio) (hnum : Numbers ns)
    (hc : ev.follow ns = .ok c) {st : Subtask} (hst : st ∈ task.subtasks.values) {k : Nat}
    (hk : k ∈ st.owned) {j : Nat} (hj : j < sols.length) {procs : List Execution} {man : Execution}
    (hlen : procs.length = m)
    (hp : ∀ i e, procs[i]? = some e → e ∈ allExecs ev.dag ∧ Reports ev e.uuid (.evaluation st.id k j i m))
    (hm : man ∈ allExecs ev.dag) (hrm : Reports ev man.uuid (.checker st.id k j))
    {os : List Outcome} {om : Outcome}
    (hos : procs.map (fun e => outcomeOf ns e.uuid) = os.map some) (hom : outcomeOf ns man.uuid = some om)
    {o : Outcome} (ho : o ∈ os) (hf : o.status ≠ .success)
    (hpos : ∀ q, om.score = some (.num q) → 0 ≤ q) :
    ∃ msg, scoresGiven c st.id k j = [(.num 0, msg)] := by
  obtain ⟨q, msg, h1, h2, h3⟩ := (communication_scores h hid htc hr ht hnum hc hst hk hj hlen hp hm
    hrm).2 os om hos hom
  have h4 : (.num 0, o.shown) ∈ os.flatMap processScores ++ managerScores om :=
    List.mem_append.2 (.inl (List.mem_flatMap.2 ⟨o, ho, by simp [processScores, hf]⟩))
  obtain ⟨q', e1, h5⟩ := h3 _ h4
  cases e1
  have h6 : 0 ≤ q := by
    rcases List.mem_append.1 h2 with h2 | h2
    · obtain ⟨o', -, h2⟩ := List.mem_flatMap.1 h2
      unfold processScores at h2
      split at h2
      · cases h2
      · simp at h2; rw [h2.1]; decide
    · unfold managerScores at h2
      split at h2
      · obtain ⟨x, hx, he⟩ := List.mem_map.1 h2
        cases he
        exact hpos q (Option.mem_toList.1 hx)
      · simp at h2; rw [h2.1]; decide
  have : q = 0 := by grind
  subst this
  exact ⟨msg, h1⟩

/-- **C61** If no process fails the score is what the manager says. -/
theorem manager_decides (h : Fits n task sols) (hid : (task.subtasks.values.map (·.id)).Nodup)
    (htc : ∀ st ∈ task.subtasks.values, st.testcases.Nodup)
    (hr : buildDag fs root task sols (start n cfg) = .ok (io, ev)) {manager : Src} {m : Nat} {uio : UserIo}
    (ht : task.type = .communication manager m uio) (hnum : Numbers ns)
    (hc : ev.follow ns = .ok c) {st : Subtask} (hst : st ∈ task.subtasks.values) {k : Nat}
    (hk : k ∈ st.owned) {j : Nat} (hj : j < sols.length) {procs : List Execution} {man : Execution}
    (hlen : procs.length = m)
    (hp : ∀ i e, procs[i]? = some e → e ∈ allExecs ev.dag ∧ Reports ev e.uuid (.evaluation st.id k j i m))
    (hm : man ∈ allExecs ev.dag) (hrm : Reports ev man.uuid (.checker st.id k j))
    {os : List Outcome} {om : Outcome}
    (hos : procs.map (fun e => outcomeOf ns e.uuid) = os.map some) (hom : outcomeOf ns man.uuid = some om)
    (hall : ∀ o ∈ os, o.status = .success) :
    scoresGiven c st.id k j = managerScores om := by
  obtain ⟨q, msg, h1, h2, h3⟩ := (communication_scores h hid htc hr ht hnum hc hst hk hj hlen hp hm
    hrm).2 os om hos hom
  have h4 : os.flatMap processScores = [] := by
    rw [List.flatMap_eq_nil_iff]
    intro o ho
    simp [processScores, hall o ho]
  rw [h4, List.nil_append] at h2
  rw [h1]
  unfold managerScores at h2 ⊢
  split at h2
  · next hs =>
    cases hx : om.score with
    | none => rw [hx] at h2; cases h2
    | some x =>
      rw [hx] at h2
      simp only [Option.toList, List.map_cons, List.map_nil, List.mem_singleton] at h2
      rw [if_pos hs, h2]
      rfl
  · next hs =>
    rw [List.mem_singleton] at h2
    rw [if_neg hs, h2]

theorem none_absurd (h : Fits n task sols)
    (hr : buildDag fs root task sols (start n cfg) = .ok (io, ev)) (ht : task.type = .none)
    {p : ExecutionUuid × Handler} (hp : p ∈ ev.handlers) {hd : Handler} (hs : scoringOf p = some hd) :
    False := by
  have hsc := (handlers_scoring h hr).1
  rw [ht] at hsc
  have h0 : ∀ (l : List (Nat × Nat × Nat)) k, TaskType.none.scoringFrom k l = [] := by
    intro l
    induction l with
    | nil => intro k; rfl
    | cons e l ih => intro k; simp only [TaskType.scoringFrom, TaskType.scoring, ih]; rfl
  rw [h0] at hsc
  have : hd ∈ ev.handlers.filterMap scoringOf := List.mem_filterMap.2 ⟨p, hp, hs⟩
  rw [hsc] at this
  cases this

/-- Nothing scores in the other tasks. -/
theorem none_given (h : Fits n task sols)
    (hr : buildDag fs root task sols (start n cfg) = .ok (io, ev)) (ht : task.type = .none)
    (hc : ev.follow ns = .ok c) : c.given = [] := by
  rw [← follow_firsts] at hc
  have ho := firsts_once ns
  generalize firsts ns = ns at hc ho
  have hsc := (handlers_scoring h hr).1
  rw [ht] at hsc
  have h0 : ∀ (l : List (Nat × Nat × Nat)) k, TaskType.none.scoringFrom k l = [] := by
    intro l
    induction l with
    | nil => intro k; rfl
    | cons e l ih => intro k; simp only [TaskType.scoringFrom, TaskType.scoring, ih]; rfl
  rw [h0] at hsc
  have hno : ∀ x ∈ invocations ev.handlers ns, handlerKey x.2 = none ∧ handlerSender x.2 = none := by
    intro x hx
    have hm := (mem_invocations hx).2
    have : scoringOf (x.1.exec, x.2) = none := by
      cases hs : scoringOf (x.1.exec, x.2) with
      | none => rfl
      | some y =>
        have : y ∈ ev.handlers.filterMap scoringOf := List.mem_filterMap.2 ⟨_, hm, hs⟩
        rw [hsc] at this
        cases this
    obtain ⟨a, b⟩ := x
    cases b <;> simp [scoringOf, handlerKey, handlerSender] at this ⊢
  rw [follow_invoke ho] at hc
  have := invoke_given (l := invocations ev.handlers ns) (by
    intro x hx
    cases ha : answerBy x with
    | none => rfl
    | some p =>
      obtain ⟨k, a⟩ := p
      have := (answerBy_sender ha).1
      rw [(hno x hx).2] at this
      cases this) hc
  have hz : (invocations ev.handlers ns).flatMap givenBy = [] := by
    rw [List.flatMap_eq_nil_iff]
    intro x hx
    cases hg : givenBy x with
    | nil => rfl
    | cons g gs =>
      have := givenBy_key (x := x) (g := g) (by rw [hg]; simp)
      rw [(hno x hx).1] at this
      cases this
  rw [hz] at this
  simpa [Eval.client] using this

/-- **C61** Scores are given only for the evaluations of the task: a solution, a subtask, a testcase it
owns. -/
theorem only_evaluations_scored (h : Fits n task sols)
    (hr : buildDag fs root task sols (start n cfg) = .ok (io, ev))
    (hc : ev.follow ns = .ok c) {g : Given} (hg : g ∈ c.given) :
    g.solution < sols.length ∧ ∃ st ∈ task.subtasks.values, st.id = g.subtask ∧ g.testcase ∈ st.owned := by
  rw [← follow_firsts] at hc
  have ho := firsts_once ns
  generalize firsts ns = ns at hc ho
  have hsc := (handlers_scoring h hr).1
  have hse := (handlers_scoring h hr).2
  have hm : (g.subtask, g.testcase, g.solution) ∈ task.evaluations sols.length := by
    cases ht : task.type with
    | batch checker =>
      rw [ht, batch_scoring] at hsc
      exact batch_given_known ho hsc hc hg
    | communication manager m uio =>
      rw [ht] at hsc hse
      exact comm_given_known ho (evaluations_nodup h) hsc hse hc hg
    | none =>
      rw [none_given h hr ht hc] at hg
      cases hg
  exact mem_evaluations.1 hm

theorem verdict_short (checker : Checker) (o : Outcome) : (verdict checker o).length ≤ 1 := by
  cases checker with
  | whiteDiff => simp only [verdict]; split <;> simp
  | custom s =>
    simp only [verdict]
    split
    · cases o.score <;> simp
    · simp

theorem batchScores_short (checker : Checker) (a b : Option Outcome) :
    (batchScores checker a b).length ≤ 1 := by
  unfold batchScores
  split
  · simp
  · split
    · split
      · exact verdict_short _ _
      · simp
    · simp

/-- **C61** A solution gets at most one score for a testcase, whatever happens. -/
theorem scored_at_most_once (h : Fits n task sols) (hid : (task.subtasks.values.map (·.id)).Nodup)
    (htc : ∀ st ∈ task.subtasks.values, st.testcases.Nodup)
    (hr : buildDag fs root task sols (start n cfg) = .ok (io, ev)) (hist : History ev.dag ns)
    (hnum : Numbers ns) (hc : ev.follow ns = .ok c) (st tc sol : Nat) :
    (scoresGiven c st tc sol).length ≤ 1 := by
  by_cases hg : ∃ g ∈ c.given, (g.subtask, g.testcase, g.solution) = (st, tc, sol)
  · obtain ⟨g, hg, hkey⟩ := hg
    simp only [Prod.mk.injEq] at hkey
    obtain ⟨rfl, rfl, rfl⟩ := hkey
    obtain ⟨hj, s, hst, hs, hk⟩ := only_evaluations_scored h hr hc hg
    rw [← hs]
    cases ht : task.type with
    | batch checker =>
      obtain ⟨e, q, f, h1, h2, -, -, h5, h6, -⟩ := batch_executions h hr ht hst hk hj
      rw [batch_scores h hid htc hr ht hist hc hst hk hj h1 h2 h5 h6]
      exact batchScores_short _ _ _
    | communication manager m uio =>
      obtain ⟨i, procs, man, -, h2, h3, h4, h5, -⟩ := comm_executions h hr ht hst hk hj
      obtain ⟨g1, g2⟩ := communication_scores h hid htc hr ht hnum hc hst hk hj h2
        (fun i e he => ⟨(h3 i e he).1, (h3 i e he).2.1⟩) h4 h5
      by_cases hn : ∃ e ∈ procs ++ [man], outcomeOf ns e.uuid = none
      · rw [g1 hn]; simp
      · have hall : ∀ e ∈ procs ++ [man], ∃ o, outcomeOf ns e.uuid = some o := by
          intro e he
          cases hx : outcomeOf ns e.uuid with
          | none => exact absurd ⟨e, he, hx⟩ hn
          | some o => exact ⟨o, rfl⟩
        obtain ⟨om, hom⟩ := hall man (by simp)
        have : ∃ os : List Outcome, procs.map (fun e => outcomeOf ns e.uuid) = os.map some := by
          have hall : ∀ e ∈ procs, ∃ o, outcomeOf ns e.uuid = some o := fun e he => hall e (by simp [he])
          clear h2 h3 g1 g2 hn
          induction procs with
          | nil => exact ⟨[], rfl⟩
          | cons e procs ih =>
            obtain ⟨o, ho⟩ := hall e (by simp)
            obtain ⟨os, hos⟩ := ih (by
              intro e he
              rename_i hall0 _
              rcases List.mem_append.1 he with he | he
              · exact hall e (by simp [he])
              · rw [List.mem_singleton] at he; subst he; exact ⟨om, hom⟩) (fun e he => hall e (by simp [he]))
            exact ⟨o :: os, by simp [ho, hos]⟩
        obtain ⟨os, hos⟩ := this
        obtain ⟨q, msg, h6, -⟩ := g2 os om hos hom
        rw [h6]; simp
    | none =>
      rw [none_given h hr ht hc] at hg
      cases hg
  · have : c.given.filter (fun g => decide ((g.subtask, g.testcase, g.solution) = (st, tc, sol))) = [] := by
      rw [List.filter_eq_nil_iff]
      intro g hgm
      simp only [decide_eq_true_eq]
      exact fun he => hg ⟨g, hgm, he⟩
    unfold scoresGiven
    rw [this]
    simp

/-- **C61** The UI is told everything, once and in order: for each notice, the first time, the progress of
the execution under the topics it is reported as (exactly one for the executions of the DAG, C58). -/
theorem told_exactly (hc : ev.follow ns = .ok c) :
    c.told = (firsts ns).flatMap (fun x => (reportsOn ev x.exec).map (fun t => (t, progressOf x))) := by
  rw [← follow_firsts] at hc
  have ho := firsts_once ns
  generalize firsts ns = ns at hc ho
  rw [follow_invoke ho] at hc
  have h1 := (invoke_told hc).1
  rw [h1]
  show [] ++ _ = _
  rw [List.nil_append]
  unfold invocations reportsOn
  rw [List.flatMap_assoc]
  congr 1
  funext x
  generalize ev.handlers = hs
  induction hs with
  | nil => rfl
  | cons p hs ih =>
    obtain ⟨u, hd⟩ := p
    rw [List.filter_cons, List.filterMap_cons]
    by_cases hu : u = x.exec
    · simp only [hu, decide_true, if_true, List.map_cons, List.flatMap_cons, ih]
      cases hd <;> cases x <;> simp [toldBy, topicOn, progressOf]
    · simp only [hu, decide_false, Bool.false_eq_true, if_false, ih]
      cases hd <;> simp [topicOn, hu]

/-- **C61** An error is shown exactly for the executions that fail, among those whose failure is to be
shown, and for the custom checkers that fail or print no score. -/
theorem errors_shown (hc : ev.follow ns = .ok c) (t : Topic) :
    t ∈ c.errors ↔ ∃ u o, outcomeOf ns u = some o ∧
      ((ErrorShown ev u t ∧ o.status ≠ .success) ∨
       (∃ st tc sol, t = .checker st tc sol ∧ (u, .customChecker st tc sol) ∈ ev.handlers ∧
          ¬ (o.status = .success ∧ o.score.isSome))) := by
  rw [← follow_firsts] at hc
  have ho := firsts_once ns
  have ho' : ∀ u, outcomeOf ns u = outcomeOf (firsts ns) u := fun u => (outcomeOf_firsts ns u).symm
  simp only [ho']
  clear ho'
  generalize firsts ns = ns at hc ho
  rw [follow_invoke ho] at hc
  have h1 := (invoke_told hc).2
  rw [h1]
  show t ∈ [] ++ _ ↔ _
  rw [List.nil_append, List.mem_flatMap]
  constructor
  · rintro ⟨⟨x, hd⟩, hx, ht⟩
    obtain ⟨h2, h3⟩ := mem_invocations hx
    cases x with
    | started _ => cases hd <;> cases ht
    | skipped _ => cases hd <;> cases ht
    | done u o =>
      refine ⟨u, o, outcome_of_mem ho h2, ?_⟩
      cases hd with
      | failureDiagnostic t' =>
        left
        simp only [errorBy] at ht
        split at ht
        · cases ht
        · next hs =>
          rw [List.mem_singleton] at ht
          subst ht
          exact ⟨h3, by simpa [Outcome.success] using hs⟩
      | customChecker st tc sol =>
        right
        simp only [errorBy] at ht
        split at ht
        · cases ht
        · next hs =>
          rw [List.mem_singleton] at ht
          exact ⟨st, tc, sol, ht, h3, by simpa [Outcome.success] using hs⟩
      | _ => cases ht
  · rintro ⟨u, o, h2, h3⟩
    replace h2 := outcome_mem h2
    have hin : ∀ hd, (u, hd) ∈ ev.handlers → (Notice.done u o, hd) ∈ invocations ev.handlers ns := by
      intro hd h
      exact List.mem_flatMap.2 ⟨_, h2, List.mem_map.2 ⟨_, List.mem_filter.2 ⟨h, by simp [Notice.exec]⟩, rfl⟩⟩
    rcases h3 with ⟨h3, h4⟩ | ⟨st, tc, sol, rfl, h3, h4⟩
    · exact ⟨_, hin _ h3, by simp [errorBy, Outcome.success, h4]⟩
    · refine ⟨_, hin _ h3, ?_⟩
      have : ¬ (o.success = true ∧ o.score.isSome = true) := by simpa [Outcome.success] using h4
      simp only [errorBy, if_neg this, List.mem_singleton]

/-- **C61** The evaluation is aborted only by a checker that does not behave as expected: a `diff` that
neither succeeds nor exits with 1, a custom checker that could not be run, or a manager that succeeds and
prints no score. -/
theorem completes_iff (h : Fits n task sols) (hid : (task.subtasks.values.map (·.id)).Nodup)
    (htc : ∀ st ∈ task.subtasks.values, st.testcases.Nodup)
    (hr : buildDag fs root task sols (start n cfg) = .ok (io, ev)) (hist : History ev.dag ns) :
    (∃ c, ev.follow ns = .ok c) ↔
      ∀ st ∈ task.subtasks.values, ∀ k ∈ st.owned, ∀ j, j < sols.length → ∀ q ∈ allExecs ev.dag,
        Reports ev q.uuid (.checker st.id k j) → ∀ o, outcomeOf ns q.uuid = some o → Expected task.type o := by
  rw [← follow_firsts]
  have once := firsts_once ns
  have hist := history_firsts hist
  have ho' : ∀ u, outcomeOf ns u = outcomeOf (firsts ns) u := fun u => (outcomeOf_firsts ns u).symm
  simp only [ho']
  clear ho'
  generalize firsts ns = ns at hist once ⊢
  have hin : ∀ {u : ExecutionUuid} {hd : Handler} {o : Outcome}, (u, hd) ∈ ev.handlers → .done u o ∈ ns →
      (Notice.done u o, hd) ∈ invocations ev.handlers ns := by
    intro u hd o h1 h2
    exact List.mem_flatMap.2 ⟨_, h2, List.mem_map.2 ⟨_, List.mem_filter.2 ⟨h1, by simp [Notice.exec]⟩, rfl⟩⟩
  constructor
  · rintro ⟨c, hc⟩ st hst k hk j hj q hq hrq o ho
    replace ho := outcome_mem ho
    rw [follow_invoke once] at hc
    have hab := invoke_aborts hc
    cases ht : task.type with
    | batch checker =>
      obtain ⟨e, q', f, -, h2, -, -, -, h6, -, h8, -, h10⟩ := batch_executions h hr ht hst hk hj
      have := reported_unique h hid htc hr h10 h2 hq h6 hrq
      subst this
      have := hab _ (hin h8 ho)
      cases checker with
      | whiteDiff =>
        simp only [Expected]
        simp only [Checker.handler, aborts, bne, Bool.and_eq_false_iff, Bool.not_eq_false',
          beq_iff_eq] at this
        exact this
      | custom src =>
        simpa [Checker.handler, aborts, Expected] using this
    | communication manager m uio =>
      obtain ⟨s, procs, man, -, -, -, h4, h5, h6, -, h8⟩ := comm_executions h hr ht hst hk hj
      have := reported_unique h hid htc hr h8 h4 hq h5 hrq
      subst this
      have := hab _ (hin h6 ho)
      intro hs
      simp only [aborts, Outcome.success, hs, beq_self_eq_true, Bool.true_and, Bool.or_eq_false_iff,
        Bool.not_eq_false'] at this
      refine ⟨this.1, ?_⟩
      cases hx : o.score with
      | none => rw [hx] at this; cases this.2
      | some x => rfl
    | none => trivial
  · intro hexp
    have hab : ∀ x ∈ invocations ev.handlers ns, aborts x = false := by
      intro x hx
      cases ha : aborts x with
      | false => rfl
      | true =>
        exfalso
        obtain ⟨h1, h2⟩ := mem_invocations hx
        obtain ⟨nt, hd⟩ := x
        cases nt with
        | started _ => cases hd <;> cases ha
        | skipped _ => cases hd <;> cases ha
        | done u o =>
          simp only [Notice.exec] at h1 h2
          cases hd with
          | whiteDiff a b d =>
            cases ht : task.type with
            | batch checker =>
              obtain ⟨st, hst, g1, g2, g3, g4, q, g5, g6, g7⟩ := checker_handler_exec h hr ht h2
                (a := a) (b := b) (d := d) rfl (by simp)
              simp only at g7 g4
              subst g7 g1
              have := hexp st hst b g2 d g3 q g5 g6 o (outcome_of_mem once h1)
              cases checker with
              | whiteDiff =>
                rw [ht] at this
                simp only [Expected] at this
                simp only [aborts, bne, Bool.and_eq_true, Bool.not_eq_true', beq_eq_false_iff_ne] at ha
                rcases this with e | e
                · exact ha.1 e
                · exact ha.2 e
              | custom src => cases g4
            | communication manager m uio =>
              have hsc := (handlers_scoring h hr).1
              rw [ht] at hsc
              have h3 : Handler.whiteDiff a b d ∈ ev.handlers.filterMap scoringOf :=
                List.mem_filterMap.2 ⟨_, h2, rfl⟩
              rw [hsc] at h3
              have := (comm_no_key 0 _ h3).1
              cases this
            | none => exact none_absurd h hr ht h2 rfl
          | customChecker a b d =>
            cases ht : task.type with
            | batch checker =>
              obtain ⟨st, hst, g1, g2, g3, g4, q, g5, g6, g7⟩ := checker_handler_exec h hr ht h2
                (a := a) (b := b) (d := d) rfl (by simp)
              simp only at g7 g4
              subst g7 g1
              have := hexp st hst b g2 d g3 q g5 g6 o (outcome_of_mem once h1)
              cases checker with
              | whiteDiff => cases g4
              | custom src =>
                rw [ht] at this
                simp only [Expected] at this
                simp [aborts, this] at ha
            | communication manager m uio =>
              have hsc := (handlers_scoring h hr).1
              rw [ht] at hsc
              have h3 : Handler.customChecker a b d ∈ ev.handlers.filterMap scoringOf :=
                List.mem_filterMap.2 ⟨_, h2, rfl⟩
              rw [hsc] at h3
              have := (comm_no_key 0 _ h3).1
              cases this
            | none => exact none_absurd h hr ht h2 rfl
          | managerOutcome s =>
            cases ht : task.type with
            | batch checker =>
              have hsc := (handlers_scoring h hr).1
              rw [ht, batch_scoring] at hsc
              have h3 : Handler.managerOutcome s ∈ ev.handlers.filterMap scoringOf :=
                List.mem_filterMap.2 ⟨_, h2, rfl⟩
              rw [hsc] at h3
              obtain ⟨e, -, h4⟩ := List.mem_flatMap.1 h3
              simp only [List.mem_cons, List.not_mem_nil, or_false, reduceCtorEq, false_or] at h4
              cases checker <;> cases h4
            | communication manager m uio =>
              obtain ⟨st, hst, k, hk, j, hj, q, g5, g6, g7⟩ := manager_handler_exec h hr ht h2
              subst g7
              have := hexp st hst k hk j hj q g5 g6 o (outcome_of_mem once h1)
              rw [ht] at this
              simp only [Expected] at this
              simp only [aborts, Outcome.success, Bool.and_eq_true, beq_iff_eq] at ha
              obtain ⟨e1, e2⟩ := this ha.1
              cases hx : o.score with
              | none => rw [hx] at e2; cases e2
              | some x => rw [hx, e1] at ha; simp at ha
            | none => exact none_absurd h hr ht h2 rfl
          | sample s =>
            cases ht : task.type with
            | batch checker =>
              have hsc := (handlers_scoring h hr).1
              rw [ht, batch_scoring] at hsc
              have h3 : Handler.sample s ∈ ev.handlers.filterMap scoringOf :=
                List.mem_filterMap.2 ⟨_, h2, rfl⟩
              rw [hsc] at h3
              obtain ⟨e, -, h4⟩ := List.mem_flatMap.1 h3
              simp only [List.mem_cons, List.not_mem_nil, or_false, reduceCtorEq, false_or] at h4
              cases checker <;> cases h4
            | communication manager m uio =>
              have hsc := (handlers_scoring h hr).1
              rw [ht] at hsc
              have h3 : Handler.sample s ∈ ev.handlers.filterMap scoringOf :=
                List.mem_filterMap.2 ⟨_, h2, rfl⟩
              rw [hsc] at h3
              obtain ⟨_, this, _⟩ := (comm_no_key 0 _ h3).2
              cases this
            | none => exact none_absurd h hr ht h2 rfl
          | _ => cases ha
    rw [follow_invoke once]
    cases ht : task.type with
    | batch checker =>
      refine invoke_total_batch hab ?_
      intro x hx
      cases ha : answerBy x with
      | none => rfl
      | some p =>
        exfalso
        obtain ⟨k, a⟩ := p
        have h1 := (answerBy_sender ha).1
        have h2 := (mem_invocations hx).2
        have hsc := (handlers_scoring h hr).1
        rw [ht, batch_scoring] at hsc
        have h3 : x.2 ∈ ev.handlers.filterMap scoringOf :=
          List.mem_filterMap.2 ⟨_, h2, key_or_sender (p := (x.1.exec, x.2)) (.inr (by simp [h1]))⟩
        rw [hsc] at h3
        obtain ⟨e, -, h4⟩ := List.mem_flatMap.1 h3
        simp only [List.mem_cons, List.not_mem_nil, or_false] at h4
        rcases h4 with h4 | h4
        · rw [h4] at h1; cases h1
        · rw [h4] at h1; cases checker <;> cases h1
    | communication manager m uio =>
      have hsc := (handlers_scoring h hr).1
      have hse := (handlers_scoring h hr).2
      rw [ht] at hsc hse
      have hk : (ev.senders.map SenderInfo.key).Nodup := by rw [hse, comm_keys]; exact evaluations_nodup h
      have hlen : ev.senders.length = (task.evaluations sols.length).length := by
        have := congrArg List.length (comm_keys (manager := manager) (n := m) (io := uio)
          (l := task.evaluations sols.length))
        rw [← hse] at this
        simpa using this
      refine invoke_total hk (start_sent ev.senders) hab ?_ (fun x hx => comm_quiet hsc hx) ?_
      · intro x hx k a ha
        have h1 := (answerBy_sender ha).1
        have h2 := (mem_invocations hx).2
        have h3 : x.2 ∈ ev.handlers.filterMap scoringOf :=
          List.mem_filterMap.2 ⟨_, h2, key_or_sender (p := (x.1.exec, x.2)) (.inr (by simp [h1]))⟩
        rw [hsc] at h3
        obtain ⟨-, s, h4, -, h5⟩ := comm_no_key 0 _ h3
        rw [h1] at h4
        cases h4
        omega
      · intro k i hi
        have hkl : k < ev.senders.length := by
          rcases Nat.lt_or_ge k ev.senders.length with h | h
          · exact h
          · rw [List.getElem?_eq_none h] at hi; cases hi
        obtain ⟨st, hst, tc, -, j, -, h1, procs, man, h2, -, -, h5⟩ := sender_handlers h hr ht (s := k) (by omega)
        rw [hse, comm_sender_get, h1] at hi
        cases hi
        rw [List.nil_append, (answers_perm once k).length_eq]
        have := (answers_length (k := k) (ns := ns)
          (P := ev.handlers.filter (fun p => decide (handlerSender p.2 = some k)))).1
        have h6 := h5.length_eq
        simp only [List.length_append, List.length_map, List.length_singleton, h2] at h6
        simp only
        omega
    | none =>
      refine invoke_total_batch hab ?_
      intro x hx
      cases ha : answerBy x with
      | none => rfl
      | some p =>
        obtain ⟨k, a⟩ := p
        have h1 := (answerBy_sender ha).1
        exact (none_absurd h hr ht (mem_invocations hx).2
          (key_or_sender (p := (x.1.exec, x.2)) (.inr (by simp [h1])))).elim

/-! ## C62 -/

theorem all_done_or {procs : List Execution} {man : Execution} :
    (∃ e ∈ procs ++ [man], outcomeOf ns e.uuid = none) ∨
    ∃ (os : List Outcome) (om : Outcome), procs.map (fun e => outcomeOf ns e.uuid) = os.map some ∧
      outcomeOf ns man.uuid = some om := by
  induction procs with
  | nil =>
    cases hx : outcomeOf ns man.uuid with
    | none => exact .inl ⟨man, by simp, hx⟩
    | some om => exact .inr ⟨[], om, rfl, rfl⟩
  | cons e procs ih =>
    rcases ih with ⟨e', he', hn⟩ | ⟨os, om, h1, h2⟩
    · exact .inl ⟨e', by simp only [List.cons_append, List.mem_cons]; exact .inr he', hn⟩
    · cases hx : outcomeOf ns e.uuid with
      | none => exact .inl ⟨e, by simp, hx⟩
      | some o => exact .inr ⟨o :: os, om, by simp [hx, h1], h2⟩

theorem least_unique {A G G' : List (Score.Score × String)} (h : Least A G) (h' : Least A G') :
    G.map (·.1) = G'.map (·.1) := by
  obtain ⟨q, m, rfl, h1, h2⟩ := h
  obtain ⟨q', m', rfl, h1', h2'⟩ := h'
  obtain ⟨a, ha, h3⟩ := h2 _ h1'
  obtain ⟨b, hb, h4⟩ := h2' _ h1
  cases ha
  cases hb
  have : q = q' := by grind
  rw [this]
  rfl

theorem not_scored (h : Fits n task sols)
    (hr : buildDag fs root task sols (start n cfg) = .ok (io, ev))
    (hc : ev.follow ns = .ok c) {st tc sol : Nat}
    (hno : ¬ (sol < sols.length ∧ ∃ s ∈ task.subtasks.values, s.id = st ∧ tc ∈ s.owned)) :
    scoresGiven c st tc sol = [] := by
  unfold scoresGiven
  rw [List.map_eq_nil_iff, List.filter_eq_nil_iff]
  intro g hg
  simp only [decide_eq_true_eq, Prod.mk.injEq]
  rintro ⟨rfl, rfl, rfl⟩
  exact hno (only_evaluations_scored h hr hc hg)

/-- **C62** The scores depend on how the executions end, not on the order in which they do. -/
theorem scores_schedule_independent (h : Fits n task sols)
    (hid : (task.subtasks.values.map (·.id)).Nodup)
    (htc : ∀ st ∈ task.subtasks.values, st.testcases.Nodup)
    (hr : buildDag fs root task sols (start n cfg) = .ok (io, ev)) {ns' : List Notice} {c' : Client}
    (hist : History ev.dag ns) (hist' : History ev.dag ns') (hnum : Numbers ns) (hnum' : Numbers ns')
    (hsame : SameOutcomes ns ns') (hc : ev.follow ns = .ok c) (hc' : ev.follow ns' = .ok c')
    (st tc sol : Nat) :
    (scoresGiven c st tc sol).map (·.1) = (scoresGiven c' st tc sol).map (·.1) := by
  by_cases hm : sol < sols.length ∧ ∃ s ∈ task.subtasks.values, s.id = st ∧ tc ∈ s.owned
  · obtain ⟨hj, s, hst, rfl, hk⟩ := hm
    cases ht : task.type with
    | batch checker =>
      obtain ⟨e, q, f, h1, h2, -, -, h5, h6, -⟩ := batch_executions h hr ht hst hk hj
      rw [batch_scores h hid htc hr ht hist hc hst hk hj h1 h2 h5 h6,
        batch_scores h hid htc hr ht hist' hc' hst hk hj h1 h2 h5 h6, hsame, hsame]
    | communication manager m uio =>
      obtain ⟨i, procs, man, -, h2, h3, h4, h5, -⟩ := comm_executions h hr ht hst hk hj
      have h3' : ∀ i e, procs[i]? = some e → e ∈ allExecs ev.dag ∧
          Reports ev e.uuid (.evaluation s.id tc sol i m) :=
        fun i e he => ⟨(h3 i e he).1, (h3 i e he).2.1⟩
      obtain ⟨g1, g2⟩ := communication_scores h hid htc hr ht hnum hc hst hk hj h2 h3' h4 h5
      obtain ⟨k1, k2⟩ := communication_scores h hid htc hr ht hnum' hc' hst hk hj h2 h3' h4 h5
      rcases all_done_or (ns := ns) (procs := procs) (man := man) with hn | ⟨os, om, a1, a2⟩
      · rw [g1 hn, k1 (by obtain ⟨e, he, hx⟩ := hn; exact ⟨e, he, by rw [← hsame]; exact hx⟩)]
      · refine least_unique (g2 os om a1 a2) (k2 os om ?_ ?_)
        · rw [← a1]
          exact List.map_congr_left (fun e _ => (hsame e.uuid).symm)
        · rw [← hsame]; exact a2
    | none =>
      have a := none_given h hr ht hc
      have b := none_given h hr ht hc'
      simp [scoresGiven, a, b]
  · rw [not_scored h hr hc hm, not_scored h hr hc' hm]

/-- The scores given are numbers, if those captured are. -/
theorem given_numeric (h : Fits n task sols)
    (hid : (task.subtasks.values.map (·.id)).Nodup)
    (htc : ∀ st ∈ task.subtasks.values, st.testcases.Nodup)
    (hr : buildDag fs root task sols (start n cfg) = .ok (io, ev))
    (hist : History ev.dag ns) (hnum : Numbers ns) (hc : ev.follow ns = .ok c) {st tc sol : Nat}
    {p : Score.Score × String} (hp : p ∈ scoresGiven c st tc sol) : ∃ q, p.1 = .num q := by
  by_cases hm : sol < sols.length ∧ ∃ s ∈ task.subtasks.values, s.id = st ∧ tc ∈ s.owned
  · obtain ⟨hj, s, hst, rfl, hk⟩ := hm
    cases ht : task.type with
    | batch checker =>
      obtain ⟨e, q, f, h1, h2, -, -, h5, h6, -⟩ := batch_executions h hr ht hst hk hj
      rw [batch_scores h hid htc hr ht hist hc hst hk hj h1 h2 h5 h6] at hp
      unfold batchScores at hp
      split at hp
      · cases hp
      · split at hp
        · split at hp
          · next o' ho' =>
            unfold verdict at hp
            split at hp
            · split at hp
              · rw [List.mem_singleton] at hp; subst hp; exact ⟨1, rfl⟩
              · rw [List.mem_singleton] at hp; subst hp; exact ⟨0, rfl⟩
            · split at hp
              · obtain ⟨x, hx, rfl⟩ := List.mem_map.1 hp
                exact hnum _ o' x (outcome_mem ho') (Option.mem_toList.1 hx)
              · cases hp
          · cases hp
        · rw [List.mem_singleton] at hp; subst hp; exact ⟨0, rfl⟩
    | communication manager m uio =>
      obtain ⟨i, procs, man, -, h2, h3, h4, h5, -⟩ := comm_executions h hr ht hst hk hj
      obtain ⟨g1, g2⟩ := communication_scores h hid htc hr ht hnum hc hst hk hj h2
        (fun i e he => ⟨(h3 i e he).1, (h3 i e he).2.1⟩) h4 h5
      rcases all_done_or (ns := ns) (procs := procs) (man := man) with hn | ⟨os, om, a1, a2⟩
      · rw [g1 hn] at hp; cases hp
      · obtain ⟨q, msg, h6, -⟩ := g2 os om a1 a2
        rw [h6, List.mem_singleton] at hp
        subst hp
        exact ⟨q, rfl⟩
    | none =>
      have a := none_given h hr ht hc
      simp [scoresGiven, a] at hp
  · rw [not_scored h hr hc hm] at hp; cases hp

theorem owner_unique (h : Fits n task sols) {s s' : Subtask} (hs : s ∈ task.subtasks.values)
    (hs' : s' ∈ task.subtasks.values) {tc : Nat} (h1 : tc ∈ s.owned) (h2 : tc ∈ s'.owned) : s = s' := by
  have := h.owned
  generalize task.subtasks.values = l at this hs hs'
  induction l with
  | nil => cases hs
  | cons x l ih =>
    simp only [List.flatMap_cons, List.nodup_append] at this
    obtain ⟨-, h4, h5⟩ := this
    rcases List.mem_cons.1 hs with e | e <;> rcases List.mem_cons.1 hs' with e' | e'
    · rw [e, e']
    · exact absurd rfl (h5 tc (e ▸ h1) tc (List.mem_flatMap.2 ⟨s', e', h2⟩))
    · exact absurd rfl (h5 tc (e' ▸ h2) tc (List.mem_flatMap.2 ⟨s, e, h1⟩))
    · exact ih h4 e e'

/-- The number in a score. -/
def numberOf : Score.Score → Rat
  | .num q => q
  | .nan => 0

/-- **C62** ... so what the UI shows as the score of a solution, in all and for each subtask, does not
depend on the order either. -/
theorem solution_score_schedule_independent (h : Fits n task sols)
    (hid : (task.subtasks.values.map (·.id)).Nodup)
    (htc : ∀ st ∈ task.subtasks.values, st.testcases.Nodup)
    (hr : buildDag fs root task sols (start n cfg) = .ok (io, ev)) {ns' : List Notice} {c' : Client}
    (hist : History ev.dag ns) (hist' : History ev.dag ns') (hnum : Numbers ns) (hnum' : Numbers ns')
    (hsame : SameOutcomes ns ns') (hc : ev.follow ns = .ok c) (hc' : ev.follow ns' = .ok c')
    {sol : Nat} {t : Score.Task} (ht : t.Valid) {order order' : List Nat} (ho : t.Order order)
    (ho' : t.Order order') {calls calls' : List Score.Call} (hcs : t.Calls calls) (hcs' : t.Calls calls')
    (hcalls : CallsFor c sol calls) (hcalls' : CallsFor c' sol calls') {m m' : Score.Manager}
    (hrun : Score.run t order calls = some m) (hrun' : Score.run t order' calls' = some m') :
    (∀ p ∈ t.subtasks, Score.subtaskMsgs m.sent p.1 = Score.subtaskMsgs m'.sent p.1) ∧
    Score.taskMsgs m.sent = Score.taskMsgs m'.sent := by
  -- what is given to the manager
  have key : ∀ {c : Client} {calls : List Score.Call}, CallsFor c sol calls → ∀ x ∈ calls,
      ∃ g ∈ c.given, g.solution = sol ∧ g.subtask = x.subtask ∧ g.testcase = x.testcase ∧
        g.score = x.score := by
    intro c calls hcf x hx
    have : (x.subtask, x.testcase, x.score) ∈ calls.map (fun x => (x.subtask, x.testcase, x.score)) :=
      List.mem_map.2 ⟨x, hx, rfl⟩
    rw [hcf] at this
    obtain ⟨g, hg, he⟩ := List.mem_map.1 this
    obtain ⟨hg, hs⟩ := List.mem_filter.1 hg
    simp only [Prod.mk.injEq] at he
    exact ⟨g, hg, by simpa using hs, he.1, he.2.1, he.2.2⟩
  have back : ∀ {c : Client} {calls : List Score.Call}, CallsFor c sol calls → ∀ g ∈ c.given,
      g.solution = sol → ∃ x ∈ calls, x.testcase = g.testcase := by
    intro c calls hcf g hg hs
    have : (g.subtask, g.testcase, g.score) ∈
        (c.given.filter (fun g => g.solution = sol)).map (fun g => (g.subtask, g.testcase, g.score)) :=
      List.mem_map.2 ⟨g, List.mem_filter.2 ⟨hg, by simpa using hs⟩, rfl⟩
    rw [← hcf] at this
    obtain ⟨x, hx, he⟩ := List.mem_map.1 this
    simp only [Prod.mk.injEq] at he
    exact ⟨x, hx, he.2.1⟩
  have given : ∀ {c : Client} (g : Given), g ∈ c.given →
      (g.score, g.message) ∈ scoresGiven c g.subtask g.testcase g.solution := by
    intro c g hg
    exact List.mem_map.2 ⟨g, List.mem_filter.2 ⟨hg, by simp⟩, rfl⟩
  -- both clients give the same score to a testcase
  have same : ∀ (g : Given), g ∈ c.given → ∀ g' : Given, g' ∈ c'.given → g.solution = sol →
      g'.solution = sol → g.testcase = g'.testcase → g.score = g'.score := by
    intro g hg g' hg' hs hs' htc'
    obtain ⟨-, a, ha, ha1, ha2⟩ := only_evaluations_scored h hr hc hg
    obtain ⟨-, b, hb, hb1, hb2⟩ := only_evaluations_scored h hr hc' hg'
    have := owner_unique h ha hb ha2 (htc' ▸ hb2)
    subst this
    have e1 := given g hg
    have e2 := given g' hg'
    rw [← hb1, ha1, ← htc', hs', ← hs] at e2
    have e3 := scores_schedule_independent h hid htc hr hist hist' hnum hnum' hsame hc hc'
      g.subtask g.testcase g.solution
    have l1 := scored_at_most_once h hid htc hr hist hnum hc g.subtask g.testcase g.solution
    have l2 := scored_at_most_once h hid htc hr hist' hnum' hc' g.subtask g.testcase g.solution
    match hx : scoresGiven c g.subtask g.testcase g.solution,
      hy : scoresGiven c' g.subtask g.testcase g.solution with
    | [], _ => rw [hx] at e1; cases e1
    | _, [] => rw [hy] at e2; cases e2
    | _ :: _ :: _, _ => rw [hx] at l1; simp at l1
    | _, _ :: _ :: _ => rw [hy] at l2; simp at l2
    | [x], [y] =>
      rw [hx, hy] at e3
      rw [hx, List.mem_singleton] at e1
      rw [hy, List.mem_singleton] at e2
      simp only [List.map_cons, List.map_nil, List.cons.injEq, and_true] at e3
      rw [← e1, ← e2] at e3
      exact e3
  have other : ∀ (g : Given), g ∈ c.given → ∃ g' ∈ c'.given, g'.solution = g.solution ∧
      g'.testcase = g.testcase := by
    intro g hg
    have e1 := given g hg
    have e3 := scores_schedule_independent h hid htc hr hist hist' hnum hnum' hsame hc hc'
      g.subtask g.testcase g.solution
    have : g.score ∈ (scoresGiven c' g.subtask g.testcase g.solution).map (·.1) := by
      rw [← e3]; exact List.mem_map.2 ⟨_, e1, rfl⟩
    obtain ⟨p, hp, -⟩ := List.mem_map.1 this
    obtain ⟨g', hg', -⟩ := List.mem_map.1 hp
    obtain ⟨hg', he⟩ := List.mem_filter.1 hg'
    simp only [decide_eq_true_eq, Prod.mk.injEq] at he
    exact ⟨g', hg', he.2.2, he.2.1⟩
  have other' : ∀ (g : Given), g ∈ c'.given → ∃ g' ∈ c.given, g'.solution = g.solution ∧
      g'.testcase = g.testcase := by
    intro g hg
    have e1 := given g hg
    have e3 := scores_schedule_independent h hid htc hr hist hist' hnum hnum' hsame hc hc'
      g.subtask g.testcase g.solution
    have : g.score ∈ (scoresGiven c g.subtask g.testcase g.solution).map (·.1) := by
      rw [e3]; exact List.mem_map.2 ⟨_, e1, rfl⟩
    obtain ⟨p, hp, -⟩ := List.mem_map.1 this
    obtain ⟨g', hg', -⟩ := List.mem_map.1 hp
    obtain ⟨hg', he⟩ := List.mem_filter.1 hg'
    simp only [decide_eq_true_eq, Prod.mk.injEq] at he
    exact ⟨g', hg', he.2.2, he.2.1⟩
  -- the score of a testcase
  let f : Nat → Rat := fun tc =>
    match c'.given.find? (fun g => decide (g.solution = sol ∧ g.testcase = tc)) with
    | some g => numberOf g.score
    | none => 0
  have hf1 : ∀ g ∈ c.given, g.solution = sol → g.score = .num (f g.testcase) := by
    intro g hg hs
    obtain ⟨q, hq⟩ := given_numeric h hid htc hr hist hnum hc (given g hg)
    simp only at hq
    obtain ⟨g', hg', hs', htc''⟩ := other g hg
    have : ∃ y, c'.given.find? (fun y => decide (y.solution = sol ∧ y.testcase = g.testcase)) = some y := by
      cases hx : c'.given.find? (fun y => decide (y.solution = sol ∧ y.testcase = g.testcase)) with
      | some y => exact ⟨y, rfl⟩
      | none =>
        rw [List.find?_eq_none] at hx
        have := hx g' hg'
        simp [hs', hs, htc''] at this
    obtain ⟨y, hy⟩ := this
    have hym := List.mem_of_find?_eq_some hy
    have hyp := List.find?_some hy
    simp only [decide_eq_true_eq] at hyp
    have := same g hg y hym hs hyp.1 hyp.2.symm
    show g.score = .num (f g.testcase)
    simp only [f, hy, ← this, hq, numberOf]
  have hf2 : ∀ g ∈ c'.given, g.solution = sol → g.score = .num (f g.testcase) := by
    intro g hg hs
    obtain ⟨g', hg', hs', htc''⟩ := other' g hg
    have := same g' hg' g hg (by rw [hs', hs]) hs htc''
    rw [← this, hf1 g' hg' (by rw [hs', hs]), htc'']
  refine Score.scores_order_independent ht ho ho' hcs hcs' f ?_ ?_ ?_ hrun hrun'
  · intro x hx
    obtain ⟨g, hg, hs, -, h2, h3⟩ := key hcalls x hx
    rw [← h3, hf1 g hg hs, h2]
  · intro x hx
    obtain ⟨g, hg, hs, -, h2, h3⟩ := key hcalls' x hx
    rw [← h3, hf2 g hg hs, h2]
  · intro tc
    constructor
    · rintro ⟨x, hx, rfl⟩
      obtain ⟨g, hg, hs, -, h2, -⟩ := key hcalls x hx
      obtain ⟨g', hg', hs', h4⟩ := other g hg
      obtain ⟨y, hy, h5⟩ := back hcalls' g' hg' (by rw [hs', hs])
      exact ⟨y, hy, by rw [h5, h4, h2]⟩
    · rintro ⟨x, hx, rfl⟩
      obtain ⟨g, hg, hs, -, h2, -⟩ := key hcalls' x hx
      obtain ⟨g', hg', hs', h4⟩ := other' g hg
      obtain ⟨y, hy, h5⟩ := back hcalls g' hg' (by rw [hs', hs])
      exact ⟨y, hy, by rw [h5, h4, h2]⟩

/-! ## The hypotheses are met -/

/-- `History`, computed. -/
def historyOk (d : DagData) (ns : List Notice) : Bool :=
  (allExecs d).all (fun e => ns.all (fun x => match x with
    | .done u _ => u != e.uuid || (allExecs d).all (fun p => e.dependencies.all (fun f =>
        !p.outputFiles.contains f || match outcomeOf ns p.uuid with
          | some o' => o'.status == .success
          | none => false))
    | _ => true))

theorem historyOk_history {d : DagData} {ns : List Notice} (h : historyOk d ns = true) : History d ns := by
  unfold historyOk at h
  rw [List.all_eq_true] at h
  refine ⟨?_⟩
  intro e he o ho p hp f hf hfo
  have := List.all_eq_true.1 (h e he) _ ho
  simp only [bne_self_eq_false, Bool.false_or, List.all_eq_true] at this
  have := this p hp f hf
  simp only [Bool.or_eq_true, Bool.not_eq_true'] at this
  rcases this with h1 | h1
  · have : p.outputFiles.contains f = true := by simpa using hfo
    rw [this] at h1; cases h1
  · split at h1
    · next o' ho' => exact ⟨o', ho', by simpa using h1⟩
    · cases h1

/-- All the executions of the sample end well, with a score of a half, except the first solution on the
second testcase: it fails, and if it is checked apart its output is not. -/
def Sample.notices (ev : Eval) : List Notice :=
  (allExecs ev.dag).map (fun e =>
    match reportsOn ev e.uuid with
    | [.evaluation 1 1 0 _ _] => .done e.uuid { status := .returnCode 1, shown := "exited with 1" }
    | [.checker 1 1 0] =>
      if ev.senders.isEmpty then .skipped e.uuid
      else .done e.uuid { status := .success, score := some (.num (1/2)), message := "half" }
    | _ => .done e.uuid { status := .success, score := some (.num (1/2)), message := "half" })

/-- What is expected of the sample. -/
def Sample.scored (msg : String) (ev : Eval) : Bool :=
  historyOk ev.dag (Sample.notices ev) &&
  match ev.follow (Sample.notices ev) with
  | .error _ => false
  | .ok c => decide (scoresGiven c 1 1 0 = [(.num 0, msg)] ∧ scoresGiven c 1 1 1 = [(.num (1/2), "half")] ∧
      c.given.length = 4 ∧ c.told.length = (allExecs ev.dag).length)

theorem Sample.of_scored {msg : String} {ev : Eval} (h : Sample.scored msg ev = true) :
    History ev.dag (Sample.notices ev) ∧ ∃ c, ev.follow (Sample.notices ev) = .ok c ∧
      scoresGiven c 1 1 0 = [(.num 0, msg)] ∧ scoresGiven c 1 1 1 = [(.num (1/2), "half")] ∧
      c.given.length = 4 ∧ c.told.length = (allExecs ev.dag).length := by
  unfold Sample.scored at h
  rw [Bool.and_eq_true] at h
  refine ⟨historyOk_history h.1, ?_⟩
  have h2 := h.2
  split at h2
  · cases h2
  · next c hc => exact ⟨c, hc, of_decide_eq_true h2⟩

theorem Sample.notices_numbers (ev : Eval) : Numbers (Sample.notices ev) := by
  intro u o x hm hx
  obtain ⟨e, -, he⟩ := List.mem_map.1 hm
  split at he
  · cases he; cases hx
  · split at he
    · cases he
    · cases he; cases hx; exact ⟨_, rfl⟩
  · cases he; cases hx; exact ⟨_, rfl⟩

/-- The batch sample: the failing solution gets 0, the other one what the checker says. -/
example : ∃ io ev, buildDag Sample.fs "/task" Sample.batch Sample.sols (start 10 {}) = .ok (io, ev) ∧
    History ev.dag (Sample.notices ev) ∧ ∃ c, ev.follow (Sample.notices ev) = .ok c ∧
      scoresGiven c 1 1 0 = [(.num 0, "exited with 1")] ∧ scoresGiven c 1 1 1 = [(.num (1/2), "half")] ∧
      c.given.length = 4 ∧ c.told.length = (allExecs ev.dag).length := by
  have : Sample.holds (fun _ ev => Sample.scored "exited with 1" ev)
      (buildDag Sample.fs "/task" Sample.batch Sample.sols (start 10 {})) = true := by decide +kernel
  obtain ⟨io, ev, h1, h2⟩ := Sample.of_holds this
  exact ⟨io, ev, h1, Sample.of_scored h2⟩

/-- The communication sample: both processes of the failing solution answer 0, the manager a half. -/
example : ∃ io ev, buildDag Sample.fs "/task" Sample.communication Sample.sols (start 10 {}) = .ok (io, ev) ∧
    History ev.dag (Sample.notices ev) ∧ ∃ c, ev.follow (Sample.notices ev) = .ok c ∧
      scoresGiven c 1 1 0 = [(.num 0, "exited with 1")] ∧ scoresGiven c 1 1 1 = [(.num (1/2), "half")] ∧
      c.given.length = 4 ∧ c.told.length = (allExecs ev.dag).length := by
  have : Sample.holds (fun _ ev => Sample.scored "exited with 1" ev)
      (buildDag Sample.fs "/task" Sample.communication Sample.sols (start 10 {})) = true := by decide +kernel
  obtain ⟨io, ev, h1, h2⟩ := Sample.of_holds this
  exact ⟨io, ev, h1, Sample.of_scored h2⟩

/-- The notices in the opposite order are a history with the same outcomes, and the evaluation of it
completes too. -/
example : ∃ io ev, buildDag Sample.fs "/task" Sample.communication Sample.sols (start 10 {}) = .ok (io, ev) ∧
    History ev.dag (Sample.notices ev) ∧ History ev.dag (Sample.notices ev).reverse ∧
    Numbers (Sample.notices ev).reverse ∧ SameOutcomes (Sample.notices ev) (Sample.notices ev).reverse ∧
    ∃ c, ev.follow (Sample.notices ev).reverse = .ok c := by
  have : Sample.holds (fun _ ev => historyOk ev.dag (Sample.notices ev) &&
      (historyOk ev.dag (Sample.notices ev).reverse &&
        decide ((Sample.notices ev).reverse.map (fun n => (n.kind, n.exec))).Nodup &&
        match ev.follow (Sample.notices ev).reverse with
        | .ok _ => true
        | .error _ => false))
      (buildDag Sample.fs "/task" Sample.communication Sample.sols (start 10 {})) = true := by decide +kernel
  obtain ⟨io, ev, h1, h2⟩ := Sample.of_holds this
  rw [Bool.and_eq_true, Bool.and_eq_true, Bool.and_eq_true, decide_eq_true_eq] at h2
  have a := historyOk_history h2.1
  have b := historyOk_history h2.2.1.1
  have once : Once (Sample.notices ev).reverse := h2.2.1.2
  refine ⟨io, ev, h1, a, b, ?_, ?_, ?_⟩
  · intro u o x hm hx
    exact Sample.notices_numbers ev u o x (List.mem_reverse.1 hm) hx
  · intro u
    cases hx : outcomeOf (Sample.notices ev) u with
    | some o => exact (outcome_of_mem once (List.mem_reverse.2 (outcome_mem hx))).symm
    | none =>
      cases hy : outcomeOf (Sample.notices ev).reverse u with
      | none => rfl
      | some o => exact absurd (List.mem_reverse.1 (outcome_mem hy)) (outcome_none hx)
  · have h3 := h2.2.2
    split at h3
    · next c hc => exact ⟨c, hc⟩
    · cases h3

/-- A manager that succeeds without a score aborts the evaluation. -/
example : ∃ io ev, buildDag Sample.fs "/task" Sample.communication Sample.sols (start 10 {}) = .ok (io, ev) ∧
    ∃ u, ev.follow ((allExecs ev.dag).map (fun e => .done e.uuid { status := .success })) =
      .error (.invalidScore u) := by
  have : Sample.holds (fun _ ev =>
      match ev.follow ((allExecs ev.dag).map (fun e => .done e.uuid { status := .success })) with
        | .error (.invalidScore _) => true
        | _ => false)
      (buildDag Sample.fs "/task" Sample.communication Sample.sols (start 10 {})) = true := by decide +kernel
  obtain ⟨io, ev, h1, h2⟩ := Sample.of_holds this
  refine ⟨io, ev, h1, ?_⟩
  split at h2
  · next u hu => exact ⟨u, hu⟩
  · cases h2

end TM.Build
