import Verif.Build.CommScores
import Verif.Build.Props
/-!
# The executions that decide the scores of a task
-/
namespace TM.Build
open TM DagSpec Spec

variable {n : Uuid} {cfg : DagConfig} {fs : FS} {root : String} {task : Task} {sols : List Src}
  {io : GeneratedIo} {ev : Eval}

theorem handlers_scoring (h : Fits n task sols)
    (hr : buildDag fs root task sols (start n cfg) = .ok (io, ev)) :
    ev.handlers.filterMap scoringOf = task.type.scoringFrom 0 (task.evaluations sols.length) ∧
    ev.senders = task.type.sendersFrom 0 (task.evaluations sols.length) := by
  obtain ⟨-, h2, -⟩ := buildDag_done h hr
  exact ⟨by simpa [start] using h2.step.scoring, by simpa [start] using h2.senders⟩

theorem mem_messages {st : Subtask} (hst : st ∈ task.subtasks.values) {k : Nat} (hk : k ∈ st.owned)
    {tc : Testcase} (htc : task.testcases.get? k = some tc) {m j : Nat} (hj : j < m) {t : Topic}
    (ht : t ∈ evaluationMessages task.type st.id tc.id j) : t ∈ messages task m := by
  refine List.mem_append.2 (.inl (List.mem_flatMap.2 ⟨st, hst, List.mem_flatMap.2 ⟨tc, ?_, ?_⟩⟩))
  · exact List.mem_filterMap.2 ⟨k, hk, htc⟩
  · exact List.mem_append.2 (.inr (List.mem_flatMap.2 ⟨j, List.mem_range.2 hj, ht⟩))

/-- The execution reported as something about an evaluation is unique. -/
theorem reported_unique (h : Fits n task sols) (hid : (task.subtasks.values.map (·.id)).Nodup)
    (htc : ∀ st ∈ task.subtasks.values, st.testcases.Nodup)
    (hr : buildDag fs root task sols (start n cfg) = .ok (io, ev)) {t : Topic}
    (ht : t ∈ messages task sols.length) {e e' : Execution} (he : e ∈ allExecs ev.dag)
    (he' : e' ∈ allExecs ev.dag) (h1 : Reports ev e.uuid t) (h2 : Reports ev e'.uuid t) : e = e' := by
  obtain ⟨e0, -, -, hu⟩ := one_execution_each h hid htc hr ht
  rw [hu e he h1, hu e' he' h2]

theorem reported_inj (h : Fits n task sols)
    (hr : buildDag fs root task sols (start n cfg) = .ok (io, ev)) {t t' : Topic} {e : Execution}
    (he : e ∈ allExecs ev.dag) (h1 : Reports ev e.uuid t) (h2 : Reports ev e.uuid t') : t = t' := by
  obtain ⟨t0, h0, -⟩ := reported_once h hr he
  have a := mem_reportsOn.2 h1
  have b := mem_reportsOn.2 h2
  rw [h0, List.mem_singleton] at a b
  rw [a, b]

/-- In a batch task the checker is done only if the solution succeeded. -/
theorem check_after_run {ns : List Notice} (hist : History ev.dag ns) {e k : Execution}
    (he : e ∈ allExecs ev.dag) (hk : k ∈ allExecs ev.dag) {f : FileUuid} (hf : f ∈ e.outputFiles)
    (hd : f ∈ k.dependencies) {o : Outcome} (ho : outcomeOf ns k.uuid = some o) :
    ∃ o', outcomeOf ns e.uuid = some o' ∧ o'.status = .success := by
  exact hist.inputs k hk o (outcome_mem ho) e he f hd hf

theorem input_dep {k : Execution} {name : String} {i : ExecutionInput} (h : k.inputs.get? name = some i) :
    i.file ∈ k.dependencies := by
  unfold Execution.dependencies
  exact List.mem_append.2 (.inr (List.mem_map.2 ⟨_, AMap.mem_of_get? h, rfl⟩))

theorem writes_output {e : Execution} {out : FileUuid} (h : Spec.Writes task e out) : out ∈ e.outputFiles := by
  unfold Spec.Writes at h
  split at h
  · simp [Execution.outputFiles, h]
  · next o _ =>
    unfold Execution.outputFiles
    have : out ∈ e.outputs.map (·.2) := List.mem_map.2 ⟨_, AMap.mem_of_get? h, rfl⟩
    simp only [List.mem_append]
    first | exact .inr (.inr this) | exact .inr this

theorem checks_dep {checker : Checker} {st tc sol : Nat} {input correct test : FileUuid} {k : Execution}
    (h : Checks fs ev checker st tc sol input correct test k) : test ∈ k.dependencies := by
  obtain ⟨-, -, -, h⟩ := h
  cases checker with
  | whiteDiff => obtain ⟨-, -, -, h, -⟩ := h; exact input_dep h
  | custom src => obtain ⟨-, -, -, h, -⟩ := h; exact input_dep h

theorem checks_handler {checker : Checker} {st tc sol : Nat} {input correct test : FileUuid} {k : Execution}
    (h : Checks fs ev checker st tc sol input correct test k) :
    (k.uuid, checker.handler st tc sol) ∈ ev.handlers := by
  obtain ⟨-, -, -, h⟩ := h
  cases checker with
  | whiteDiff => exact h.2.2.2.2
  | custom src => exact h.2.2.2.2.2.2

/-- The two executions of an evaluation of a batch task. -/
theorem batch_executions (h : Fits n task sols)
    (hr : buildDag fs root task sols (start n cfg) = .ok (io, ev)) {checker : Checker}
    (ht : task.type = .batch checker) {st : Subtask} (hst : st ∈ task.subtasks.values) {k : Nat}
    (hk : k ∈ st.owned) {j : Nat} (hj : j < sols.length) :
    ∃ e q f, e ∈ allExecs ev.dag ∧ q ∈ allExecs ev.dag ∧ f ∈ e.outputFiles ∧ f ∈ q.dependencies ∧
      Reports ev e.uuid (.evaluation st.id k j 0 1) ∧ Reports ev q.uuid (.checker st.id k j) ∧
      (e.uuid, .scoreZeroOnFailure st.id k j) ∈ ev.handlers ∧
      (q.uuid, checker.handler st.id k j) ∈ ev.handlers ∧
      Topic.evaluation st.id k j 0 1 ∈ messages task sols.length ∧
      Topic.checker st.id k j ∈ messages task sols.length := by
  obtain ⟨tc, input, handle, output, h1, -, h3⟩ := testcase_prepared h hr hst hk
  have hid := h.testcaseIds k tc h1
  have h4 := h3.evaluated j sols[j] (by simp [hj])
  unfold Evaluated at h4
  rw [ht] at h4
  obtain ⟨e, q, out, h5, -, -, h6, -, -, -, h7, h8, h9⟩ := h4
  rw [hid] at h7 h8 h9
  have hm : ∀ t ∈ evaluationMessages task.type st.id tc.id j, t ∈ messages task sols.length :=
    fun t h => mem_messages hst hk h1 hj h
  rw [ht, hid] at hm
  exact ⟨e, q, out, h5.added, h9.1, writes_output h6, checks_dep h9, h7, h9.2.1, h8,
    checks_handler h9, hm _ (by simp [evaluationMessages]), hm _ (by simp [evaluationMessages])⟩

/-- The executions of an evaluation of a communication task. -/
theorem comm_executions (h : Fits n task sols)
    (hr : buildDag fs root task sols (start n cfg) = .ok (io, ev)) {manager : Src} {m : Nat} {uio : UserIo}
    (ht : task.type = .communication manager m uio) {st : Subtask} (hst : st ∈ task.subtasks.values)
    {k : Nat} (hk : k ∈ st.owned) {j : Nat} (hj : j < sols.length) :
    ∃ (s : Nat) (procs : List Execution) (man : Execution), (task.evaluations sols.length)[s]? = some (st.id, k, j) ∧
      procs.length = m ∧
      (∀ i e, procs[i]? = some e → e ∈ allExecs ev.dag ∧ Reports ev e.uuid (.evaluation st.id k j i m) ∧
        (e.uuid, .processOutcome s) ∈ ev.handlers) ∧
      man ∈ allExecs ev.dag ∧ Reports ev man.uuid (.checker st.id k j) ∧
      (man.uuid, .managerOutcome s) ∈ ev.handlers ∧
      (∀ i, i < m → Topic.evaluation st.id k j i m ∈ messages task sols.length) ∧
      Topic.checker st.id k j ∈ messages task sols.length := by
  obtain ⟨tc, input, handle, output, h1, -, h3⟩ := testcase_prepared h hr hst hk
  have hid := h.testcaseIds k tc h1
  have h4 := h3.evaluated j sols[j] (by simp [hj])
  unfold Evaluated at h4
  rw [ht] at h4
  obtain ⟨s, h5, p, hp, fifos, procs, man, h6, -, -, h7, h8, h9, h10⟩ := h4
  have hm : ∀ t ∈ evaluationMessages task.type st.id tc.id j, t ∈ messages task sols.length :=
    fun t h => mem_messages hst hk h1 hj h
  rw [ht, hid] at hm
  have hse := (handlers_scoring h hr).2
  rw [ht] at hse
  rw [hse, comm_sender_get] at h5
  have hs : (task.evaluations sols.length)[s]? = some (st.id, k, j) := by
    cases hx : (task.evaluations sols.length)[s]? with
    | none => rw [hx] at h5; cases h5
    | some e =>
      rw [hx] at h5
      simp only [Option.map_some, Option.some.injEq, SenderInfo.mk.injEq] at h5
      obtain ⟨-, a, b, c, -⟩ := h5
      obtain ⟨x, y, z⟩ := e
      simp only at a b c
      rw [a, b, c, hid]
  have hproc : ∀ i e, procs[i]? = some e → ∃ q : FifoUuid × FifoUuid, Process fs ev task uio m st.id tc.id j sols[j] input output s i
      q.1 q.2 e := by
    intro i e he
    have hi : i < procs.length := by
      rcases Nat.lt_or_ge i procs.length with h | h
      · exact h
      · rw [List.getElem?_eq_none h] at he; cases he
    exact ⟨fifos[i]'(by omega), h9 i _ e (by simp [show i < fifos.length by omega]) he⟩
  refine ⟨s, procs, man, hs, h8, ?_, h10.run.added, ?_, h10.outcome, ?_, hm _ (by simp [evaluationMessages])⟩
  · intro i e he
    obtain ⟨q, hq⟩ := hproc i e he
    have := hq.reported
    rw [hid] at this
    exact ⟨hq.run.added, this, hq.outcome⟩
  · have := h10.reported
    rw [hid] at this
    exact this
  · intro i hi
    refine hm _ ?_
    simp only [evaluationMessages, List.mem_append, List.mem_map, List.mem_range]
    exact .inl ⟨i, hi, rfl⟩

/-! ## The executions of the handlers -/

/-- A handler of the checker is on the execution reported as the checker of an evaluation. -/
theorem checker_handler_exec (h : Fits n task sols)
    (hr : buildDag fs root task sols (start n cfg) = .ok (io, ev)) {checker : Checker}
    (ht : task.type = .batch checker) {p : ExecutionUuid × Handler} (hp : p ∈ ev.handlers)
    {a b d : Nat} (hkey : handlerKey p.2 = some (a, b, d)) (hno : p.2 ≠ .scoreZeroOnFailure a b d) :
    ∃ st ∈ task.subtasks.values, st.id = a ∧ b ∈ st.owned ∧ d < sols.length ∧
      p.2 = checker.handler a b d ∧
      ∃ q ∈ allExecs ev.dag, Reports ev q.uuid (.checker a b d) ∧ p.1 = q.uuid := by
  have hsc := (handlers_scoring h hr).1
  rw [ht, batch_scoring] at hsc
  have h1 := key_or_sender (p := p) (.inl (by rw [hkey]; simp))
  have h2 : p.2 ∈ ev.handlers.filterMap scoringOf := List.mem_filterMap.2 ⟨p, hp, h1⟩
  rw [hsc] at h2
  obtain ⟨⟨x, y, z⟩, he, h3⟩ := List.mem_flatMap.1 h2
  simp only [List.mem_cons, List.not_mem_nil, or_false] at h3
  have hxyz : (x, y, z) = (a, b, d) := by
    rcases h3 with h3 | h3
    · rw [h3] at hkey; exact Option.some.inj hkey
    · rw [h3, handler_key] at hkey; exact Option.some.inj hkey
  cases hxyz
  have h3 : p.2 = checker.handler a b d := by
    rcases h3 with h3 | h3
    · exact absurd h3 hno
    · exact h3
  obtain ⟨hd, st, hst, hid, hb⟩ := mem_evaluations.1 he
  refine ⟨st, hst, hid, hb, hd, h3, ?_⟩
  obtain ⟨e, q, f, -, g2, -, -, -, g6, g7, g8, -⟩ := batch_executions h hr ht hst hb hd
  rw [hid] at g6 g7 g8
  refine ⟨q, g2, g6, ?_⟩
  have h4 := batch_two (evaluations_nodup h) hsc he g7 g8
  have h5 : p ∈ ev.handlers.filter (fun p => decide (handlerKey p.2 = some (a, b, d))) :=
    List.mem_filter.2 ⟨hp, by simp only [hkey, decide_true]⟩
  rw [h4] at h5
  simp only [List.mem_cons, List.not_mem_nil, or_false] at h5
  rcases h5 with h5 | h5
  · exact absurd (by rw [h5]) hno
  · rw [h5]

theorem sender_index (h : Fits n task sols) {s s' : Nat} {x : Nat × Nat × Nat}
    (h1 : (task.evaluations sols.length)[s]? = some x) (h2 : (task.evaluations sols.length)[s']? = some x) :
    s = s' := by
  have hn := evaluations_nodup h
  generalize task.evaluations sols.length = l at h1 h2 hn
  have a : s < l.length := by
    rcases Nat.lt_or_ge s l.length with h | h
    · exact h
    · rw [List.getElem?_eq_none h] at h1; cases h1
  have b : s' < l.length := by
    rcases Nat.lt_or_ge s' l.length with h | h
    · exact h
    · rw [List.getElem?_eq_none h] at h2; cases h2
  rw [List.getElem?_eq_getElem a] at h1
  rw [List.getElem?_eq_getElem b] at h2
  exact (List.getElem_inj hn).1 (by rw [Option.some.inj h1, Option.some.inj h2])

/-- The processes of an evaluation are different executions. -/
theorem procs_nodup (h : Fits n task sols)
    (hr : buildDag fs root task sols (start n cfg) = .ok (io, ev)) {st k j m : Nat} {procs : List Execution}
    (hp : ∀ i e, procs[i]? = some e → e ∈ allExecs ev.dag ∧ Reports ev e.uuid (.evaluation st k j i m)) :
    (procs.map (·.uuid)).Nodup := by
  rw [List.Nodup, List.pairwise_map, List.pairwise_iff_getElem]
  intro a b ha hb hab he
  obtain ⟨h1, h2⟩ := hp a procs[a] (by simp [ha])
  obtain ⟨h3, h4⟩ := hp b procs[b] (by simp [hb])
  have := reported_inj h hr h3 h4 (he ▸ h2)
  simp only [Topic.evaluation.injEq, true_and, and_true] at this
  omega

/-- All the handlers of a sender of a communication task. -/
theorem sender_handlers (h : Fits n task sols)
    (hr : buildDag fs root task sols (start n cfg) = .ok (io, ev)) {manager : Src} {m : Nat} {uio : UserIo}
    (ht : task.type = .communication manager m uio) {s : Nat} (hs : s < (task.evaluations sols.length).length) :
    ∃ st ∈ task.subtasks.values, ∃ k ∈ st.owned, ∃ j, j < sols.length ∧
      (task.evaluations sols.length)[s]? = some (st.id, k, j) ∧
      ∃ (procs : List Execution) (man : Execution), procs.length = m ∧ man ∈ allExecs ev.dag ∧
        Reports ev man.uuid (.checker st.id k j) ∧
        (ev.handlers.filter (fun p => decide (handlerSender p.2 = some s))).Perm
          ((procs.map (·.uuid)).map (fun u => (u, Handler.processOutcome s)) ++
            [(man.uuid, Handler.managerOutcome s)]) := by
  have hsc := (handlers_scoring h hr).1
  rw [ht] at hsc
  have hm : (task.evaluations sols.length)[s] ∈ task.evaluations sols.length := List.getElem_mem hs
  have hg : (task.evaluations sols.length)[s]? = some (task.evaluations sols.length)[s] :=
    List.getElem?_eq_getElem hs
  generalize (task.evaluations sols.length)[s] = x at hm hg
  obtain ⟨a, b, d⟩ := x
  obtain ⟨hd, st, hst, rfl, hb⟩ := mem_evaluations.1 hm
  obtain ⟨s', procs, man, h1, h2, h3, h4, h5, h6, h7, h8⟩ := comm_executions h hr ht hst hb hd
  have := sender_index h hg h1
  subst this
  refine ⟨st, hst, b, hb, d, hd, hg, procs, man, h2, h4, h5, ?_⟩
  refine comm_handlers hsc hg (by simp [h2])
    (procs_nodup h hr (fun i e he => ⟨(h3 i e he).1, (h3 i e he).2.1⟩)) ?_ h6
  intro u hu
  obtain ⟨e, he, rfl⟩ := List.mem_map.1 hu
  obtain ⟨i, hi⟩ := List.mem_iff_getElem?.1 he
  exact (h3 i e hi).2.2

/-- The manager's handler is on the execution reported as the checker of an evaluation. -/
theorem manager_handler_exec (h : Fits n task sols)
    (hr : buildDag fs root task sols (start n cfg) = .ok (io, ev)) {manager : Src} {m : Nat} {uio : UserIo}
    (ht : task.type = .communication manager m uio) {u : ExecutionUuid} {s : Nat}
    (hp : (u, .managerOutcome s) ∈ ev.handlers) :
    ∃ st ∈ task.subtasks.values, ∃ k ∈ st.owned, ∃ j, j < sols.length ∧
      ∃ q ∈ allExecs ev.dag, Reports ev q.uuid (.checker st.id k j) ∧ u = q.uuid := by
  have hsc := (handlers_scoring h hr).1
  rw [ht] at hsc
  have h2 : Handler.managerOutcome s ∈ ev.handlers.filterMap scoringOf := List.mem_filterMap.2 ⟨_, hp, rfl⟩
  rw [hsc] at h2
  obtain ⟨-, s', h3, -, h4⟩ := comm_no_key 0 _ h2
  cases h3
  obtain ⟨st, hst, k, hk, j, hj, -, procs, man, -, h5, h6, h7⟩ := sender_handlers h hr ht (s := s) (by omega)
  refine ⟨st, hst, k, hk, j, hj, man, h5, h6, ?_⟩
  have h8 : (u, Handler.managerOutcome s) ∈ ev.handlers.filter
      (fun p => decide (handlerSender p.2 = some s)) :=
    List.mem_filter.2 ⟨hp, by simp [handlerSender]⟩
  have h9 := h7.mem_iff.1 h8
  simp only [List.mem_append, List.mem_map, List.mem_singleton, Prod.mk.injEq, reduceCtorEq, and_false,
    exists_false, false_or, and_true] at h9
  exact h9

/-- The closures of a batch task do not abort unless `diff` does. -/
theorem invoke_total_batch : ∀ {l : List (Notice × Handler)} {c : Client},
    (∀ x ∈ l, aborts x = false) → (∀ x ∈ l, answerBy x = none) → ∃ c', c.invoke l = .ok c' := by
  intro l
  induction l with
  | nil => intro c _ _; exact ⟨c, rfl⟩
  | cons x l ih =>
    intro c h1 h2
    have hx : ∃ c1, c.callOne x.1 x.2 = .ok c1 := by
      rw [(callOne_eq c x).1, h1 x (by simp), h2 x (by simp)]
      exact ⟨_, rfl⟩
    obtain ⟨c1, hx⟩ := hx
    unfold Client.invoke
    rw [hx]
    exact ih (fun y hy => h1 y (by simp [hy])) (fun y hy => h2 y (by simp [hy]))

end TM.Build
