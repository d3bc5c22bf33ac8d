import Verif.Ui.LiveLemmas
/-!
# Who says what about an evaluation of a batch task
-/
namespace TM.Ui
open TM TM.Build DagSpec Build.Spec

variable {n : Uuid} {cfg : DagConfig} {fs : FS} {root : String} {task : Task} {sols : List Src}
  {io : GeneratedIo} {ev : Eval}

/-- What a notice makes the client say about an evaluation of a batch task, run by `e` and checked
by `q`. -/
inductive Says (checker : Checker) (st k j : Nat) (e q : ExecutionUuid) (x : Notice) : Message → Prop
  | run : x.exec = e → Says checker st k j e q x (.progress (.evaluation st k j 0 1) (.told (progressOf x)))
  | check : x.exec = q → Says checker st k j e q x (.progress (.checker st k j) (.told (progressOf x)))
  | zero (o : Outcome) : x = .done e o → o.status ≠ .success →
      Says checker st k j e q x (.testcaseScore st k j (.num 0) o.shown)
  | verdict (o : Outcome) (s : Score.Score) (msg : String) : x = .done q o → (s, msg) ∈ verdict checker o →
      Says checker st k j e q x (.testcaseScore st k j s msg)

theorem handler_exec (h : Fits n task sols)
    (hr : buildDag fs root task sols (start n cfg) = .ok (io, ev)) {p : ExecutionUuid × Handler}
    (hp : p ∈ ev.handlers) : ∃ e ∈ allExecs ev.dag, e.uuid = p.1 := by
  have := (buildDag_done h hr).1.inv.handlers _ hp
  simp only [execUuids, List.map_nil, List.append_nil] at this
  obtain ⟨e, he, hu⟩ := List.mem_map.1 (by simpa using this)
  exact ⟨e, he, hu⟩

/-- The topics reported are compilations, or expected. -/
theorem report_expected (h : Fits n task sols)
    (hr : buildDag fs root task sols (start n cfg) = .ok (io, ev)) {u : ExecutionUuid} {t : Topic}
    (hp : Reports ev u t) : (∃ path, t = .compilation path) ∨ t ∈ messages task sols.length := by
  obtain ⟨e, he, hu⟩ := handler_exec h hr hp
  simp only at hu
  subst hu
  obtain ⟨t', h1, h2⟩ := reported_once h hr he
  have := mem_reportsOn.2 hp
  rw [h1, List.mem_singleton] at this
  subst this
  split at h2
  · obtain ⟨s, -, h3⟩ := h2; exact .inl ⟨_, h3⟩
  · exact .inr h2

theorem validator_topic {v : Option Src} {st k : Nat} {t : Topic}
    (h : t ∈ (match v with | none => ([] : List Src) | some s => [s]).map (fun _ => Topic.validation st k)) :
    t = .validation st k := by
  obtain ⟨-, -, rfl⟩ := List.mem_map.1 h
  rfl

/-- The expected messages about evaluations. -/
theorem messages_evaluation (h : Fits n task sols) {m : Nat} {t : Topic} (ht : t ∈ messages task m)
    {k j : Nat} (hab : (Message.progress t .pending).about = some (j, k)) :
    ∃ st ∈ task.subtasks.values, k ∈ st.owned ∧ j < m ∧ t ∈ evaluationMessages task.type st.id k j := by
  unfold messages at ht
  rcases List.mem_append.1 ht with h1 | h1
  · obtain ⟨st, hst, h2⟩ := List.mem_flatMap.1 h1
    obtain ⟨tc, htc, h3⟩ := List.mem_flatMap.1 h2
    obtain ⟨k', hk', hget⟩ := List.mem_filterMap.1 htc
    have hid := h.testcaseIds _ _ hget
    unfold testcaseMessages at h3
    rcases List.mem_append.1 h3 with h4 | h4
    · rcases List.mem_append.1 h4 with h5 | h5
      · rcases List.mem_append.1 h5 with h6 | h6
        · obtain ⟨-, -, rfl⟩ := List.mem_map.1 h6; cases hab
        · obtain ⟨-, -, rfl⟩ := List.mem_map.1 h6; cases hab
      · obtain ⟨-, -, rfl⟩ := List.mem_map.1 h5; cases hab
    · obtain ⟨sol, hsol, h5⟩ := List.mem_flatMap.1 h4
      have hsol := List.mem_range.1 hsol
      have : k = tc.id ∧ j = sol := by
        unfold evaluationMessages at h5
        split at h5
        · simp only [List.mem_cons, List.not_mem_nil, or_false] at h5
          rcases h5 with rfl | rfl
          · simp only [Message.about, Option.some.injEq, Prod.mk.injEq] at hab
            exact ⟨hab.2.symm, hab.1.symm⟩
          · simp only [Message.about, Option.some.injEq, Prod.mk.injEq] at hab
            exact ⟨hab.2.symm, hab.1.symm⟩
        · rcases List.mem_append.1 h5 with h6 | h6
          · obtain ⟨i, -, rfl⟩ := List.mem_map.1 h6
            simp only [Message.about, Option.some.injEq, Prod.mk.injEq] at hab
            exact ⟨hab.2.symm, hab.1.symm⟩
          · rw [List.mem_singleton] at h6; subst h6
            simp only [Message.about, Option.some.injEq, Prod.mk.injEq] at hab
            exact ⟨hab.2.symm, hab.1.symm⟩
        · cases h5
      obtain ⟨rfl, rfl⟩ := this
      exact ⟨st, hst, by rw [hid]; exact hk', hsol, h5⟩
  · obtain ⟨st, hst, h2⟩ := List.mem_flatMap.1 h1
    obtain ⟨k', -, h3⟩ := List.mem_flatMap.1 h2
    obtain ⟨-, -, rfl⟩ := List.mem_map.1 h3
    cases hab

theorem about_told (t : Topic) (p : Phase) : (Message.progress t p).about = (Message.progress t .pending).about := by
  cases t <;> rfl

theorem toldBy_report {x : Notice} {hd : Handler} {p : Topic × Progress} (h : p ∈ toldBy (x, hd)) :
    hd = .report p.1 ∧ p.2 = progressOf x := by
  cases x <;> cases hd <;> simp [toldBy] at h <;> (subst h; exact ⟨rfl, rfl⟩)

/-- What a closure says about an evaluation of a batch task. -/
theorem says_of_emits (h : Fits n task sols) (hid : (task.subtasks.values.map (·.id)).Nodup)
    (htc : ∀ st ∈ task.subtasks.values, st.testcases.Nodup)
    (hr : buildDag fs root task sols (start n cfg) = .ok (io, ev)) {checker : Checker}
    (ht : task.type = .batch checker) {st : Subtask} (hst : st ∈ task.subtasks.values) {k : Nat}
    (hk : k ∈ st.owned) {j : Nat} {e q : Execution} (he : e ∈ allExecs ev.dag)
    (hq : q ∈ allExecs ev.dag) (hre : Reports ev e.uuid (.evaluation st.id k j 0 1))
    (hrq : Reports ev q.uuid (.checker st.id k j)) {x : Notice} {hd : Handler}
    (hx : (x.exec, hd) ∈ ev.handlers) {m : Message} (hm : m ∈ emits (x, hd)) (hab : m.about = some (j, k)) :
    Says checker st.id k j e.uuid q.uuid x m := by
  unfold emits at hm
  rcases List.mem_append.1 hm with h1 | h1
  · obtain ⟨p, hp, rfl⟩ := List.mem_map.1 h1
    obtain ⟨rfl, h2⟩ := toldBy_report hp
    unfold ofTold at hab ⊢
    rw [about_told] at hab
    have hmem : p.1 ∈ messages task sols.length := by
      rcases report_expected h hr hx with ⟨path, h3⟩ | h3
      · rw [h3] at hab; cases hab
      · exact h3
    obtain ⟨st', hst', hk', hj, h4⟩ := messages_evaluation h hmem hab
    have := owner_unique h hst' hst hk' hk
    subst this
    obtain ⟨e', he', hu⟩ := handler_exec h hr hx
    simp only at hu
    rw [ht] at h4
    simp only [evaluationMessages, List.mem_cons, List.not_mem_nil, or_false] at h4
    rw [h2]
    rcases h4 with h5 | h5
    · rw [h5] at hmem hx ⊢
      refine .run ?_
      rw [← hu, reported_unique h hid htc hr hmem he' he (by rw [hu]; exact hx) hre]
    · rw [h5] at hmem hx ⊢
      refine .check ?_
      rw [← hu, reported_unique h hid htc hr hmem he' hq (by rw [hu]; exact hx) hrq]
  · obtain ⟨g, hg, rfl⟩ := List.mem_map.1 h1
    have hkey := givenBy_key hg
    simp only at hkey
    have hgk : g.testcase = k ∧ g.solution = j := by
      simp only [ofGiven, Message.about, Option.some.injEq, Prod.mk.injEq] at hab
      exact ⟨hab.2, hab.1⟩
    have hsc := (handlers_scoring h hr).1
    rw [ht, batch_scoring] at hsc
    have h2 : hd ∈ ev.handlers.filterMap scoringOf :=
      List.mem_filterMap.2 ⟨(x.exec, hd), hx, key_or_sender (p := (x.exec, hd)) (.inl (by rw [hkey]; simp))⟩
    rw [hsc] at h2
    obtain ⟨⟨a, b, d⟩, he3, h3⟩ := List.mem_flatMap.1 h2
    simp only [List.mem_cons, List.not_mem_nil, or_false] at h3
    have habd : (a, b, d) = g.key := by
      rcases h3 with h3 | h3
      · rw [h3] at hkey; exact Option.some.inj hkey
      · rw [h3, handler_key] at hkey; exact Option.some.inj hkey
    simp only [Given.key, Prod.mk.injEq] at habd
    obtain ⟨rfl, rfl, rfl⟩ := habd
    obtain ⟨hj, st', hst', hid', hk'⟩ := mem_evaluations.1 he3
    obtain ⟨hg1, hg2⟩ := hgk
    rw [hg1] at hk'
    have := owner_unique h hst' hst hk' hk
    subst this
    rw [← hid', hg1, hg2] at h3 he3
    rw [hg2] at hj
    obtain ⟨e', q', f, g1, g2, -, -, g5, g6, g7, g8, g9, g10⟩ := batch_executions h hr ht hst hk hj
    have ee := reported_unique h hid htc hr g9 g1 he g5 hre
    have eq := reported_unique h hid htc hr g10 g2 hq g6 hrq
    subst ee eq
    have h4 := batch_two (evaluations_nodup h) hsc he3 g7 g8
    have h5 : (x.exec, hd) ∈ ev.handlers.filter (fun p => decide (handlerKey p.2 = some (st'.id, k, j))) :=
      List.mem_filter.2 ⟨hx, by
        simp only [decide_eq_true_eq]
        rcases h3 with h3 | h3
        · rw [h3]; rfl
        · rw [h3, handler_key]⟩
    rw [h4] at h5
    have hgiven : ofGiven g = .testcaseScore st'.id k j g.score g.message := by
      simp only [ofGiven, hg1, hg2, ← hid']
    rw [hgiven]
    simp only [List.mem_cons, List.not_mem_nil, or_false, Prod.mk.injEq] at h5
    cases x with
    | started u => cases hd <;> cases hg
    | skipped u => cases hd <;> cases hg
    | done u o =>
      rcases h5 with ⟨h6, rfl⟩ | ⟨h6, rfl⟩
      · simp only [Notice.exec] at h6
        subst h6
        by_cases hs : o.status = .success
        · simp [givenBy, Outcome.success, hs] at hg
        · simp only [givenBy, show o.success = false by simp [Outcome.success, hs], Bool.false_eq_true,
            if_false, List.mem_singleton] at hg
          subst hg
          exact .zero o rfl hs
      · simp only [Notice.exec] at h6
        subst h6
        refine .verdict o _ _ rfl ?_
        cases checker with
        | whiteDiff =>
          simp only [verdict]
          by_cases hs : o.status = .success
          · simp only [Checker.handler, givenBy, show o.success = true by simp [Outcome.success, hs],
              if_true, List.mem_singleton] at hg
            subst hg; simp [hs]
          · simp only [Checker.handler, givenBy, show o.success = false by simp [Outcome.success, hs],
              Bool.false_eq_true, if_false, List.mem_singleton] at hg
            subst hg; simp [hs]
        | custom src =>
          simp only [verdict]
          by_cases hs : o.status = .success
          · simp only [Checker.handler, givenBy, show o.success = true by simp [Outcome.success, hs],
              if_true] at hg
            rw [if_pos hs]
            obtain ⟨y, hy, rfl⟩ := List.mem_map.1 hg
            exact List.mem_map.2 ⟨y, hy, rfl⟩
          · simp [Checker.handler, givenBy, Outcome.success, hs] at hg

/-- The messages a notice causes about an evaluation. -/
def noticeMsgs (ev : Eval) (j k : Nat) (x : Notice) : List Message :=
  ((ev.handlers.filter (fun p => p.1 = x.exec)).flatMap (fun p => emits (x, p.2))).filter (isAbout j k)

theorem invocations_msgs (ev : Eval) (j k : Nat) (ns : List Notice) :
    ((invocations ev.handlers ns).flatMap emits).filter (isAbout j k) = ns.flatMap (noticeMsgs ev j k) := by
  unfold invocations
  rw [List.flatMap_assoc, List.filter_flatMap]
  congr 1
  funext x
  unfold noticeMsgs
  rw [List.flatMap_map]

theorem mem_noticeMsgs {j k : Nat} {x : Notice} {m : Message} : m ∈ noticeMsgs ev j k x ↔
    ∃ hd, (x.exec, hd) ∈ ev.handlers ∧ m ∈ emits (x, hd) ∧ m.about = some (j, k) := by
  unfold noticeMsgs
  rw [List.mem_filter, List.mem_flatMap]
  simp only [isAbout, decide_eq_true_eq]
  constructor
  · rintro ⟨⟨⟨u, hd⟩, hp, h1⟩, h2⟩
    obtain ⟨hp, hu⟩ := List.mem_filter.1 hp
    simp only [decide_eq_true_eq] at hu
    subst hu
    exact ⟨hd, hp, h1, h2⟩
  · rintro ⟨hd, hp, h1, h2⟩
    exact ⟨⟨(x.exec, hd), List.mem_filter.2 ⟨hp, by simp⟩, h1⟩, h2⟩

/-- ... and it is said. -/
theorem says_run {j k st a b : Nat} {x : Notice} (hre : Reports ev x.exec (.evaluation st k j a b)) :
    .progress (.evaluation st k j a b) (.told (progressOf x)) ∈ noticeMsgs ev j k x := by
  refine mem_noticeMsgs.2 ⟨_, hre, ?_, rfl⟩
  cases x <;> simp [emits, toldBy, ofTold, progressOf]

theorem says_check {j k st : Nat} {x : Notice} (hre : Reports ev x.exec (.checker st k j)) :
    .progress (.checker st k j) (.told (progressOf x)) ∈ noticeMsgs ev j k x := by
  refine mem_noticeMsgs.2 ⟨_, hre, ?_, rfl⟩
  cases x <;> simp [emits, toldBy, ofTold, progressOf]

theorem says_zero {j k st : Nat} {u : ExecutionUuid} {o : Outcome} (hs : o.status ≠ .success)
    (hre : (u, .scoreZeroOnFailure st k j) ∈ ev.handlers) :
    .testcaseScore st k j (.num 0) o.shown ∈ noticeMsgs ev j k (.done u o) := by
  refine mem_noticeMsgs.2 ⟨_, hre, ?_, rfl⟩
  simp [emits, toldBy, givenBy, Outcome.success, hs, ofGiven]

theorem says_verdict {j k st : Nat} {u : ExecutionUuid} {o : Outcome} {checker : Checker} {s : Score.Score}
    {msg : String} (hs : (s, msg) ∈ verdict checker o)
    (hre : (u, checker.handler st k j) ∈ ev.handlers) :
    .testcaseScore st k j s msg ∈ noticeMsgs ev j k (.done u o) := by
  refine mem_noticeMsgs.2 ⟨_, hre, ?_, rfl⟩
  cases checker with
  | whiteDiff =>
    simp only [verdict] at hs
    by_cases h1 : o.status = .success
    · rw [if_pos h1, List.mem_singleton] at hs
      cases hs
      simp [emits, toldBy, givenBy, Outcome.success, h1, ofGiven, Checker.handler]
    · rw [if_neg h1, List.mem_singleton] at hs
      cases hs
      simp [emits, toldBy, givenBy, Outcome.success, h1, ofGiven, Checker.handler]
  | custom src =>
    simp only [verdict] at hs
    by_cases h1 : o.status = .success
    · rw [if_pos h1] at hs
      obtain ⟨y, hy, he⟩ := List.mem_map.1 hs
      cases he
      simp only [emits, toldBy, givenBy, Outcome.success, h1, Checker.handler, beq_self_eq_true, if_true,
        List.map_nil, List.nil_append, List.map_map]
      exact List.mem_map.2 ⟨s, hy, rfl⟩
    · rw [if_neg h1] at hs; cases hs

end TM.Ui
