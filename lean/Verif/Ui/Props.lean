import Verif.Ui.Known
/-!
# What the UI shows of an evaluation (C71, C72, C73, C74)

The client builds the DAG of a task, follows the notices of the server and sends messages to the UI, which
applies them.
-/
namespace TM.Ui
open TM TM.Build DagSpec Build.Spec Ui.Spec

variable {n : Uuid} {cfg : DagConfig} {fs : FS} {root : String} {task : Task} {sols : List Src}
  {io : GeneratedIo} {ev : Eval} {mx : Nat → Rat} {agg : Score.Aggregator} {order : Nat → List Nat}
  {ms : AMap Nat Score.Manager} {checks : List (Nat × List SolCheck)} {pick : Live → List Nat}
  {ns : List Notice} {l : Live}

/-! ## C73 -/

/-- **C73** The UI never panics: whatever the server says, all the messages of the client are about subtasks
and testcases of the task. -/
theorem ui_never_panics (h : Fits n task sols) (hk : Keyed task)
    (hr : buildDag fs root task sols (start n cfg) = .ok (io, ev))
    (hms : newManagers (scoreTask task mx agg) order (List.range sols.length) = some ms)
    (hpick : ∀ l, (scoreTask task mx agg).Order (pick l))
    (hl : Live.follow pick ev ms checks ns = some l) : ∃ s, l.ui task = some s := by
  obtain ⟨s, h1, -⟩ := applyAll_full (new_full task)
    (messages_known h hk hr List.nodup_range hms hpick hl)
  exact ⟨s, h1⟩

/-- The testcases of the subtasks are owned by a subtask. -/
def Covered (task : Task) : Prop :=
  ∀ st ∈ task.subtasks.values, ∀ k ∈ st.testcases, ∃ st' ∈ task.subtasks.values, k ∈ st'.owned

theorem keyed_ids (hk : Keyed task) : (task.subtasks.values.map (·.id)).Nodup := by
  have : task.subtasks.values.map (·.id) = task.subtasks.map (·.1) := by
    unfold AMap.values
    rw [List.map_map]
    apply List.map_congr_left
    intro p hp
    exact hk.2 _ _ (AMap.get?_of_mem hk.1 (k := p.1) (v := p.2) hp)
  rw [this]
  exact hk.1

theorem owned_keys (h : Fits n task sols)
    (hr : buildDag fs root task sols (start n cfg) = .ok (io, ev)) {st : Subtask}
    (hst : st ∈ task.subtasks.values) {k : Nat} (hk : k ∈ st.owned) : k ∈ task.testcases.keys := by
  obtain ⟨tc, -, -, -, h1, -⟩ := testcase_prepared h hr hst hk
  exact AMap.mem_keys_iff.2 ⟨tc, h1⟩

theorem scoreTask_valid (h : Fits n task sols) (hk : Keyed task) (hw : task.testcases.Wf)
    (hcov : Covered task) (hr : buildDag fs root task sols (start n cfg) = .ok (io, ev)) :
    (scoreTask task mx agg).Valid := by
  refine ⟨?_, hw, ?_⟩
  · unfold scoreTask
    simp only [List.map_map, Function.comp_def]
    exact hk.1
  · intro p hp tc htc
    unfold scoreTask at hp
    simp only [List.mem_map] at hp
    obtain ⟨q, hq, rfl⟩ := hp
    obtain ⟨st', hst', hown⟩ := hcov q.2 (List.mem_map.2 ⟨q, hq, rfl⟩) tc htc
    exact owned_keys h hr hst' hown

/-- The score managers of a task can be made. -/
theorem managers_made {t : Score.Task} (ht : t.Valid) (ho : ∀ j, t.Order (order j)) :
    ∀ js : List Nat, ∃ ms, newManagers t order js = some ms := by
  intro js
  induction js with
  | nil => exact ⟨[], rfl⟩
  | cons j js ih =>
    obtain ⟨r, hr⟩ := ih
    obtain ⟨m, hm⟩ := Score.numeric_never_panics (calls := []) ht (ho j) (by intro c hc; cases hc)
      (by intro c hc; cases hc)
    unfold Score.run at hm
    cases hn : Score.Manager.new t (order j) with
    | none => rw [hn] at hm; cases hm
    | some m0 => exact ⟨(j, m0) :: r, by simp only [newManagers, hn, hr]; rfl⟩

theorem score_some {t : Score.Task} (ht : t.Valid) (ho : ∀ j, t.Order (order j))
    (hpick : ∀ l, t.Order (pick l)) {js : List Nat} {given : List Given} {l : Live} {g : Given}
    (hi : Scored t order js given l) (hg : g.solution ∈ js)
    (hnum : ∀ x ∈ given ++ [g], ∃ q, x.score = .num q) : ∃ l', l.score pick g = some l' := by
  obtain ⟨calls, m, h1, h2, h3, h4, -⟩ := hi _ hg
  have hn : ∀ c ∈ calls, ∃ q, c.score = .num q := by
    intro c hc
    have : (c.subtask, c.testcase, c.score) ∈ calls.map (fun x => (x.subtask, x.testcase, x.score)) :=
      List.mem_map.2 ⟨c, hc, rfl⟩
    rw [h4] at this
    obtain ⟨x, hx, he⟩ := List.mem_map.1 this
    simp only [Prod.mk.injEq] at he
    rw [← he.2.2]
    exact hnum x (List.mem_append.2 (.inl (List.mem_filter.1 hx).1))
  obtain ⟨m2, h5⟩ := Score.numeric_never_panics (calls := calls ++ [⟨g.subtask, g.testcase, g.score, pick l⟩])
    ht (ho g.solution) (by
      intro c hc
      rcases List.mem_append.1 hc with hc | hc
      · exact h3 c hc
      · rw [List.mem_singleton] at hc; subst hc; exact hpick l) (by
      intro c hc
      rcases List.mem_append.1 hc with hc | hc
      · exact hn c hc
      · rw [List.mem_singleton] at hc; subst hc; exact hnum g (by simp))
  unfold Score.run at h2 h5
  cases hnew : Score.Manager.new t (order g.solution) with
  | none => rw [hnew] at h2; cases h2
  | some m0 =>
    rw [hnew] at h2 h5
    simp only at h2 h5
    rw [scores_append, h2] at h5
    simp only [Option.bind_some, Score.Manager.scores] at h5
    unfold Live.score
    simp only [h1]
    cases hs : m.score ⟨g.subtask, g.testcase, g.score, pick l⟩ with
    | none => rw [hs] at h5; cases h5
    | some m' => exact ⟨_, rfl⟩

theorem scores_some {t : Score.Task} (ht : t.Valid) (ho : ∀ j, t.Order (order j))
    (hpick : ∀ l, t.Order (pick l)) {js : List Nat} : ∀ {gs given : List Given} {l : Live},
    Scored t order js given l → (∀ g ∈ gs, g.solution ∈ js) →
    (∀ x ∈ given ++ gs, ∃ q, x.score = .num q) → ∃ l', l.scores pick gs = some l' := by
  intro gs
  induction gs with
  | nil => intro given l _ _ _; exact ⟨l, rfl⟩
  | cons g gs ih =>
    intro given l hi hg hnum
    obtain ⟨l1, h1⟩ := score_some ht ho hpick hi (hg g (by simp)) (fun x hx => hnum x (by
      rcases List.mem_append.1 hx with hx | hx
      · exact List.mem_append.2 (.inl hx)
      · exact List.mem_append.2 (.inr (by rw [List.mem_singleton.1 hx]; simp))))
    obtain ⟨l2, h2⟩ := ih (score_step hpick hi h1) (fun x hx => hg x (by simp [hx])) (fun x hx => hnum x (by
      simpa using hx))
    exact ⟨l2, by simp only [Live.scores, h1, h2]⟩

theorem invoke_grows : ∀ {xs : List (Notice × Handler)} {c c' : Client}, c.invoke xs = .ok c' →
    ∀ g ∈ c.given, g ∈ c'.given := by
  intro xs
  induction xs with
  | nil => intro c c' h; cases h; exact fun _ h => h
  | cons x xs ih =>
    intro c c' h g hg
    obtain ⟨nt, hd⟩ := x
    simp only [Client.invoke] at h
    split at h
    · cases h
    · next c1 h1 =>
      refine ih h g ?_
      rw [(callOne_grows (x := (nt, hd)) h1).1]
      exact List.mem_append.2 (.inl hg)

theorem invoke_some {t : Score.Task} (ht : t.Valid) (ho : ∀ j, t.Order (order j))
    (hpick : ∀ l, t.Order (pick l)) {js : List Nat} : ∀ {xs : List (Notice × Handler)} {l : Live} {c : Client},
    Scored t order js l.client.given l → l.client.invoke xs = .ok c →
    (∀ g ∈ c.given, g.solution ∈ js ∧ ∃ q, g.score = .num q) → ∃ l', l.invoke pick xs = some l' := by
  intro xs
  induction xs with
  | nil => intro l c _ _ _; exact ⟨l, rfl⟩
  | cons x xs ih =>
    intro l c hi hc hgood
    obtain ⟨nt, hd⟩ := x
    simp only [Client.invoke] at hc
    split at hc
    · cases hc
    · next c1 h1 =>
      have hgrow := (callOne_grows (x := (nt, hd)) h1).1
      have hsub : ∀ g ∈ c1.given, g ∈ c.given := invoke_grows hc
      have hstep : ∃ l1, l.callOne pick nt hd = some l1 := by
        unfold Live.callOne
        rw [h1]
        refine scores_some ht ho hpick (js := js) (given := l.client.given) ?_ ?_ ?_
        · intro j hj
          obtain ⟨calls, m, a1, a2, a3, a4, a5⟩ := hi j hj
          refine ⟨calls, m, a1, a2, a3, a4, ?_⟩
          simp only
          rw [List.filterMap_append, a5, scoreOf_told, List.append_nil]
        · intro g hg
          exact (hgood g (hsub g (by rw [hgrow]; exact List.mem_append.2 (.inr hg)))).1
        · intro g hg
          rw [← hgrow] at hg
          exact (hgood g (hsub g hg)).2
      obtain ⟨l1, h2⟩ := hstep
      have hcl := (live_callOne (x := (nt, hd)) h2).1
      simp only at hcl
      rw [h1] at hcl
      cases hcl
      obtain ⟨l2, h3⟩ := ih (callOne_step (x := (nt, hd)) hpick hi h2) hc hgood
      exact ⟨l2, by simp only [Live.invoke, h2, h3]⟩

/-- **C73** ... nor do the score managers: if the closures of the client do not abort the evaluation and
the scores are numbers, all the notices are followed. -/
theorem evaluation_followed (h : Fits n task sols) (hk : Keyed task) (hw : task.testcases.Wf)
    (hcov : Covered task) (htc : ∀ st ∈ task.subtasks.values, st.testcases.Nodup)
    (hr : buildDag fs root task sols (start n cfg) = .ok (io, ev))
    (ho : ∀ j, (scoreTask task mx agg).Order (order j))
    (hms : newManagers (scoreTask task mx agg) order (List.range sols.length) = some ms)
    (hpick : ∀ l, (scoreTask task mx agg).Order (pick l)) (hist : History ev.dag ns) (hnum : Numbers ns)
    {c : Client} (hc : ev.follow ns = .ok c) :
    ∃ l, Live.follow pick ev ms checks ns = some l ∧ l.client = c := by
  have hv := scoreTask_valid (mx := mx) (agg := agg) h hk hw hcov hr
  have hc' := hc
  rw [← follow_firsts, follow_invoke (firsts_once ns)] at hc'
  obtain ⟨l, hl⟩ := invoke_some (pick := pick) hv ho hpick (start_scored List.nodup_range hms ev checks)
    (xs := invocations ev.handlers (firsts ns)) hc' (by
      intro g hg
      refine ⟨List.mem_range.2 (only_evaluations_scored h hr hc hg).1, ?_⟩
      have hp : (g.score, g.message) ∈ scoresGiven c g.subtask g.testcase g.solution :=
        List.mem_map.2 ⟨g, List.mem_filter.2 ⟨hg, by simp⟩, rfl⟩
      exact given_numeric h (keyed_ids hk) htc hr hist hnum hc hp)
  have hl' : Live.follow pick ev ms checks ns = some l := by
    unfold Live.follow
    rw [live_notifyAll]
    exact hl
  refine ⟨l, hl', ?_⟩
  have := live_client hl'
  rw [hc] at this
  cases this; rfl

/-! ## C71 -/

/-- **C71** The status and the score the UI shows for a testcase of a solution of a batch task are what the
specification says of the outcomes of the solution and of the checker: for any order of the notices that
a server may send.  Missing: the communication tasks, see `communication_status_lost`. -/
theorem status_shown_partial (h : Fits n task sols) (hk : Keyed task)
    (htc : ∀ st ∈ task.subtasks.values, st.testcases.Nodup)
    (hr : buildDag fs root task sols (start n cfg) = .ok (io, ev)) {checker : Checker}
    (ht : task.type = .batch checker) {st : Subtask} (hst : st ∈ task.subtasks.values) {k : Nat}
    (hown : k ∈ st.owned) {j : Nat} (hj : j < sols.length) {e q : Execution} (he : e ∈ allExecs ev.dag)
    (hq : q ∈ allExecs ev.dag) (hre : Reports ev e.uuid (.evaluation st.id k j 0 1))
    (hrq : Reports ev q.uuid (.checker st.id k j))
    (hms : newManagers (scoreTask task mx agg) order (List.range sols.length) = some ms)
    (ho : Ordered ev.dag ns) (hl : Live.follow pick ev ms checks ns = some l) {s : State}
    (hs : l.ui task = some s) :
    ∃ x, (s.evaluations.get? j).bind (·.testcases.get? k) = some x ∧
      x.status = batchStatus checker e.uuid q.uuid ns ∧ x.score = batchScore checker e.uuid q.uuid ns := by
  obtain ⟨x, h1, h2, h3⟩ := shown_batch h (keyed_ids hk) htc hr ht hst hown hj he hq hre hrq hms ho hl hs
    (new_tc (owned_known h hr hst hown) j) rfl rfl
  refine ⟨x, ?_, h2, h3⟩
  -- the entry is there
  have hin : (Message.progress (.evaluation st.id k j 0 1) .pending) ∈ l.sent := by
    have hp : Topic.evaluation st.id k j 0 1 ∈ ev.pending := ((announced h hr).2 _).2 ⟨e, he, hre⟩
    unfold Live.follow at hl
    rw [live_notifyAll] at hl
    have := (live_invoke hl).2 (fun x hx => batch_answers h hr ht hx) j k
    have hmem : (Message.progress (.evaluation st.id k j 0 1) .pending) ∈ l.sent.filter (isAbout j k) := by
      rw [this]
      refine List.mem_append.2 (.inl (List.mem_filter.2 ⟨?_, by simp [isAbout, Message.about]⟩))
      unfold Live.start
      refine List.mem_append.2 (.inr (List.mem_cons_of_mem _ ?_))
      exact List.mem_map.2 ⟨_, hp, rfl⟩
    exact (List.mem_filter.1 hmem).1
  have hsome : (s.evaluations.get? j).isSome := touched hs hin rfl
  obtain ⟨E, hE⟩ := Option.isSome_iff_exists.1 hsome
  unfold State.tc State.evalOf at h1
  rw [hE] at h1
  rw [hE]
  exact h1

end TM.Ui
