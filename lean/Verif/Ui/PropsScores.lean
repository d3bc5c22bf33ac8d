import Verif.Ui.Props
/-!
# The scores the UI shows (C74) and the checks of the solutions at the end of an evaluation (C72)
-/
namespace TM.Ui
open TM TM.Build DagSpec Build.Spec Ui.Spec

variable {n : Uuid} {cfg : DagConfig} {fs : FS} {root : String} {task : Task} {sols : List Src}
  {io : GeneratedIo} {ev : Eval} {mx : Nat → Rat} {agg : Score.Aggregator} {order : Nat → List Nat}
  {ms : AMap Nat Score.Manager} {checks : List (Nat × List SolCheck)} {pick : Live → List Nat}
  {ns : List Notice} {l : Live}

/-! ## C74 -/

/-- The client has a score of the solution for all the testcases of the subtask. -/
def AllScored (c : Client) (j : Nat) (st : Subtask) : Prop :=
  ∀ k ∈ st.testcases, ∃ g ∈ c.given, g.solution = j ∧ g.testcase = k

theorem scoreTask_mem (hk : Keyed task) {st : Subtask} (hst : st ∈ task.subtasks.values) :
    (st.id, (⟨mx st.id, st.testcases⟩ : Score.Subtask)) ∈ (scoreTask task mx agg).subtasks := by
  have := AMap.mem_of_get? ((keyed_values hk).1 hst)
  unfold scoreTask
  exact List.mem_map.2 ⟨(st.id, st), this, rfl⟩

theorem scoreTask_mem' (hk : Keyed task) {p : Nat × Score.Subtask}
    (h : p ∈ (scoreTask task mx agg).subtasks) : ∃ st ∈ task.subtasks.values, p = (st.id, ⟨mx st.id, st.testcases⟩) := by
  unfold scoreTask at h
  obtain ⟨q, hq, rfl⟩ := List.mem_map.1 h
  have h1 := AMap.get?_of_mem hk.1 (k := q.1) (v := q.2) hq
  exact ⟨q.2, List.mem_map.2 ⟨q, hq, rfl⟩, by rw [hk.2 _ _ h1]⟩

/-- Calls and scores given. -/
theorem complete_iff {c : Client} {j : Nat} {calls : List Score.Call} (h : CallsFor c j calls)
    {st : Subtask} {m : Rat} : Score.Complete calls ⟨m, st.testcases⟩ ↔ AllScored c j st := by
  constructor
  · intro hc k hk
    obtain ⟨x, hx, he⟩ := hc k hk
    have : (x.subtask, x.testcase, x.score) ∈ calls.map (fun x => (x.subtask, x.testcase, x.score)) :=
      List.mem_map.2 ⟨x, hx, rfl⟩
    rw [h] at this
    obtain ⟨g, hg, he'⟩ := List.mem_map.1 this
    obtain ⟨hg, hs⟩ := List.mem_filter.1 hg
    simp only [Prod.mk.injEq] at he'
    exact ⟨g, hg, by simpa using hs, he'.2.1.trans he⟩
  · intro hc k hk
    obtain ⟨g, hg, hs, ht⟩ := hc k hk
    have : (g.subtask, g.testcase, g.score) ∈
        (c.given.filter (fun g => g.solution = j)).map (fun g => (g.subtask, g.testcase, g.score)) :=
      List.mem_map.2 ⟨g, List.mem_filter.2 ⟨hg, by simpa using hs⟩, rfl⟩
    rw [← h] at this
    obtain ⟨x, hx, he⟩ := List.mem_map.1 this
    simp only [Prod.mk.injEq] at he
    exact ⟨x, hx, he.2.1.trans ht⟩

/-- A testcase of a solution has one score. -/
theorem given_unique (h : Fits n task sols) (hid : (task.subtasks.values.map (·.id)).Nodup)
    (htc : ∀ st ∈ task.subtasks.values, st.testcases.Nodup)
    (hr : buildDag fs root task sols (start n cfg) = .ok (io, ev)) (hist : History ev.dag ns)
    (hnum : Numbers ns) {c : Client} (hc : ev.follow ns = .ok c) {g g' : Given} (hg : g ∈ c.given)
    (hg' : g' ∈ c.given) (hs : g.solution = g'.solution) (ht : g.testcase = g'.testcase) :
    g.score = g'.score := by
  obtain ⟨-, a, ha, ha1, ha2⟩ := only_evaluations_scored h hr hc hg
  obtain ⟨-, b, hb, hb1, hb2⟩ := only_evaluations_scored h hr hc hg'
  have := owner_unique h ha hb ha2 (ht ▸ hb2)
  subst this
  have hsub : g.subtask = g'.subtask := ha1.symm.trans hb1
  have e1 : (g.score, g.message) ∈ scoresGiven c g.subtask g.testcase g.solution :=
    List.mem_map.2 ⟨g, List.mem_filter.2 ⟨hg, by simp⟩, rfl⟩
  have e2 : (g'.score, g'.message) ∈ scoresGiven c g.subtask g.testcase g.solution :=
    List.mem_map.2 ⟨g', List.mem_filter.2 ⟨hg', by simp [hs, ht, hsub]⟩, rfl⟩
  have l1 := scored_at_most_once h hid htc hr hist hnum hc g.subtask g.testcase g.solution
  match hx : scoresGiven c g.subtask g.testcase g.solution with
  | [] => rw [hx] at e1; cases e1
  | _ :: _ :: _ => rw [hx] at l1; simp at l1
  | [x] =>
    rw [hx, List.mem_singleton] at e1 e2
    rw [← e2] at e1
    exact (Prod.mk.inj e1).1

theorem calls_numeric (h : Fits n task sols) (hid : (task.subtasks.values.map (·.id)).Nodup)
    (htc : ∀ st ∈ task.subtasks.values, st.testcases.Nodup)
    (hr : buildDag fs root task sols (start n cfg) = .ok (io, ev)) (hist : History ev.dag ns)
    (hnum : Numbers ns) {c : Client} (hc : ev.follow ns = .ok c) {j : Nat} {calls : List Score.Call}
    (hcf : CallsFor c j calls) : Score.Numeric calls := by
  intro x hx
  have : (x.subtask, x.testcase, x.score) ∈ calls.map (fun x => (x.subtask, x.testcase, x.score)) :=
    List.mem_map.2 ⟨x, hx, rfl⟩
  rw [hcf] at this
  obtain ⟨g, hg, he⟩ := List.mem_map.1 this
  obtain ⟨hg, -⟩ := List.mem_filter.1 hg
  simp only [Prod.mk.injEq] at he
  rw [← he.2.2]
  have hp : (g.score, g.message) ∈ scoresGiven c g.subtask g.testcase g.solution :=
    List.mem_map.2 ⟨g, List.mem_filter.2 ⟨hg, by simp⟩, rfl⟩
  exact given_numeric h hid htc hr hist hnum hc hp

theorem new_scores (j : Nat) : ((State.new task).evalOf task j).score = none ∧
    ∀ st x, ((State.new task).evalOf task j).subtasks.get? st = some x → x = {} := by
  unfold State.evalOf State.new
  simp only [AMap.get?_nil, Option.getD_none, SolEval.new]
  exact ⟨trivial, fun st x hx => get?_const _ _ _ hx⟩

/-- **C74** The UI shows the score of a solution on a subtask as soon as all the testcases of the subtask
have a score, and not before: it is the maximum score of the subtask times the aggregation of their
scores. -/
theorem subtask_score_shown (h : Fits n task sols) (hk : Keyed task) (hw : task.testcases.Wf)
    (hcov : Covered task) (htc : ∀ st ∈ task.subtasks.values, st.testcases.Nodup)
    (hr : buildDag fs root task sols (start n cfg) = .ok (io, ev))
    (ho : ∀ j, (scoreTask task mx agg).Order (order j))
    (hms : newManagers (scoreTask task mx agg) order (List.range sols.length) = some ms)
    (hpick : ∀ l, (scoreTask task mx agg).Order (pick l)) (hist : History ev.dag ns) (hnum : Numbers ns)
    (hl : Live.follow pick ev ms checks ns = some l) {s : State} (hs : l.ui task = some s) {j : Nat}
    (hj : j < sols.length) {st : Subtask} (hst : st ∈ task.subtasks.values) :
    ∃ x, (s.evalOf task j).subtasks.get? st.id = some x ∧
      (AllScored l.client j st → ∃ (f : Nat → Rat) (q : Rat),
        (∀ g ∈ l.client.given, g.solution = j → g.testcase ∈ st.testcases → g.score = .num (f g.testcase)) ∧
        Score.IsAggregate agg (st.testcases.map f) q ∧ x.normalized = some (.num q) ∧
        x.score = some (.num (mx st.id * q))) ∧
      (¬ AllScored l.client j st → x = {}) := by
  have hid := keyed_ids hk
  have hfol := live_client hl
  have hv := scoreTask_valid (mx := mx) (agg := agg) h hk hw hcov hr
  obtain ⟨calls, m, -, h2, h3, h4, h5⟩ := follow_scored List.nodup_range hms hpick hl j (List.mem_range.2 hj)
  have hcf : CallsFor l.client j calls := h4
  have hnumc := calls_numeric h hid htc hr hist hnum hfol hcf
  have hmem := scoreTask_mem (mx := mx) (agg := agg) hk hst
  obtain ⟨a1, a2⟩ := Score.subtask_scored_once hv (ho j) h3 h2 hmem
  have hshow := applyAll_scores (task := task) j hs
  rw [h5] at hshow
  have hsub : (s.evalOf task j).subtasks = (shownScores task s j).2 := rfl
  rw [hsub, hshow, fold_subtask]
  obtain ⟨x0, hx0⟩ := (new_full task).sts j st.id (List.mem_map.2 ⟨st, hst, rfl⟩)
  have hx0' : (shownScores task (State.new task) j).2.get? st.id = some x0 := hx0
  by_cases hc : AllScored l.client j st
  · obtain ⟨sc, nm, hmsg⟩ := a1 ((complete_iff hcf).2 hc)
    rw [hmsg]
    refine ⟨⟨some sc, some nm⟩, rfl, ?_, fun hn => absurd hc hn⟩
    intro _
    have hin : Score.Msg.subtaskScore st.id sc nm ∈ m.sent := by
      have : Score.Msg.subtaskScore st.id sc nm ∈ Score.subtaskMsgs m.sent st.id := by rw [hmsg]; simp
      exact (List.mem_filter.1 this).1
    obtain ⟨pre, f, q, b1, b2, b3, b4, b5⟩ := Score.subtask_score_value hv (ho j) h3 hnumc h2 hmem hin
    refine ⟨f, q, ?_, b3, by rw [b4], by rw [b5]⟩
    intro g hg hgs hgt
    obtain ⟨x, hx, hxt, hxs⟩ := Score.lastScore_mem (b2 _ hgt)
    have hxc : x ∈ calls := b1.1.subset hx
    have : (x.subtask, x.testcase, x.score) ∈ calls.map (fun x => (x.subtask, x.testcase, x.score)) :=
      List.mem_map.2 ⟨x, hxc, rfl⟩
    rw [hcf] at this
    obtain ⟨g', hg', he⟩ := List.mem_map.1 this
    obtain ⟨hg', hs'⟩ := List.mem_filter.1 hg'
    simp only [Prod.mk.injEq, decide_eq_true_eq] at he hs'
    rw [given_unique h hid htc hr hist hnum hfol hg hg' (hgs.trans hs'.symm) (hxt.symm.trans he.2.1.symm),
      he.2.2, hxs]
  · rw [a2 (fun hcc => hc ((complete_iff hcf).1 hcc))]
    exact ⟨x0, hx0', fun hn => absurd hn hc, fun _ => (new_scores j).2 _ _ hx0⟩

/-- **C74** ... and the score of a solution when all the subtasks have one: their sum. -/
theorem solution_score_shown (h : Fits n task sols) (hk : Keyed task) (hw : task.testcases.Wf)
    (hcov : Covered task) (htc : ∀ st ∈ task.subtasks.values, st.testcases.Nodup)
    (hr : buildDag fs root task sols (start n cfg) = .ok (io, ev))
    (ho : ∀ j, (scoreTask task mx agg).Order (order j))
    (hms : newManagers (scoreTask task mx agg) order (List.range sols.length) = some ms)
    (hpick : ∀ l, (scoreTask task mx agg).Order (pick l)) (hist : History ev.dag ns) (hnum : Numbers ns)
    (hl : Live.follow pick ev ms checks ns = some l) {s : State} (hs : l.ui task = some s) {j : Nat}
    (hj : j < sols.length) :
    ((∀ st ∈ task.subtasks.values, AllScored l.client j st) → task.subtasks ≠ [] →
      ∃ v : Nat → Rat, (∀ st ∈ task.subtasks.values,
          ((s.evalOf task j).subtasks.get? st.id).bind (·.score) = some (.num (v st.id))) ∧
        (s.evalOf task j).score = some (.num (Score.total (task.subtasks.values.map (fun st => v st.id))))) ∧
    ((∃ st ∈ task.subtasks.values, ¬ AllScored l.client j st) ∨ task.subtasks = [] →
      (s.evalOf task j).score = none) := by
  have hid := keyed_ids hk
  have hfol := live_client hl
  have hv := scoreTask_valid (mx := mx) (agg := agg) h hk hw hcov hr
  obtain ⟨calls, m, -, h2, h3, h4, h5⟩ := follow_scored List.nodup_range hms hpick hl j (List.mem_range.2 hj)
  have hcf : CallsFor l.client j calls := h4
  have hnumc := calls_numeric h hid htc hr hist hnum hfol hcf
  have hshow := applyAll_scores (task := task) j hs
  rw [h5] at hshow
  have hsc : (s.evalOf task j).score = (shownScores task s j).1 := rfl
  have hsub : (s.evalOf task j).subtasks = (shownScores task s j).2 := rfl
  obtain ⟨a1, a2⟩ := Score.task_scored_once hv (ho j) h3 h2
  rw [hsc, hsub, hshow, fold_task]
  have hnil : (scoreTask task mx agg).subtasks = [] ↔ task.subtasks = [] := by
    unfold scoreTask; simp
  have hnew : (shownScores task (State.new task) j).1 = none := (new_scores (task := task) j).1
  constructor
  · intro hall hne
    obtain ⟨sc, hmsg⟩ := a1 (fun p hp => by
      obtain ⟨st, hst, rfl⟩ := scoreTask_mem' hk hp
      exact (complete_iff hcf).2 (hall st hst)) (fun hn => hne (hnil.1 hn))
    have hin : Score.Msg.taskScore sc ∈ m.sent := by
      have : Score.Msg.taskScore sc ∈ Score.taskMsgs m.sent := by rw [hmsg]; simp
      exact (List.mem_filter.1 this).1
    obtain ⟨v, b1, b2⟩ := Score.task_score_value hv (ho j) h3 hnumc h2 hin
    refine ⟨v, ?_, ?_⟩
    · intro st hst
      rw [fold_subtask]
      have hmem := scoreTask_mem (mx := mx) (agg := agg) hk hst
      obtain ⟨nm, hm⟩ := b1 _ hmem
      obtain ⟨sc', nm', hmsg'⟩ := (Score.subtask_scored_once hv (ho j) h3 h2 hmem).1
        ((complete_iff hcf).2 (hall st hst))
      have : Score.Msg.subtaskScore st.id (.num (v st.id)) nm ∈ Score.subtaskMsgs m.sent st.id :=
        List.mem_filter.2 ⟨hm, by simp⟩
      rw [hmsg', List.mem_singleton] at this
      rw [hmsg']
      cases this
      rfl
    · rw [hmsg]
      simp only [List.getLast?_singleton]
      rw [b2]
      congr 3
      unfold scoreTask AMap.values
      simp only [List.map_map]
      apply List.map_congr_left
      intro p hp
      simp only [Function.comp]
      rw [hk.2 _ _ (AMap.get?_of_mem hk.1 (k := p.1) (v := p.2) hp)]
  · intro hn
    rw [a2 (by
      rcases hn with ⟨st, hst, hn⟩ | hn
      · exact .inl ⟨_, scoreTask_mem hk hst, fun hc => hn ((complete_iff hcf).1 hc)⟩
      · exact .inr (hnil.2 hn))]
    exact hnew

/-! ## C72 -/

theorem batch_result_same {ns ns' : List Notice} (hsame : SameOutcomes ns ns') (checker : Checker)
    (e q : ExecutionUuid) :
    outcomeShown (batchStatus checker e q ns) = outcomeShown (batchStatus checker e q ns') := by
  unfold batchStatus
  rw [hsame e, hsame q]
  cases outcomeOf ns' e with
  | none =>
    simp only
    split <;> split <;> (repeat' split) <;> rfl
  | some o =>
    simp only
    split
    · rfl
    · cases (outcomeOf ns' q).bind (fun o' => (verdict checker o').head?) with
      | some p => rfl
      | none =>
        simp only
        split <;> split <;> rfl

theorem apply_solutions {task : Task} {s s' : State} {m : Message} (h : s.apply task m = some s')
    (hm : ∀ x, m ≠ .solutions x) : s'.solutions = s.solutions := by
  have tcs : ∀ {s s' : State} {sol tc : Nat} {f : TcEval → Option TcEval},
      s.onTc task sol tc f = some s' → s'.solutions = s.solutions := by
    intro s s' sol tc f h
    unfold State.onTc at h
    simp only at h
    split at h
    · cases h
    · split at h <;> cases h; rfl
  cases m with
  | other => cases h; rfl
  | solutions x => exact absurd rfl (hm x)
  | progress tp p =>
    cases tp with
    | compilation path => cases h; rfl
    | generation st k => exact (onGen_tc h).2
    | validation st k =>
      simp only [State.apply] at h
      split at h
      · cases h
      · split at h
        · cases h; rfl
        · exact (onGen_tc h).2
    | officialOutput st k => exact (onGen_tc h).2
    | evaluation st k j part parts => simp only [State.apply] at h; exact tcs h
    | checker st k j => simp only [State.apply] at h; exact tcs h
    | booklet name => cases h; rfl
    | bookletDependency booklet name step =>
      simp only [State.apply] at h
      split at h <;> cases h; rfl
  | testcaseScore => simp only [State.apply] at h; exact tcs h
  | subtaskScore =>
    simp only [State.apply] at h
    split at h <;> cases h; rfl
  | taskScore => simp only [State.apply] at h; cases h; rfl

theorem applyAll_solutions {task : Task} {x : List (Nat × List SolCheck)} : ∀ {ms : List Message} {s s' : State},
    s.applyAll task ms = some s' → (∀ y, .solutions y ∈ ms → y = x) →
    (.solutions x ∈ ms ∨ s.solutions = x.foldl (fun (m : AMap Nat (List SolCheck)) p => m.insert p.1 p.2) []) →
    s'.solutions = x.foldl (fun (m : AMap Nat (List SolCheck)) p => m.insert p.1 p.2) [] := by
  intro ms
  induction ms with
  | nil =>
    intro s s' h _ hor
    cases h
    rcases hor with h | h
    · cases h
    · exact h
  | cons m ms ih =>
    intro s s' h hall hor
    simp only [State.applyAll] at h
    split at h
    · cases h
    · next s1 h1 =>
      refine ih h (fun y hy => hall y (by simp [hy])) ?_
      by_cases hm : ∃ y, m = .solutions y
      · obtain ⟨y, rfl⟩ := hm
        have := hall y (by simp)
        subst this
        right
        simp only [State.apply] at h1
        cases h1; rfl
      · have hne : ∀ y, m ≠ .solutions y := fun y hy => hm ⟨y, hy⟩
        rcases hor with hor | hor
        · rcases List.mem_cons.1 hor with hor | hor
          · exact absurd hor.symm (hne x)
          · exact .inl hor
        · right; rw [apply_solutions h1 hne]; exact hor

theorem score_sent_prefix {l l' : Live} {g : Given} (h : l.score pick g = some l') : l.sent <+: l'.sent := by
  unfold Live.score at h
  split at h
  · cases h
  · split at h
    · cases h
    · cases h; exact List.prefix_append _ _

theorem scores_sent_prefix : ∀ {gs : List Given} {l l' : Live}, l.scores pick gs = some l' → l.sent <+: l'.sent := by
  intro gs
  induction gs with
  | nil => intro l l' h; cases h; exact List.prefix_refl _
  | cons g gs ih =>
    intro l l' h
    simp only [Live.scores] at h
    split at h
    · cases h
    · next l1 h1 => exact (score_sent_prefix h1).trans (ih h)

theorem invoke_sent_prefix : ∀ {xs : List (Notice × Handler)} {l l' : Live}, l.invoke pick xs = some l' →
    l.sent <+: l'.sent := by
  intro xs
  induction xs with
  | nil => intro l l' h; cases h; exact List.prefix_refl _
  | cons x xs ih =>
    intro l l' h
    obtain ⟨nt, hd⟩ := x
    simp only [Live.invoke] at h
    split at h
    · cases h
    · next l1 h1 =>
      refine List.IsPrefix.trans ?_ (ih h)
      unfold Live.callOne at h1
      split at h1
      · cases h1
      · exact (List.prefix_append _ _).trans (scores_sent_prefix h1)

theorem follow_sent_prefix (hl : Live.follow pick ev ms checks ns = some l) :
    (Live.start ev ms checks).sent <+: l.sent := by
  unfold Live.follow at hl
  rw [live_notifyAll] at hl
  exact invoke_sent_prefix hl

/-- The solutions and their checks are known to the UI. -/
theorem solutions_shown {t : Score.Task} {js : List Nat} (hms : newManagers t order js = some ms)
    (hl : Live.follow pick ev ms checks ns = some l) {s : State} (hs : l.ui task = some s) :
    s.solutions = checks.foldl (fun (m : AMap Nat (List SolCheck)) p => m.insert p.1 p.2) [] := by
  refine applyAll_solutions hs ?_ (.inl ?_)
  · intro y hy
    rcases (follow_sourced hms hl).2 _ hy with h1 | ⟨p, -, h1⟩ | ⟨j, -, x, hx⟩
    · unfold Live.start at h1
      simp only [List.mem_append, List.mem_cons, List.mem_flatMap, List.mem_map, reduceCtorEq, false_or,
        and_false, exists_false, or_false] at h1
      rcases h1 with ⟨q, -, x, -, h1⟩ | h1
      · cases x <;> cases h1
      · cases h1; rfl
    · cases h1
    · cases hx
  · refine (follow_sent_prefix hl).subset ?_
    unfold Live.start
    exact List.mem_append.2 (.inr (by simp))

/-- **C72** At the end of the evaluation of a batch task the outcomes of the checks depend only on how the
executions ended, not on the order in which the server announced it. -/
theorem checks_schedule_independent (h : Fits n task sols) (hk : Keyed task) (hw : task.testcases.Wf)
    (hcov : Covered task) (htc : ∀ st ∈ task.subtasks.values, st.testcases.Nodup)
    (hr : buildDag fs root task sols (start n cfg) = .ok (io, ev)) {checker : Checker}
    (ht : task.type = .batch checker)
    {order' : Nat → List Nat} {ms' : AMap Nat Score.Manager} {pick' : Live → List Nat} {ns' : List Notice} {l' : Live}
    (horder : ∀ j, (scoreTask task mx agg).Order (order j)) (horder' : ∀ j, (scoreTask task mx agg).Order (order' j))
    (hms : newManagers (scoreTask task mx agg) order (List.range sols.length) = some ms)
    (hms' : newManagers (scoreTask task mx agg) order' (List.range sols.length) = some ms')
    (hpick : ∀ l, (scoreTask task mx agg).Order (pick l)) (hpick' : ∀ l, (scoreTask task mx agg).Order (pick' l))
    (hchecks : ∀ p ∈ checks, p.1 < sols.length)
    (ho : Ordered ev.dag ns) (ho' : Ordered ev.dag ns') (hsame : SameOutcomes ns ns')
    (hl : Live.follow pick ev ms checks ns = some l) (hl' : Live.follow pick' ev ms' checks ns' = some l')
    {s s' : State} (hs : l.ui task = some s) (hs' : l'.ui task = some s') (nfkc : List Char → List Char)
    {r r' : List CheckOutcome} (hrun : runSolutionChecks task nfkc s = some r)
    (hrun' : runSolutionChecks task nfkc s' = some r') (o : CheckOutcome) : o ∈ r ↔ o ∈ r' := by
  have hv := scoreTask_valid (mx := mx) (agg := agg) h hk hw hcov hr
  -- the results are the same
  have hres : ∀ j < sols.length, ∀ st ∈ task.subtasks.values, ∀ k ∈ st.testcases,
      resultOf s j k = resultOf s' j k := by
    intro j hj st hst k hkt
    obtain ⟨st', hst', hown⟩ := hcov st hst k hkt
    obtain ⟨e, q, f, g1, g2, -, -, g5, g6, -⟩ := batch_executions h hr ht hst' hown hj
    obtain ⟨x, x1, x2, -⟩ := status_shown_partial h hk htc hr ht hst' hown hj g1 g2 g5 g6 hms ho hl hs
    obtain ⟨y, y1, y2, -⟩ := status_shown_partial h hk htc hr ht hst' hown hj g1 g2 g5 g6 hms' ho' hl' hs'
    have rx : resultOf s j k = outcomeShown x.status := by
      unfold resultOf
      cases he : s.evaluations.get? j with
      | none => rw [he] at x1; cases x1
      | some E =>
        rw [he] at x1
        simp only [Option.bind_some] at x1 ⊢
        rw [x1]; rfl
    have ry : resultOf s' j k = outcomeShown y.status := by
      unfold resultOf
      cases he : s'.evaluations.get? j with
      | none => rw [he] at y1; cases y1
      | some E =>
        rw [he] at y1
        simp only [Option.bind_some] at y1 ⊢
        rw [y1]; rfl
    rw [rx, ry, x2, y2]
    exact batch_result_same hsame checker e.uuid q.uuid
  have hsol := solutions_shown hms hl hs
  have hsol' := solutions_shown hms' hl' hs'
  have hkeys : ∀ p ∈ s.solutions, p.1 < sols.length := by
    rw [hsol]
    have : ∀ (c : List (Nat × List SolCheck)) (a : AMap Nat (List SolCheck)), (∀ p ∈ c, p.1 < sols.length) →
        (∀ p ∈ a, p.1 < sols.length) → ∀ p ∈ c.foldl (fun (m : AMap Nat (List SolCheck)) p => m.insert p.1 p.2) a, p.1 < sols.length := by
      intro c
      induction c with
      | nil => intro a _ ha; exact ha
      | cons x c ih =>
        intro a hc ha
        rw [List.foldl_cons]
        refine ih _ (fun p hp => hc p (by simp [hp])) ?_
        intro p hp
        unfold AMap.insert AMap.erase at hp
        rcases List.mem_cons.1 hp with hp | hp
        · rw [hp]; exact hc x (by simp)
        · exact ha p (List.mem_filter.1 hp).1
    exact this checks [] hchecks (by intro p hp; cases hp)
  -- every solution has an entry
  have hentry : ∀ {order : Nat → List Nat} {ms : AMap Nat Score.Manager} {pick : Live → List Nat}
      {ns : List Notice} {l : Live} {s : State}, (∀ j, (scoreTask task mx agg).Order (order j)) →
      newManagers (scoreTask task mx agg) order (List.range sols.length) = some ms →
      (∀ l, (scoreTask task mx agg).Order (pick l)) → Ordered ev.dag ns →
      Live.follow pick ev ms checks ns = some l → l.ui task = some s →
      ∀ j < sols.length, ∀ st ∈ task.subtasks.values, (s.evaluations.get? j).isSome := by
    intro order ms pick ns l s hor hms hpick ho hl hs j hj st hst
    cases hts : st.testcases with
    | cons k rest =>
      obtain ⟨st', hst', hown⟩ := hcov st hst k (by rw [hts]; simp)
      obtain ⟨e, q, f, g1, g2, -, -, g5, g6, -⟩ := batch_executions h hr ht hst' hown hj
      obtain ⟨x, x1, -⟩ := status_shown_partial h hk htc hr ht hst' hown hj g1 g2 g5 g6 hms ho hl hs
      cases he : s.evaluations.get? j with
      | none => rw [he] at x1; cases x1
      | some E => rfl
    | nil =>
      obtain ⟨calls, m, -, h2, h3, -, h5⟩ := follow_scored List.nodup_range hms hpick hl j (List.mem_range.2 hj)
      obtain ⟨sc, nm, hmsg⟩ := (Score.subtask_scored_once hv (hor j) h3 h2
        (scoreTask_mem (mx := mx) (agg := agg) hk hst)).1 (by
          intro tc htc; rw [hts] at htc; cases htc)
      have hin : Score.Msg.subtaskScore st.id sc nm ∈ m.sent := by
        have : Score.Msg.subtaskScore st.id sc nm ∈ Score.subtaskMsgs m.sent st.id := by rw [hmsg]; simp
        exact (List.mem_filter.1 this).1
      rw [← h5] at hin
      obtain ⟨msg, hm1, hm2⟩ := List.mem_filterMap.1 hin
      refine touched hs hm1 ?_
      cases msg with
      | subtaskScore a b c d => simp only [scoreOf] at hm2; split at hm2 <;> cases hm2; next hb => rw [← hb]; rfl
      | testcaseScore => simp only [scoreOf] at hm2; split at hm2 <;> cases hm2
      | taskScore => simp only [scoreOf] at hm2; split at hm2 <;> cases hm2
      | _ => cases hm2
  rw [checks_exact hk hrun, checks_exact hk hrun', hsol, hsol']
  have hback : s.solutions = s'.solutions := hsol.trans hsol'.symm
  constructor
  · rintro ⟨cs, st, name, outs, a1, a2, a3, a4, a5, -, a7, a8⟩
    have hst : st ∈ task.subtasks.values := List.mem_map.2 ⟨_, AMap.mem_of_get? a3, rfl⟩
    have hj : o.solution < sols.length := hkeys (o.solution, cs) (by rw [hsol]; exact a1)
    refine ⟨cs, st, name, outs, a1, a2, a3, a4, a5, hentry horder' hms' hpick' ho' hl' hs' _ hj st hst, ?_, a8⟩
    rw [← a7]
    apply List.map_congr_left
    intro k hkt
    exact (hres _ hj st hst k hkt).symm
  · rintro ⟨cs, st, name, outs, a1, a2, a3, a4, a5, -, a7, a8⟩
    have hst : st ∈ task.subtasks.values := List.mem_map.2 ⟨_, AMap.mem_of_get? a3, rfl⟩
    have hj : o.solution < sols.length := hkeys (o.solution, cs) (by rw [hsol]; exact a1)
    refine ⟨cs, st, name, outs, a1, a2, a3, a4, a5, hentry horder hms hpick ho hl hs _ hj st hst, ?_, a8⟩
    rw [← a7]
    apply List.map_congr_left
    intro k hkt
    exact hres _ hj st hst k hkt

end TM.Ui
