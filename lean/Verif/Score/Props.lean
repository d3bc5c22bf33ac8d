import Verif.Score.Lemmas
/-!
# Properties of the scores of a solution (C32)
-/
namespace TM.Score

/-- The score of a subtask is emitted when all its testcases have been scored, not before, and only
once: for any history of scores (also with several scores for one testcase), any task and any
iteration orders. -/
theorem subtask_scored_once {t : Task} (ht : t.Valid) {order : List SubtaskId} (ho : t.Order order)
    {calls : List Call} (hcs : t.Calls calls) {m : Manager} (h : run t order calls = some m)
    {st : SubtaskId} {info : Subtask} (hst : (st, info) ∈ t.subtasks) :
    (Complete calls info → ∃ s n, subtaskMsgs m.sent st = [.subtaskScore st s n]) ∧
    (¬ Complete calls info → subtaskMsgs m.sent st = []) := by
  have hi := run_settled ht ho hcs h
  have hget : t.subtasks.get? st = some info := AMap.get?_of_mem ht.subtasks hst
  constructor
  · intro hc
    obtain ⟨s, hs⟩ := hi.settled st info hget hc
    obtain ⟨pre, n, _, _, _, h4⟩ := hi.scored st s info hs hget
    exact ⟨s, n, h4⟩
  · intro hc
    apply hi.unscored
    intro s hs
    obtain ⟨pre, n, h1, _, _, _⟩ := hi.scored st s info hs hget
    exact hc (h1.2.1.mono h1.1)

/-- The score emitted for a subtask is its maximum score times the aggregation of the scores its
testcases have when the last of them is scored for the first time. -/
theorem subtask_score_value {t : Task} (ht : t.Valid) {order : List SubtaskId} (ho : t.Order order)
    {calls : List Call} (hcs : t.Calls calls) (hnum : Numeric calls) {m : Manager}
    (h : run t order calls = some m) {st : SubtaskId} {info : Subtask}
    (hst : (st, info) ∈ t.subtasks) {s n : Score} (hmsg : .subtaskScore st s n ∈ m.sent) :
    ∃ (pre : List Call) (f : TestcaseId → Rat) (q : Rat), FirstComplete calls pre info ∧
      (∀ tc ∈ info.testcases, lastScore pre tc = some (.num (f tc))) ∧
      IsAggregate t.aggregator (info.testcases.map f) q ∧
      n = .num q ∧ s = .num (info.maxScore * q) := by
  have hi := run_settled ht ho hcs h
  have hget : t.subtasks.get? st = some info := AMap.get?_of_mem ht.subtasks hst
  have hmem : Msg.subtaskScore st s n ∈ subtaskMsgs m.sent st := by
    simp [subtaskMsgs, hmsg]
  by_cases hsc : ∃ s', m.subtaskScores.get? st = some (some s')
  · obtain ⟨s', hs'⟩ := hsc
    obtain ⟨pre, n', h1, h2, h3, h4⟩ := hi.scored st s' info hs' hget
    rw [h4] at hmem
    simp only [List.mem_singleton, Msg.subtaskScore.injEq] at hmem
    obtain ⟨-, rfl, rfl⟩ := hmem
    have hf : ∀ tc ∈ info.testcases, ∃ q, lastScore pre tc = some (.num q) := by
      intro tc htc
      have := (lastScore_isSome pre tc).2 (h1.2.1 tc htc)
      obtain ⟨x, hx⟩ := Option.isSome_iff_exists.1 this
      obtain ⟨c, hc, _, hcs'⟩ := lastScore_mem hx
      obtain ⟨q, hq⟩ := hnum c (h1.1.subset hc)
      exact ⟨q, by rw [hx, ← hcs', hq]⟩
    let f : TestcaseId → Rat := fun tc => match lastScore pre tc with
      | some (.num q) => q
      | _ => 0
    have hf' : ∀ tc ∈ info.testcases, lastScore pre tc = some (.num (f tc)) := by
      intro tc htc
      obtain ⟨q, hq⟩ := hf tc htc
      simp only [f, hq]
    have hl : info.testcases.map (fun tc => (lastScore pre tc).getD .nan) =
        (info.testcases.map f).map .num := by
      rw [List.map_map]
      apply List.map_congr_left
      intro tc htc
      simp [hf' tc htc]
    obtain ⟨q, h5, h6⟩ := aggregate_num t.aggregator (info.testcases.map f)
    rw [hl, h5] at h2
    simp only [Option.some.injEq] at h2
    subst h2
    exact ⟨pre, f, q, h1, hf', h6, rfl, h3⟩
  · rw [hi.unscored st (fun s' hs' => hsc ⟨s', hs'⟩)] at hmem
    cases hmem

/-- The score of the task is emitted when all the subtasks are scored, not before, and only once.
(A task without subtasks never gets a score.) -/
theorem task_scored_once {t : Task} (ht : t.Valid) {order : List SubtaskId} (ho : t.Order order)
    {calls : List Call} (hcs : t.Calls calls) {m : Manager} (h : run t order calls = some m) :
    ((∀ p ∈ t.subtasks, Complete calls p.2) → t.subtasks ≠ [] →
      ∃ s, taskMsgs m.sent = [.taskScore s]) ∧
    ((∃ p ∈ t.subtasks, ¬ Complete calls p.2) ∨ t.subtasks = [] → taskMsgs m.sent = []) := by
  have hi := run_settled ht ho hcs h
  have hav := all_values_iff hi.wf
  rw [hi.task]
  constructor
  · intro hc hne
    rw [if_pos]
    · exact ⟨_, rfl⟩
    · refine ⟨hav.2 ?_, hne⟩
      intro st hst
      obtain ⟨info, hinfo⟩ := AMap.mem_keys_iff.1 ((hi.keys st).1 hst)
      exact hi.settled st info hinfo (hc _ (AMap.mem_of_get? hinfo))
  · rintro (⟨p, hp, hnc⟩ | hnil)
    · rw [if_neg]
      rintro ⟨hall, -⟩
      have hget : t.subtasks.get? p.1 = some p.2 := AMap.get?_of_mem ht.subtasks hp
      obtain ⟨s, hs⟩ := hav.1 hall p.1 ((hi.keys p.1).2 (List.mem_map_of_mem hp))
      obtain ⟨pre, n, h1, _⟩ := hi.scored p.1 s p.2 hs hget
      exact hnc (h1.2.1.mono h1.1)
    · rw [if_neg]; rintro ⟨-, hne⟩; exact hne hnil

/-- The score emitted for the task is the sum of the scores emitted for its subtasks. -/
theorem task_score_value {t : Task} (ht : t.Valid) {order : List SubtaskId} (ho : t.Order order)
    {calls : List Call} (hcs : t.Calls calls) (hnum : Numeric calls) {m : Manager}
    (h : run t order calls = some m) {s : Score} (hmsg : .taskScore s ∈ m.sent) :
    ∃ v : SubtaskId → Rat, (∀ p ∈ t.subtasks, ∃ n, .subtaskScore p.1 (.num (v p.1)) n ∈ m.sent) ∧
      s = .num (total (t.subtasks.map (fun p => v p.1))) := by
  have hi := run_settled ht ho hcs h
  have hmem : Msg.taskScore s ∈ taskMsgs m.sent := by simp [taskMsgs, hmsg]
  rw [hi.task] at hmem
  split at hmem
  · rename_i hall
    simp only [List.mem_singleton, Msg.taskScore.injEq] at hmem
    rw [all_values_iff hi.wf] at hall
    have hv : ∀ st ∈ t.subtasks.map (·.1), ∃ q n, m.subtaskScores.get? st = some (some (.num q)) ∧
        Msg.subtaskScore st (.num q) n ∈ m.sent := by
      intro st hst
      obtain ⟨x, hx⟩ := hall.1 st ((hi.keys st).2 hst)
      obtain ⟨info, hinfo⟩ := AMap.mem_keys_iff.1 hst
      obtain ⟨pre, n, _, _, _, h4⟩ := hi.scored st x info hx hinfo
      have hm : Msg.subtaskScore st x n ∈ m.sent := by
        have : Msg.subtaskScore st x n ∈ subtaskMsgs m.sent st := by simp [h4]
        exact (List.mem_filter.1 this).1
      obtain ⟨_, _, q, _, _, _, _, h5⟩ :=
        subtask_score_value ht ho hcs hnum h (AMap.mem_of_get? hinfo) hm
      exact ⟨_, n, by rw [hx, h5], h5 ▸ hm⟩
    let v : SubtaskId → Rat := fun st => match m.subtaskScores.get? st with
      | some (some (.num q)) => q
      | _ => 0
    have hv' : ∀ st ∈ t.subtasks.map (·.1), m.subtaskScores.get? st = some (some (.num (v st))) := by
      intro st hst
      obtain ⟨q, _, hq, _⟩ := hv st hst
      simp only [v, hq]
    refine ⟨v, ?_, ?_⟩
    · intro p hp
      obtain ⟨q, n, hq, hm⟩ := hv p.1 (List.mem_map_of_mem hp)
      have := hv' p.1 (List.mem_map_of_mem hp)
      rw [hq] at this
      simp only [Option.some.injEq, Score.num.injEq] at this
      exact ⟨n, this ▸ hm⟩
    · rw [hmem]
      have hp : ∀ p ∈ m.subtaskScores, p.2 = some (.num (v p.1)) := by
        intro p hp
        have h1 := AMap.get?_of_mem hi.wf hp
        have h2 := hv' p.1 ((hi.keys p.1).1 (by simp only [AMap.keys]; exact List.mem_map_of_mem hp))
        rw [h1] at h2
        simpa using h2
      rw [AMap.values, foldl_add_num hp]
      have hperm : (AMap.keys m.subtaskScores).Perm (t.subtasks.map (·.1)) :=
        (List.perm_ext_iff_of_nodup hi.wf ht.subtasks).2 hi.keys
      have := total_perm (hperm.map v)
      simp only [AMap.keys, List.map_map, Function.comp_def] at this
      rw [this]
      congr 1; grind
  · cases hmem

/-- Every score of a testcase is relayed, in order. -/
theorem testcase_scores_relayed {t : Task} {order : List SubtaskId} {calls : List Call} {m : Manager}
    (h : run t order calls = some m) :
    testcaseMsgs m.sent = calls.map (fun c => .testcaseScore c.subtask c.testcase c.score) := by
  have happ : ∀ a b, testcaseMsgs (a ++ b) = testcaseMsgs a ++ testcaseMsgs b := by
    intro a b; simp [testcaseMsgs]
  have hsub : ∀ {m m' : Manager} {st}, m.scoreSubtask st = some m' →
      testcaseMsgs m'.sent = testcaseMsgs m.sent := by
    intro m m' st h
    simp only [Manager.scoreSubtask] at h
    repeat' split at h
    all_goals first
      | (simp only [Option.some.injEq] at h; subst h; simp [testcaseMsgs])
      | simp at h
  have hmiss : ∀ {l : List (SubtaskId × Option Score)} {m m' : Manager},
      m.scoreMissing l = some m' → testcaseMsgs m'.sent = testcaseMsgs m.sent := by
    intro l
    induction l with
    | nil => intro m m' h; simp only [Manager.scoreMissing, Option.some.injEq] at h; rw [h]
    | cons p l ih =>
      intro m m' h
      obtain ⟨st, s⟩ := p
      simp only [Manager.scoreMissing] at h
      split at h
      · cases hm : m.scoreSubtask st with
        | none => simp [hm] at h
        | some m1 => simp only [hm] at h; rw [ih h, hsub hm]
      · exact ih h
  have hempty : ∀ {l : List SubtaskId} {m m' : Manager},
      m.scoreEmpty t l = some m' → testcaseMsgs m'.sent = testcaseMsgs m.sent := by
    intro l
    induction l with
    | nil => intro m m' h; simp only [Manager.scoreEmpty, Option.some.injEq] at h; rw [h]
    | cons st l ih =>
      intro m m' h
      simp only [Manager.scoreEmpty] at h
      cases hi : t.subtasks.get? st with
      | none => simp [hi] at h
      | some info =>
        simp only [hi] at h
        split at h
        · cases hm : m.scoreSubtask st with
          | none => simp [hm] at h
          | some m1 => simp only [hm] at h; rw [ih h, hsub hm]
        · exact ih h
  have hscores : ∀ {cs : List Call} {m m' : Manager}, m.scores cs = some m' →
      testcaseMsgs m'.sent = testcaseMsgs m.sent ++
        cs.map (fun c => .testcaseScore c.subtask c.testcase c.score) := by
    intro cs
    induction cs with
    | nil => intro m m' h; simp only [Manager.scores, Option.some.injEq] at h; simp [h]
    | cons c cs ih =>
      intro m m' h
      simp only [Manager.scores] at h
      cases hm : m.score c with
      | none => simp [hm] at h
      | some m1 =>
        simp only [hm] at h
        rw [ih h]
        unfold Manager.score at hm
        rw [hmiss hm, happ]
        simp [testcaseMsgs]
  unfold run at h
  cases hn : Manager.new t order with
  | none => simp [hn] at h
  | some m0 =>
    simp only [hn] at h
    rw [hscores h]
    unfold Manager.new at hn
    rw [hempty hn]
    rfl

/-- The scores are numbers: the score manager does not panic. -/
theorem numeric_never_panics {t : Task} (ht : t.Valid) {order : List SubtaskId} (ho : t.Order order)
    {calls : List Call} (hcs : t.Calls calls) (hnum : Numeric calls) :
    ∃ m, run t order calls = some m := by
  have hagg : ∀ (cs : List Call) (info : Subtask), Numeric cs → Complete cs info →
      aggregate t.aggregator (info.testcases.map (fun tc => (lastScore cs tc).getD .nan)) ≠ none := by
    intro cs info hn hc
    have : ∃ l : List Rat, info.testcases.map (fun tc => (lastScore cs tc).getD .nan) =
        l.map .num := by
      refine ⟨info.testcases.map (fun tc => match lastScore cs tc with
        | some (.num q) => q
        | _ => 0), ?_⟩
      rw [List.map_map]
      apply List.map_congr_left
      intro tc htc
      obtain ⟨x, hx⟩ := Option.isSome_iff_exists.1 ((lastScore_isSome cs tc).2 (hc tc htc))
      obtain ⟨c, hc, _, hcs'⟩ := lastScore_mem hx
      obtain ⟨q, hq⟩ := hn c hc
      simp [hx, ← hcs', hq]
    obtain ⟨l, hl⟩ := this
    obtain ⟨n, hn, _⟩ := aggregate_num t.aggregator l
    rw [hl, hn]; simp
  have hempty : ∀ {l : List SubtaskId} {m : Manager}, Inv t [] m → l.Nodup →
      (∀ st ∈ l, st ∈ t.subtasks.map (·.1) ∧ m.subtaskScores.get? st = some none) →
      ∃ m', m.scoreEmpty t l = some m' := by
    intro l
    induction l with
    | nil => intro m _ _ _; exact ⟨m, rfl⟩
    | cons st l ih =>
      intro m hi hnd hl
      have hhd := hl st (by simp)
      have hnd' := List.nodup_cons.1 hnd
      obtain ⟨info, hinfo⟩ : ∃ info, t.subtasks.get? st = some info := AMap.mem_keys_iff.1 hhd.1
      simp only [Manager.scoreEmpty, hinfo]
      split
      · rcases scoreSubtask_cases ht hi hinfo with ⟨hc, he⟩ | ⟨hc, ha, _⟩ | ⟨hc, n, hn, he⟩
        · rw [he]; exact ih hi hnd'.2 (fun st' hp => hl st' (by simp [hp]))
        · exact absurd ha (hagg [] info (by intro c hc; cases hc) hc)
        · rw [he]
          refine ih (inv_scored ht hi hinfo hhd.2
            ⟨List.prefix_refl _, hc, fun pre hp _ => List.prefix_nil.1 hp⟩ hn) hnd'.2 ?_
          intro st' hp
          refine ⟨(hl st' (by simp [hp])).1, ?_⟩
          rw [scored_scores, AMap.get?_insert_ne _ _ (fun (h : st' = st) => hnd'.1 (h ▸ hp))]
          exact (hl st' (by simp [hp])).2
      · exact ih hi hnd'.2 (fun st' hp => hl st' (by simp [hp]))
  have hmiss : ∀ {cs : List Call} {l : List (SubtaskId × Option Score)} {m : Manager},
      Numeric cs → Inv t cs m → (l.map (·.1)).Nodup →
      (∀ p ∈ l, p.1 ∈ t.subtasks.map (·.1) ∧ m.subtaskScores.get? p.1 = some p.2) →
      (∀ p ∈ l, p.2 = none → ∀ info, t.subtasks.get? p.1 = some info →
        ∀ pre, pre <+: cs → Complete pre info → pre = cs) →
      ∃ m', m.scoreMissing l = some m' := by
    intro cs l
    induction l with
    | nil => intro m _ _ _ _ _; exact ⟨m, rfl⟩
    | cons p l ih =>
      intro m hcn hi hnd hl hnew
      obtain ⟨st, s⟩ := p
      have hhd := hl (st, s) (by simp)
      have hnd' : st ∉ l.map (·.1) ∧ (l.map (·.1)).Nodup := by simpa using hnd
      obtain ⟨info, hinfo⟩ : ∃ info, t.subtasks.get? st = some info := AMap.mem_keys_iff.1 hhd.1
      simp only [Manager.scoreMissing]
      have hl' := fun p hp => hl p (List.mem_cons_of_mem (st, s) hp)
      have hnew' := fun p hp => hnew p (List.mem_cons_of_mem (st, s) hp)
      split
      · rename_i hs
        have hs : s = none := by simpa using hs
        subst hs
        rcases scoreSubtask_cases ht hi hinfo with ⟨hc, he⟩ | ⟨hc, ha, _⟩ | ⟨hc, n, hn, he⟩
        · rw [he]; exact ih hcn hi hnd'.2 hl' hnew'
        · exact absurd ha (hagg cs info hcn hc)
        · rw [he]
          refine ih hcn (inv_scored ht hi hinfo hhd.2
            ⟨List.prefix_refl _, hc, hnew (st, none) (by simp) rfl info hinfo⟩ hn) hnd'.2 ?_ hnew'
          intro p hp
          refine ⟨(hl' p hp).1, ?_⟩
          rw [scored_scores, AMap.get?_insert_ne _ _
            (fun (h : p.1 = st) => hnd'.1 (h ▸ List.mem_map_of_mem hp))]
          exact (hl' p hp).2
      · exact ih hcn hi hnd'.2 hl' hnew'
  have hscores : ∀ {cs pre : List Call} {m : Manager}, Settled t pre m → t.Calls cs →
      Numeric (pre ++ cs) → ∃ m', m.scores cs = some m' := by
    intro cs
    induction cs with
    | nil => intro pre m _ _ _; exact ⟨m, rfl⟩
    | cons c cs ih =>
      intro pre m hi hcs hn
      have hstep : ∃ m1, m.score c = some m1 := by
        have hor := hcs c (by simp)
        have hget : ∀ st ∈ c.order, ∃ v, m.subtaskScores.get? st = some v := fun st hst =>
          AMap.mem_keys_iff.1 ((hi.keys st).2 ((hor.2 st).1 hst))
        unfold Manager.score
        refine hmiss (cs := pre ++ [c]) ?_ ?_ ?_ ?_ ?_
        · intro c' hc'; exact hn c' (by simp at hc' ⊢; grind)
        · have hpre : pre <+: pre ++ [c] := List.prefix_append _ _
          have hs : ∀ st, subtaskMsgs (m.sent ++ [Msg.testcaseScore c.subtask c.testcase c.score]) st
              = subtaskMsgs m.sent st := by
            intro st; rw [subtaskMsgs_append]; simp [subtaskMsgs]
          have htm : taskMsgs (m.sent ++ [Msg.testcaseScore c.subtask c.testcase c.score]) =
              taskMsgs m.sent := by rw [taskMsgs_append]; simp [taskMsgs]
          refine ⟨hi.wf, hi.keys, hi.max, hi.tcs, hi.agg, ?_, ?_, ?_, ?_⟩
          · intro tc htc
            rw [AMap.get?_insert, lastScore_append]
            by_cases he : tc = c.testcase
            · simp [he, lastScore]
            · have he' : ¬ c.testcase = tc := fun h => he h.symm
              simp [he, lastScore, he', hi.last tc htc]
          · intro st s info hst hinfo
            obtain ⟨pre', n, h1, h2, h3, h4⟩ := hi.scored st s info hst hinfo
            exact ⟨pre', n, h1.mono hpre, h2, h3, (hs st).trans h4⟩
          · intro st hst; exact (hs st).trans (hi.unscored st hst)
          · exact htm.trans hi.task
        · simpa [List.map_map, Function.comp_def] using hor.1
        · intro p hp
          obtain ⟨st, hst, rfl⟩ := List.mem_map.1 hp
          obtain ⟨v, hv⟩ := hget st hst
          exact ⟨(hor.2 st).1 hst, by simp [hv]⟩
        · intro p hp hnone info hinfo pre' hp' hcomp
          obtain ⟨st, hst, rfl⟩ := List.mem_map.1 hp
          obtain ⟨v, hv⟩ := hget st hst
          rcases prefix_snoc hp' with hp' | hp'
          · exfalso
            obtain ⟨s, hs⟩ := hi.settled st info hinfo (hcomp.mono hp')
            simp only [hs, Option.getD_some] at hnone
            cases hnone
          · exact hp'
      obtain ⟨m1, hm1⟩ := hstep
      simp only [Manager.scores, hm1]
      exact ih (score_settled ht hi (hcs c (by simp)) hm1) (fun c' hc' => hcs c' (by simp [hc']))
        (by simpa using hn)
  obtain ⟨m0, hm0⟩ : ∃ m, Manager.new t order = some m := by
    unfold Manager.new
    refine hempty (inv_new ht) ho.1 ?_
    intro st hst
    have hk := (ho.2 st).1 hst
    refine ⟨hk, ?_⟩
    obtain ⟨v, hv⟩ := AMap.mem_keys_iff.1 hk
    rw [get?_map (fun _ => (none : Option Score)), hv]; rfl
  unfold run
  simp only [hm0]
  exact hscores (new_settled ht ho hm0) hcs (by simpa using hnum)

/-- The scores of the subtasks and of the task depend only on the score of each testcase: not on the
order in which the testcases are scored, nor on the iteration orders. -/
theorem scores_order_independent {t : Task} (ht : t.Valid) {order order' : List SubtaskId}
    (ho : t.Order order) (ho' : t.Order order') {calls calls' : List Call} (hcs : t.Calls calls)
    (hcs' : t.Calls calls') (f : TestcaseId → Rat) (hf : ∀ c ∈ calls, c.score = .num (f c.testcase))
    (hf' : ∀ c ∈ calls', c.score = .num (f c.testcase))
    (hsame : ∀ tc, (∃ c ∈ calls, c.testcase = tc) ↔ (∃ c ∈ calls', c.testcase = tc))
    {m m' : Manager} (h : run t order calls = some m) (h' : run t order' calls' = some m') :
    (∀ p ∈ t.subtasks, subtaskMsgs m.sent p.1 = subtaskMsgs m'.sent p.1) ∧
    taskMsgs m.sent = taskMsgs m'.sent := by
  have hnum : Numeric calls := fun c hc => ⟨_, hf c hc⟩
  have hnum' : Numeric calls' := fun c hc => ⟨_, hf' c hc⟩
  have hcomp : ∀ s : Subtask, Complete calls s ↔ Complete calls' s := by
    intro s
    constructor <;> intro hc tc htc
    · exact (hsame tc).1 (hc tc htc)
    · exact (hsame tc).2 (hc tc htc)
  -- the value of the message of a subtask
  have hval : ∀ {order calls m}, t.Order order → t.Calls calls →
      (∀ c ∈ calls, c.score = Score.num (f c.testcase)) → run t order calls = some m →
      ∀ p ∈ t.subtasks, ∀ s n, Msg.subtaskScore p.1 s n ∈ m.sent →
      ∃ q, IsAggregate t.aggregator (p.2.testcases.map f) q ∧ n = .num q ∧
        s = .num (p.2.maxScore * q) := by
    intro order calls m ho hcs hf h p hp s n hmsg
    obtain ⟨pre, g, q, h1, h2, h3, h4, h5⟩ :=
      subtask_score_value ht ho hcs (fun c hc => ⟨_, hf c hc⟩) h (show (p.1, p.2) ∈ t.subtasks from hp)
        hmsg
    refine ⟨q, ?_, h4, h5⟩
    have : p.2.testcases.map g = p.2.testcases.map f := by
      apply List.map_congr_left
      intro tc htc
      obtain ⟨c, hc, he, hs⟩ := lastScore_mem (h2 tc htc)
      have := hf c (h1.1.subset hc)
      rw [hs, he] at this
      simpa using this
    rwa [← this]
  have hsub : ∀ p ∈ t.subtasks, subtaskMsgs m.sent p.1 = subtaskMsgs m'.sent p.1 := by
    intro p hp
    have h1 := subtask_scored_once ht ho hcs h (show (p.1, p.2) ∈ t.subtasks from hp)
    have h2 := subtask_scored_once ht ho' hcs' h' (show (p.1, p.2) ∈ t.subtasks from hp)
    by_cases hc : Complete calls p.2
    · obtain ⟨s, n, he⟩ := h1.1 hc
      obtain ⟨s', n', he'⟩ := h2.1 ((hcomp _).1 hc)
      have hm : Msg.subtaskScore p.1 s n ∈ m.sent := by
        have : Msg.subtaskScore p.1 s n ∈ subtaskMsgs m.sent p.1 := by simp [he]
        exact (List.mem_filter.1 this).1
      have hm' : Msg.subtaskScore p.1 s' n' ∈ m'.sent := by
        have : Msg.subtaskScore p.1 s' n' ∈ subtaskMsgs m'.sent p.1 := by simp [he']
        exact (List.mem_filter.1 this).1
      obtain ⟨q, a1, a2, a3⟩ := hval ho hcs hf h p hp s n hm
      obtain ⟨q', b1, b2, b3⟩ := hval ho' hcs' hf' h' p hp s' n' hm'
      have := a1.unique b1
      rw [he, he', a2, a3, b2, b3, this]
    · rw [h1.2 hc, h2.2 (fun h => hc ((hcomp _).2 h))]
  refine ⟨hsub, ?_⟩
  have h1 := task_scored_once ht ho hcs h
  have h2 := task_scored_once ht ho' hcs' h'
  by_cases hall : (∀ p ∈ t.subtasks, Complete calls p.2) ∧ t.subtasks ≠ []
  · obtain ⟨s, he⟩ := h1.1 hall.1 hall.2
    obtain ⟨s', he'⟩ := h2.1 (fun p hp => (hcomp _).1 (hall.1 p hp)) hall.2
    have hm : Msg.taskScore s ∈ m.sent := by
      have : Msg.taskScore s ∈ taskMsgs m.sent := by simp [he]
      exact (List.mem_filter.1 this).1
    have hm' : Msg.taskScore s' ∈ m'.sent := by
      have : Msg.taskScore s' ∈ taskMsgs m'.sent := by simp [he']
      exact (List.mem_filter.1 this).1
    obtain ⟨v, a1, a2⟩ := task_score_value ht ho hcs hnum h hm
    obtain ⟨v', b1, b2⟩ := task_score_value ht ho' hcs' hnum' h' hm'
    have : t.subtasks.map (fun p => v p.1) = t.subtasks.map (fun p => v' p.1) := by
      apply List.map_congr_left
      intro p hp
      obtain ⟨n, hn⟩ := a1 p hp
      obtain ⟨n', hn'⟩ := b1 p hp
      obtain ⟨q, c1, c2, c3⟩ := hval ho hcs hf h p hp _ _ hn
      obtain ⟨q', d1, d2, d3⟩ := hval ho' hcs' hf' h' p hp _ _ hn'
      have := c1.unique d1
      simp only [Score.num.injEq] at c3 d3
      rw [c3, d3, this]
    rw [he, he', a2, b2, this]
  · have hn : (∃ p ∈ t.subtasks, ¬ Complete calls p.2) ∨ t.subtasks = [] := by
      by_cases hnil : t.subtasks = []
      · exact .inr hnil
      · left
        apply Classical.byContradiction
        intro hne
        apply hall
        refine ⟨fun p hp => ?_, hnil⟩
        apply Classical.byContradiction
        intro hc; exact hne ⟨p, hp, hc⟩
    have hn' : (∃ p ∈ t.subtasks, ¬ Complete calls' p.2) ∨ t.subtasks = [] := by
      rcases hn with ⟨p, hp, hc⟩ | hnil
      · exact .inl ⟨p, hp, fun h => hc ((hcomp _).2 h)⟩
      · exact .inr hnil
    rw [h1.2 hn, h2.2 hn']

/-! ## Concrete cases -/

/-- Two subtasks sharing a testcase, and one without testcases. -/
def demoTask : Task :=
  { subtasks := [(0, ⟨40, [0, 1]⟩), (1, ⟨50, [1, 2]⟩), (2, ⟨10, []⟩)]
    testcases := [0, 1, 2]
    aggregator := .min }

def demoCalls : List Call :=
  [⟨1, 2, .num 1, [0, 1, 2]⟩, ⟨0, 0, .num (1/2), [2, 1, 0]⟩, ⟨0, 1, .num 1, [1, 2, 0]⟩]

theorem demo_valid : demoTask.Valid :=
  ⟨by decide, by decide, by decide⟩

theorem demo_calls : demoTask.Calls demoCalls := by
  intro c hc
  simp only [demoCalls, List.mem_cons, List.not_mem_nil, or_false] at hc
  rcases hc with rfl | rfl | rfl <;> exact ⟨by decide, by intro st; simp [demoTask] <;> grind⟩

theorem demo_order : demoTask.Order [1, 0, 2] :=
  ⟨by decide, by intro st; simp [demoTask] <;> grind⟩

theorem demo_numeric : Numeric demoCalls := by
  intro c hc
  simp only [demoCalls, List.mem_cons, List.not_mem_nil, or_false] at hc
  rcases hc with rfl | rfl | rfl <;> exact ⟨_, rfl⟩

/-- Non-vacuity: the hypotheses hold and these are the messages. -/
example : (run demoTask [1, 0, 2] demoCalls).map (·.sent) = some
    [.subtaskScore 2 (.num 10) (.num 1), .testcaseScore 1 2 (.num 1), .testcaseScore 0 0 (.num (1/2)),
      .testcaseScore 0 1 (.num 1), .subtaskScore 1 (.num 50) (.num 1),
      .subtaskScore 0 (.num 20) (.num (1/2)), .taskScore (.num 80)] := by decide +kernel

/-- Non-vacuity of `scores_order_independent`: the same scores in another order. -/
example : (run demoTask [2, 1, 0] demoCalls.reverse).map (fun m => (taskMsgs m.sent)) =
    some [.taskScore (.num 80)] := by decide +kernel

/-- With the average. -/
example : (run { demoTask with aggregator := .sum } [1, 0, 2] demoCalls).map
    (fun m => taskMsgs m.sent) = some [.taskScore (.num 90)] := by decide +kernel

/-- A second score for a testcase after its subtasks were scored changes nothing; before, it
replaces the first one. -/
example : (run demoTask [1, 0, 2] (demoCalls ++ [⟨0, 0, .num 0, [0, 1, 2]⟩])).map
      (fun m => taskMsgs m.sent) = some [.taskScore (.num 80)] ∧
    (run demoTask [1, 0, 2] (⟨0, 0, .num 1, [0, 1, 2]⟩ :: demoCalls)).map
      (fun m => taskMsgs m.sent) = some [.taskScore (.num 80)] := by decide +kernel

/-- Without `Numeric`: a custom checker that prints `nan` makes the score manager panic when the
subtask has another testcase. -/
theorem nan_score_panics : run demoTask [0, 1, 2]
    [⟨0, 0, .nan, [0, 1, 2]⟩, ⟨0, 1, .num 1, [0, 1, 2]⟩] = none := by decide +kernel

/-- A task without subtasks never gets a score. -/
theorem no_subtasks_no_score : (run ⟨[], [0], .min⟩ [] [⟨0, 0, .num 1, []⟩]).map
    (fun m => taskMsgs m.sent) = some [] := by decide +kernel

end TM.Score
