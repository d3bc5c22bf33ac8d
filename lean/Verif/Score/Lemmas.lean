import Verif.Score.Spec
namespace TM.Score
open AMap

/-! ## Maps -/

theorem get?_map {α β : Type} (f : α → β) (m : AMap Nat α) (k : Nat) :
    AMap.get? (m.map (fun p => (p.1, f p.2))) k = (m.get? k).map f := by
  induction m with
  | nil => rfl
  | cons p m ih =>
    obtain ⟨a, b⟩ := p
    simp only [List.map_cons, AMap.get?_cons, ih]
    split <;> rfl

theorem get?_const (l : List Nat) (k : Nat) :
    AMap.get? (l.map (fun tc => (tc, (none : Option Score)))) k
      = if k ∈ l then some none else none := by
  induction l with
  | nil => simp
  | cons a l ih =>
    simp only [List.map_cons, AMap.get?_cons, ih, List.mem_cons]
    grind

/-! ## The history -/

theorem lastScore_append (a b : List Call) (tc : TestcaseId) :
    lastScore (a ++ b) tc = match lastScore b tc with
      | some s => some s
      | none => lastScore a tc := by
  induction a with
  | nil => simp only [List.nil_append, lastScore]; cases lastScore b tc <;> rfl
  | cons c a ih =>
    simp only [List.cons_append, lastScore, ih]
    cases h : lastScore b tc <;> simp

theorem lastScore_isSome (l : List Call) (tc : TestcaseId) :
    (lastScore l tc).isSome = true ↔ ∃ c ∈ l, c.testcase = tc := by
  induction l with
  | nil => simp [lastScore]
  | cons c l ih =>
    simp only [lastScore]
    cases h : lastScore l tc with
    | some s => simp [h] at ih; grind
    | none => simp [h] at ih; grind

theorem lastScore_mem {l : List Call} {tc : TestcaseId} {s : Score} (h : lastScore l tc = some s) :
    ∃ c ∈ l, c.testcase = tc ∧ c.score = s := by
  induction l with
  | nil => simp [lastScore] at h
  | cons c l ih =>
    simp only [lastScore] at h
    cases h' : lastScore l tc with
    | some s' =>
      simp only [h', Option.some.injEq] at h
      obtain ⟨c', hc'⟩ := ih (h' ▸ h ▸ rfl)
      exact ⟨c', by grind, by grind⟩
    | none => simp only [h'] at h; grind

theorem Complete.mono {a b : List Call} {s : Subtask} (h : Complete a s) (hs : a <+: b) :
    Complete b s := by
  intro tc htc
  obtain ⟨c, hc, he⟩ := h tc htc
  exact ⟨c, hs.subset hc, he⟩

theorem FirstComplete.mono {a b pre : List Call} {s : Subtask} (h : FirstComplete a pre s)
    (hs : a <+: b) : FirstComplete b pre s := ⟨h.1.trans hs, h.2⟩

theorem prefix_snoc {α : Type} {p l : List α} {a : α} (h : p <+: l ++ [a]) :
    p <+: l ∨ p = l ++ [a] := by
  have hc := List.prefix_concat_iff.1 (by simpa using h)
  rcases hc with h | h
  · exact .inr (by simpa using h)
  · exact .inl h

/-! ## The sum of the scores -/

theorem Score.add_right_comm (a b c : Score) : (a.add b).add c = (a.add c).add b := by
  cases a <;> cases b <;> cases c <;> simp [Score.add]
  grind

theorem foldl_add_perm {l l' : List (Option Score)} (h : l.Perm l') (z : Score) :
    l.foldl (fun a s => a.add (s.getD .nan)) z = l'.foldl (fun a s => a.add (s.getD .nan)) z := by
  induction h generalizing z with
  | nil => rfl
  | cons x _ ih => simpa using ih _
  | swap x y l => simp only [List.foldl_cons, Score.add_right_comm]
  | trans _ _ ih₁ ih₂ => exact (ih₁ z).trans (ih₂ z)

/-! ## The invariant -/

/-- What the score manager knows of the history `calls`. -/
structure Inv (t : Task) (calls : List Call) (m : Manager) : Prop where
  wf : AMap.Wf m.subtaskScores
  keys : ∀ st, st ∈ AMap.keys m.subtaskScores ↔ st ∈ t.subtasks.map (·.1)
  max : m.maxScores = t.subtasks.map (fun p => (p.1, p.2.maxScore))
  tcs : m.subtaskTestcases = t.subtasks.map (fun p => (p.1, p.2.testcases))
  agg : m.aggregator = t.aggregator
  last : ∀ tc ∈ t.testcases, m.testcaseScores.get? tc = some (lastScore calls tc)
  scored : ∀ st s info, m.subtaskScores.get? st = some (some s) → t.subtasks.get? st = some info →
    ∃ pre n, FirstComplete calls pre info ∧
      aggregate t.aggregator (info.testcases.map (fun tc => (lastScore pre tc).getD .nan)) = some n ∧
      s = n.scale info.maxScore ∧ subtaskMsgs m.sent st = [.subtaskScore st s n]
  unscored : ∀ st, (∀ s, m.subtaskScores.get? st ≠ some (some s)) → subtaskMsgs m.sent st = []
  task : taskMsgs m.sent =
    if m.subtaskScores.values.all Option.isSome ∧ t.subtasks ≠ [] then
      [.taskScore (m.subtaskScores.values.foldl (fun a s => a.add (s.getD .nan)) (.num 0))]
    else []

theorem lookups_eq {t : Task} {calls : List Call} {m : Manager} (hi : Inv t calls m)
    (tcs : List TestcaseId) (h : ∀ tc ∈ tcs, tc ∈ t.testcases) :
    lookups m.testcaseScores tcs = some (tcs.map (lastScore calls)) := by
  unfold lookups
  induction tcs with
  | nil => rfl
  | cons a l ih =>
    have h1 := hi.last a (h a (by simp))
    have h2 := ih (fun tc htc => h tc (by simp [htc]))
    simp [List.mapM_cons, h1, h2]

theorem all_some_iff {calls : List Call} {info : Subtask} :
    (info.testcases.map (lastScore calls)).all Option.isSome = true ↔ Complete calls info := by
  simp only [List.all_map, List.all_eq_true, Function.comp, lastScore_isSome, Complete]

/-- The state after a subtask was scored. -/
def Manager.scored (m : Manager) (st : SubtaskId) (max : Rat) (n : Score) : Manager :=
  let score := n.scale max
  let scores := m.subtaskScores.insert st (some score)
  let sent := m.sent ++ [.subtaskScore st score n]
  if scores.values.all Option.isSome then
    { m with
      subtaskScores := scores
      sent := sent ++ [.taskScore (scores.values.foldl
        (fun a s => a.add (s.getD .nan)) (.num 0))] }
  else { m with subtaskScores := scores, sent := sent }

theorem scoreSubtask_cases {t : Task} {calls : List Call} {m : Manager} (ht : t.Valid)
    (hi : Inv t calls m) {st : SubtaskId} {info : Subtask} (hst : t.subtasks.get? st = some info) :
    (¬ Complete calls info ∧ m.scoreSubtask st = some m) ∨
    (Complete calls info ∧
      aggregate t.aggregator (info.testcases.map (fun tc => (lastScore calls tc).getD .nan)) = none ∧
      m.scoreSubtask st = none) ∨
    (Complete calls info ∧ ∃ n,
      aggregate t.aggregator (info.testcases.map (fun tc => (lastScore calls tc).getD .nan))
        = some n ∧
      m.scoreSubtask st = some (m.scored st info.maxScore n)) := by
  have h1 : m.subtaskTestcases.get? st = some info.testcases := by
    rw [hi.tcs, get?_map, hst]; rfl
  have h2 : m.maxScores.get? st = some info.maxScore := by
    rw [hi.max, get?_map, hst]; rfl
  have h3 := lookups_eq hi info.testcases (ht.known _ (AMap.mem_of_get? hst))
  have h4 := @all_some_iff calls info
  unfold Manager.scoreSubtask
  simp only [h1, h2, h3, hi.agg]
  by_cases hc : Complete calls info
  · rw [if_pos (h4.2 hc)]
    simp only [List.map_map, Function.comp_def]
    cases ha : aggregate t.aggregator
        (info.testcases.map (fun tc => (lastScore calls tc).getD .nan)) with
    | none => exact .inr (.inl ⟨hc, rfl, rfl⟩)
    | some n =>
      refine .inr (.inr ⟨hc, n, rfl, ?_⟩)
      simp only [Manager.scored, hi.agg]
      split <;> rfl
  · rw [if_neg (fun h => hc (h4.1 h))]
    exact .inl ⟨hc, rfl⟩

theorem subtaskMsgs_append (a b : List Msg) (st : SubtaskId) :
    subtaskMsgs (a ++ b) st = subtaskMsgs a st ++ subtaskMsgs b st := by simp [subtaskMsgs]

theorem taskMsgs_append (a b : List Msg) : taskMsgs (a ++ b) = taskMsgs a ++ taskMsgs b := by
  simp [taskMsgs]

theorem scored_scores (m : Manager) (st : SubtaskId) (max : Rat) (n : Score) :
    (m.scored st max n).subtaskScores = m.subtaskScores.insert st (some (n.scale max)) := by
  simp only [Manager.scored]; split <;> rfl

theorem scored_fields (m : Manager) (st : SubtaskId) (max : Rat) (n : Score) :
    (m.scored st max n).maxScores = m.maxScores ∧
    (m.scored st max n).subtaskTestcases = m.subtaskTestcases ∧
    (m.scored st max n).aggregator = m.aggregator ∧
    (m.scored st max n).testcaseScores = m.testcaseScores := by
  simp only [Manager.scored]; split <;> exact ⟨rfl, rfl, rfl, rfl⟩

theorem scored_subtaskMsgs (m : Manager) (st st' : SubtaskId) (max : Rat) (n : Score) :
    subtaskMsgs (m.scored st max n).sent st' =
      subtaskMsgs m.sent st' ++ if st = st' then [.subtaskScore st (n.scale max) n] else [] := by
  simp only [Manager.scored]
  split <;> simp only [subtaskMsgs_append, List.append_assoc] <;>
    by_cases h : st = st' <;> simp [subtaskMsgs, h]

theorem scored_taskMsgs (m : Manager) (st : SubtaskId) (max : Rat) (n : Score) :
    taskMsgs (m.scored st max n).sent =
      taskMsgs m.sent ++
        if (m.scored st max n).subtaskScores.values.all Option.isSome then
          [.taskScore ((m.scored st max n).subtaskScores.values.foldl
            (fun a s => a.add (s.getD .nan)) (.num 0))]
        else [] := by
  simp only [scored_scores]
  simp only [Manager.scored]
  split <;> simp [taskMsgs]

theorem all_values_iff {m : AMap SubtaskId (Option Score)} (hwf : AMap.Wf m) :
    m.values.all Option.isSome = true ↔
      ∀ st ∈ AMap.keys m, ∃ s, m.get? st = some (some s) := by
  simp only [AMap.values, List.all_map, List.all_eq_true, Function.comp_def]
  constructor
  · intro h st hst
    obtain ⟨v, hv⟩ := AMap.mem_keys_iff.1 hst
    have := h _ (AMap.mem_of_get? hv)
    obtain ⟨s, rfl⟩ := Option.isSome_iff_exists.1 this
    exact ⟨s, hv⟩
  · intro h p hp
    obtain ⟨st, v⟩ := p
    have hk : st ∈ AMap.keys m := by
      simp only [AMap.keys, List.mem_map]; exact ⟨_, hp, rfl⟩
    obtain ⟨s, hs⟩ := h st hk
    have := AMap.get?_of_mem hwf hp
    rw [this] at hs
    simp only [Option.some.injEq] at hs
    simp [hs]

theorem inv_scored {t : Task} {calls : List Call} {m : Manager} (ht : t.Valid)
    (hi : Inv t calls m) {st : SubtaskId} {info : Subtask} (hst : t.subtasks.get? st = some info)
    (hun : m.subtaskScores.get? st = some none) (hfirst : FirstComplete calls calls info) {n : Score}
    (hn : aggregate t.aggregator (info.testcases.map (fun tc => (lastScore calls tc).getD .nan))
      = some n) : Inv t calls (m.scored st info.maxScore n) := by
  have hf := scored_fields m st info.maxScore n
  have hmem : st ∈ t.subtasks.map (·.1) := by
    rw [← hi.keys, AMap.mem_keys_iff]; exact ⟨_, hun⟩
  have hnone : subtaskMsgs m.sent st = [] := by
    apply hi.unscored; intro s hs; rw [hun] at hs; cases hs
  refine ⟨?_, ?_, hf.1 ▸ hi.max, hf.2.1 ▸ hi.tcs, hf.2.2.1 ▸ hi.agg, ?_, ?_, ?_, ?_⟩
  · rw [scored_scores]; exact AMap.wf_insert hi.wf _ _
  · intro st'
    rw [scored_scores, AMap.mem_keys_iff, AMap.get?_insert, ← hi.keys, AMap.mem_keys_iff]
    by_cases h : st' = st
    · subst h; simp [hun]
    · simp [h]
  · rw [hf.2.2.2]; exact hi.last
  · intro st' s info' hs hinfo
    rw [scored_scores, AMap.get?_insert] at hs
    rw [scored_subtaskMsgs]
    by_cases h : st' = st
    · subst h
      simp only [if_pos, Option.some.injEq] at hs
      rw [hst] at hinfo
      simp only [Option.some.injEq] at hinfo
      subst hinfo; subst hs
      refine ⟨calls, n, hfirst, hn, rfl, ?_⟩
      simp [hnone]
    · rw [if_neg h] at hs
      obtain ⟨pre, n', h1, h2, h3, h4⟩ := hi.scored st' s info' hs hinfo
      refine ⟨pre, n', h1, h2, h3, ?_⟩
      rw [h4, if_neg (fun h' => h h'.symm)]; rfl
  · intro st' h'
    rw [scored_subtaskMsgs]
    by_cases h : st' = st
    · exfalso
      apply h' (n.scale info.maxScore)
      rw [scored_scores, h, AMap.get?_insert_self]
    · rw [if_neg (fun h' => h h'.symm), List.append_nil]
      apply hi.unscored
      intro s hs
      apply h' s
      rw [scored_scores, AMap.get?_insert_ne _ _ h, hs]
  · rw [scored_taskMsgs, hi.task]
    have hnot : ¬ m.subtaskScores.values.all Option.isSome = true := by
      rw [all_values_iff hi.wf]
      intro h
      obtain ⟨s, hs⟩ := h st ((hi.keys st).2 hmem)
      rw [hun] at hs; cases hs
    have hne : t.subtasks ≠ [] := by intro h; rw [h] at hmem; simp at hmem
    simp [hnot, hne]

/-! ## The loops -/

/-- Between two calls: all that can be scored is. -/
structure Settled (t : Task) (calls : List Call) (m : Manager) : Prop extends Inv t calls m where
  settled : ∀ st info, t.subtasks.get? st = some info → Complete calls info →
    ∃ s, m.subtaskScores.get? st = some (some s)

theorem scoreMissing_inv {t : Task} {calls : List Call} (ht : t.Valid)
    {l : List (SubtaskId × Option Score)} {m m' : Manager} (hi : Inv t calls m)
    (hnd : (l.map (·.1)).Nodup)
    (hl : ∀ p ∈ l, p.1 ∈ t.subtasks.map (·.1) ∧ m.subtaskScores.get? p.1 = some p.2)
    (hnew : ∀ p ∈ l, p.2 = none → ∀ info, t.subtasks.get? p.1 = some info →
      ∀ pre, pre <+: calls → Complete pre info → pre = calls)
    (h : m.scoreMissing l = some m') :
    Inv t calls m' ∧
    (∀ st s, m.subtaskScores.get? st = some (some s) → m'.subtaskScores.get? st = some (some s)) ∧
    (∀ p ∈ l, ∀ info, t.subtasks.get? p.1 = some info → Complete calls info →
      ∃ s, m'.subtaskScores.get? p.1 = some (some s)) := by
  induction l generalizing m with
  | nil =>
    simp only [Manager.scoreMissing, Option.some.injEq] at h
    subst h
    exact ⟨hi, fun _ _ h => h, by simp⟩
  | cons p l ih =>
    obtain ⟨st, s⟩ := p
    have hhd := hl (st, s) (by simp)
    have hnd' : st ∉ l.map (·.1) ∧ (l.map (·.1)).Nodup := by simpa using hnd
    cases s with
    | some s =>
      simp only [Manager.scoreMissing, Option.isNone_some, Bool.false_eq_true, if_false] at h
      obtain ⟨h1, h2, h3⟩ := ih hi hnd'.2 (fun p hp => hl p (by simp [hp]))
        (fun p hp => hnew p (by simp [hp])) h
      refine ⟨h1, h2, ?_⟩
      intro p hp info hinfo hc
      rcases List.mem_cons.1 hp with rfl | hp
      · exact ⟨s, h2 _ _ hhd.2⟩
      · exact h3 p hp info hinfo hc
    | none =>
      simp only [Manager.scoreMissing, Option.isNone_none, if_true] at h
      have ⟨info, hinfo⟩ : ∃ info, t.subtasks.get? st = some info := by
        have := hhd.1
        exact AMap.mem_keys_iff.1 this
      have hnew' := hnew (st, none) (by simp) rfl info hinfo
      rcases scoreSubtask_cases ht hi hinfo with ⟨hc, he⟩ | ⟨_, _, he⟩ | ⟨hc, n, hn, he⟩
      · rw [he] at h
        obtain ⟨h1, h2, h3⟩ := ih hi hnd'.2 (fun p hp => hl p (by simp [hp]))
          (fun p hp => hnew p (by simp [hp])) h
        refine ⟨h1, h2, ?_⟩
        intro p hp info' hinfo' hc'
        rcases List.mem_cons.1 hp with rfl | hp
        · exfalso
          rw [hinfo] at hinfo'
          simp only [Option.some.injEq] at hinfo'
          subst hinfo'
          exact hc hc'
        · exact h3 p hp info' hinfo' hc'
      · rw [he] at h; cases h
      · rw [he] at h
        have hi' := inv_scored ht hi hinfo hhd.2
          ⟨List.prefix_refl _, hc, hnew'⟩ hn
        have hother : ∀ st', st' ≠ st → (m.scored st info.maxScore n).subtaskScores.get? st' =
            m.subtaskScores.get? st' := fun st' hne => by
          rw [scored_scores, AMap.get?_insert_ne _ _ hne]
        obtain ⟨h1, h2, h3⟩ := ih hi' hnd'.2
          (fun p hp => ⟨(hl p (by simp [hp])).1, by
            rw [hother _ (fun h => hnd'.1 (h ▸ List.mem_map_of_mem hp))]
            exact (hl p (by simp [hp])).2⟩)
          (fun p hp => hnew p (by simp [hp])) h
        refine ⟨h1, ?_, ?_⟩
        · intro st' s hs
          apply h2
          by_cases hst : st' = st
          · subst hst; rw [hhd.2] at hs; cases hs
          · rw [hother _ hst, hs]
        · intro p hp info' hinfo' hc'
          rcases List.mem_cons.1 hp with rfl | hp
          · exact ⟨_, h2 st (n.scale info.maxScore) (by rw [scored_scores, AMap.get?_insert_self])⟩
          · exact h3 p hp info' hinfo' hc'

theorem score_settled {t : Task} {calls : List Call} {m m' : Manager} (ht : t.Valid)
    (hi : Settled t calls m) {c : Call} (hc : t.Order c.order) (h : m.score c = some m') :
    Settled t (calls ++ [c]) m' := by
  unfold Manager.score at h
  have hpre : calls <+: calls ++ [c] := List.prefix_append _ _
  have hi0 : Inv t (calls ++ [c])
      { m with
        testcaseScores := m.testcaseScores.insert c.testcase (some c.score)
        sent := m.sent ++ [.testcaseScore c.subtask c.testcase c.score] } := by
    have hs : ∀ st, subtaskMsgs (m.sent ++ [Msg.testcaseScore c.subtask c.testcase c.score]) st =
        subtaskMsgs m.sent st := by intro st; rw [subtaskMsgs_append]; simp [subtaskMsgs]
    have htm : taskMsgs (m.sent ++ [Msg.testcaseScore c.subtask c.testcase c.score]) =
        taskMsgs m.sent := by rw [taskMsgs_append]; simp [taskMsgs]
    refine ⟨hi.wf, hi.keys, hi.max, hi.tcs, hi.agg, ?_, ?_, ?_, ?_⟩
    · intro tc htc
      rw [AMap.get?_insert, lastScore_append]
      by_cases he : tc = c.testcase
      · simp [he, lastScore]
      · have he' : ¬ c.testcase = tc := fun h => he h.symm
        simp [he, lastScore, he', hi.last tc htc]
    · intro st s info hst hinfo
      obtain ⟨pre, n, h1, h2, h3, h4⟩ := hi.scored st s info hst hinfo
      exact ⟨pre, n, h1.mono hpre, h2, h3, (hs st).trans h4⟩
    · intro st hst; exact (hs st).trans (hi.unscored st hst)
    · exact htm.trans hi.task
  have hget : ∀ st ∈ c.order, ∃ v, m.subtaskScores.get? st = some v := by
    intro st hst
    exact AMap.mem_keys_iff.1 ((hi.keys st).2 ((hc.2 st).1 hst))
  obtain ⟨h1, h2, h3⟩ := scoreMissing_inv ht hi0
    (by simpa [List.map_map, Function.comp_def] using hc.1)
    (by
      intro p hp
      obtain ⟨st, hst, rfl⟩ := List.mem_map.1 hp
      obtain ⟨v, hv⟩ := hget st hst
      exact ⟨(hc.2 st).1 hst, by simp [hv]⟩)
    (by
      intro p hp hnone info hinfo pre hp' hcomp
      obtain ⟨st, hst, rfl⟩ := List.mem_map.1 hp
      obtain ⟨v, hv⟩ := hget st hst
      rcases prefix_snoc hp' with hp' | hp'
      · exfalso
        obtain ⟨s, hs⟩ := hi.settled st info hinfo (hcomp.mono hp')
        simp only [hs, Option.getD_some] at hnone
        cases hnone
      · exact hp')
    h
  refine ⟨h1, ?_⟩
  intro st info hinfo hcomp
  have hmem : st ∈ c.order := (hc.2 st).2 (AMap.mem_keys_iff.2 ⟨_, hinfo⟩)
  exact h3 _ (List.mem_map.2 ⟨st, hmem, rfl⟩) info hinfo hcomp

theorem scores_settled {t : Task} {calls cs : List Call} {m m' : Manager} (ht : t.Valid)
    (hi : Settled t calls m) (hcs : t.Calls cs) (h : m.scores cs = some m') :
    Settled t (calls ++ cs) m' := by
  induction cs generalizing calls m with
  | nil =>
    simp only [Manager.scores, Option.some.injEq] at h
    subst h; simpa using hi
  | cons c cs ih =>
    simp only [Manager.scores] at h
    cases hm : m.score c with
    | none => simp [hm] at h
    | some m1 =>
      simp only [hm] at h
      have := ih (score_settled ht hi (hcs c (by simp)) hm) (fun c' hc' => hcs c' (by simp [hc'])) h
      simpa using this

/-- `ScoreManager::new` visits the subtasks without testcases: it is the loop of `score`. -/
theorem scoreEmpty_inv {t : Task} (ht : t.Valid) {l : List SubtaskId} {m m' : Manager}
    (hi : Inv t [] m) (hnd : l.Nodup)
    (hl : ∀ st ∈ l, st ∈ t.subtasks.map (·.1) ∧ m.subtaskScores.get? st = some none)
    (h : m.scoreEmpty t l = some m') :
    Inv t [] m' ∧
    (∀ st s, m.subtaskScores.get? st = some (some s) → m'.subtaskScores.get? st = some (some s)) ∧
    (∀ st ∈ l, ∀ info, t.subtasks.get? st = some info → Complete [] info →
      ∃ s, m'.subtaskScores.get? st = some (some s)) := by
  induction l generalizing m with
  | nil =>
    simp only [Manager.scoreEmpty, Option.some.injEq] at h
    subst h
    exact ⟨hi, fun _ _ h => h, by simp⟩
  | cons st l ih =>
    have hhd := hl st (by simp)
    have hnd' := List.nodup_cons.1 hnd
    obtain ⟨info, hinfo⟩ : ∃ info, t.subtasks.get? st = some info := AMap.mem_keys_iff.1 hhd.1
    simp only [Manager.scoreEmpty, hinfo] at h
    by_cases he : info.testcases = []
    · rw [if_pos (by simp [he])] at h
      have hcomp : Complete [] info := by intro tc htc; rw [he] at htc; cases htc
      rcases scoreSubtask_cases ht hi hinfo with ⟨hc, _⟩ | ⟨_, _, he⟩ | ⟨hc, n, hn, he⟩
      · exact absurd hcomp hc
      · rw [he] at h; cases h
      · rw [he] at h
        have hi' := inv_scored ht hi hinfo hhd.2
          ⟨List.prefix_refl _, hc, fun pre hp _ => List.prefix_nil.1 hp⟩ hn
        have hother : ∀ st', st' ≠ st → (m.scored st info.maxScore n).subtaskScores.get? st' =
            m.subtaskScores.get? st' := fun st' hne => by
          rw [scored_scores, AMap.get?_insert_ne _ _ hne]
        obtain ⟨h1, h2, h3⟩ := ih hi' hnd'.2
          (fun st' hp => ⟨(hl st' (by simp [hp])).1, by
            rw [hother _ (fun h => hnd'.1 (h ▸ hp))]
            exact (hl st' (by simp [hp])).2⟩) h
        refine ⟨h1, ?_, ?_⟩
        · intro st' s hs
          apply h2
          by_cases hst : st' = st
          · subst hst; rw [hhd.2] at hs; cases hs
          · rw [hother _ hst, hs]
        · intro st' hp info' hinfo' hc'
          rcases List.mem_cons.1 hp with rfl | hp
          · exact ⟨_, h2 st' (n.scale info.maxScore) (by rw [scored_scores, AMap.get?_insert_self])⟩
          · exact h3 st' hp info' hinfo' hc'
    · rw [if_neg (by simpa using he)] at h
      obtain ⟨h1, h2, h3⟩ := ih hi hnd'.2 (fun st' hp => hl st' (by simp [hp])) h
      refine ⟨h1, h2, ?_⟩
      intro st' hp info' hinfo' hc'
      rcases List.mem_cons.1 hp with rfl | hp
      · exfalso
        rw [hinfo] at hinfo'
        simp only [Option.some.injEq] at hinfo'
        subst hinfo'
        cases hq : info.testcases with
        | nil => exact he hq
        | cons a l =>
          obtain ⟨c, hc, _⟩ := hc' a (by simp [hq])
          cases hc
      · exact h3 st' hp info' hinfo' hc'

theorem inv_new {t : Task} (ht : t.Valid) :
    Inv t []
      { subtaskScores := t.subtasks.map (fun p => (p.1, none))
        maxScores := t.subtasks.map (fun p => (p.1, p.2.maxScore))
        testcaseScores := t.testcases.map (fun tc => (tc, none))
        subtaskTestcases := t.subtasks.map (fun p => (p.1, p.2.testcases))
        aggregator := t.aggregator } := by
  refine ⟨?_, ?_, rfl, rfl, rfl, ?_, ?_, fun _ _ => rfl, ?_⟩
  · simpa [AMap.Wf, AMap.keys, List.map_map, Function.comp_def] using ht.subtasks
  · intro st; simp [AMap.keys, List.map_map, Function.comp_def]
  · intro tc htc; simp only [get?_const, lastScore]; rw [if_pos htc]
  · intro st s info hs
    rw [get?_map (fun _ => (none : Option Score))] at hs
    cases h : t.subtasks.get? st <;> simp [h] at hs
  · cases ht' : t.subtasks with
    | nil => rfl
    | cons a l => simp [taskMsgs, AMap.values]

theorem new_settled {t : Task} (ht : t.Valid) {order : List SubtaskId} (ho : t.Order order)
    {m : Manager} (h : Manager.new t order = some m) : Settled t [] m := by
  unfold Manager.new at h
  obtain ⟨h1, _, h3⟩ := scoreEmpty_inv ht (inv_new ht) ho.1 (by
    intro st hst
    have hk := (ho.2 st).1 hst
    refine ⟨hk, ?_⟩
    obtain ⟨v, hv⟩ := AMap.mem_keys_iff.1 hk
    rw [get?_map (fun _ => (none : Option Score)), hv]; rfl) h
  refine ⟨h1, ?_⟩
  intro st info hinfo hc
  exact h3 st ((ho.2 st).2 (AMap.mem_keys_iff.2 ⟨_, hinfo⟩)) info hinfo hc

theorem run_settled {t : Task} (ht : t.Valid) {order : List SubtaskId} (ho : t.Order order)
    {calls : List Call} (hcs : t.Calls calls) {m : Manager} (h : run t order calls = some m) :
    Settled t calls m := by
  unfold run at h
  cases hn : Manager.new t order with
  | none => simp [hn] at h
  | some m0 =>
    simp only [hn] at h
    simpa using scores_settled ht (new_settled ht ho hn) hcs h

/-! ## The aggregation -/

theorem minBy_num {a : Rat} {l : List Score} (h : ∀ x ∈ l, ∃ q, x = .num q) :
    ∃ q, minBy (.num a) l = some (.num q) := by
  induction l generalizing a with
  | nil => exact ⟨a, rfl⟩
  | cons x l ih =>
    obtain ⟨q, rfl⟩ := h x (by simp)
    have h' : ∀ x ∈ l, ∃ q, x = Score.num q := fun x hx => h x (by simp [hx])
    simp only [minBy, Score.gt?]
    cases decide (q < a) with
    | true => exact ih h'
    | false => exact ih h'

theorem minBy_spec {a : Rat} {l : List Rat} {n : Score}
    (h : minBy (.num a) (l.map .num) = some n) :
    ∃ q, n = .num q ∧ (q = a ∨ q ∈ l) ∧ q ≤ a ∧ ∀ x ∈ l, q ≤ x := by
  induction l generalizing a with
  | nil =>
    simp only [List.map_nil, minBy, Option.some.injEq] at h
    exact ⟨a, h.symm, .inl rfl, by grind, by simp⟩
  | cons x l ih =>
    simp only [List.map_cons, minBy, Score.gt?] at h
    by_cases hx : x < a
    · simp only [hx, decide_true] at h
      obtain ⟨q, h1, h2, h3, h4⟩ := ih h
      exact ⟨q, h1, by grind, by grind, by grind⟩
    · simp only [hx, decide_false] at h
      obtain ⟨q, h1, h2, h3, h4⟩ := ih h
      exact ⟨q, h1, by grind, by grind, by grind⟩

theorem sumCount_num (l : List Rat) (a : Rat) (k : Nat) :
    (l.map Score.num).foldl (fun (prev : Score × Nat) cur => (prev.1.add cur, prev.2 + 1))
      (.num a, k) = (.num (a + total l), k + l.length) := by
  induction l generalizing a k with
  | nil => simp [total]; grind
  | cons x l ih =>
    have h : (x :: l).map Score.num = Score.num x :: l.map Score.num := rfl
    rw [h, List.foldl_cons]
    show List.foldl _ (Score.num (a + x), k + 1) _ = _
    rw [ih]
    have h1 : a + x + total l = a + total (x :: l) := by simp only [total]; grind
    have h2 : k + 1 + l.length = k + (x :: l).length := by simp only [List.length_cons]; omega
    rw [h1, h2]

theorem aggregate_num (g : Aggregator) (l : List Rat) :
    ∃ n, aggregate g (l.map .num) = some (.num n) ∧ IsAggregate g l n := by
  cases g with
  | min =>
    cases l with
    | nil => exact ⟨1, rfl, .inl ⟨rfl, rfl⟩⟩
    | cons a l =>
      obtain ⟨q, hq⟩ := @minBy_num a (l.map .num) (by simp)
      obtain ⟨q', h1, h2, h3, h4⟩ := minBy_spec hq
      refine ⟨q, hq, .inr ?_⟩
      simp only [Score.num.injEq] at h1
      subst h1
      exact ⟨by grind, by grind⟩
  | sum =>
    simp only [aggregate, sumCount_num]
    cases l with
    | nil => exact ⟨1, rfl, .inl ⟨rfl, rfl⟩⟩
    | cons a l =>
      have hne : (0 + (a :: l).length : Nat) ≠ 0 := by simp
      rw [if_neg hne]
      refine ⟨_, rfl, .inr ⟨by simp, ?_⟩⟩
      have h0 : ((0 + (a :: l).length : Nat) : Rat) ≠ 0 := by
        intro h; exact hne (by exact_mod_cast h)
      have : ((0 + (a :: l).length : Nat) : Rat) = ((a :: l).length : Nat) := by simp
      rw [this] at h0 ⊢
      rw [Rat.div_mul_cancel h0]
      grind

theorem IsAggregate.unique {g : Aggregator} {l : List Rat} {a b : Rat} (ha : IsAggregate g l a)
    (hb : IsAggregate g l b) : a = b := by
  cases g with
  | min =>
    rcases ha with ⟨rfl, rfl⟩ | ⟨h1, h2⟩ <;> rcases hb with ⟨h3, h4⟩ | ⟨h3, h4⟩
    · exact h4.symm
    · cases h3
    · subst h3; cases h1
    · have := h2 b h3; have := h4 a h1; grind
  | sum =>
    rcases ha with ⟨rfl, rfl⟩ | ⟨h1, h2⟩ <;> rcases hb with ⟨h3, h4⟩ | ⟨h3, h4⟩
    · exact h4.symm
    · exact absurd rfl h3
    · exact absurd h3 h1
    · have h0 : ((l.length : Nat) : Rat) ≠ 0 := by
        intro h
        have : l.length = 0 := by exact_mod_cast h
        exact h1 (List.length_eq_zero_iff.1 this)
      have h5 : (a - b) * (l.length : Rat) = 0 := by grind
      rcases Rat.mul_eq_zero.1 h5 with h | h
      · grind
      · exact absurd h h0

theorem foldl_add_num {l : List (SubtaskId × Option Score)} {v : SubtaskId → Rat}
    (h : ∀ p ∈ l, p.2 = some (.num (v p.1))) (z : Rat) :
    (l.map (·.2)).foldl (fun a s => Score.add a (s.getD .nan)) (.num z) =
      .num (z + total (l.map (fun p => v p.1))) := by
  induction l generalizing z with
  | nil => simp [total]; grind
  | cons p l ih =>
    have hp := h p (by simp)
    simp only [List.map_cons, List.foldl_cons, hp, Option.getD_some]
    show List.foldl _ (Score.num (z + v p.1)) _ = _
    rw [ih (fun q hq => h q (by simp [hq]))]
    simp only [total]
    congr 1; grind

theorem total_perm {l l' : List Rat} (h : l.Perm l') : total l = total l' := by
  induction h with
  | nil => rfl
  | cons x _ ih => simp only [total, ih]
  | swap x y l => simp only [total]; grind
  | trans _ _ ih₁ ih₂ => exact ih₁.trans ih₂

end TM.Score
