import Verif.Ui.Glue
/-!
# The scores the client sends to the UI
-/
namespace TM.Ui
open TM TM.Build DagSpec Build.Spec

variable {t : Score.Task} {order : Nat → List Nat} {js : List Nat}

/-- The scores of a solution among the messages. -/
def scoreOf (j : Nat) : Message → Option Score.Msg
  | .testcaseScore st tc sol score _ => if sol = j then some (.testcaseScore st tc score) else none
  | .subtaskScore st sol score normalized => if sol = j then some (.subtaskScore st score normalized) else none
  | .taskScore sol score => if sol = j then some (.taskScore score) else none
  | _ => none

theorem scoreOf_ofScore (j sol : Nat) (text : String) (x : Score.Msg) :
    scoreOf j (ofScore sol text x) = if sol = j then some x else none := by
  cases x <;> rfl

theorem scoreOf_map (j sol : Nat) (text : String) (l : List Score.Msg) :
    (l.map (ofScore sol text)).filterMap (scoreOf j) = if sol = j then l else [] := by
  induction l with
  | nil => simp
  | cons x l ih =>
    rw [List.map_cons, List.filterMap_cons, scoreOf_ofScore, ih]
    split <;> simp_all

/-- The managers got what the client gave, and the UI what they sent. -/
def Scored (t : Score.Task) (order : Nat → List Nat) (js : List Nat) (given : List Given) (l : Live) : Prop :=
  ∀ j ∈ js, ∃ calls m, l.managers.get? j = some m ∧ Score.run t (order j) calls = some m ∧ t.Calls calls ∧
    calls.map (fun x => (x.subtask, x.testcase, x.score)) =
      (given.filter (fun g => g.solution = j)).map (fun g => (g.subtask, g.testcase, g.score)) ∧
    l.sent.filterMap (scoreOf j) = m.sent

theorem scores_append : ∀ {a b : List Score.Call} {m : Score.Manager},
    m.scores (a ++ b) = (m.scores a).bind (·.scores b) := by
  intro a
  induction a with
  | nil => intro b m; rfl
  | cons c a ih =>
    intro b m
    simp only [List.cons_append, Score.Manager.scores]
    cases m.score c with
    | none => rfl
    | some m1 => exact ih

theorem run_snoc {order : List Nat} {calls : List Score.Call} {c : Score.Call} {m m' : Score.Manager}
    (h : Score.run t order calls = some m) (h' : m.score c = some m') :
    Score.run t order (calls ++ [c]) = some m' := by
  unfold Score.run at h ⊢
  cases hn : Score.Manager.new t order with
  | none => rw [hn] at h; cases h
  | some m0 =>
    rw [hn] at h
    simp only at h ⊢
    rw [scores_append, h]
    simp [Score.Manager.scores, h']

theorem score_step {pick : Live → List Nat} (hpick : ∀ l, t.Order (pick l)) {l l' : Live} {g : Given}
    {given : List Given} (hi : Scored t order js given l) (h : l.score pick g = some l') :
    Scored t order js (given ++ [g]) l' := by
  unfold Live.score at h
  split at h
  · cases h
  · next m hm =>
    split at h
    · cases h
    · next m' hm' =>
      cases h
      intro j hj
      obtain ⟨calls, m0, h1, h2, h3, h4, h5⟩ := hi j hj
      obtain ⟨tail, h6, -⟩ := score_sent hm'
      simp only at h6
      have hsent : (l.sent ++ (m'.sent.drop m.sent.length).map (ofScore g.solution g.message)).filterMap (scoreOf j) =
          m0.sent ++ (if g.solution = j then m'.sent.drop m.sent.length else []) := by
        rw [List.filterMap_append, h5, scoreOf_map]
      by_cases hgj : g.solution = j
      · subst hgj
        rw [h1] at hm; cases hm
        refine ⟨calls ++ [⟨g.subtask, g.testcase, g.score, pick l⟩], m', ?_, run_snoc h2 hm', ?_, ?_, ?_⟩
        · simp only [AMap.get?_insert, if_true]
        · intro c hc
          rcases List.mem_append.1 hc with hc | hc
          · exact h3 c hc
          · rw [List.mem_singleton] at hc; subst hc; exact hpick l
        · rw [List.map_append, h4, List.filter_append]; simp
        · simp only
          rw [hsent, if_pos rfl]
          rw [h6, List.drop_left]
      · refine ⟨calls, m0, ?_, h2, h3, ?_, ?_⟩
        · simp only [AMap.get?_insert]
          rw [if_neg (fun h => hgj h.symm)]; exact h1
        · rw [h4, List.filter_append]
          simp [hgj]
        · simp only
          rw [hsent, if_neg hgj, List.append_nil]

theorem scores_step {pick : Live → List Nat} (hpick : ∀ l, t.Order (pick l)) : ∀ {gs : List Given} {l l' : Live}
    {given : List Given}, Scored t order js given l → l.scores pick gs = some l' →
    Scored t order js (given ++ gs) l' := by
  intro gs
  induction gs with
  | nil => intro l l' given hi h; cases h; simpa using hi
  | cons g gs ih =>
    intro l l' given hi h
    simp only [Live.scores] at h
    split at h
    · cases h
    · next l1 h1 =>
      have := ih (score_step hpick hi h1) h
      simpa using this

theorem callOne_grows {c c' : Client} {x : Notice × Handler} (h : c.callOne x.1 x.2 = .ok c') :
    c'.given = c.given ++ c'.given.drop c.given.length ∧
    c'.told = c.told ++ c'.told.drop c.told.length := by
  obtain ⟨-, ⟨k, a, -, h1⟩ | ⟨-, h1⟩⟩ := callOne_ok h
  · obtain ⟨i, s, s', -, -, rfl⟩ := answer_ok h1
    simp
  · subst h1; simp

theorem scoreOf_told (j : Nat) (l : List (Topic × Progress)) : (l.map ofTold).filterMap (scoreOf j) = [] := by
  induction l with
  | nil => rfl
  | cons x l ih => rw [List.map_cons, List.filterMap_cons]; simpa [ofTold, scoreOf] using ih

theorem callOne_step {pick : Live → List Nat} (hpick : ∀ l, t.Order (pick l)) {l l' : Live}
    {x : Notice × Handler} (hi : Scored t order js l.client.given l) (h : l.callOne pick x.1 x.2 = some l') :
    Scored t order js l'.client.given l' := by
  have hc := (live_callOne h).1
  unfold Live.callOne at h
  split at h
  · cases h
  · next c hc' =>
    rw [hc'] at hc
    cases hc
    have hg := (callOne_grows hc').1
    rw [hg]
    refine scores_step hpick ?_ h
    intro j hj
    obtain ⟨calls, m, h1, h2, h3, h4, h5⟩ := hi j hj
    refine ⟨calls, m, h1, h2, h3, h4, ?_⟩
    simp only
    rw [List.filterMap_append, h5, scoreOf_told, List.append_nil]

theorem invoke_step {pick : Live → List Nat} (hpick : ∀ l, t.Order (pick l)) :
    ∀ {xs : List (Notice × Handler)} {l l' : Live}, Scored t order js l.client.given l →
    l.invoke pick xs = some l' → Scored t order js l'.client.given l' := by
  intro xs
  induction xs with
  | nil => intro l l' hi h; cases h; exact hi
  | cons x xs ih =>
    intro l l' hi h
    obtain ⟨n, hd⟩ := x
    simp only [Live.invoke] at h
    split at h
    · cases h
    · next l1 h1 => exact ih (callOne_step (x := (n, hd)) hpick hi h1) h

theorem get?_of_keys {ms : AMap Nat Score.Manager} (hn : (ms.map (·.1)).Nodup) {j : Nat}
    (hj : j ∈ ms.map (·.1)) : ∃ m, ms.get? j = some m ∧ (j, m) ∈ ms := by
  obtain ⟨p, hp, rfl⟩ := List.mem_map.1 hj
  exact ⟨p.2, AMap.get?_of_mem hn hp, hp⟩

theorem flatMap_scoreOf {ms : AMap Nat Score.Manager} (hn : (ms.map (·.1)).Nodup) {j : Nat}
    {m : Score.Manager} (h : (j, m) ∈ ms) :
    (ms.flatMap (fun p => p.2.sent.map (ofScore p.1 ""))).filterMap (scoreOf j) = m.sent := by
  have hnone : ∀ {l : List (Nat × Score.Manager)}, j ∉ l.map (·.1) →
      (l.flatMap (fun p => p.2.sent.map (ofScore p.1 ""))).filterMap (scoreOf j) = [] := by
    intro l
    induction l with
    | nil => intro _; rfl
    | cons p l ih =>
      intro hj
      simp only [List.map_cons, List.mem_cons, not_or] at hj
      rw [List.flatMap_cons, List.filterMap_append, scoreOf_map, if_neg (fun h => hj.1 h.symm), ih hj.2]
      rfl
  induction ms with
  | nil => cases h
  | cons p l ih =>
    rw [List.map_cons, List.nodup_cons] at hn
    rw [List.flatMap_cons, List.filterMap_append, scoreOf_map]
    rcases List.mem_cons.1 h with rfl | h
    · rw [if_pos rfl, hnone hn.1, List.append_nil]
    · have : p.1 ≠ j := by
        intro he
        exact hn.1 (he ▸ List.mem_map.2 ⟨_, h, rfl⟩)
      rw [if_neg this, ih hn.2 h]
      rfl

theorem start_scored (hjs : js.Nodup) {ms : AMap Nat Score.Manager}
    (hms : newManagers t order js = some ms) (ev : Eval) (checks : List (Nat × List SolCheck)) :
    Scored t order js (Live.start ev ms checks).client.given (Live.start ev ms checks) := by
  obtain ⟨h1, h2⟩ := newManagers_mem hms
  intro j hj
  obtain ⟨m, h3, h4⟩ := get?_of_keys (by rw [h1]; exact hjs) (by rw [h1]; exact hj)
  refine ⟨[], m, h3, ?_, (fun c hc => nomatch hc), rfl, ?_⟩
  · unfold Score.run; rw [h2 _ h4]; rfl
  · have hp : (ev.pending.map (fun t => Message.progress t .pending)).filterMap (scoreOf j) = [] := by
      rw [List.filterMap_eq_nil_iff]
      intro m hm
      obtain ⟨-, -, rfl⟩ := List.mem_map.1 hm
      rfl
    unfold Live.start
    simp only [List.cons_append, List.filterMap_cons, scoreOf, List.filterMap_append, hp,
      List.append_nil]
    exact flatMap_scoreOf (by rw [h1]; exact hjs) h4

/-- The scores sent to the UI are those of the managers, which got the scores given by the client. -/
theorem follow_scored (hjs : js.Nodup) {ms : AMap Nat Score.Manager}
    (hms : newManagers t order js = some ms) {ev : Eval} {checks : List (Nat × List SolCheck)}
    {pick : Live → List Nat} (hpick : ∀ l, t.Order (pick l)) {ns : List Notice} {l : Live}
    (hl : Live.follow pick ev ms checks ns = some l) : Scored t order js l.client.given l := by
  unfold Live.follow at hl
  rw [live_notifyAll] at hl
  exact invoke_step hpick (start_scored hjs hms ev checks) hl

/-! ## What the UI shows of them -/

theorem onGen_evals {task : Task} {s s' : State} {st tc : Nat} {f : GenState → GenState}
    (h : s.onGen st tc f = some s') (j : Nat) : s'.evalOf task j = s.evalOf task j :=
  evalOf_congr (onGen_tc h).1 j

/-- The score of a solution and those of its subtasks. -/
def shownScores (task : Task) (s : State) (j : Nat) : Option Score.Score × AMap Nat StEval :=
  ((s.evalOf task j).score, (s.evalOf task j).subtasks)

theorem onTc_scores {task : Task} {s s' : State} {sol tc : Nat} {f : TcEval → Option TcEval}
    (h : s.onTc task sol tc f = some s') (j : Nat) : shownScores task s' j = shownScores task s j := by
  unfold State.onTc at h
  simp only at h
  split at h
  · cases h
  · split at h
    · cases h
    · cases h
      unfold shownScores State.evalOf
      simp only [AMap.get?_insert]
      by_cases hj : j = sol
      · subst hj; simp
      · simp [hj]

/-- What a score changes. -/
def applyScore (p : Option Score.Score × AMap Nat StEval) : Score.Msg → Option Score.Score × AMap Nat StEval
  | .testcaseScore _ _ _ => p
  | .subtaskScore st s n => (p.1, p.2.insert st ⟨some s, some n⟩)
  | .taskScore s => (some s, p.2)

theorem apply_scores {task : Task} {s s' : State} {m : Message} (h : s.apply task m = some s') (j : Nat) :
    shownScores task s' j = match scoreOf j m with
      | some x => applyScore (shownScores task s j) x
      | none => shownScores task s j := by
  have evals : s'.evaluations = s.evaluations → shownScores task s' j = shownScores task s j := by
    intro he; unfold shownScores; rw [evalOf_congr he]
  cases m with
  | other => cases h; rfl
  | solutions l => cases h; rfl
  | progress tp p =>
    simp only [scoreOf]
    cases tp with
    | compilation path => cases h; rfl
    | generation st k => exact evals (onGen_tc h).1
    | validation st k =>
      simp only [State.apply] at h
      split at h
      · cases h
      · split at h
        · cases h; rfl
        · exact evals (onGen_tc h).1
    | officialOutput st k => exact evals (onGen_tc h).1
    | evaluation st k j' part parts =>
      simp only [State.apply] at h
      exact onTc_scores h j
    | checker st k j' =>
      simp only [State.apply] at h
      exact onTc_scores h j
    | booklet name => cases h; rfl
    | bookletDependency booklet name step =>
      simp only [State.apply] at h
      split at h
      · cases h; rfl
      · cases h
  | testcaseScore st k j' score message =>
    simp only [State.apply] at h
    rw [onTc_scores h j]
    simp only [scoreOf]
    split
    · next x hx => split at hx <;> cases hx; rfl
    · rfl
  | subtaskScore st j' score normalized =>
    simp only [State.apply] at h
    split at h
    · cases h
    · cases h
      simp only [scoreOf]
      unfold shownScores State.evalOf
      simp only [AMap.get?_insert]
      by_cases hj : j' = j
      · subst hj; simp [applyScore]
      · have hj' : ¬ j = j' := fun h => hj h.symm
        simp only [hj, hj', if_false]
  | taskScore j' score =>
    simp only [State.apply] at h
    cases h
    simp only [scoreOf]
    unfold shownScores State.evalOf
    simp only [AMap.get?_insert]
    by_cases hj : j' = j
    · subst hj; simp [applyScore]
    · have hj' : ¬ j = j' := fun h => hj h.symm
      simp only [hj, hj', if_false]

theorem applyAll_scores {task : Task} (j : Nat) : ∀ {ms : List Message} {s s' : State},
    s.applyAll task ms = some s' →
    shownScores task s' j = (ms.filterMap (scoreOf j)).foldl applyScore (shownScores task s j) := by
  intro ms
  induction ms with
  | nil => intro s s' h; cases h; rfl
  | cons m ms ih =>
    intro s s' h
    simp only [State.applyAll] at h
    split at h
    · cases h
    · next s1 h1 =>
      rw [ih h, apply_scores h1 j, List.filterMap_cons]
      cases scoreOf j m with
      | none => rfl
      | some x => rfl

theorem fold_task : ∀ {l : List Score.Msg} {p : Option Score.Score × AMap Nat StEval},
    ((l.foldl applyScore p).1 = match (Score.taskMsgs l).getLast? with
      | some (.taskScore s) => some s
      | _ => p.1) := by
  intro l
  induction l with
  | nil => intro p; rfl
  | cons x l ih =>
    intro p
    rw [List.foldl_cons, ih]
    unfold Score.taskMsgs
    rw [List.filter_cons]
    cases x with
    | testcaseScore => rfl
    | subtaskScore => rfl
    | taskScore s =>
      simp only [applyScore, if_true]
      rw [List.getLast?_cons]
      cases hg : (List.filter (fun m => match m with | .taskScore _ => true | _ => false) l).getLast? with
      | none => rfl
      | some y =>
        have := (List.mem_filter.1 (List.mem_of_getLast? hg)).2
        cases y <;> first | rfl | cases this

theorem fold_subtask (st : Nat) : ∀ {l : List Score.Msg} {p : Option Score.Score × AMap Nat StEval},
    ((l.foldl applyScore p).2.get? st = match (Score.subtaskMsgs l st).getLast? with
      | some (.subtaskScore _ s n) => some ⟨some s, some n⟩
      | _ => p.2.get? st) := by
  intro l
  induction l with
  | nil => intro p; rfl
  | cons x l ih =>
    intro p
    rw [List.foldl_cons, ih]
    unfold Score.subtaskMsgs
    rw [List.filter_cons]
    cases x with
    | testcaseScore => rfl
    | taskScore => rfl
    | subtaskScore st' s n =>
      simp only [applyScore, AMap.get?_insert]
      by_cases hst : st' = st
      · subst hst
        simp only [decide_true, if_true]
        rw [List.getLast?_cons]
        cases hg : (List.filter (fun m => match m with | .subtaskScore s _ _ => decide (s = st') | _ => false) l).getLast? with
        | none => rfl
        | some y =>
          have := (List.mem_filter.1 (List.mem_of_getLast? hg)).2
          cases y <;> first | rfl | cases this
      · simp only [hst, decide_false, Bool.false_eq_true, if_false]
        rw [if_neg (fun h => hst h.symm)]

/-! ## The entries of the solutions -/

/-- The solution a message is about. -/
def Message.solution : Message → Option Nat
  | .progress (.evaluation _ _ sol _ _) _ => some sol
  | .progress (.checker _ _ sol) _ => some sol
  | .testcaseScore _ _ sol _ _ => some sol
  | .subtaskScore _ sol _ _ => some sol
  | .taskScore sol _ => some sol
  | _ => none

theorem onTc_entry {task : Task} {s s' : State} {sol tc : Nat} {f : TcEval → Option TcEval}
    (h : s.onTc task sol tc f = some s') (j : Nat) :
    (s'.evaluations.get? j).isSome = (decide (sol = j) || (s.evaluations.get? j).isSome) := by
  unfold State.onTc at h
  simp only at h
  split at h
  · cases h
  · split at h
    · cases h
    · cases h
      simp only [AMap.get?_insert]
      by_cases hj : j = sol
      · subst hj; simp
      · simp only [hj, if_false]
        simp [show ¬ sol = j from fun h => hj h.symm]

theorem apply_entry {task : Task} {s s' : State} {m : Message} (h : s.apply task m = some s') (j : Nat) :
    (s'.evaluations.get? j).isSome = (decide (m.solution = some j) || (s.evaluations.get? j).isSome) := by
  cases m with
  | other => cases h; simp [Message.solution]
  | solutions l => cases h; simp [Message.solution]
  | progress tp p =>
    cases tp with
    | compilation path => cases h; simp [Message.solution]
    | generation st k => rw [(onGen_tc h).1]; simp [Message.solution]
    | validation st k =>
      simp only [State.apply] at h
      split at h
      · cases h
      · split at h
        · cases h; simp [Message.solution]
        · rw [(onGen_tc h).1]; simp [Message.solution]
    | officialOutput st k => rw [(onGen_tc h).1]; simp [Message.solution]
    | evaluation st k j' part parts =>
      simp only [State.apply] at h
      rw [onTc_entry h j]; simp [Message.solution]
    | checker st k j' =>
      simp only [State.apply] at h
      rw [onTc_entry h j]; simp [Message.solution]
    | booklet name => cases h; simp [Message.solution]
    | bookletDependency booklet name step =>
      simp only [State.apply] at h
      split at h
      · cases h; simp [Message.solution]
      · cases h
  | testcaseScore st k j' score message =>
    simp only [State.apply] at h
    rw [onTc_entry h j]; simp [Message.solution]
  | subtaskScore st j' score normalized =>
    simp only [State.apply] at h
    split at h
    · cases h
    · cases h
      simp only [AMap.get?_insert, Message.solution]
      by_cases hj : j = j'
      · subst hj; simp
      · simp only [hj, if_false]
        simp [show ¬ j' = j from fun h => hj h.symm]
  | taskScore j' score =>
    simp only [State.apply] at h
    cases h
    simp only [AMap.get?_insert, Message.solution]
    by_cases hj : j = j'
    · subst hj; simp
    · simp only [hj, if_false]
      simp [show ¬ j' = j from fun h => hj h.symm]

theorem touched {task : Task} : ∀ {ms : List Message} {s s' : State}, s.applyAll task ms = some s' →
    ∀ {m : Message} {j : Nat}, m ∈ ms → m.solution = some j → (s'.evaluations.get? j).isSome := by
  have keep : ∀ {ms : List Message} {s s' : State}, s.applyAll task ms = some s' → ∀ j,
      (s.evaluations.get? j).isSome → (s'.evaluations.get? j).isSome := by
    intro ms
    induction ms with
    | nil => intro s s' h; cases h; exact fun _ h => h
    | cons m ms ih =>
      intro s s' h j hj
      simp only [State.applyAll] at h
      split at h
      · cases h
      · next s1 h1 => exact ih h j (by rw [apply_entry h1, hj, Bool.or_true])
  intro ms
  induction ms with
  | nil => intro s s' _ m j hm; cases hm
  | cons m ms ih =>
    intro s s' h m' j hm hj
    simp only [State.applyAll] at h
    split at h
    · cases h
    · next s1 h1 =>
      rcases List.mem_cons.1 hm with rfl | hm
      · exact keep h j (by rw [apply_entry h1]; simp [hj])
      · exact ih h hm hj

end TM.Ui
