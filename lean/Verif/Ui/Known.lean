import Verif.Ui.Scores
import Verif.Ui.Checks
import Verif.Score.Props
/-!
# The messages are about subtasks and testcases of the task
-/
namespace TM.Ui
open TM TM.Build DagSpec Build.Spec

variable {n : Uuid} {cfg : DagConfig} {fs : FS} {root : String} {task : Task} {sols : List Src}
  {io : GeneratedIo} {ev : Eval}

/-! ## The messages of a score manager -/

/-- The subtasks in the messages are those of the manager. -/
def SubtasksOf (t : Score.Task) (m : Score.Manager) : Prop :=
  (∀ st tcs, m.subtaskTestcases.get? st = some tcs → st ∈ t.subtasks.map (·.1)) ∧
  ∀ st s n, .subtaskScore st s n ∈ m.sent → st ∈ t.subtasks.map (·.1)

variable {t : Score.Task}

theorem scoreSubtask_of {m m' : Score.Manager} {st : Nat} (hm : SubtasksOf t m)
    (h : m.scoreSubtask st = some m') : SubtasksOf t m' := by
  unfold Score.Manager.scoreSubtask at h
  split at h
  · cases h
  · next tcs htcs =>
    have hst := hm.1 st tcs htcs
    split at h
    · cases h
    · split at h
      · split at h
        · simp only at h
          split at h
          · cases h
            refine ⟨hm.1, fun st' s n hx => ?_⟩
            simp only [List.mem_append, List.mem_singleton, reduceCtorEq, or_false] at hx
            rcases hx with hx | hx
            · exact hm.2 _ _ _ hx
            · cases hx; exact hst
          · cases h
            refine ⟨hm.1, fun st' s n hx => ?_⟩
            simp only [List.mem_append, List.mem_singleton] at hx
            rcases hx with hx | hx
            · exact hm.2 _ _ _ hx
            · cases hx; exact hst
        · cases h
      · cases h; exact hm

theorem scoreMissing_of : ∀ {l : List (Nat × Option Score.Score)} {m m' : Score.Manager}, SubtasksOf t m →
    m.scoreMissing l = some m' → SubtasksOf t m' := by
  intro l
  induction l with
  | nil => intro m m' hm h; cases h; exact hm
  | cons p l ih =>
    intro m m' hm h
    obtain ⟨st, s⟩ := p
    simp only [Score.Manager.scoreMissing] at h
    split at h
    · split at h
      · cases h
      · next m1 h1 => exact ih (scoreSubtask_of hm h1) h
    · exact ih hm h

theorem scoreEmpty_of : ∀ {l : List Nat} {m m' : Score.Manager}, SubtasksOf t m →
    m.scoreEmpty t l = some m' → SubtasksOf t m' := by
  intro l
  induction l with
  | nil => intro m m' hm h; cases h; exact hm
  | cons st l ih =>
    intro m m' hm h
    simp only [Score.Manager.scoreEmpty] at h
    split at h
    · cases h
    · split at h
      · split at h
        · cases h
        · next m1 h1 => exact ih (scoreSubtask_of hm h1) h
      · exact ih hm h

theorem scores_of : ∀ {cs : List Score.Call} {m m' : Score.Manager}, SubtasksOf t m →
    m.scores cs = some m' → SubtasksOf t m' := by
  intro cs
  induction cs with
  | nil => intro m m' hm h; cases h; exact hm
  | cons c cs ih =>
    intro m m' hm h
    simp only [Score.Manager.scores] at h
    split at h
    · cases h
    · next m1 h1 =>
      refine ih ?_ h
      unfold Score.Manager.score at h1
      simp only at h1
      refine scoreMissing_of (m := { m with
        testcaseScores := m.testcaseScores.insert c.testcase (some c.score)
        sent := m.sent ++ [.testcaseScore c.subtask c.testcase c.score] }) ⟨hm.1, fun st s n hx => ?_⟩ h1
      simp only [List.mem_append, List.mem_singleton, reduceCtorEq, or_false] at hx
      exact hm.2 _ _ _ hx

theorem run_of {order : List Nat} {calls : List Score.Call} {m : Score.Manager}
    (h : Score.run t order calls = some m) : SubtasksOf t m := by
  unfold Score.run at h
  split at h
  · cases h
  · next m0 h0 =>
    refine scores_of ?_ h
    unfold Score.Manager.new at h0
    refine scoreEmpty_of ⟨fun st tcs hst => ?_, fun _ _ _ hx => (by simp at hx)⟩ h0
    simp only at hst
    rw [get?_map_values t.subtasks (fun i => i.testcases)] at hst
    cases hg : t.subtasks.get? st with
    | none => rw [hg] at hst; cases hst
    | some i => exact AMap.mem_keys_iff.2 ⟨i, hg⟩

/-! ## Where the messages come from -/

/-- A message of the client. -/
def Sourced (begun : List Message) (js : List Nat) (l : Live) : Prop :=
  (∀ j m, l.managers.get? j = some m → j ∈ js) ∧
  ∀ m ∈ l.sent, m ∈ begun ∨ (∃ p ∈ l.client.told, m = ofTold p) ∨ ∃ j ∈ js, ∃ x, scoreOf j m = some x

variable {begun : List Message} {js : List Nat}

theorem score_sourced {pick : Live → List Nat} {l l' : Live} {g : Given} (hi : Sourced begun js l)
    (h : l.score pick g = some l') : Sourced begun js l' := by
  unfold Live.score at h
  split at h
  · cases h
  · next m hm =>
    split at h
    · cases h
    · next m' hm' =>
      cases h
      refine ⟨fun j m1 hj => ?_, fun x hx => ?_⟩
      · simp only [AMap.get?_insert] at hj
        split at hj
        · next he => subst he; exact hi.1 _ _ hm
        · exact hi.1 _ _ hj
      · simp only [List.mem_append, List.mem_map] at hx
        rcases hx with hx | ⟨y, -, rfl⟩
        · exact hi.2 x hx
        · exact .inr (.inr ⟨g.solution, hi.1 _ _ hm, y, by rw [scoreOf_ofScore, if_pos rfl]⟩)

theorem scores_sourced {pick : Live → List Nat} : ∀ {gs : List Given} {l l' : Live}, Sourced begun js l →
    l.scores pick gs = some l' → Sourced begun js l' := by
  intro gs
  induction gs with
  | nil => intro l l' hi h; cases h; exact hi
  | cons g gs ih =>
    intro l l' hi h
    simp only [Live.scores] at h
    split at h
    · cases h
    · next l1 h1 => exact ih (score_sourced hi h1) h

theorem invoke_sourced {pick : Live → List Nat} : ∀ {xs : List (Notice × Handler)} {l l' : Live},
    Sourced begun js l → l.invoke pick xs = some l' → Sourced begun js l' := by
  intro xs
  induction xs with
  | nil => intro l l' hi h; cases h; exact hi
  | cons x xs ih =>
    intro l l' hi h
    obtain ⟨n, hd⟩ := x
    simp only [Live.invoke] at h
    split at h
    · cases h
    · next l1 h1 =>
      refine ih ?_ h
      unfold Live.callOne at h1
      split at h1
      · cases h1
      · next c hc =>
        refine scores_sourced ?_ h1
        have hg := (callOne_grows (x := (n, hd)) hc).2
        refine ⟨hi.1, fun x hx => ?_⟩
        simp only [List.mem_append, List.mem_map] at hx
        rcases hx with hx | ⟨p, hp, rfl⟩
        · rcases hi.2 x hx with h2 | ⟨p, hp, rfl⟩ | h2
          · exact .inl h2
          · exact .inr (.inl ⟨p, by rw [hg]; exact List.mem_append.2 (.inl hp), rfl⟩)
          · exact .inr (.inr h2)
        · exact .inr (.inl ⟨p, by rw [hg]; exact List.mem_append.2 (.inr hp), rfl⟩)

theorem follow_sourced {order : Nat → List Nat} {ms : AMap Nat Score.Manager}
    (hms : newManagers t order js = some ms) {checks : List (Nat × List SolCheck)} {pick : Live → List Nat}
    {ns : List Notice} {l : Live} (hl : Live.follow pick ev ms checks ns = some l) :
    Sourced (Live.start ev ms checks).sent js l := by
  unfold Live.follow at hl
  rw [live_notifyAll] at hl
  refine invoke_sourced ⟨fun j m hj => ?_, fun x hx => .inl hx⟩ hl
  rw [← (newManagers_mem hms).1]
  exact List.mem_map.2 ⟨_, AMap.mem_of_get? hj, rfl⟩

/-! ## All of them are known -/

theorem known_topic (hf : Fits n task sols) (hk : Keyed task) {m : Nat} {tp : Topic}
    (h : tp ∈ messages task m) (p : Phase) : (Message.progress tp p).Known task := by
  unfold messages at h
  rcases List.mem_append.1 h with h1 | h1
  · obtain ⟨st, hst, h2⟩ := List.mem_flatMap.1 h1
    obtain ⟨tc, htc, h3⟩ := List.mem_flatMap.1 h2
    obtain ⟨k', hk', hget⟩ := List.mem_filterMap.1 htc
    have hid := hf.testcaseIds _ _ hget
    subst hid
    have hst' := (keyed_values hk).1 hst
    have hin : tc.id ∈ task.testcases.values.map (·.id) :=
      List.mem_map.2 ⟨tc, List.mem_map.2 ⟨_, AMap.mem_of_get? hget, rfl⟩, rfl⟩
    unfold testcaseMessages at h3
    rcases List.mem_append.1 h3 with h4 | h4
    · rcases List.mem_append.1 h4 with h5 | h5
      · rcases List.mem_append.1 h5 with h6 | h6
        · obtain ⟨-, -, rfl⟩ := List.mem_map.1 h6; exact ⟨st, hst', hk'⟩
        · obtain ⟨-, -, rfl⟩ := List.mem_map.1 h6; exact ⟨st, hst'⟩
      · obtain ⟨-, -, rfl⟩ := List.mem_map.1 h5; exact ⟨st, hst', hk'⟩
    · obtain ⟨sol, hsol, h5⟩ := List.mem_flatMap.1 h4
      unfold evaluationMessages at h5
      split at h5
      · simp only [List.mem_cons, List.not_mem_nil, or_false] at h5
        rcases h5 with rfl | rfl
        · exact ⟨hin, by omega⟩
        · exact hin
      · rcases List.mem_append.1 h5 with h6 | h6
        · obtain ⟨i, hi, rfl⟩ := List.mem_map.1 h6
          exact ⟨hin, List.mem_range.1 hi⟩
        · rw [List.mem_singleton] at h6; subst h6
          exact hin
      · cases h5
  · obtain ⟨st, hst, h2⟩ := List.mem_flatMap.1 h1
    obtain ⟨k', -, h3⟩ := List.mem_flatMap.1 h2
    obtain ⟨-, -, rfl⟩ := List.mem_map.1 h3
    exact ⟨st, (keyed_values hk).1 hst⟩

theorem owned_known (h : Fits n task sols)
    (hr : buildDag fs root task sols (start n cfg) = .ok (io, ev)) {st : Subtask}
    (hst : st ∈ task.subtasks.values) {k : Nat} (hk : k ∈ st.owned) : k ∈ task.testcases.values.map (·.id) := by
  obtain ⟨tc, -, -, -, h1, -⟩ := testcase_prepared h hr hst hk
  exact List.mem_map.2 ⟨tc, List.mem_map.2 ⟨_, AMap.mem_of_get? h1, rfl⟩, h.testcaseIds _ _ h1⟩

theorem scoreTask_known {mx : Nat → Rat} {agg : Score.Aggregator} (hk : Keyed task) {st : Nat}
    (h : st ∈ (scoreTask task mx agg).subtasks.map (·.1)) : st ∈ task.subtasks.values.map (·.id) := by
  unfold scoreTask at h
  simp only [List.map_map, List.mem_map, Function.comp] at h
  obtain ⟨p, hp, rfl⟩ := h
  have := AMap.get?_of_mem hk.1 (k := p.1) (v := p.2) hp
  exact List.mem_map.2 ⟨p.2, List.mem_map.2 ⟨p, hp, rfl⟩, hk.2 _ _ this⟩

/-- All the messages are about the task. -/
theorem messages_known (h : Fits n task sols) (hk : Keyed task)
    (hr : buildDag fs root task sols (start n cfg) = .ok (io, ev)) {mx : Nat → Rat}
    {agg : Score.Aggregator} {order : Nat → List Nat} (hjs : js.Nodup) {ms : AMap Nat Score.Manager}
    (hms : newManagers (scoreTask task mx agg) order js = some ms) {checks : List (Nat × List SolCheck)}
    {pick : Live → List Nat} (hpick : ∀ l, (scoreTask task mx agg).Order (pick l)) {ns : List Notice}
    {l : Live} (hl : Live.follow pick ev ms checks ns = some l) : ∀ m ∈ l.sent, m.Known task := by
  have hsc := follow_scored hjs hms hpick hl
  have hfol := live_client hl
  -- the scores
  have hscore : ∀ m ∈ l.sent, ∀ j ∈ js, ∀ x, scoreOf j m = some x → m.Known task := by
    intro m hm j hj x hx
    obtain ⟨calls, mg, -, h2, -, h4, h5⟩ := hsc j hj
    have hmem : x ∈ mg.sent := by rw [← h5]; exact List.mem_filterMap.2 ⟨m, hm, hx⟩
    cases m with
    | testcaseScore st tc sol score message =>
      simp only [scoreOf] at hx
      split at hx <;> cases hx
      have hrel := Score.testcase_scores_relayed h2
      have : Score.Msg.testcaseScore st tc score ∈ Score.testcaseMsgs mg.sent :=
        List.mem_filter.2 ⟨hmem, rfl⟩
      rw [hrel] at this
      obtain ⟨c, hc, he⟩ := List.mem_map.1 this
      cases he
      have : (c.subtask, c.testcase, c.score) ∈ calls.map (fun x => (x.subtask, x.testcase, x.score)) :=
        List.mem_map.2 ⟨c, hc, rfl⟩
      rw [h4] at this
      obtain ⟨g, hg, he⟩ := List.mem_map.1 this
      simp only [Prod.mk.injEq] at he
      obtain ⟨-, st', hst', -, hown⟩ := only_evaluations_scored h hr hfol (List.mem_filter.1 hg).1
      rw [he.2.1] at hown
      exact owned_known h hr hst' hown
    | subtaskScore st sol score normalized =>
      simp only [scoreOf] at hx
      split at hx <;> cases hx
      exact scoreTask_known hk ((run_of h2).2 _ _ _ hmem)
    | taskScore sol score => exact trivial
    | other => exact trivial
    | solutions l => exact trivial
    | progress tp p => cases hx
  have htopic : ∀ u tp p, Reports ev u tp → (Message.progress tp p).Known task := by
    intro u tp p hu
    rcases report_expected h hr hu with ⟨path, rfl⟩ | h3
    · exact trivial
    · exact known_topic h hk h3 p
  intro m hm
  rcases (follow_sourced hms hl).2 m hm with h1 | ⟨p, hp, rfl⟩ | ⟨j, hj, x, hx⟩
  · unfold Live.start at h1
    simp only [List.mem_append, List.mem_cons, List.mem_flatMap, List.mem_map] at h1
    rcases h1 with (rfl | ⟨q, hq, x, hx, rfl⟩) | rfl | ⟨tp, htp, rfl⟩
    · exact trivial
    · exact hscore _ hm q.1 (by rw [← (newManagers_mem hms).1]; exact List.mem_map.2 ⟨q, hq, rfl⟩) x
        (by rw [scoreOf_ofScore, if_pos rfl])
    · exact trivial
    · obtain ⟨e, -, he⟩ := ((announced h hr).2 tp).1 htp
      exact htopic _ _ _ he
  · rw [told_exactly hfol] at hp
    obtain ⟨x, -, hp⟩ := List.mem_flatMap.1 hp
    obtain ⟨tp, htp, rfl⟩ := List.mem_map.1 hp
    exact htopic _ _ _ (mem_reportsOn.1 htp)
  · exact hscore m hm j hj x hx

end TM.Ui
