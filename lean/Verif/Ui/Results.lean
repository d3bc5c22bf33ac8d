import Verif.Ui.PropsGen
/-!
# How the UI records the executions of an evaluation (C71)
-/
namespace TM.Ui
open TM TM.Build DagSpec Build.Spec Ui.Spec

variable {n : Uuid} {cfg : DagConfig} {fs : FS} {root : String} {task : Task} {sols : List Src}
  {io : GeneratedIo} {ev : Eval} {ms : AMap Nat Score.Manager} {checks : List (Nat × List SolCheck)}
  {pick : Live → List Nat} {ns : List Notice} {l : Live}

/-- The recorded results of the processes and of the checker. -/
abbrev Recorded := List (Option ExecutionStatus) × Option ExecutionStatus

/-- The effect of the progress of a process of the solution on the results. -/
def resized (r : List (Option ExecutionStatus)) (parts : Nat) : List (Option ExecutionStatus) :=
  if r.length ≠ parts then List.replicate parts none else r

/-- The effect of the progress of an execution on the results. -/
def recStep (j k : Nat) (r : Recorded) (p : Topic × Phase) : Recorded :=
  match p.1, p.2 with
  | .evaluation _ b c part parts, .told (.done x) =>
    if c = j ∧ b = k then ((resized r.1 parts).set part (some x), r.2) else r
  | .evaluation _ b c _ parts, _ => if c = j ∧ b = k then (resized r.1 parts, r.2) else r
  | .checker _ b c, .told (.done x) => if c = j ∧ b = k then (r.1, some x) else r
  | _, _ => r

/-- What is recorded about a testcase. -/
def TcEval.recorded (t : TcEval) : Recorded := (t.results, t.checker)

theorem onEvaluation_recorded {t t' : TcEval} {st k j part parts : Nat} {p : Phase}
    (h : t.onEvaluation part parts p = some t') :
    t'.recorded = recStep j k t.recorded (.evaluation st k j part parts, p) := by
  unfold TcEval.onEvaluation at h
  have hr : (if t.results.length ≠ parts then { t with results := List.replicate parts none } else t).recorded
      = (resized t.results parts, t.checker) := by
    unfold resized TcEval.recorded
    split <;> rfl
  generalize (if t.results.length ≠ parts then { t with results := List.replicate parts none } else t) = t1 at h hr
  simp only at h
  simp only [TcEval.recorded, Prod.mk.injEq] at hr
  cases p with
  | pending => cases h; simp [recStep, TcEval.recorded, hr]
  | told p =>
    cases p with
    | started => cases h; simp [recStep, TcEval.recorded, hr]
    | skipped => cases h; simp [recStep, TcEval.recorded, hr]
    | done r =>
      simp only at h
      split at h
      · cases h; simp [recStep, TcEval.recorded, hr]
      · cases h

theorem effect_recorded {m : Message} {t t' : TcEval} {j k : Nat} (h : m.effect t = some t')
    (hm : m.about = some (j, k)) :
    t'.recorded = match progressPart m with | none => t.recorded | some p => recStep j k t.recorded p := by
  cases m with
  | progress tp p =>
    cases tp with
    | evaluation a b c part parts =>
      simp only [Message.about, Option.some.injEq, Prod.mk.injEq] at hm
      obtain ⟨rfl, rfl⟩ := hm
      exact onEvaluation_recorded h
    | checker a b c =>
      simp only [Message.about, Option.some.injEq, Prod.mk.injEq] at hm
      obtain ⟨rfl, rfl⟩ := hm
      simp only [Message.effect, Option.some.injEq] at h
      subst h
      cases p with
      | pending => rfl
      | told p => cases p <;> simp [progressPart, recStep, TcEval.onChecker, TcEval.recorded]
    | _ => cases hm
  | testcaseScore a b c s text =>
    simp only [Message.effect, Option.some.injEq] at h
    subst h
    rfl
  | _ => cases hm

theorem recStep_other {m : Message} {j k : Nat} (hm : m.about ≠ some (j, k)) (r : Recorded) :
    (match progressPart m with | none => r | some p => recStep j k r p) = r := by
  cases m with
  | progress tp p =>
    cases tp with
    | evaluation a b c part parts =>
      have : ¬ (c = j ∧ b = k) := by
        rintro ⟨rfl, rfl⟩; exact hm rfl
      cases p with
      | pending => simp [progressPart, recStep, this]
      | told p => cases p <;> simp [progressPart, recStep, this]
    | checker a b c =>
      have : ¬ (c = j ∧ b = k) := by
        rintro ⟨rfl, rfl⟩; exact hm rfl
      cases p with
      | pending => simp [progressPart, recStep]
      | told p => cases p <;> simp [progressPart, recStep, this]
    | _ => simp [progressPart, recStep]
  | _ => rfl

theorem applyAll_recorded {j k : Nat} : ∀ {msgs : List Message} {s s' : State} {t : TcEval},
    s.applyAll task msgs = some s' → s.tc task j k = some t →
    ∃ t', s'.tc task j k = some t' ∧
      t'.recorded = (msgs.filterMap progressPart).foldl (recStep j k) t.recorded := by
  intro msgs
  induction msgs with
  | nil => intro s s' t h ht; cases h; exact ⟨t, ht, rfl⟩
  | cons m msgs ih =>
    intro s s' t h ht
    simp only [State.applyAll] at h
    split at h
    · cases h
    · next s1 h1 =>
      have hs1 := apply_tc h1 j k
      rw [ht, Option.bind_some] at hs1
      have key : ∃ t1, s1.tc task j k = some t1 ∧ t1.recorded =
          match progressPart m with | none => t.recorded | some p => recStep j k t.recorded p := by
        by_cases hm : m.about = some (j, k)
        · rw [if_pos hm] at hs1
          cases he : m.effect t with
          | some t1 => exact ⟨t1, by rw [hs1, he], effect_recorded he hm⟩
          | none =>
            exfalso
            -- the message would panic
            cases m with
            | progress tp p =>
              cases tp with
              | evaluation a b c part parts =>
                simp only [Message.about, Option.some.injEq, Prod.mk.injEq] at hm
                obtain ⟨rfl, rfl⟩ := hm
                simp only [State.apply, State.onTc] at h1
                have ht' : (s.evalOf task c).testcases.get? b = some t := ht
                simp only [Message.effect] at he
                rw [ht'] at h1
                simp only [he] at h1
                cases h1
              | _ => cases he
            | _ => cases he
        · rw [if_neg hm] at hs1
          exact ⟨t, hs1, (recStep_other hm _).symm⟩
      obtain ⟨t1, h2, h3⟩ := key
      obtain ⟨t', h4, h5⟩ := ih h h2
      refine ⟨t', h4, ?_⟩
      rw [h5, h3, List.filterMap_cons]
      cases progressPart m with
      | none => rfl
      | some p => rfl

/-- The number of processes of a solution. -/
def partsOf : TaskType → Nat
  | .batch _ => 1
  | .communication _ p _ => p
  | .none => 0

theorem evaluation_parts {t : TaskType} {st k j a b c part parts : Nat}
    (h : Topic.evaluation a b c part parts ∈ evaluationMessages t st k j) :
    parts = partsOf t ∧ part < parts ∧ a = st := by
  unfold evaluationMessages at h
  cases t with
  | batch c => simp at h; simp [partsOf, h]
  | communication s p d =>
    simp only [List.mem_append, List.mem_map, List.mem_range, Topic.evaluation.injEq, List.mem_singleton,
      reduceCtorEq, or_false] at h
    obtain ⟨i, h1, rfl, -, -, rfl, rfl⟩ := h
    exact ⟨rfl, h1, rfl⟩
  | none => cases h

/-- Two reports of the same progress. -/
theorem same_report (h : Fits n task sols) (hk : Keyed task)
    (htc : ∀ st ∈ task.subtasks.values, st.testcases.Nodup)
    (hr : buildDag fs root task sols (start n cfg) = .ok (io, ev)) {t : Topic} {u v : ExecutionUuid}
    (hm : t ∈ messages task sols.length) (hu : Reports ev u t) (hv : Reports ev v t) : u = v := by
  obtain ⟨e, he, rfl⟩ := handler_exec h hr hu
  obtain ⟨e', he', rfl⟩ := handler_exec h hr hv
  rw [reported_unique h (keyed_ids hk) htc hr hm he he' hu hv]

/-- What is recorded after some notices. -/
structure Rec (ev : Eval) (parts st k j : Nat) (a : List Notice) (r : Recorded) : Prop where
  size : r.1.length = parts
  runs : ∀ u part, Reports ev u (.evaluation st k j part parts) → r.1[part]? = some (endOf a u)
  check : ∀ u, Reports ev u (.checker st k j) → r.2 = endOf a u

theorem rec_all (h : Fits n task sols) (hk : Keyed task)
    (htc : ∀ st ∈ task.subtasks.values, st.testcases.Nodup)
    (hr : buildDag fs root task sols (start n cfg) = .ok (io, ev)) {st : Subtask}
    (hst : st ∈ task.subtasks.values) {k : Nat} (hown : k ∈ st.owned) {j : Nat} :
    ∀ {r a : List Notice} {c : Recorded}, Rec ev (partsOf task.type) st.id k j a c →
    Ordered ev.dag (a ++ r) →
    Rec ev (partsOf task.type) st.id k j (a ++ r)
      ((r.flatMap (fun x => (reportsOn ev x.exec).map (fun t => (t, Phase.told (progressOf x))))).foldl
        (recStep j k) c) := by
  intro r
  induction r with
  | nil => intro a c hc _; simpa using hc
  | cons x r ih =>
    intro a c hc ho
    have ho' : Ordered ev.dag ((a ++ [x]) ++ r) := by simpa using ho
    rw [List.flatMap_cons, List.foldl_append]
    have : a ++ x :: r = (a ++ [x]) ++ r := by simp
    rw [this]
    refine ih ?_ ho'
    have hox := ordered_prefix ho'
    have hn := ordered_last hox
    have expected : ∀ {t : Topic}, Reports ev x.exec t → (Message.progress t .pending).about = some (j, k) →
        t ∈ messages task sols.length ∧ t ∈ evaluationMessages task.type st.id k j := by
      intro t ht hab
      rcases report_expected h hr ht with ⟨path, h1⟩ | h1
      · subst h1; cases hab
      · obtain ⟨st', hst', hk', -, h4⟩ := messages_evaluation h h1 hab
        have := owner_unique h hst' hst hk' hown
        subst this
        exact ⟨h1, h4⟩
    -- an execution with another topic
    have other : (∀ t, Reports ev x.exec t → (Message.progress t .pending).about ≠ some (j, k)) →
        Rec ev (partsOf task.type) st.id k j (a ++ [x]) c := by
      intro hno
      refine ⟨hc.size, fun u part hu => ?_, fun u hu => ?_⟩
      · rw [hc.runs u part hu, endOf_snoc_other]
        rintro rfl
        exact hno _ hu rfl
      · rw [hc.check u hu, endOf_snoc_other]
        rintro rfl
        exact hno _ hu rfl
    rcases report_single h hr x.exec with h0 | ⟨t, h0⟩
    · rw [h0]
      refine other (fun t ht => ?_)
      have := mem_reportsOn.2 ht
      rw [h0] at this; cases this
    · have ht : Reports ev x.exec t := mem_reportsOn.1 (by rw [h0]; simp)
      have honly : ∀ t', Reports ev x.exec t' → t' = t := by
        intro t' ht'
        have := mem_reportsOn.2 ht'
        rw [h0, List.mem_singleton] at this
        exact this
      rw [h0]
      simp only [List.map_cons, List.map_nil, List.foldl_cons, List.foldl_nil]
      by_cases hab : (Message.progress t .pending).about = some (j, k)
      · obtain ⟨hm, hem⟩ := expected ht hab
        have hend := endOf_self hn
        cases t with
        | evaluation a' b c' part parts =>
          simp only [Message.about, Option.some.injEq, Prod.mk.injEq] at hab
          obtain ⟨rfl, rfl⟩ := hab
          obtain ⟨rfl, hlt, rfl⟩ := evaluation_parts hem
          have hsz : resized c.1 (partsOf task.type) = c.1 := by simp [resized, hc.size]
          have hstep : recStep c' b c (.evaluation st.id b c' part (partsOf task.type), .told (progressOf x)) =
              (match x with | .done _ o => c.1.set part (some o.status) | _ => c.1, c.2) := by
            cases x <;> simp [recStep, progressOf, hsz]
          rw [hstep]
          refine ⟨?_, fun u p hu => ?_, fun u hu => ?_⟩
          · cases x <;> simp [hc.size]
          · by_cases hp : p = part
            · subst hp
              have hux : x.exec = u := same_report h hk htc hr hm ht hu
              have hold := hc.runs u p hu
              rw [← hux] at hold ⊢
              have hnone : endOf a x.exec = none := by unfold endOf; rw [hn]; rfl
              rw [hnone] at hold
              rw [hend]
              cases x with
              | started v => exact hold
              | skipped v => exact hold
              | done v o =>
                rw [List.getElem?_set_self (by rw [hc.size]; exact hlt)]
            · have hne : x.exec ≠ u := by
                rintro rfl
                have := honly _ hu
                simp at this
                exact hp this
              rw [endOf_snoc_other hne, ← hc.runs u p hu]
              cases x with
              | started v => rfl
              | skipped v => rfl
              | done v o => exact List.getElem?_set_ne (Ne.symm hp)
          · have hne : x.exec ≠ u := by
              rintro rfl
              exact nomatch honly _ hu
            rw [endOf_snoc_other hne]
            exact hc.check u hu
        | checker a' b c' =>
          simp only [Message.about, Option.some.injEq, Prod.mk.injEq] at hab
          obtain ⟨rfl, rfl⟩ := hab
          have hstep : recStep c' b c (.checker a' b c', .told (progressOf x)) =
              (c.1, match x with | .done _ o => some o.status | _ => c.2) := by
            cases x <;> simp [recStep, progressOf]
          rw [hstep]
          refine ⟨hc.size, fun u p hu => ?_, fun u hu => ?_⟩
          · have hne : x.exec ≠ u := by
              rintro rfl
              exact nomatch honly _ hu
            rw [endOf_snoc_other hne]
            exact hc.runs u p hu
          · have he : Topic.checker a' b c' = .checker st.id b c' := by
              unfold evaluationMessages at hem
              cases hty : task.type <;> rw [hty] at hem <;> simp at hem ⊢ <;> exact hem
            rw [he] at hm ht
            have hux : x.exec = u := same_report h hk htc hr hm ht hu
            have hold := hc.check u hu
            rw [← hux] at hold ⊢
            have hnone : endOf a x.exec = none := by unfold endOf; rw [hn]; rfl
            rw [hnone] at hold
            rw [hend]
            cases x with
            | started v => exact hold
            | skipped v => exact hold
            | done v o => rfl
        | _ => cases hab
      · have hstep := recStep_other (m := .progress t (.told (progressOf x))) (j := j) (k := k)
          (by rw [about_told]; exact hab) c
        simp only [progressPart] at hstep
        rw [hstep]
        exact other (fun t' ht' => by rw [honly t' ht']; exact hab)

theorem rec_pending {parts st k j : Nat} : ∀ (l : List Topic) (c : Recorded),
    (∀ t ∈ l, ∀ a p q, t = .evaluation a k j p q → q = parts) →
    ((∃ a p, Topic.evaluation a k j p parts ∈ l) ∧ c.1 = [] ∨ c.1 = List.replicate parts none) → c.2 = none →
    (l.map (fun t => (t, Phase.pending))).foldl (recStep j k) c = (List.replicate parts none, none) := by
  intro l
  induction l with
  | nil =>
    intro c _ h1 h2
    rcases h1 with ⟨⟨a, p, h⟩, -⟩ | h
    · cases h
    · obtain ⟨x, y⟩ := c
      simp only at h h2
      subst h h2
      rfl
  | cons t l ih =>
    intro c hq h1 h2
    rw [List.map_cons, List.foldl_cons]
    by_cases ht : ∃ a p q, t = .evaluation a k j p q
    · obtain ⟨a, p, q, rfl⟩ := ht
      have := hq _ (by simp) a p q rfl
      subst this
      have hstep : recStep j k c (.evaluation a k j p q, .pending) = (List.replicate q none, none) := by
        simp only [recStep, true_and, if_true, h2, resized]
        rcases h1 with ⟨-, h⟩ | h
        · rw [h]
          cases q <;> simp
        · simp [h]
      rw [hstep]
      exact ih _ (fun t ht => hq t (by simp [ht])) (.inr rfl) rfl
    · have hstep : recStep j k c (t, .pending) = c := by
        unfold recStep
        cases t with
        | evaluation a b d p q =>
          simp only
          rw [if_neg]
          rintro ⟨rfl, rfl⟩
          exact ht ⟨a, p, q, rfl⟩
        | _ => rfl
      rw [hstep]
      refine ih _ (fun t ht => hq t (by simp [ht])) ?_ h2
      rcases h1 with ⟨⟨a, p, h⟩, h'⟩ | h
      · rcases List.mem_cons.1 h with h | h
        · exact absurd ⟨a, p, parts, h.symm⟩ ht
        · exact .inl ⟨⟨a, p, h⟩, h'⟩
      · exact .inr h

/-- **C71** For a testcase of a solution, the UI has one place for each process and one for the checker (or
the manager), and in each of them there is how that execution ended, if it did: for any task and any order
of the notices that a server may send. -/
theorem results_recorded (h : Fits n task sols) (hk : Keyed task)
    (htc : ∀ st ∈ task.subtasks.values, st.testcases.Nodup)
    (hr : buildDag fs root task sols (start n cfg) = .ok (io, ev)) {st : Subtask}
    (hst : st ∈ task.subtasks.values) {k : Nat} (hown : k ∈ st.owned) {j part parts : Nat}
    {u : ExecutionUuid} (hu : Reports ev u (.evaluation st.id k j part parts)) (ho : Ordered ev.dag ns)
    (hl : Live.follow pick ev ms checks ns = some l) {s : State} (hs : l.ui task = some s) :
    ∃ x, (s.evaluations.get? j).bind (·.testcases.get? k) = some x ∧ x.results.length = parts ∧
      part < parts ∧ x.results[part]? = some (endOf ns u) ∧
      (∀ v i, Reports ev v (.evaluation st.id k j i parts) → x.results[i]? = some (endOf ns v)) ∧
      ∀ q, Reports ev q (.checker st.id k j) → x.checker = endOf ns q := by
  have hexp : ∀ {v : ExecutionUuid} {a p q : Nat}, Reports ev v (.evaluation a k j p q) →
      q = partsOf task.type ∧ p < q := by
    intro v a p q hv
    rcases report_expected h hr hv with ⟨path, h1⟩ | h1
    · cases h1
    · obtain ⟨st', -, -, -, h4⟩ := messages_evaluation h h1 (k := k) (j := j) rfl
      exact ⟨(evaluation_parts h4).1, (evaluation_parts h4).2.1⟩
  obtain ⟨rfl, hlt⟩ := hexp hu
  have hpend : ∀ t, t ∈ ev.pending ↔ ∃ e ∈ allExecs ev.dag, Reports ev e.uuid t := (announced h hr).2
  have hin : Topic.evaluation st.id k j part (partsOf task.type) ∈ ev.pending := by
    obtain ⟨e, he, rfl⟩ := handler_exec h hr hu
    exact (hpend _).2 ⟨e, he, hu⟩
  obtain ⟨x, h1, h2⟩ := applyAll_recorded hs (new_tc (owned_known h hr hst hown) j)
  rw [follow_progress hl, List.foldl_append] at h2
  rw [rec_pending (st := st.id) (parts := partsOf task.type) ev.pending (TcEval.recorded {}) (by
    rintro t ht a p q rfl
    obtain ⟨e, -, he⟩ := (hpend _).1 ht
    exact (hexp he).1) (.inl ⟨⟨_, _, hin⟩, rfl⟩) rfl] at h2
  have h0 : Rec ev (partsOf task.type) st.id k j [] (List.replicate (partsOf task.type) none, none) := by
    refine ⟨by simp, fun v p hv => ?_, fun v hv => rfl⟩
    have := (hexp hv).2
    simp only [List.getElem?_replicate]
    rw [if_pos this]
    rfl
  have hall := rec_all h hk htc hr hst hown (r := firsts ns) h0 (by simpa using ordered_firsts ho)
  rw [← h2, List.nil_append] at hall
  have hend : ∀ v, endOf (firsts ns) v = endOf ns v := by
    intro v; unfold endOf
    rw [show outcomeOf (firsts ns) v = outcomeOf ns v from outcomeOf_firstsFrom (by simp)]
  refine ⟨x, ?_, hall.size, hlt, ?_, ?_, ?_⟩
  · have hmem : Message.progress (.evaluation st.id k j part (partsOf task.type)) .pending ∈ l.sent := by
      have hf := follow_progress hl
      have : (Topic.evaluation st.id k j part (partsOf task.type), Phase.pending) ∈ l.sent.filterMap progressPart := by
        rw [hf]
        exact List.mem_append.2 (.inl (List.mem_map.2 ⟨_, hin, rfl⟩))
      obtain ⟨m, hm, hp⟩ := List.mem_filterMap.1 this
      cases m with
      | progress t p => simp only [progressPart, Option.some.injEq, Prod.mk.injEq] at hp; rw [hp.1, hp.2] at hm; exact hm
      | _ => cases hp
    have hsome : (s.evaluations.get? j).isSome := touched hs hmem rfl
    obtain ⟨E, hE⟩ := Option.isSome_iff_exists.1 hsome
    unfold State.tc State.evalOf at h1
    rw [hE] at h1
    rw [hE]
    exact h1
  · rw [← hend]; exact hall.runs u part hu
  · intro v i hv; rw [← hend]; exact hall.runs v i hv
  · intro q hq; rw [← hend]; exact hall.check q hq

open Sample in
/-- The recorded results of the sample tasks: the first process exceeds the time limit. -/
example : Demo Build.Sample.batch (fun ev _ s => decide (
    tooSlow ev 1 ∧ (s.tc Build.Sample.batch 0 1).map (fun x => x.results) = some [some .timeLimitExceeded] ∧
    (s.tc Build.Sample.batch 0 1).map (fun x => x.checker) = some none ∧
    (s.tc Build.Sample.batch 1 1).map (fun x => (x.results, x.checker)) =
      some ([some .success], some .success))) :=
  of_demo (by decide +kernel)

open Sample in
example : Demo Build.Sample.communication (fun ev _ s => decide (
    tooSlow ev 2 ∧ (s.tc Build.Sample.communication 0 1).map (fun x => (x.results, x.checker)) =
      some ([some .timeLimitExceeded, some .success], some .success))) :=
  of_demo (by decide +kernel)

end TM.Ui
