import Verif.Terry.UiLemmas
/-!
# The steps of the evaluation of a solution of a Terry task (C92)
-/
namespace TM.Terry
open TM TM.Build DagSpec Terry.Spec
open TM.Build.Spec (start callbacks Reports reportsOn Ordered Fed outcomeOf firsts firstsFrom)
open TM.Ui (ordered_prefix ordered_outcome ordered_last ordered_firsts outcome_snoc_other outcomeOf_one outcomeOf_snoc
  done_fed)

variable {R : Type}

/-- The order of the steps. -/
def Step.rank : Step → Nat
  | .generator => 0
  | .validator => 1
  | .solution => 2
  | .checker => 3

/-- What the messages about a step are about. -/
def topicOf (i seed : Nat) : Step → Topic
  | .generator => generationOf i seed
  | .validator => validationOf i
  | .solution => solutionOf i
  | .checker => checkerOf i

/-- What the steps need of each other; `us` are the executions. -/
structure Chain (ev : Eval) (i seed : Nat) (us : Step → Option ExecutionUuid) : Prop where
  single : ∀ u, reportsOn ev u = [] ∨ ∃ t, reportsOn ev u = [t]
  reports : ∀ step u, us step = some u ↔ Reports ev u (topicOf i seed step)
  canon : ∀ u t step, Reports ev u t → stepOf i t = some step → t = topicOf i seed step
  before : ∀ step step' u v, step.rank < step'.rank → us step = some u → us step' = some v → ∀ pre,
    Ordered ev.dag pre → Fed ev.dag pre v → ∃ o, .done u o ∈ pre ∧ o.status = .success
  judged : ∀ u a b, (u, Handler.customChecker a b i) ∈ ev.handlers → us .checker = some u
  judges : ∀ u, us .checker = some u → ∃ a b, (u, Handler.customChecker a b i) ∈ ev.handlers

/-- The status of a step. -/
def stageOf (us : Step → Option ExecutionUuid) (a : List Notice) (step : Step) : Option Status :=
  (us step).bind (fun u => stage a u step.running step.over step.name)

/-- How far the steps went. -/
def reached (us : Step → Option ExecutionUuid) (a : List Notice) : Status :=
  ((stageOf us a .checker).or <| (stageOf us a .solution).or <| (stageOf us a .validator).or <|
    stageOf us a .generator).getD .pending

/-- The result recorded of a step. -/
def SolState.result (s : SolState R) : Step → Option Outcome
  | .generator => s.generator
  | .validator => s.validator
  | .solution => s.solution
  | .checker => s.checker

/-- What the UI knows of a solution after some notices, besides the outcome. -/
structure Knows (us : Step → Option ExecutionUuid) (seed : Nat) (a : List Notice) (s : SolState R) : Prop where
  seed : s.seed = some seed
  results : ∀ step, s.result step = (us step).bind (outcomeOf a)
  status : s.status = reached us a ∨
    (s.status = .skipped ∧ (∃ step u, us step = some u ∧ .skipped u ∈ a) ∧ reached us a ≠ .done ∧
      ∀ w, reached us a ≠ .failed w)

section
variable {ev : Eval} {i seed : Nat} {us : Step → Option ExecutionUuid}

theorem Chain.stepOf_topic (_ : Chain ev i seed us) (step : Step) : stepOf i (topicOf i seed step) = some step := by
  cases step <;> simp [stepOf, topicOf]

theorem Chain.one (hc : Chain ev i seed us) {step step' : Step} {u : ExecutionUuid} (h : us step = some u)
    (h' : us step' = some u) : step = step' := by
  have a := mem_reportsOn.2 ((hc.reports step u).1 h)
  have b := mem_reportsOn.2 ((hc.reports step' u).1 h')
  rcases hc.single u with h0 | ⟨t, h0⟩
  · rw [h0] at a; cases a
  · rw [h0, List.mem_singleton] at a b
    have h1 := hc.stepOf_topic step
    have h2 := hc.stepOf_topic step'
    rw [a] at h1; rw [b, h1] at h2
    cases h2; rfl

theorem stage_other {a : List Notice} {x : Notice} {u : ExecutionUuid} (h : x.exec ≠ u) (r o : Status) (nm : String) :
    stage (a ++ [x]) u r o nm = stage a u r o nm := by
  unfold stage
  rw [outcome_snoc_other h]
  have : (Notice.started u ∈ a ++ [x]) ↔ Notice.started u ∈ a := by
    rw [List.mem_append, List.mem_singleton]
    constructor
    · rintro (h1 | h1)
      · exact h1
      · subst h1; exact absurd rfl h
    · exact .inl
  simp only [this]

theorem stage_skip {a : List Notice} {v u : ExecutionUuid} (r o : Status) (nm : String) :
    stage (a ++ [.skipped v]) u r o nm = stage a u r o nm := by
  unfold stage
  have : outcomeOf (a ++ [.skipped v]) u = outcomeOf a u := by
    rw [outcomeOf_snoc]; cases outcomeOf a u <;> rfl
  rw [this]
  simp

theorem stageOf_other {a : List Notice} {x : Notice} {step : Step} (h : us step ≠ some x.exec) :
    stageOf us (a ++ [x]) step = stageOf us a step := by
  unfold stageOf
  cases hu : us step with
  | none => rfl
  | some u =>
    simp only [Option.bind_some]
    exact stage_other (fun e => h (by rw [hu, e])) _ _ _

theorem reached_other {a : List Notice} {x : Notice} (h : ∀ step, us step ≠ some x.exec) :
    reached us (a ++ [x]) = reached us a := by
  unfold reached
  simp only [stageOf_other (h _)]

theorem reached_skip {a : List Notice} {v : ExecutionUuid} : reached us (a ++ [.skipped v]) = reached us a := by
  unfold reached stageOf
  simp only [stage_skip]

/-- A later step has not begun. -/
theorem Chain.later (hc : Chain ev i seed us) {a : List Notice} (ho : Ordered ev.dag a) {step step' : Step}
    (hr : step.rank < step'.rank) {u : ExecutionUuid} (hu : us step = some u)
    (hn : ∀ o, outcomeOf a u = some o → o.status ≠ .success) :
    stageOf us a step' = none := by
  unfold stageOf
  cases hv : us step' with
  | none => rfl
  | some v =>
    simp only [Option.bind_some]
    have hno : ∀ pre post, a = pre ++ post → ¬ Fed ev.dag pre v := by
      intro pre post e hf
      subst e
      obtain ⟨o, h1, h2⟩ := hc.before step step' u v hr hu hv pre (ordered_prefix ho) hf
      exact hn o (ordered_outcome ho (by simp [h1] : Notice.done u o ∈ pre ++ post)) h2
    unfold stage
    cases hx : outcomeOf a v with
    | some o =>
      obtain ⟨pre, post, rfl⟩ := List.append_of_mem (outcome_mem hx)
      exact absurd (ho.done pre v o post rfl).2.2 (hno pre _ rfl)
    | none =>
      simp only
      split
      · next h =>
        obtain ⟨pre, post, rfl⟩ := List.append_of_mem h
        exact absurd (ho.start pre v post rfl).2.2 (hno pre _ rfl)
      · rfl

/-- The step that goes on is the last. -/
theorem Chain.reached_here (hc : Chain ev i seed us) {a : List Notice} {x : Notice} (ho : Ordered ev.dag (a ++ [x]))
    {step : Step} (hu : us step = some x.exec) {st : Status}
    (hst : stageOf us (a ++ [x]) step = some st) : reached us (a ++ [x]) = st := by
  have hl : ∀ step', step.rank < step'.rank → stageOf us (a ++ [x]) step' = none := by
    intro step' hr
    rw [stageOf_other]
    · exact hc.later (ordered_prefix ho) hr hu (fun o h => by rw [ordered_last ho] at h; cases h)
    · intro h
      have := hc.one hu h
      subst this
      omega
  unfold reached
  cases step with
  | generator =>
    simp [hl .checker (by decide), hl .solution (by decide), hl .validator (by decide), hst]
  | validator => simp [hl .checker (by decide), hl .solution (by decide), hst]
  | solution => simp [hl .checker (by decide), hst]
  | checker => simp [hst]

theorem over_ne (step : Step) : step ≠ .checker → step.over ≠ .done := by cases step <;> simp [Step.over]

theorem stage_done {a : List Notice} {u : ExecutionUuid} {r o : Status} {nm : String} (h : stage a u r o nm = some .done)
    (hr : r ≠ .done) : o = .done ∧ ∃ x, outcomeOf a u = some x ∧ x.status = .success := by
  unfold stage at h
  split at h
  · next x hx =>
    simp only [Option.some.injEq] at h
    split at h
    · next hs => exact ⟨h, x, hx, hs⟩
    · cases h
  · split at h
    · cases h; exact absurd rfl hr
    · cases h

theorem stageOf_done {a : List Notice} {step : Step} (h : stageOf us a step = some .done) :
    step = .checker ∧ ∃ u x, us .checker = some u ∧ outcomeOf a u = some x ∧ x.status = .success := by
  unfold stageOf at h
  cases hu : us step with
  | none => rw [hu] at h; cases h
  | some u =>
    rw [hu] at h
    obtain ⟨h1, x, h2, h3⟩ := stage_done h (by cases step <;> simp [Step.running])
    cases step <;> simp only [Step.over] at h1 <;> cases h1
    exact ⟨rfl, u, x, hu, h2, h3⟩

theorem reached_done {a : List Notice} (h : reached us a = .done) :
    ∃ u x, us .checker = some u ∧ outcomeOf a u = some x ∧ x.status = .success := by
  unfold reached at h
  have key : ∃ step, stageOf us a step = some .done := by
    cases h1 : stageOf us a .checker with
    | some s => simp [h1] at h; exact ⟨_, by rw [h1, h]⟩
    | none =>
      cases h2 : stageOf us a .solution with
      | some s => simp [h1, h2] at h; exact ⟨_, by rw [h2, h]⟩
      | none =>
        cases h3 : stageOf us a .validator with
        | some s => simp [h1, h2, h3] at h; exact ⟨_, by rw [h3, h]⟩
        | none =>
          cases h4 : stageOf us a .generator with
          | some s => simp [h1, h2, h3, h4] at h; exact ⟨_, by rw [h4, h]⟩
          | none => simp [h1, h2, h3, h4] at h
  obtain ⟨step, hs⟩ := key
  exact (stageOf_done hs).2

theorem stage_failed {a : List Notice} {u : ExecutionUuid} {r o : Status} {nm w : String}
    (h : stage a u r o nm = some (.failed w)) (hr : r ≠ .failed w) (ho : o ≠ .failed w) :
    w = nm ++ " failed" ∧ ∃ x, outcomeOf a u = some x ∧ x.status ≠ .success := by
  unfold stage at h
  split at h
  · next x hx =>
    simp only [Option.some.injEq] at h
    split at h
    · exact absurd h ho
    · next hs => cases h; exact ⟨rfl, x, hx, hs⟩
  · split at h
    · cases h; exact absurd rfl hr
    · cases h

/-- The step that failed. -/
theorem Chain.reached_failed (hc : Chain ev i seed us) {a : List Notice} (ho : Ordered ev.dag a) {w : String} :
    reached us a = .failed w ↔ ∃ step u o, us step = some u ∧ outcomeOf a u = some o ∧ o.status ≠ .success ∧
      w = step.name ++ " failed" := by
  constructor
  · intro h
    unfold reached at h
    have key : ∃ step, stageOf us a step = some (.failed w) := by
      cases h1 : stageOf us a .checker with
      | some s => simp [h1] at h; exact ⟨_, by rw [h1, h]⟩
      | none =>
        cases h2 : stageOf us a .solution with
        | some s => simp [h1, h2] at h; exact ⟨_, by rw [h2, h]⟩
        | none =>
          cases h3 : stageOf us a .validator with
          | some s => simp [h1, h2, h3] at h; exact ⟨_, by rw [h3, h]⟩
          | none =>
            cases h4 : stageOf us a .generator with
            | some s => simp [h1, h2, h3, h4] at h; exact ⟨_, by rw [h4, h]⟩
            | none => simp [h1, h2, h3, h4] at h
    obtain ⟨step, hs⟩ := key
    unfold stageOf at hs
    cases hu : us step with
    | none => rw [hu] at hs; cases hs
    | some u =>
      rw [hu] at hs
      obtain ⟨h1, x, h2, h3⟩ := stage_failed hs (by cases step <;> simp [Step.running])
        (by cases step <;> simp [Step.over])
      exact ⟨step, u, x, hu, h2, h3, h1⟩
  · rintro ⟨step, u, o, hu, h1, h2, rfl⟩
    have hl : ∀ step', step.rank < step'.rank → stageOf us a step' = none := fun step' hr =>
      hc.later ho hr hu (fun o' h => by rw [h1] at h; cases h; exact h2)
    have hst : stageOf us a step = some (.failed (step.name ++ " failed")) := by
      unfold stageOf
      rw [hu]
      simp only [Option.bind_some, stage, h1, if_neg h2]
    unfold reached
    cases step with
    | generator =>
      simp [hl .checker (by decide), hl .solution (by decide), hl .validator (by decide), hst]
    | validator => simp [hl .checker (by decide), hl .solution (by decide), hst]
    | solution => simp [hl .checker (by decide), hst]
    | checker => simp [hst]

/-- If the checker succeeded everything did. -/
theorem Chain.all_done (hc : Chain ev i seed us) {a : List Notice} (ho : Ordered ev.dag a) (h : reached us a = .done)
    {step : Step} {u : ExecutionUuid} (hu : us step = some u) : ∃ o, outcomeOf a u = some o := by
  obtain ⟨c, x, h1, h2, -⟩ := reached_done h
  by_cases hs : step = .checker
  · subst hs; rw [h1] at hu; cases hu; exact ⟨x, h2⟩
  · obtain ⟨pre, post, rfl⟩ := List.append_of_mem (outcome_mem h2)
    obtain ⟨o, h3, -⟩ := hc.before step .checker u c (by cases step <;> simp [Step.rank] <;> exact absurd rfl hs) hu h1 pre
      (ordered_prefix ho) (ho.done pre c x post rfl).2.2
    exact ⟨o, ordered_outcome ho (by simp [h3])⟩

theorem result_process (s : SolState R) (step step' : Step) (p : Phase) :
    (s.process step p).result step' = match p with
      | .done o => if step' = step then some o else s.result step'
      | _ => s.result step' := by
  cases p with
  | pending => cases step' <;> rfl
  | started => cases step' <;> rfl
  | done o => cases step <;> cases step' <;> rfl
  | skipped =>
    obtain ⟨st, a, b, c, d, e, f⟩ := s
    cases st <;> cases step' <;> rfl

theorem seed_process (s : SolState R) (step : Step) (p : Phase) : (s.process step p).seed = s.seed := by
  cases p with
  | pending => rfl
  | started => rfl
  | done o => cases step <;> rfl
  | skipped =>
    obtain ⟨st, a, b, c, d, e, f⟩ := s
    cases st <;> rfl

theorem status_process (s : SolState R) (step : Step) (p : Phase) : (s.process step p).status = match p with
    | .pending => .pending
    | .started => step.running
    | .done o => if o.status = .success then step.over else .failed (step.name ++ " failed")
    | .skipped => match s.status with
      | .failed w => .failed w
      | _ => .skipped := by
  cases p with
  | pending => rfl
  | started => rfl
  | done o => cases step <;> rfl
  | skipped =>
    obtain ⟨st, a, b, c, d, e, f⟩ := s
    cases st <;> rfl

/-- The progress of a step of the solution. -/
theorem onProgress_step (hc : Chain ev i seed us) {s : SolState R} (step : Step) (p : Phase) (hs : s.seed = some seed) :
    onProgress i s (topicOf i seed step, p) = s.process step p := by
  unfold onProgress
  simp only [hc.stepOf_topic]
  cases step <;> simp [seedOf, topicOf]
  have := seed_process s .generator p
  rw [hs] at this
  cases hp : s.process .generator p
  rw [hp] at this
  cases this
  rfl

theorem knows_other {a : List Notice} {x : Notice} {s : SolState R} (hk : Knows us seed a s)
    (h : ∀ step, us step ≠ some x.exec) : Knows us seed (a ++ [x]) s where
  seed := hk.seed
  results := fun step => by
    rw [hk.results]
    cases hu : us step with
    | none => rfl
    | some u =>
      simp only [Option.bind_some]
      rw [outcome_snoc_other]
      rintro rfl
      exact h step hu
  status := by
    rw [reached_other h]
    rcases hk.status with h1 | ⟨h1, ⟨step, u, h2, h3⟩, h4⟩
    · exact .inl h1
    · exact .inr ⟨h1, ⟨step, u, h2, by simp [h3]⟩, h4⟩

/-- One more notice. -/
theorem knows_step (hc : Chain ev i seed us) {a : List Notice} {x : Notice} (ho : Ordered ev.dag (a ++ [x]))
    {s : SolState R} (hk : Knows us seed a s) :
    Knows us seed (a ++ [x]) (((reportsOn ev x.exec).map (fun t => (t, phaseOf x))).foldl (onProgress i) s) := by
  rcases hc.single x.exec with h0 | ⟨t, h0⟩
  · rw [h0]
    refine knows_other hk (fun step hu => ?_)
    have := mem_reportsOn.2 ((hc.reports step x.exec).1 hu)
    rw [h0] at this; cases this
  have hrt : Reports ev x.exec t := mem_reportsOn.1 (by rw [h0]; simp)
  rw [h0]
  simp only [List.map_cons, List.map_nil, List.foldl_cons, List.foldl_nil]
  cases hst : stepOf i t with
  | none =>
    have : onProgress i s (t, phaseOf x) = s := by unfold onProgress; simp only [hst]
    rw [this]
    refine knows_other hk (fun step hu => ?_)
    have := mem_reportsOn.2 ((hc.reports step x.exec).1 hu)
    rw [h0, List.mem_singleton] at this
    rw [← this, hc.stepOf_topic] at hst; cases hst
  | some step =>
    have ht := hc.canon _ _ _ hrt hst
    subst ht
    have hu := (hc.reports step x.exec).2 hrt
    rw [onProgress_step hc step _ hk.seed]
    have hn := ordered_last ho
    refine ⟨by rw [seed_process]; exact hk.seed, fun step' => ?_, ?_⟩
    · rw [result_process]
      by_cases hs : step' = step
      · subst hs
        rw [hu]
        simp only [Option.bind_some, if_true]
        rw [outcomeOf_snoc, hn]
        have h1 : s.result step' = none := by rw [hk.results, hu]; exact hn
        cases x with
        | started v => exact h1
        | skipped v => exact h1
        | done v o => exact (outcomeOf_one v o).symm
      · have h1 : (us step').bind (outcomeOf (a ++ [x])) = (us step').bind (outcomeOf a) := by
          cases hu' : us step' with
          | none => rfl
          | some v =>
            simp only [Option.bind_some]
            rw [outcome_snoc_other]
            rintro rfl
            exact hs (hc.one hu' hu)
        rw [h1, ← hk.results]
        cases x <;> simp only [phaseOf]
        rw [if_neg hs]
    · rw [status_process]
      cases x with
      | started v =>
        left
        refine (hc.reached_here ho hu ?_).symm
        unfold stageOf
        rw [hu]
        simp only [Option.bind_some, stage, Notice.exec]
        have h1 : outcomeOf (a ++ [.started v]) v = none := by
          rw [outcomeOf_snoc, show outcomeOf a v = none from hn]; rfl
        rw [h1]
        simp [phaseOf]
      | done v o =>
        left
        refine (hc.reached_here ho hu ?_).symm
        unfold stageOf
        rw [hu]
        simp only [Option.bind_some, stage, Notice.exec]
        have h1 : outcomeOf (a ++ [.done v o]) v = some o := by
          rw [outcomeOf_snoc, show outcomeOf a v = none from hn]; exact outcomeOf_one v o
        rw [h1]
        simp only [phaseOf]
      | skipped v =>
        rw [reached_skip]
        simp only [phaseOf]
        have hnd : reached us a ≠ .done := by
          intro h
          obtain ⟨o, h1⟩ := hc.all_done (ordered_prefix ho) h hu
          rw [hn] at h1; cases h1
        rcases hk.status with h1 | ⟨h1, -, h3, h4⟩
        · rw [h1]
          split
          · next w hw => exact .inl hw.symm
          · next hw => exact .inr ⟨rfl, ⟨step, v, hu, by simp⟩, hnd, hw⟩
        · rw [h1]
          exact .inr ⟨rfl, ⟨step, v, hu, by simp⟩, h3, h4⟩

theorem knows_all (hc : Chain ev i seed us) : ∀ {r a : List Notice} {s : SolState R},
    Knows us seed a s → Ordered ev.dag (a ++ r) →
    Knows us seed (a ++ r) ((r.flatMap (fun x => (reportsOn ev x.exec).map (fun t => (t, phaseOf x)))).foldl
      (onProgress i) s) := by
  intro r
  induction r with
  | nil => intro a s hk _; simpa using hk
  | cons x r ih =>
    intro a s hk ho
    have ho' : Ordered ev.dag ((a ++ [x]) ++ r) := by simpa using ho
    have := ih (knows_step hc (ordered_prefix ho') hk) ho'
    rw [List.flatMap_cons, List.foldl_append]
    simpa using this

/-- The outcome that is shown. -/
theorem outcome_all (hc : Chain ev i seed us) (parse : Outcome → R) {c : ExecutionUuid} (hcu : us .checker = some c) :
    ∀ {r a : List Notice} {x : Option R}, x = (outcomeOf a c).map parse → Ordered ev.dag (a ++ r) →
    (∀ o, .done c o ∈ r → o.captured = true) →
    ((r.flatMap (sentBy parse ev)).filterMap (Msg.outcome? i)).foldl (fun _ r => some r) x =
      (outcomeOf (a ++ r) c).map parse := by
  intro r
  induction r with
  | nil => intro a x hx _ _; simpa using hx
  | cons y r ih =>
    intro a x hx ho hcp
    have ho' : Ordered ev.dag ((a ++ [y]) ++ r) := by simpa using ho
    rw [List.flatMap_cons, List.filterMap_append, List.foldl_append]
    have := ih (a := a ++ [y]) (x := ((sentBy parse ev y).filterMap (Msg.outcome? i)).foldl (fun _ r => some r) x) ?_ ho'
      (fun o h => hcp o (by simp [h]))
    · rw [this]; simp
    · by_cases hy : ∃ o, y = .done c o
      · obtain ⟨o, rfl⟩ := hy
        have hn : outcomeOf a c = none := ordered_last (ordered_prefix ho')
        obtain ⟨p, q, hh⟩ := hc.judges c hcu
        have hm := outcome_sent (parse := parse) hh (hcp o (by simp))
        rw [foldl_same (r := parse o), if_neg]
        · rw [outcomeOf_snoc, hn, outcomeOf_one]; rfl
        · intro e; rw [e] at hm; cases hm
        · intro b hb
          obtain ⟨u, o', -, -, h1, h2, -⟩ := sentBy_outcome hb
          cases h1; exact h2
      · have hnil : (sentBy parse ev y).filterMap (Msg.outcome? i) = [] := by
          apply List.eq_nil_iff_forall_not_mem.2
          intro b hb
          obtain ⟨u, o', p, q, h1, h2, h3⟩ := sentBy_outcome hb
          have := hc.judged u p q h3
          rw [hcu] at this
          cases this
          exact hy ⟨o', h1⟩
        rw [hnil, hx, outcomeOf_snoc]
        have : outcomeOf [y] c = none := by
          cases y with
          | started v => rfl
          | skipped v => rfl
          | done v o =>
            have : v ≠ c := fun e => hy ⟨o, by rw [e]⟩
            simp [outcomeOf, this]
        rw [this]
        simp

end
end TM.Terry
