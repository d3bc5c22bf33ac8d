import Verif.Terry.UiChain
import Verif.Ui.Sample
/-!
# What the UI of a Terry task shows (C92, C93)
-/
namespace TM.Terry
open TM TM.Build DagSpec Terry.Spec
open TM.Build.Spec (start callbacks Reports reportsOn Ordered Fed outcomeOf firsts firstsFrom)
open TM.Ui (ordered_prefix ordered_outcome ordered_last ordered_firsts outcome_snoc_other outcomeOf_one outcomeOf_snoc
  done_fed started_firsts skipped_firsts)

variable {R : Type} {n : Uuid} {cfg : DagConfig} {fs : FS} {task : Task} {seed : Nat → Nat} {sols : List Src}
  {ev : Eval} {a : Unit}

/-! ## Helpers -/

theorem handler_exec (h : Fits n task sols) (hr : buildDag fs task seed sols (start n cfg) = .ok (a, ev))
    {p : ExecutionUuid × Handler} (hp : p ∈ ev.handlers) : ∃ e ∈ allExecs ev.dag, e.uuid = p.1 := by
  have := (buildDag_done h hr).1.inv.handlers _ hp
  simp only [execUuids, List.map_nil, List.append_nil] at this
  obtain ⟨e, he, hu⟩ := List.mem_map.1 (by simpa using this)
  exact ⟨e, he, hu⟩

theorem report_expected (h : Fits n task sols) (hr : buildDag fs task seed sols (start n cfg) = .ok (a, ev))
    {u : ExecutionUuid} {t : Topic} (hp : Reports ev u t) :
    (∃ path, t = .compilation path) ∨ t ∈ messages task seed sols.length := by
  obtain ⟨e, he, hu⟩ := handler_exec h hr hp
  simp only at hu
  subst hu
  obtain ⟨t', h1, h2⟩ := reported_once h hr he
  have := mem_reportsOn.2 hp
  rw [h1, List.mem_singleton] at this
  subst this
  split at h2
  · obtain ⟨s, -, h3⟩ := h2; exact .inl ⟨_, h3⟩
  · exact .inr h2

theorem mem_messages {m : Nat} {t : Topic} (h : t ∈ messages task seed m) :
    ∃ i, i < m ∧ (t = generationOf i (seed i) ∨ (t = validationOf i ∧ task.validator ≠ none) ∨ t = solutionOf i ∨
      t = checkerOf i) := by
  obtain ⟨i, hi, ht⟩ := List.mem_flatMap.1 h
  refine ⟨i, by simpa using hi, ?_⟩
  unfold solutionMessages at ht
  simp only [List.cons_append, List.mem_cons, List.mem_append, List.mem_map, List.not_mem_nil, or_false] at ht
  rcases ht with h | ⟨v, hv, h⟩ | h | h
  · exact .inl h
  · refine .inr (.inl ⟨h.symm, fun e => ?_⟩)
    rw [e] at hv; cases hv
  · exact .inr (.inr (.inl h))
  · exact .inr (.inr (.inr h))

theorem message_step {m : Nat} {t : Topic} (h : t ∈ messages task seed m) :
    ∃ i step, i < m ∧ t = topicOf i (seed i) step ∧ stepOf i t = some step := by
  obtain ⟨i, hi, h⟩ := mem_messages h
  rcases h with rfl | ⟨rfl, -⟩ | rfl | rfl
  · exact ⟨i, .generator, hi, rfl, by simp [stepOf]⟩
  · exact ⟨i, .validator, hi, rfl, by simp [stepOf]⟩
  · exact ⟨i, .solution, hi, rfl, by simp [stepOf]⟩
  · exact ⟨i, .checker, hi, rfl, by simp [stepOf]⟩

theorem stepOf_inj {i j s : Nat} {step step' : Step} (h : stepOf i (topicOf j s step) = some step') :
    i = j ∧ step = step' := by
  cases step <;> simp only [stepOf, topicOf] at h <;> (split at h <;> cases h) <;> (next e => exact ⟨e.symm, rfl⟩)

theorem reporter_unique (h : Fits n task sols) (hr : buildDag fs task seed sols (start n cfg) = .ok (a, ev))
    {t : Topic} (ht : ∀ path, t ≠ .compilation path) {u v : ExecutionUuid} (hu : Reports ev u t) (hv : Reports ev v t) :
    u = v := by
  have hm : t ∈ messages task seed sols.length := (report_expected h hr hu).resolve_left (fun ⟨p, e⟩ => ht p e)
  obtain ⟨e, -, -, h2⟩ := one_execution_each h hr hm
  obtain ⟨e1, m1, w1⟩ := handler_exec h hr hu
  obtain ⟨e2, m2, w2⟩ := handler_exec h hr hv
  simp only at w1 w2
  subst w1; subst w2
  rw [h2 e1 m1 hu, h2 e2 m2 hv]

/-- A closure that occurs once in a list is on one execution. -/
theorem once_on {α β : Type} [BEq β] [LawfulBEq β] {f : α → Option β} {t : β} : ∀ {l : List α}, (l.filterMap f).count t ≤ 1 →
    ∀ {x y : α}, x ∈ l → y ∈ l → f x = some t → f y = some t → x = y := by
  intro l
  induction l with
  | nil => intro _ x y hx; cases hx
  | cons p l ih =>
    intro hc x y hx hy h1 h2
    have pos : ∀ z ∈ l, f z = some t → 1 ≤ (l.filterMap f).count t := by
      intro z hz e
      exact List.count_pos_iff.2 (List.mem_filterMap.2 ⟨z, hz, e⟩)
    rcases List.mem_cons.1 hx with rfl | hx'
    · rcases List.mem_cons.1 hy with rfl | hy'
      · rfl
      · have := pos y hy' h2
        rw [List.filterMap_cons, h1] at hc
        simp at hc
        omega
    · rcases List.mem_cons.1 hy with rfl | hy'
      · have := pos x hx' h1
        rw [List.filterMap_cons, h2] at hc
        simp at hc
        omega
      · refine ih ?_ hx' hy' h1 h2
        rw [List.filterMap_cons] at hc
        split at hc
        · exact hc
        · rw [List.count_cons] at hc; omega

/-- The solution a closure asks the outcome of. -/
def asked : ExecutionUuid × Handler → Option Nat
  | (_, .customChecker _ _ sol) => some sol
  | _ => none

theorem asked_once (h : Fits n task sols) (hr : buildDag fs task seed sols (start n cfg) = .ok (a, ev)) :
    ev.handlers.filterMap asked = List.range sols.length := by
  rw [← outcome_once h hr]
  congr 1
  funext p
  obtain ⟨u, hd⟩ := p
  cases hd <;> rfl

theorem topicOf_ne (i s : Nat) (step : Step) (path : String) : topicOf i s step ≠ .compilation path := by
  cases step <;> simp [topicOf]

theorem stdin_dep {e : Execution} {f : FileUuid} (h : e.stdin = some f) : f ∈ e.dependencies := by
  simp [Execution.dependencies, h]

theorem stdout_out {e : Execution} {f : FileUuid} (h : e.stdout = some f) : f ∈ e.outputFiles := by
  simp [Execution.outputFiles, h]

/-- The executions of a solution as a function of the step. -/
def stepsOf (g : ExecutionUuid) (v : Option ExecutionUuid) (s c : ExecutionUuid) : Step → Option ExecutionUuid
  | .generator => some g
  | .validator => v
  | .solution => some s
  | .checker => some c

theorem reached_furthest (ns : List Notice) (g : ExecutionUuid) (v : Option ExecutionUuid) (s c : ExecutionUuid) :
    reached (stepsOf g v s c) ns = furthest ns g v s c := rfl

theorem chain (h : Fits n task sols) (hr : buildDag fs task seed sols (start n cfg) = .ok (a, ev)) {i : Nat}
    (hi : i < sols.length) {g : ExecutionUuid} {v : Option ExecutionUuid} {s c : ExecutionUuid}
    (hx : Executions ev i (seed i) g v s c) : Chain ev i (seed i) (stepsOf g v s c) := by
  have hrep : ∀ step u, stepsOf g v s c step = some u ↔ Reports ev u (topicOf i (seed i) step) := by
    intro step u
    cases step with
    | generator =>
      exact ⟨fun e => by cases e; exact hx.generator,
        fun e => by rw [reporter_unique h hr (topicOf_ne i (seed i) .generator) e hx.generator]; rfl⟩
    | validator => exact hx.validator u
    | solution =>
      exact ⟨fun e => by cases e; exact hx.solution,
        fun e => by rw [reporter_unique h hr (topicOf_ne i (seed i) .solution) e hx.solution]; rfl⟩
    | checker =>
      exact ⟨fun e => by cases e; exact hx.checker,
        fun e => by rw [reporter_unique h hr (topicOf_ne i (seed i) .checker) e hx.checker]; rfl⟩
  obtain ⟨src, hsrc⟩ : ∃ src, sols[i]? = some src := ⟨sols[i], by simp [hi]⟩
  obtain ⟨input, handle, output, hev⟩ := evaluated h hr hsrc
  obtain ⟨eg, g1, -, -, g2, -, -, -, -, g3⟩ := hev.generation
  obtain ⟨es, s1, s4, s5, -, s2, -, -, -, -, s3⟩ := hev.solution
  obtain ⟨ec, c1, -, c2, c4, -, -, -, c5, c3⟩ := hev.checking
  have ug : g = eg.uuid := reporter_unique h hr (by simp) hx.generator g3
  have us : s = es.uuid := reporter_unique h hr (by simp) hx.solution s3
  have uc : c = ec.uuid := reporter_unique h hr (by simp) hx.checker c3
  have use : ∀ {p e : Execution} {f : FileUuid} {pre : List Notice}, p ∈ allExecs ev.dag → e ∈ allExecs ev.dag →
      f ∈ e.dependencies → f ∈ p.outputFiles → Fed ev.dag pre e.uuid → ∃ o, .done p.uuid o ∈ pre ∧ o.status = .success :=
    fun hp he hd ho hf => hf _ he rfl _ hp _ hd ho
  -- the validator, if any
  have hval : ∀ u, v = some u → ∃ e f, e ∈ allExecs ev.dag ∧ u = e.uuid ∧ handle = some f ∧ input ∈ e.dependencies ∧
      f ∈ e.outputFiles := by
    intro u hu
    have hrv := (hx.validator u).1 hu
    have hne : task.validator ≠ none := by
      have hm := (report_expected h hr hrv).resolve_left (fun ⟨p, e⟩ => by cases e)
      obtain ⟨j, -, hj⟩ := mem_messages hm
      rcases hj with e | ⟨-, e⟩ | e | e
      · cases e
      · exact e
      · cases e
      · cases e
    have hv := hev.validation
    split at hv
    · next w hw =>
      obtain ⟨f, e, h1, h2, -, h3, -, h4, -, -, -, h5⟩ := hv
      exact ⟨e, f, h2.added, reporter_unique h hr (by simp) hrv h5, h1, stdin_dep h3, stdout_out h4⟩
    · next hw => exact absurd hw hne
  have hsol : ∀ pre u, v = some u → Fed ev.dag pre es.uuid → ∃ o, .done u o ∈ pre ∧ o.status = .success := by
    intro pre u hu hf
    obtain ⟨e, f, h1, rfl, h3, -, h5⟩ := hval u hu
    exact use h1 s1.added (input_dep (s4 f h3)) h5 hf
  refine ⟨?_, hrep, ?_, ?_, ?_, ?_⟩
  · intro u
    cases hl : reportsOn ev u with
    | nil => exact .inl rfl
    | cons t l =>
      right
      have : Reports ev u t := mem_reportsOn.1 (by rw [hl]; simp)
      obtain ⟨e, he, hu⟩ := handler_exec h hr this
      simp only at hu
      subst hu
      obtain ⟨t', h1, -⟩ := reported_once h hr he
      exact ⟨t', by rw [← hl, h1]⟩
  · intro u t step hrt hst
    rcases report_expected h hr hrt with ⟨path, rfl⟩ | hm
    · cases hst
    · obtain ⟨j, step', hj, rfl, -⟩ := message_step hm
      obtain ⟨rfl, rfl⟩ := stepOf_inj hst
      rfl
  · intro step step' u w hlt hu hw pre ho hf
    cases step with
    | generator =>
      have hu : u = eg.uuid := by cases hu; exact ug
      subst hu
      cases step' with
      | generator => exact absurd hlt (by decide)
      | validator =>
        obtain ⟨e, f, h1, rfl, -, h4, -⟩ := hval w hw
        exact use g1.added h1 h4 (stdout_out g2) hf
      | solution =>
        have hw : w = es.uuid := by cases hw; exact us
        subst hw
        exact use g1.added s1.added (stdin_dep s5) (stdout_out g2) hf
      | checker =>
        have hw : w = ec.uuid := by cases hw; exact uc
        subst hw
        exact use g1.added c1.added (input_dep c2) (stdout_out g2) hf
    | validator =>
      cases step' with
      | generator => exact absurd hlt (by decide)
      | validator => exact absurd hlt (by decide)
      | solution =>
        have hw : w = es.uuid := by cases hw; exact us
        subst hw
        exact hsol pre u hu hf
      | checker =>
        have hw : w = ec.uuid := by cases hw; exact uc
        subst hw
        obtain ⟨o, h1, -⟩ := use s1.added c1.added (input_dep c4) (stdout_out s2) hf
        obtain ⟨p1, p2, rfl⟩ := List.append_of_mem h1
        obtain ⟨o', h3, h4⟩ := hsol p1 u hu (ho.done p1 _ o p2 rfl).2.2
        exact ⟨o', by simp [h3], h4⟩
    | solution =>
      have hu : u = es.uuid := by cases hu; exact us
      subst hu
      cases step' with
      | checker =>
        have hw : w = ec.uuid := by cases hw; exact uc
        subst hw
        exact use s1.added c1.added (input_dep c4) (stdout_out s2) hf
      | _ => exact absurd hlt (by decide)
    | checker => cases step' <;> exact absurd hlt (by decide)
  · intro u x y hu
    have hcount := asked_once h hr
    have : (u, Handler.customChecker x y i) = (ec.uuid, outcomeHandler i) := by
      refine once_on (f := asked) (t := i) ?_ hu c5 rfl rfl
      rw [hcount, List.nodup_range.count]
      split <;> omega
    cases this
    show some c = some ec.uuid
    rw [uc]
  · intro u hu
    cases hu
    rw [uc]
    exact ⟨0, 0, c5⟩

theorem captured_firsts {ns : List Notice} (hc : Captured ev ns) : Captured ev (firsts ns) := by
  intro sol c o h1 h2
  rw [outcomeOf_firsts] at h2
  exact hc sol c o h1 h2

theorem checker_reports (h : Fits n task sols) (hr : buildDag fs task seed sols (start n cfg) = .ok (a, ev))
    {u : ExecutionUuid} {x y i : Nat} (hu : (u, Handler.customChecker x y i) ∈ ev.handlers) :
    i < sols.length ∧ Reports ev u (checkerOf i) := by
  have hcount := asked_once h hr
  have hi : i < sols.length := by
    have : i ∈ ev.handlers.filterMap asked :=
      List.mem_filterMap.2 ⟨_, hu, rfl⟩
    rw [hcount] at this
    simpa using this
  obtain ⟨src, hsrc⟩ : ∃ src, sols[i]? = some src := ⟨sols[i], by simp [hi]⟩
  obtain ⟨input, handle, output, hev⟩ := evaluated h hr hsrc
  obtain ⟨ec, c1, -, c2, c4, -, -, -, c5, c3⟩ := hev.checking
  have : (u, Handler.customChecker x y i) = (ec.uuid, outcomeHandler i) := by
    refine once_on (f := asked) (t := i) ?_ hu c5 rfl rfl
    rw [hcount, List.nodup_range.count]
    split <;> omega
  cases this
  exact ⟨hi, c3⟩

theorem messages_ok (h : Fits n task sols) (hr : buildDag fs task seed sols (start n cfg) = .ok (a, ev))
    (parse : Outcome → R) (ns : List Notice) :
    (∀ t ∈ ev.pending, Msg.Ok (R := R) sols.length (.progress t .pending)) ∧
    ∀ m ∈ (followFrom parse ev.handlers [] ns).1, m.Ok sols.length := by
  have hprog : ∀ u t p, Reports ev u t → Msg.Ok (R := R) sols.length (.progress t p) := by
    intro u t p hrep
    rcases report_expected h hr hrep with ⟨path, rfl⟩ | hm
    · trivial
    · obtain ⟨i, step, hi, rfl, hst⟩ := message_step hm
      have : (stepOf i (topicOf i (seed i) step)).isSome := by rw [hst]; rfl
      cases step <;> exact ⟨i, hi, this⟩
  refine ⟨fun t ht => ?_, fun m hm => ?_⟩
  · obtain ⟨e, -, hrep⟩ := ((announced h hr).2 t).1 ht
    exact hprog _ _ _ hrep
  · obtain ⟨x, -, hd, h1, ms, h2, h3⟩ := followFrom_mem hm
    cases hd with
    | report t =>
      cases h2
      rw [List.mem_singleton] at h3
      subst h3
      exact hprog _ _ _ h1
    | customChecker p q i =>
      cases x with
      | started u => cases h2; cases h3
      | skipped u => cases h2; cases h3
      | done u o =>
        simp only [says] at h2
        split at h2
        · cases h2
        · cases h2
          rw [List.mem_singleton] at h3
          subst h3
          exact (checker_reports h hr h1).1
    | failureDiagnostic t =>
      cases x with
      | started u => cases h2; cases h3
      | skipped u => cases h2; cases h3
      | done u o =>
        simp only [says] at h2
        split at h2 <;> cases h2
        · cases h3
        · rw [List.mem_singleton] at h3; subst h3; trivial
    | _ => cases h2; cases h3

/-- Before anything is run. -/
theorem pending_state (i sd : Nat) : ∀ (l : List Topic) (s : SolState R), s.status = .pending →
    (∀ step, s.result step = none) → s.outcome = none → (∀ x, s.seed = some x → x = sd) →
    (∀ t ∈ l, ∀ x, seedOf i t = some x → x = sd) →
    let s' := (l.map (fun t => (t, Phase.pending))).foldl (onProgress i) s
    s'.status = .pending ∧ (∀ step, s'.result step = none) ∧ s'.outcome = none ∧ (∀ x, s'.seed = some x → x = sd) ∧
      ((∃ t ∈ l, seedOf i t = some sd) ∨ s.seed = some sd → s'.seed = some sd) := by
  intro l
  induction l with
  | nil =>
    intro s h1 h2 h3 h4 _
    exact ⟨h1, h2, h3, h4, fun h => h.elim (fun ⟨t, ht, _⟩ => nomatch ht) id⟩
  | cons t l ih =>
    intro s h1 h2 h3 h4 h5
    simp only [List.map_cons, List.foldl_cons]
    have h6 : (onProgress i s (t, .pending)).status = .pending ∧ (∀ step, (onProgress i s (t, .pending)).result step = none) ∧
        (onProgress i s (t, .pending)).outcome = none ∧
        (onProgress i s (t, .pending)).seed = (seedOf i t).or s.seed := by
      unfold onProgress
      cases hs : stepOf i t with
      | none =>
        have : seedOf i t = none := by
          cases t <;> simp only [stepOf, seedOf] at hs ⊢
          split at hs
          · cases hs
          · next e => rw [if_neg e]
        rw [this]
        exact ⟨h1, h2, h3, rfl⟩
      | some step =>
        simp only
        cases seedOf i t with
        | none => exact ⟨rfl, fun step' => h2 step', h3, rfl⟩
        | some sd' => exact ⟨rfl, fun step' => h2 step', h3, rfl⟩
    obtain ⟨q1, q2, q3, q4⟩ := h6
    obtain ⟨r1, r2, r3, r4, r5⟩ := ih (onProgress i s (t, .pending)) q1 q2 q3 (by
      intro x hx
      rw [q4] at hx
      cases hs : seedOf i t with
      | none => rw [hs] at hx; exact h4 x hx
      | some y => rw [hs] at hx; cases hx; exact h5 t (by simp) _ hs) (fun t' ht' => h5 t' (by simp [ht']))
    refine ⟨r1, r2, r3, r4, fun hor => r5 ?_⟩
    rw [q4]
    rcases hor with ⟨t', ht', e⟩ | e
    · rcases List.mem_cons.1 ht' with rfl | ht'
      · right; rw [e]; rfl
      · exact .inl ⟨t', ht', e⟩
    · right
      cases hs : seedOf i t with
      | none => exact e
      | some y => have := h5 t (by simp) _ hs; subst this; rfl

/-! ## C92 -/

/-- **C92** Whatever the server says, and in whatever order, the UI never panics and it has a state for every solution. -/
theorem ui_never_panics (h : Fits n task sols) (hr : buildDag fs task seed sols (start n cfg) = .ok (a, ev))
    (parse : Outcome → R) (ns : List Notice) :
    ∃ ui, shown parse ev sols.length ns = some ui ∧
      ∀ i, i < sols.length → ∃ s, ui.solutions.get? i = some s := by
  obtain ⟨h1, h2⟩ := messages_ok h hr parse ns
  obtain ⟨ui, h3, h4⟩ := opened h1 h2
  exact ⟨ui, h3, fun i hi => ⟨_, h4 i hi⟩⟩

/-- The executions of a solution are there, one of each kind. -/
theorem executions_exist (h : Fits n task sols) (hr : buildDag fs task seed sols (start n cfg) = .ok (a, ev)) {i : Nat}
    (hi : i < sols.length) : ∃ g v s c, Executions ev i (seed i) g v s c := by
  obtain ⟨src, hsrc⟩ : ∃ src, sols[i]? = some src := ⟨sols[i], by simp [hi]⟩
  obtain ⟨input, handle, output, hev⟩ := evaluated h hr hsrc
  obtain ⟨eg, -, -, -, -, -, -, -, -, g3⟩ := hev.generation
  obtain ⟨es, -, -, -, -, -, -, -, -, -, s3⟩ := hev.solution
  obtain ⟨ec, -, -, -, -, -, -, -, -, c3⟩ := hev.checking
  have hv := hev.validation
  cases hw : task.validator with
  | none =>
    refine ⟨_, none, _, _, g3, fun u => ⟨(fun e => nomatch e), fun e => ?_⟩, s3, c3⟩
    have hm := (report_expected h hr e).resolve_left (fun ⟨p, e⟩ => by cases e)
    obtain ⟨j, -, hj⟩ := mem_messages hm
    rcases hj with e | ⟨-, e⟩ | e | e
    · cases e
    · exact absurd hw e
    · cases e
    · cases e
  | some w =>
    rw [hw] at hv
    obtain ⟨f, e, -, -, -, -, -, -, -, -, -, h5⟩ := hv
    exact ⟨_, some e.uuid, _, _, g3, fun u => ⟨fun x => by cases x; exact h5,
      fun x => by rw [reporter_unique h hr (by simp) x h5]⟩, s3, c3⟩

/-- What the UI knows of a solution. -/
theorem solution_known (h : Fits n task sols) (hr : buildDag fs task seed sols (start n cfg) = .ok (a, ev))
    (parse : Outcome → R) {ns : List Notice} (ho : Ordered ev.dag ns) (hcap : (follow parse ev sols.length ns).2 = true)
    (hcp : Captured ev ns)
    {i : Nat} (hi : i < sols.length) {g : ExecutionUuid} {v : Option ExecutionUuid} {s c : ExecutionUuid}
    (hx : Executions ev i (seed i) g v s c) :
    ∃ ui x, shown parse ev sols.length ns = some ui ∧ ui.solutions.get? i = some x ∧
      Knows (stepsOf g v s c) (seed i) (firsts ns) x ∧ x.outcome = (outcomeOf ns c).map parse := by
  have hch := chain h hr hi hx
  obtain ⟨h1, h2⟩ := messages_ok h hr parse ns
  obtain ⟨ui, h3, h4⟩ := opened h1 h2
  refine ⟨ui, _, h3, h4 i hi, ?_⟩
  have hsent := followFrom_eq.2 hcap
  rw [hsent]
  have hp := pending_state (R := R) i (seed i) ev.pending {} rfl (fun step => by cases step <;> rfl) rfl
    (fun x hx => nomatch hx) (by
      intro t ht x hx'
      obtain ⟨e, -, hrep⟩ := ((announced h hr).2 t).1 ht
      have hst : stepOf i t = some .generator := by
        cases t <;> simp only [seedOf, stepOf] at hx' ⊢ <;> (try cases hx')
        split at hx'
        · next e => rw [if_pos e]
        · cases hx'
      have := hch.canon _ _ _ hrep hst
      subst this
      simp [seedOf, topicOf] at hx'
      exact hx'.symm)
  generalize hs0 : (ev.pending.map (fun t => (t, Phase.pending))).foldl (onProgress (R := R) i) {} = s0 at hp
  obtain ⟨p1, p2, p3, -, p5⟩ := hp
  have hseed : s0.seed = some (seed i) := by
    refine p5 (.inl ⟨generationOf i (seed i), ?_, by simp [seedOf]⟩)
    obtain ⟨e, he, hu⟩ := handler_exec h hr hx.generator
    exact ((announced h hr).2 _).2 ⟨e, he, by rw [hu]; exact hx.generator⟩
  have hk0 : Knows (stepsOf g v s c) (seed i) [] s0 := by
    refine ⟨hseed, fun step => ?_, .inl ?_⟩
    · rw [p2]; cases stepsOf g v s c step <;> rfl
    · rw [p1]
      have : ∀ step, stageOf (stepsOf g v s c) [] step = none := by
        intro step; unfold stageOf; cases stepsOf g v s c step <;> rfl
      simp [reached, this]
  have hof := ordered_firsts ho
  have hka := knows_all hch (r := firsts ns) (a := []) hk0 (by simpa using hof)
  have hoa := outcome_all hch parse (c := c) rfl (r := firsts ns) (a := []) (x := none) rfl (by simpa using hof)
    (fun o hd => by
      have := ordered_outcome hof hd
      exact captured_firsts hcp i c o hx.checker this)
  have hsplit := fold_split i ((firsts ns).flatMap (sentBy parse ev)) s0 none
  have hs0' : ({ s0 with outcome := none } : SolState R) = s0 := by
    cases s0; cases p3; rfl
  rw [hs0'] at hsplit
  have hprog : ((firsts ns).flatMap (sentBy parse ev)).filterMap Msg.progress? =
      (firsts ns).flatMap (fun x => (reportsOn ev x.exec).map (fun t => (t, phaseOf x))) := by
    rw [List.filterMap_flatMap]
    congr 1
    funext x
    exact sentBy_progress parse ev x
  rw [hprog] at hsplit
  have hgoal : ((firstsFrom [] ns).flatMap (sentBy parse ev)).foldl (effect i) s0 = _ := hsplit
  rw [hgoal]
  refine ⟨?_, ?_⟩
  · rw [List.nil_append] at hka
    exact ⟨hka.seed, fun step => by rw [← hka.results step]; cases step <;> rfl, hka.status⟩
  · simp only
    rw [hoa, List.nil_append, outcomeOf_firsts]

/-- **C93** The evaluation goes on to the end if, and only if, the checkers that were run gave their output. -/
theorem completes_iff (h : Fits n task sols) (hr : buildDag fs task seed sols (start n cfg) = .ok (a, ev))
    (parse : Outcome → R) (ns : List Notice) : (follow parse ev sols.length ns).2 = true ↔ Captured ev ns := by
  show (followFrom parse ev.handlers [] ns).2 = true ↔ _
  rw [followFrom_eq.1]
  constructor
  · intro hall sol c o hrep ho
    have hm : Notice.done c o ∈ firsts ns := by
      rw [← outcomeOf_firsts] at ho
      exact outcome_mem ho
    have hi : sol < sols.length := by
      have hm := (report_expected h hr hrep).resolve_left (fun ⟨p, e⟩ => by cases e)
      obtain ⟨j, hj, hj'⟩ := mem_messages hm
      rcases hj' with e | ⟨e, -⟩ | e | e <;> cases e
      exact hj
    obtain ⟨src, hsrc⟩ : ∃ src, sols[sol]? = some src := ⟨sols[sol], by simp [hi]⟩
    obtain ⟨input, handle, output, hev⟩ := evaluated h hr hsrc
    obtain ⟨ec, -, -, -, -, -, -, -, c5, c3⟩ := hev.checking
    have uc : c = ec.uuid := reporter_unique h hr (by simp) hrep c3
    subst uc
    have := hall _ hm (outcomeHandler sol) (mem_closures.2 c5)
    simp only [says] at this
    split at this
    · exact absurd trivial (by simpa using this)
    · next hcap => simpa using hcap
  · intro hcap x hx hd hhd
    have hh := mem_closures.1 hhd
    cases hd with
    | customChecker p q i =>
      cases x with
      | started u => simp [says]
      | skipped u => simp [says]
      | done u o =>
        obtain ⟨-, h2⟩ := checker_reports h hr hh
        have hfirst : outcomeOf (firsts ns) u = some o := by
          exact outcome_of_mem (firsts_once ns) hx
        rw [outcomeOf_firsts] at hfirst
        simp [says, hcap _ _ _ h2 hfirst]
    | failureDiagnostic t =>
      cases x with
      | started u => simp [says]
      | skipped u => simp [says]
      | done u o => simp only [says]; split <;> simp
    | _ => simp [says]


theorem reached_firsts (ns : List Notice) (g : ExecutionUuid) (v : Option ExecutionUuid) (s c : ExecutionUuid) :
    reached (stepsOf g v s c) (firsts ns) = furthest ns g v s c := by
  rw [reached_furthest]
  unfold furthest stage
  simp only [outcomeOf_firsts, started_firsts]

/-- **C92** The UI shows of every solution the seed, the results of the executions that were done and what the checker
said. -/
theorem results_shown (h : Fits n task sols) (hr : buildDag fs task seed sols (start n cfg) = .ok (a, ev))
    (parse : Outcome → R) {ns : List Notice} (ho : Ordered ev.dag ns) (hc : Captured ev ns)
    {i : Nat} (hi : i < sols.length) {g : ExecutionUuid} {v : Option ExecutionUuid} {s c : ExecutionUuid}
    (hx : Executions ev i (seed i) g v s c) :
    ∃ ui x, shown parse ev sols.length ns = some ui ∧ ui.solutions.get? i = some x ∧ x.seed = some (seed i) ∧
      x.generator = outcomeOf ns g ∧ x.validator = v.bind (outcomeOf ns) ∧ x.solution = outcomeOf ns s ∧
      x.checker = outcomeOf ns c ∧ x.outcome = (outcomeOf ns c).map parse := by
  obtain ⟨ui, x, h1, h2, h3, h4⟩ := solution_known h hr parse ho ((completes_iff h hr parse ns).2 hc) hc hi hx
  have hres : ∀ step, x.result step = (stepsOf g v s c step).bind (outcomeOf ns) := by
    intro step
    rw [h3.results]
    congr 1
    funext u
    exact outcomeOf_firsts ns u
  exact ⟨ui, x, h1, h2, h3.seed, hres .generator, hres .validator, hres .solution, hres .checker, h4⟩

/-- **C92** A solution is shown as done if and only if its checker succeeded, and as failed if and only if one of the steps
failed; the step is named. -/
theorem ending_shown (h : Fits n task sols) (hr : buildDag fs task seed sols (start n cfg) = .ok (a, ev))
    (parse : Outcome → R) {ns : List Notice} (ho : Ordered ev.dag ns) (hc : Captured ev ns)
    {i : Nat} (hi : i < sols.length) {g : ExecutionUuid} {v : Option ExecutionUuid} {s c : ExecutionUuid}
    (hx : Executions ev i (seed i) g v s c) :
    ∃ ui x, shown parse ev sols.length ns = some ui ∧ ui.solutions.get? i = some x ∧
      (x.status = .done ↔ ∃ o, outcomeOf ns c = some o ∧ o.status = .success) ∧
      ∀ w, x.status = .failed w ↔
        (∃ o, outcomeOf ns g = some o ∧ o.status ≠ .success ∧ w = "Generator failed") ∨
        (∃ u o, v = some u ∧ outcomeOf ns u = some o ∧ o.status ≠ .success ∧ w = "Validator failed") ∨
        (∃ o, outcomeOf ns s = some o ∧ o.status ≠ .success ∧ w = "Solution failed") ∨
        ∃ o, outcomeOf ns c = some o ∧ o.status ≠ .success ∧ w = "Checker failed" := by
  obtain ⟨ui, x, h1, h2, h3, -⟩ := solution_known h hr parse ho ((completes_iff h hr parse ns).2 hc) hc hi hx
  have hch := chain h hr hi hx
  refine ⟨ui, x, h1, h2, ?_, fun w => ?_⟩
  · constructor
    · intro hd
      rcases h3.status with hst | ⟨hst, -⟩
      · rw [hd] at hst
        obtain ⟨u, o, q1, q2, q3⟩ := reached_done hst.symm
        cases q1
        rw [outcomeOf_firsts] at q2
        exact ⟨o, q2, q3⟩
      · rw [hd] at hst; cases hst
    · rintro ⟨o, q1, q2⟩
      have hrd : reached (stepsOf g v s c) (firsts ns) = .done := by
        have : stageOf (stepsOf g v s c) (firsts ns) .checker = some .done := by
          simp [stageOf, stepsOf, stage, outcomeOf_firsts, q1, q2, Step.over]
        simp [reached, this]
      rcases h3.status with hst | ⟨-, -, hst, -⟩
      · rw [hst, hrd]
      · exact absurd hrd hst
  · have hrf := hch.reached_failed (ordered_firsts ho) (w := w)
    have hiff : x.status = .failed w ↔ reached (stepsOf g v s c) (firsts ns) = .failed w := by
      constructor
      · intro hd
        rcases h3.status with hst | ⟨hst, -⟩
        · rw [← hst, hd]
        · rw [hd] at hst; cases hst
      · intro hrd
        rcases h3.status with hst | ⟨-, -, -, hst⟩
        · rw [hst, hrd]
        · exact absurd hrd (hst w)
    rw [hiff, hrf]
    simp only [outcomeOf_firsts]
    constructor
    · rintro ⟨step, u, o, q1, q2, q3, q4⟩
      cases step with
      | generator => cases q1; exact .inl ⟨o, q2, q3, q4⟩
      | validator => exact .inr (.inl ⟨u, o, q1, q2, q3, q4⟩)
      | solution => cases q1; exact .inr (.inr (.inl ⟨o, q2, q3, q4⟩))
      | checker => cases q1; exact .inr (.inr (.inr ⟨o, q2, q3, q4⟩))
    · rintro (⟨o, q2, q3, q4⟩ | ⟨u, o, q1, q2, q3, q4⟩ | ⟨o, q2, q3, q4⟩ | ⟨o, q2, q3, q4⟩)
      · exact ⟨.generator, g, o, rfl, q2, q3, q4⟩
      · exact ⟨.validator, u, o, q1, q2, q3, q4⟩
      · exact ⟨.solution, s, o, rfl, q2, q3, q4⟩
      · exact ⟨.checker, c, o, rfl, q2, q3, q4⟩

/-! ## C93 -/

/-- **C93** The status of a solution is how far its evaluation went, unless a step was skipped: then, if none failed, it may
be "skipped".  Missing: which of the two, see `status_by_chance`. -/
theorem status_shown_partial (h : Fits n task sols) (hr : buildDag fs task seed sols (start n cfg) = .ok (a, ev))
    (parse : Outcome → R) {ns : List Notice} (ho : Ordered ev.dag ns) (hc : Captured ev ns)
    {i : Nat} (hi : i < sols.length) {g : ExecutionUuid} {v : Option ExecutionUuid} {s c : ExecutionUuid}
    (hx : Executions ev i (seed i) g v s c) :
    ∃ ui x, shown parse ev sols.length ns = some ui ∧ ui.solutions.get? i = some x ∧
      (x.status = furthest ns g v s c ∨ (x.status = .skipped ∧ SomeSkipped ns g v s c)) := by
  obtain ⟨ui, x, h1, h2, h3, -⟩ := solution_known h hr parse ho ((completes_iff h hr parse ns).2 hc) hc hi hx
  refine ⟨ui, x, h1, h2, ?_⟩
  rw [← reached_firsts]
  rcases h3.status with hst | ⟨hst, ⟨step, u, q1, q2⟩, -⟩
  · exact .inl hst
  · refine .inr ⟨hst, ?_⟩
    rw [skipped_firsts] at q2
    cases step with
    | generator => cases q1; exact .inl q2
    | validator => exact .inr (.inl ⟨u, q1, q2⟩)
    | solution => cases q1; exact .inr (.inr (.inl q2))
    | checker => cases q1; exact .inr (.inr (.inr q2))

end TM.Terry
