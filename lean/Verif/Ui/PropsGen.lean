import Verif.Ui.GenChain
import Verif.Ui.Examples
/-!
# What the UI shows of the generation of the testcases and of the compilations (C75)
-/
namespace TM.Ui
open TM TM.Build DagSpec Build.Spec Ui.Spec

variable {n : Uuid} {cfg : DagConfig} {fs : FS} {root : String} {task : Task} {sols : List Src}
  {io : GeneratedIo} {ev : Eval} {ms : AMap Nat Score.Manager} {checks : List (Nat × List SolCheck)}
  {pick : Live → List Nat} {ns : List Notice} {l : Live}

theorem report_single (h : Fits n task sols)
    (hr : buildDag fs root task sols (start n cfg) = .ok (io, ev)) (u : ExecutionUuid) :
    reportsOn ev u = [] ∨ ∃ t, reportsOn ev u = [t] := by
  cases hl : reportsOn ev u with
  | nil => exact .inl rfl
  | cons t r =>
    have ht : Reports ev u t := mem_reportsOn.1 (by rw [hl]; simp)
    obtain ⟨e, he, hu⟩ := handler_exec h hr ht
    simp only at hu
    obtain ⟨t', h1, -⟩ := reported_once h hr he
    rw [hu, hl] at h1
    exact .inr ⟨t', h1⟩

/-- A step that is reported is in the task. -/
theorem stage_in_task (h : Fits n task sols) (hk : Keyed task)
    (hr : buildDag fs root task sols (start n cfg) = .ok (io, ev)) {st : Subtask}
    (hst : st ∈ task.subtasks.values) {k : Nat} (hown : k ∈ st.owned) {tc : Testcase}
    (htc : task.testcases.get? k = some tc) {t : Topic} (hs : Stage st.id k t) {u : ExecutionUuid}
    (hu : Reports ev u t) :
    (t = .generation st.id k → inputSources tc.input ≠ []) ∧
    (t = .validation st.id k → validatorSources st.validator ≠ []) ∧
    (t = .officialOutput st.id k → outputSources tc.output ≠ []) := by
  have hm : t ∈ messages task sols.length := by
    rcases report_expected h hr hu with ⟨path, h1⟩ | h1
    · subst h1; cases hs
    · exact h1
  have same : ∀ st' ∈ task.subtasks.values, st'.id = st.id → st' = st := by
    intro st' h1 h2
    have a := (keyed_values hk).1 h1
    have b := (keyed_values hk).1 hst
    rw [h2, b] at a
    cases a; rfl
  unfold messages at hm
  rcases List.mem_append.1 hm with hm | hm
  · obtain ⟨st', h1, h2⟩ := List.mem_flatMap.1 hm
    obtain ⟨tc', h3, h4⟩ := List.mem_flatMap.1 h2
    obtain ⟨k', h5, h6⟩ := List.mem_filterMap.1 h3
    have hid := h.testcaseIds k' tc' h6
    have key : st'.id = st.id → tc'.id = k → st' = st ∧ tc' = tc := by
      intro a b
      refine ⟨same st' h1 a, ?_⟩
      rw [hid] at b; subst b
      rw [htc] at h6; cases h6; rfl
    unfold testcaseMessages at h4
    simp only [List.mem_append, List.mem_map] at h4
    rcases h4 with ((⟨s, h7, h8⟩ | ⟨s, h7, h8⟩) | ⟨s, h7, h8⟩) | h4
    · subst h8
      refine ⟨fun he => ?_, fun he => (nomatch he), fun he => (nomatch he)⟩
      simp only [Topic.generation.injEq] at he
      obtain ⟨-, rfl⟩ := key he.1 he.2
      intro hn; rw [hn] at h7; cases h7
    · subst h8
      refine ⟨fun he => (nomatch he), fun he => ?_, fun he => (nomatch he)⟩
      simp only [Topic.validation.injEq] at he
      obtain ⟨rfl, -⟩ := key he.1 he.2
      intro hn; rw [hn] at h7; cases h7
    · subst h8
      refine ⟨fun he => (nomatch he), fun he => (nomatch he), fun he => ?_⟩
      simp only [Topic.officialOutput.injEq] at he
      obtain ⟨-, rfl⟩ := key he.1 he.2
      intro hn; rw [hn] at h7; cases h7
    · exfalso
      obtain ⟨j, -, h4⟩ := List.mem_flatMap.1 h4
      unfold evaluationMessages at h4
      cases hs <;> split at h4 <;> simp at h4
  · obtain ⟨st', h1, h2⟩ := List.mem_flatMap.1 hm
    obtain ⟨k', h3, h4⟩ := List.mem_flatMap.1 h2
    obtain ⟨h5, h6⟩ := List.mem_filter.1 h3
    obtain ⟨s, -, h8⟩ := List.mem_map.1 h4
    generalize hi : st.id = i at hs
    rw [← h8] at hs
    cases hs
    obtain rfl := same st' h1 hi.symm
    simp [hown] at h6

/-- The steps of the generation of a testcase wait for each other. -/
theorem built_chain (h : Fits n task sols) (hk : Keyed task)
    (htc : ∀ st ∈ task.subtasks.values, st.testcases.Nodup)
    (hin : task.infile ≠ some "wait_for_validation")
    (hr : buildDag fs root task sols (start n cfg) = .ok (io, ev)) {st : Subtask}
    (hst : st ∈ task.subtasks.values) {k : Nat} (hown : k ∈ st.owned) : Chain ev st.id k := by
  have huniq : ∀ t, Stage st.id k t → ∀ u v, Reports ev u t → Reports ev v t → u = v := by
    intro t hs u v hu hv
    have hm : t ∈ messages task sols.length := by
      rcases report_expected h hr hu with ⟨path, h1⟩ | h1
      · subst h1; cases hs
      · exact h1
    obtain ⟨e, he, rfl⟩ := handler_exec h hr hu
    obtain ⟨e', he', rfl⟩ := handler_exec h hr hv
    rw [reported_unique h (keyed_ids hk) htc hr hm he he' hu hv]
  refine ⟨report_single h hr, huniq, ?_⟩
  obtain ⟨tc, input, handle, output, h1, -, h2⟩ := testcase_prepared h hr hst hown
  have hid := h.testcaseIds k tc h1
  -- the executions of the three steps
  have hgen : ∀ u, Reports ev u (.generation st.id k) → ∃ e ∈ allExecs ev.dag, e.uuid = u ∧ input ∈ e.outputFiles := by
    intro u hu
    have h3 := (stage_in_task h hk hr hst hown h1 .generation hu).1 rfl
    have h4 := h2.generated
    unfold Generated at h4
    split at h4
    · next hs => rw [hs] at h3; exact absurd rfl h3
    · obtain ⟨e, h5, h6, -, -, -, -, -, h7, -⟩ := h4
      rw [hid] at h7
      refine ⟨e, h5.added, huniq _ .generation _ _ h7 hu, ?_⟩
      simp [Execution.outputFiles, h6]
  have hval : ∀ u, Reports ev u (.validation st.id k) → ∃ e ∈ allExecs ev.dag, e.uuid = u ∧
      input ∈ e.dependencies ∧ ∃ f, handle = some f ∧ f ∈ e.outputFiles := by
    intro u hu
    have h3 := (stage_in_task h hk hr hst hown h1 .validation hu).2.1 rfl
    have h4 := h2.validated
    unfold Validated at h4
    split at h4
    · next hs => rw [hs] at h3; exact absurd rfl h3
    · obtain ⟨f, e, h5, h6, h7, -, h8, -, -, -, -, -, h9, -⟩ := h4
      rw [hid] at h9
      refine ⟨e, h6.added, huniq _ .validation _ _ h9 hu, input_dep h7, f, h5, ?_⟩
      simp [Execution.outputFiles, h8]
  have hsol : ∀ u, Reports ev u (.officialOutput st.id k) → ∃ e ∈ allExecs ev.dag, e.uuid = u ∧
      input ∈ e.dependencies ∧ ∀ f, handle = some f → f ∈ e.dependencies := by
    intro u hu
    have h3 := (stage_in_task h hk hr hst hown h1 .officialOutput hu).2.2 rfl
    have h4 := h2.solved
    unfold Solved at h4
    split at h4
    · next hs => rw [hs] at h3; exact absurd rfl h3
    · next hs => rw [hs] at h3; exact absurd rfl h3
    · obtain ⟨e, h5, h6, h7, -, -, -, -, h9, -⟩ := h4
      rw [hid] at h9
      refine ⟨e, h5.added, huniq _ .officialOutput _ _ h9 hu, ?_, fun f hf => input_dep (h7 f hf)⟩
      unfold Spec.Reads at h6
      split at h6
      · simp [Execution.dependencies, h6]
      · next infile hi => exact input_dep (h6 (fun hn => hin (by rw [hi, hn])))
  intro t t' he pre u v hu hv hf
  cases he with
  | gv =>
    obtain ⟨e, a1, rfl, a3⟩ := hgen u hu
    obtain ⟨e', b1, rfl, b3, -⟩ := hval v hv
    exact hf e' b1 rfl e a1 input b3 a3
  | go =>
    obtain ⟨e, a1, rfl, a3⟩ := hgen u hu
    obtain ⟨e', b1, rfl, b3, -⟩ := hsol v hv
    exact hf e' b1 rfl e a1 input b3 a3
  | vo =>
    obtain ⟨e, a1, rfl, -, f, a4, a5⟩ := hval u hu
    obtain ⟨e', b1, rfl, -, b4⟩ := hsol v hv
    exact hf e' b1 rfl e a1 f (b4 f a4) a5

/-- **C75** What the UI shows of the generation of a testcase, for any order of the notices that a server
may send: how the generator, the validator and the official solution ended, if they did; the testcase is
shown as failed if and only if one of them failed, and as ready if and only if the official solution
succeeded.  Missing: the other statuses, which depend on the order, see `generation_status_by_chance`. -/
theorem generation_shown_partial (h : Fits n task sols) (hk : Keyed task)
    (htc : ∀ st ∈ task.subtasks.values, st.testcases.Nodup)
    (hin : task.infile ≠ some "wait_for_validation")
    (hr : buildDag fs root task sols (start n cfg) = .ok (io, ev)) {st : Subtask}
    (hst : st ∈ task.subtasks.values) {k : Nat} (hown : k ∈ st.owned) (ho : Ordered ev.dag ns)
    (hl : Live.follow pick ev ms checks ns = some l) {s : State} (hs : l.ui task = some s) :
    ∃ g, (s.generations.get? st.id).bind (·.get? k) = some g ∧
      (∀ u, Reports ev u (.generation st.id k) → g.generation = endOf ns u) ∧
      (∀ u, Reports ev u (.validation st.id k) → g.validation = endOf ns u) ∧
      (∀ u, Reports ev u (.officialOutput st.id k) → g.solution = endOf ns u) ∧
      (g.status = .failed ↔ Broken ev ns st.id k) ∧
      (g.status = .solved ↔ Ready ev ns st.id k) := by
  have happ := applyAll_gen hs (new_gen hk hst hown)
  rw [follow_progress hl, List.foldl_append, pending_gen] at happ
  have h0 : Known ev st.id k [] {} := by
    refine ⟨fun _ _ => rfl, fun _ _ => rfl, fun _ _ => rfl, ?_, ?_⟩
    · constructor
      · intro h; cases h
      · rintro ⟨e, t, o, -, -, h3, -⟩; cases h3
    · constructor
      · intro h; cases h
      · rintro ⟨e, o, -, h3, -⟩; cases h3
  have hkn := known_all (built_chain h hk htc hin hr hst hown) (r := firsts ns) h0 (by
    simpa using ordered_firsts ho)
  simp only [List.nil_append] at hkn
  refine ⟨_, happ, ?_⟩
  have hsame : ∀ u, outcomeOf (firsts ns) u = outcomeOf ns u := fun u => outcomeOf_firstsFrom (by simp)
  have hend : ∀ u, endOf (firsts ns) u = endOf ns u := by intro u; unfold endOf; rw [hsame]
  have hb : Broken ev (firsts ns) st.id k ↔ Broken ev ns st.id k := by unfold Broken; simp only [hsame]
  have hrd : Ready ev (firsts ns) st.id k ↔ Ready ev ns st.id k := by unfold Ready; simp only [hsame]
  exact ⟨fun u hu => (hkn.generation u hu).trans (hend u), fun u hu => (hkn.validation u hu).trans (hend u),
    fun u hu => (hkn.solution u hu).trans (hend u), hkn.failed.trans hb, hkn.solved.trans hrd⟩

/-! ## The compilations -/

theorem comp_other {path : String} {c : Option CompStatus} {x : Notice} (h : ¬ Reports ev x.exec (.compilation path)) :
    ((reportsOn ev x.exec).map (fun t => (t, Phase.told (progressOf x)))).foldl (compStep path) c = c := by
  have : ∀ (l : List Topic) (c : Option CompStatus), Topic.compilation path ∉ l →
      (l.map (fun t => (t, Phase.told (progressOf x)))).foldl (compStep path) c = c := by
    intro l
    induction l with
    | nil => intro c _; rfl
    | cons t l ih =>
      intro c hn
      rw [List.map_cons, List.foldl_cons]
      have : compStep path c (t, Phase.told (progressOf x)) = c := by
        unfold compStep
        rw [if_neg]
        intro he; exact hn (by rw [← he]; simp)
      rw [this]
      exact ih c (fun hm => hn (by simp [hm]))
  exact this _ c (fun hm => h (mem_reportsOn.1 hm))

theorem comp_all {path : String} {u : ExecutionUuid} (hsingle : reportsOn ev u = [.compilation path])
    (hu : ∀ v, Reports ev v (.compilation path) → v = u) : ∀ {r a : List Notice} {c : Option CompStatus},
    c = some (compiledAs a u) → Ordered ev.dag (a ++ r) →
    (r.flatMap (fun x => (reportsOn ev x.exec).map (fun t => (t, Phase.told (progressOf x))))).foldl
      (compStep path) c = some (compiledAs (a ++ r) u) := by
  intro r
  induction r with
  | nil => intro a c hc _; simpa using hc
  | cons x r ih =>
    intro a c hc ho
    have ho' : Ordered ev.dag ((a ++ [x]) ++ r) := by simpa using ho
    rw [List.flatMap_cons, List.foldl_append]
    have : a ++ x :: r = (a ++ [x]) ++ r := by simp
    rw [this]
    refine ih ?_ ho'
    have hox := ordered_prefix ho'
    by_cases hx : x.exec = u
    · have hn := ordered_last hox
      rw [hx, hsingle]
      simp only [List.map_cons, List.map_nil, List.foldl_cons, List.foldl_nil, compStep, if_true]
      congr 1
      rw [hx] at hn
      cases x with
      | started v =>
        have hx : u = v := Eq.symm hx
        subst hx
        obtain ⟨-, h2, -⟩ := hox.start a u [] rfl
        have : ∀ y, outcomeOf (a ++ [.started y]) u = none := by
          intro y; rw [outcomeOf_snoc, hn]; rfl
        have h3 : Notice.skipped u ∉ a ++ [.started u] := by simp [h2]
        unfold compiledAs
        rw [this]
        simp only [h3, if_false, progressOf, compStatus]
        rw [if_pos (by simp)]
      | done v o =>
        have hx : u = v := Eq.symm hx
        subst hx
        unfold compiledAs
        rw [outcomeOf_snoc, hn]
        simp only [Option.none_or, outcomeOf_one, progressOf, compStatus]
      | skipped v =>
        have hx : u = v := Eq.symm hx
        subst hx
        have : outcomeOf (a ++ [.skipped u]) u = none := by rw [outcomeOf_snoc, hn]; rfl
        unfold compiledAs
        rw [this]
        simp only [progressOf, compStatus]
        rw [if_pos (by simp)]
    · rw [comp_other (fun hr => hx (hu _ hr)), hc]
      congr 1
      unfold compiledAs
      rw [outcome_snoc_other hx]
      have h1 : Notice.skipped u ∈ a ++ [x] ↔ Notice.skipped u ∈ a := by
        apply mem_snoc_ne; rintro rfl; exact hx rfl
      have h2 : Notice.started u ∈ a ++ [x] ↔ Notice.started u ∈ a := by
        apply mem_snoc_ne; rintro rfl; exact hx rfl
      simp only [h1, h2]

/-- **C75** The UI shows how the compilation of a source file goes, if it is compiled once. -/
theorem compilation_shown (h : Fits n task sols)
    (hr : buildDag fs root task sols (start n cfg) = .ok (io, ev)) {path : String} {u : ExecutionUuid}
    (hc : Reports ev u (.compilation path)) (hu : ∀ v, Reports ev v (.compilation path) → v = u)
    (ho : Ordered ev.dag ns) (hl : Live.follow pick ev ms checks ns = some l) {s : State}
    (hs : l.ui task = some s) : s.compilations.get? path = some (compiledAs ns u) := by
  have happ := applyAll_comp path hs
  rw [follow_progress hl, List.foldl_append] at happ
  have hsingle : reportsOn ev u = [.compilation path] := by
    have := mem_reportsOn.2 hc
    rcases report_single h hr u with h0 | ⟨t, h0⟩
    · rw [h0] at this; cases this
    · rw [h0, List.mem_singleton] at this; rw [h0, ← this]
  have hpend : (ev.pending.map (fun t => (t, Phase.pending))).foldl (compStep path)
      ((State.new task).compilations.get? path) = some .pending := by
    obtain ⟨e, he, heu⟩ := handler_exec h hr hc
    simp only at heu
    have hm : Topic.compilation path ∈ ev.pending := ((announced h hr).2 _).2 ⟨e, he, by rw [heu]; exact hc⟩
    have : ∀ (l : List Topic) (c : Option CompStatus), (Topic.compilation path ∈ l ∨ c = some .pending) →
        (l.map (fun t => (t, Phase.pending))).foldl (compStep path) c = some .pending := by
      intro l
      induction l with
      | nil =>
        intro c hor
        rcases hor with h | h
        · cases h
        · exact h
      | cons t l ih =>
        intro c hor
        rw [List.map_cons, List.foldl_cons]
        refine ih _ ?_
        unfold compStep
        by_cases ht : t = .compilation path
        · right; simp [ht, compStatus]
        · rcases hor with h | h
          · rcases List.mem_cons.1 h with h | h
            · exact absurd h.symm ht
            · exact .inl h
          · right; simp [ht, h]
    exact this _ _ (.inl hm)
  have hall := comp_all hsingle hu (a := []) (r := firsts ns) (c := some .pending) rfl (by simpa using ordered_firsts ho)
  rw [hpend, hall] at happ
  rw [happ, List.nil_append]
  congr 1
  unfold compiledAs
  rw [show outcomeOf (firsts ns) u = outcomeOf ns u from outcomeOf_firstsFrom (by simp)]
  simp only [started_firsts, skipped_firsts]

/-! ## Examples -/

open Sample in
/-- The first testcase is ready; so is the compilation of the generator. -/
example : Demo Build.Sample.batch (fun _ _ s => decide (
    (s.gen 0 0).map (fun g => (g.status, g.generation, g.validation, g.solution)) =
      some (.solved, some .success, some .success, some .success) ∧
    s.compilations.get? "/task/generator.cpp" = some .done)) :=
  of_demo (by decide +kernel)

namespace Sample

/-- The topic of an execution satisfies `f`. -/
def withTopic (ev : Eval) (f : Topic → Bool) : List ExecutionUuid :=
  ((allExecs ev.dag).filter (fun e => (reportsOn ev e.uuid).any f)).map (·.uuid)

/-- The validator does not compile: it is not run, nor is what comes after it. -/
def noValidator (ev : Eval) : List Notice :=
  (withTopic ev (fun t => t = .compilation "/task/validator.cpp")).map
    (fun u => .done u { status := .returnCode 1, shown := "error" }) ++
  (withTopic ev (fun t => match t with | .compilation _ => false | .generation _ _ => false | _ => true)).map .skipped

/-- The generator is compiled and run. -/
def generator (ev : Eval) : List Notice :=
  (withTopic ev (fun t => t = .compilation "/task/generator.cpp")).map (fun u => .done u { status := .success }) ++
  (withTopic ev (fun t => match t with | .generation _ _ => true | _ => false)).map
    (fun u => .done u { status := .success })

/-- The rest is compiled. -/
def rest (ev : Eval) : List Notice :=
  (withTopic ev (fun t => match t with
    | .compilation p => p ≠ "/task/validator.cpp" && p ≠ "/task/generator.cpp"
    | _ => false)).map (fun u => .done u { status := .success })

/-- What the UI shows of the first testcase after some notices, if it is a possible sequence. -/
def shownGen (ev : Eval) (ns : List Notice) : Option GenState :=
  if orderedFrom ev.dag [] ns then
    match live Build.Sample.batch ev ns with
    | none => none
    | some l => match l.ui Build.Sample.batch with
      | none => none
      | some s => s.gen 0 0
  else none

/-- The notices come in order and at the end the UI shows `g` for the first testcase. -/
def ShownGen (ev : Eval) (ns : List Notice) (g : GenState) : Prop :=
    Ordered ev.dag ns ∧ ∃ ms l s,
      newManagers (scoreTask Build.Sample.batch maxScore .min) (fun _ => subtaskOrder)
        (List.range Build.Sample.sols.length) = some ms ∧
      Live.follow (fun _ => subtaskOrder) ev ms solChecks ns = some l ∧ l.ui Build.Sample.batch = some s ∧
      (s.generations.get? 0).bind (·.get? 0) = some g

theorem of_shownGen {ev : Eval} {ns : List Notice} {g : GenState} (h : shownGen ev ns = some g) :
    ShownGen ev ns g := by
  unfold shownGen at h
  split at h
  · next ho =>
    refine ⟨orderedOk_ordered ho, ?_⟩
    split at h
    · cases h
    · next l hl =>
      split at h
      · cases h
      · next s hs =>
        obtain ⟨ms, hms, hf⟩ := of_live hl
        exact ⟨ms, l, s, hms, hf, hs, h⟩
  · cases h

end Sample

open Sample in
/-- **C75** ... the rest of what the UI shows depends on the order of the notices: the validator of the sample does
not compile, and at the end the first testcase is shown as generated if the generator ended after that, as
skipped if it ended before.  The executions end in the same way in both cases. -/
theorem generation_status_by_chance : ∃ io ev, buildDag Build.Sample.fs "/task" Build.Sample.batch Build.Sample.sols (start 10 {}) = .ok (io, ev) ∧
    ∃ (ns ns' : List Notice) (g g' : GenState), ns.Perm ns' ∧
      (∀ e ∈ allExecs ev.dag, ∃ x ∈ ns, x.exec = e.uuid ∧ x.kind ≠ .start) ∧
      ShownGen ev ns g ∧ ShownGen ev ns' g' ∧ g.status = .generated ∧ g'.status = .skipped := by
  have : Build.Sample.holds (fun _ ev => decide (
      (shownGen ev (rest ev ++ (noValidator ev ++ generator ev))).map (·.status) = some .generated ∧
      (shownGen ev (rest ev ++ (generator ev ++ noValidator ev))).map (·.status) = some .skipped) &&
      (allExecs ev.dag).all (fun e => (rest ev ++ (noValidator ev ++ generator ev)).any (fun x =>
        x.exec == e.uuid && decide (x.kind ≠ .start))))
      (buildDag Build.Sample.fs "/task" Build.Sample.batch Build.Sample.sols (start 10 {})) = true := by decide +kernel
  obtain ⟨io, ev, h1, h2⟩ := Build.Sample.of_holds this
  rw [Bool.and_eq_true] at h2
  obtain ⟨a, b⟩ := of_decide_eq_true h2.1
  rw [Option.map_eq_some_iff] at a b
  obtain ⟨g, a1, a2⟩ := a
  obtain ⟨g', b1, b2⟩ := b
  refine ⟨io, ev, h1, _, _, g, g', List.Perm.append_left _ List.perm_append_comm, ?_, of_shownGen a1, of_shownGen b1, a2, b2⟩
  intro e he
  have := List.all_eq_true.1 h2.2 e he
  obtain ⟨x, hx, hx2⟩ := List.any_eq_true.1 this
  rw [Bool.and_eq_true, beq_iff_eq, decide_eq_true_eq] at hx2
  exact ⟨x, hx, hx2.1, hx2.2⟩

end TM.Ui
