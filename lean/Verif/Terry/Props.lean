import Verif.Terry.Whole
import Verif.Terry.Sample
/-!
# The evaluation DAG of a Terry task (C90, C91)
-/
namespace TM.Terry
open TM TM.Build DagSpec
open TM.Build.Spec (start callbacks Reports reportsOn)
open TM.Terry.Spec

variable {n : Uuid} {cfg : DagConfig} {fs : FS} {task : Task} {seed : Nat → Nat} {sols : List Src}
  {ev : Eval} {a : Unit}

/-! ## C90 -/

/-- **C90** The DAG built for a Terry task, with the callbacks registered on it, is accepted by the validation of the
server. -/
theorem dag_accepted (h : Fits n task sols) (hr : buildDag fs task seed sols (start n cfg) = .ok (a, ev)) :
    CheckDag.checkDag ev.dag (callbacks ev) = .ok () ∧
    WellFormed ev.dag (callbacks ev) ∧ InputsDefined ev.dag ∧ Acyclic ev.dag := by
  have h1 := (buildDag_done h hr).1
  exact ⟨h1.accepted, (CheckDag.checkDag_ok_iff _ _ h1.inv.wf).1 h1.accepted⟩

/-- **C90** The construction fails only because a file of the task is missing or cannot be read. -/
theorem only_missing_files {s : Eval} {err : Err} (hr : buildDag fs task seed sols s = .error err) :
    ∃ path, err = .missingFile path ∧ (fs.key path = none ∨ fs.present path = false) :=
  (buildDag_safe fs task seed sols s).1 err hr

/-- **C90** For every solution the DAG generates an input from its seed, validates it, runs the solution on it and checks
its output, as `Spec.Evaluates` says. -/
theorem evaluated (h : Fits n task sols) (hr : buildDag fs task seed sols (start n cfg) = .ok (a, ev))
    {i : Nat} {src : Src} (hi : sols[i]? = some src) :
    ∃ input handle output, Evaluates fs ev task i src (seed i) input handle output := by
  obtain ⟨h1, -, h3⟩ := buildDag_done h hr
  obtain ⟨x, y, z, h4, -⟩ := (h3 i src hi).spec h1 (known h) (List.mem_of_getElem? hi)
  exact ⟨x, y, z, h4⟩

/-- Executions reported differently make different files. -/
theorem differently_made (h : Fits n task sols) (hr : buildDag fs task seed sols (start n cfg) = .ok (a, ev))
    {e e' : Execution} (he : e ∈ allExecs ev.dag) (he' : e' ∈ allExecs ev.dag) {t t' : Topic}
    (ht : Reports ev e.uuid t) (ht' : Reports ev e'.uuid t') (hne : t ≠ t') {f f' : FileUuid}
    (hf : e.stdout = some f) (hf' : e'.stdout = some f') : f ≠ f' := by
  rintro rfl
  obtain ⟨h1, -, -⟩ := buildDag_done h hr
  have : e = e' := h1.producer he he' (f := f) (by simp [Execution.outputFiles, hf])
    (by simp [Execution.outputFiles, hf'])
  subst this
  have hlen : (reportsOn ev e.uuid).length = 1 := by
    unfold reportsOn
    rw [reportsOn_length, reports_balanced hr]
    rw [(nodup_uuids h1).count, if_pos (List.mem_map.2 ⟨e, he, rfl⟩)]
  obtain ⟨x, hx⟩ := length_one hlen
  have m1 := mem_reportsOn.2 ht
  have m2 := mem_reportsOn.2 ht'
  rw [hx, List.mem_singleton] at m1 m2
  exact hne (m1.trans m2.symm)

/-- **C90** Every solution has an input and an output of its own: a solution is never run on the input, nor judged on the
output, of another one. -/
theorem separate (h : Fits n task sols) (hr : buildDag fs task seed sols (start n cfg) = .ok (a, ev))
    {i j : Nat} {src src' : Src} {x x' z z' : FileUuid} {y y' : Option FileUuid} (hij : i ≠ j)
    (hi : Evaluates fs ev task i src (seed i) x y z) (hj : Evaluates fs ev task j src' (seed j) x' y' z') :
    x ≠ x' ∧ z ≠ z' ∧ x ≠ z' ∧ x ≠ z := by
  obtain ⟨g, g1, -, -, g2, -, -, -, -, g3⟩ := hi.generation
  obtain ⟨g', g1', -, -, g2', -, -, -, -, g3'⟩ := hj.generation
  obtain ⟨s, s1, -, -, -, s2, -, -, -, -, s3⟩ := hi.solution
  obtain ⟨s', s1', -, -, -, s2', -, -, -, -, s3'⟩ := hj.solution
  refine ⟨differently_made h hr g1.added g1'.added g3 g3' ?_ g2 g2',
    differently_made h hr s1.added s1'.added s3 s3' ?_ s2 s2',
    differently_made h hr g1.added s1'.added g3 s3' ?_ g2 s2',
    differently_made h hr g1.added s1.added g3 s3 ?_ g2 s2⟩ <;> simp [hij]

/-- The evaluation of the sample task. -/
example : ∃ a ev, buildDag Build.Sample.fs Sample.task Sample.seed Sample.sols (start 10 { copyExe := true }) = .ok (a, ev) ∧
    CheckDag.checkDag ev.dag (callbacks ev) = .ok () ∧ (allExecs ev.dag).length = 13 ∧
    ∃ input handle output, Evaluates Build.Sample.fs ev Sample.task 1
      { id := 5, path := "/task/solutions/slow.py", basePath := "/task", lang := Build.Sample.python "slow.py" }
      1001 input (some handle) output := by
  obtain ⟨a, ev, hr, hn, -⟩ := Sample.built
  refine ⟨a, ev, hr, (dag_accepted Sample.task_fits hr).1, hn, ?_⟩
  obtain ⟨x, y, z, h⟩ := evaluated Sample.task_fits hr (i := 1) rfl
  have hv := h.validation
  simp only [Sample.task] at hv
  obtain ⟨f, e, rfl, -⟩ := hv
  exact ⟨x, f, z, h⟩

/-- Without the source of the official solution it fails with an error about it. -/
example : buildDag Sample.poorFs Sample.task Sample.seed Sample.sols (start 10 {}) =
    .error (.missingFile "/task/official.cpp") := Sample.not_built

/-! ## C91 -/

/-- **C91** Every execution is reported to the UI exactly once: the compilations as the compilation of a source file, the
others as one of the messages expected. -/
theorem reported_once (h : Fits n task sols) (hr : buildDag fs task seed sols (start n cfg) = .ok (a, ev))
    {e : Execution} (he : e ∈ allExecs ev.dag) :
    ∃ t, reportsOn ev e.uuid = [t] ∧
      if e.tag = some "compilation" then ∃ s ∈ sources task sols, t = .compilation s.path
      else t ∈ messages task seed sols.length := by
  obtain ⟨h1, h2, -⟩ := buildDag_done h hr
  have hlen : (reportsOn ev e.uuid).length = 1 := by
    unfold reportsOn
    rw [reportsOn_length, reports_balanced hr]
    rw [(nodup_uuids h1).count, if_pos (List.mem_map.2 ⟨e, he, rfl⟩)]
  obtain ⟨t, ht⟩ := length_one hlen
  refine ⟨t, ht, ?_⟩
  have hrep : Reports ev e.uuid t := mem_reportsOn.1 (by rw [ht]; simp)
  split
  · next htag =>
    obtain ⟨k, f, w, h4, -, -, h5⟩ := h1.compilation he htag
    obtain ⟨s, hs, -, h6⟩ := used_source h (h1.side.used _ (AMap.mem_of_get? h4))
    have : Topic.compilation ((ctxOf fs cfg task sols).src k).path ∈ reportsOn ev e.uuid := mem_reportsOn.2 h5
    rw [ht, List.mem_singleton] at this
    exact ⟨s, hs, by rw [← this, h6]⟩
  · next htag =>
    have hm : mainTopic t = true := by
      cases t
      case compilation path =>
        obtain ⟨e', he', hu, htag'⟩ := h1.compOnly hrep
        have := nodup_exec (nodup_uuids h1) he' he hu
        subst this
        exact absurd htag' htag
      all_goals rfl
    have hp : t ∈ ev.pending := by
      rw [← h1.side.reports]
      exact List.mem_filterMap.2 ⟨_, hrep, rfl⟩
    have h5 := h2.topics
    simp only [start, List.filter_nil, List.nil_append] at h5
    rw [← h5]
    exact List.mem_filter.2 ⟨hp, hm⟩

/-- **C91** Before anything is run the UI is told about everything that will be, in order, and every message sent is
about an execution of the DAG. -/
theorem announced (h : Fits n task sols) (hr : buildDag fs task seed sols (start n cfg) = .ok (a, ev)) :
    ev.pending.filter (fun t => match t with | .compilation _ => false | _ => true) = messages task seed sols.length ∧
    ∀ t, t ∈ ev.pending ↔ ∃ e ∈ allExecs ev.dag, Reports ev e.uuid t := by
  obtain ⟨h1, h2, -⟩ := buildDag_done h hr
  have h5 := h2.topics
  simp only [start, List.filter_nil, List.nil_append] at h5
  refine ⟨?_, fun t => ?_⟩
  · rw [← h5]
    rfl
  · rw [← h1.side.reports]
    constructor
    · intro ht
      obtain ⟨⟨u, hd⟩, hm, hd'⟩ := List.mem_filterMap.1 ht
      cases hd <;> simp [reportOf] at hd'
      subst hd'
      have := h1.inv.handlers _ hm
      simp only [execUuids, List.append_nil] at this
      obtain ⟨e, he, hu⟩ := List.mem_map.1 (by simpa using this)
      exact ⟨e, he, by rw [hu]; exact hm⟩
    · rintro ⟨e, he, hrep⟩
      exact List.mem_filterMap.2 ⟨_, hrep, rfl⟩

/-- **C91** Exactly one execution is reported for each of the expected messages. -/
theorem one_execution_each (h : Fits n task sols) (hr : buildDag fs task seed sols (start n cfg) = .ok (a, ev))
    {t : Topic} (ht : t ∈ messages task seed sols.length) :
    ∃ e ∈ allExecs ev.dag, Reports ev e.uuid t ∧
      ∀ e' ∈ allExecs ev.dag, Reports ev e'.uuid t → e' = e := by
  obtain ⟨h1, h2, -⟩ := buildDag_done h hr
  have h5 := h2.topics
  simp only [start, List.filter_nil, List.nil_append] at h5
  have hp : t ∈ ev.pending := (List.mem_filter.1 (by rw [h5]; exact ht)).1
  have hm : mainTopic t = true := (List.mem_filter.1 (by rw [h5]; exact ht)).2
  obtain ⟨e, he, hrep⟩ := ((announced h hr).2 t).1 hp
  refine ⟨e, he, hrep, fun e' he' hrep' => ?_⟩
  refine nodup_exec (nodup_uuids h1) he' he (report_unique (t := t) ?_ hrep' hrep)
  rw [h1.side.reports, ← List.count_filter hm, h5]
  rw [(messages_nodup task seed sols.length).count, if_pos ht]

/-- **C91** The outcome of a solution is asked once, of its checker. -/
theorem outcome_once (h : Fits n task sols) (hr : buildDag fs task seed sols (start n cfg) = .ok (a, ev)) :
    ev.handlers.filterMap (fun p => match p.2 with | .customChecker _ _ sol => some sol | _ => none) =
      List.range sols.length := by
  obtain ⟨h1, h2, -⟩ := buildDag_done h hr
  have h5 := h2.scoring
  simp only [start, List.filterMap_nil, List.nil_append] at h5
  have key : ∀ hs : List (ExecutionUuid × Handler),
      hs.filterMap (fun p => match p.2 with | .customChecker _ _ sol => some sol | _ => none) =
      (hs.filterMap scoringOf).filterMap (fun x => match x with | .customChecker _ _ sol => some sol | _ => none) := by
    intro hs
    rw [List.filterMap_filterMap]
    congr 1
    funext p
    obtain ⟨u, hd⟩ := p
    cases hd <;> rfl
  rw [key, h5]
  have e : ∀ (l : List Src) (i : Nat), ((enumFrom i l).map (fun p => outcomeHandler p.1)).filterMap
      (fun x => match x with | .customChecker _ _ sol => some sol | _ => none) = List.range' i l.length := by
    intro l
    induction l with
    | nil => intro i; rfl
    | cons x l ih => intro i; simp [enumFrom, List.range'_succ, ih]
  rw [e, List.range_eq_range']

/-- **C91** In a dry run no file is written; files are written only if that is asked: then they are the inputs and the
outputs of the solutions, in `bin/io`, and the executables of source files. -/
theorem written (h : Fits n task sols) (hr : buildDag fs task seed sols (start n cfg) = .ok (a, ev))
    {f : FileUuid} {w : WriteTo} (hw : ev.writes.get? f = some w) :
    cfg.dryRun = false ∧
    ((w.executable = false ∧ cfg.copyExe = true ∧ ∃ s ∈ sols,
      (w.dest = task.path ++ "/bin/io/" ++ nameOf s.path ++ ".in" ∨
       w.dest = task.path ++ "/bin/io/" ++ nameOf s.path ++ ".out")) ∨
    (w.executable = true ∧ ∃ s ∈ sources task sols, ev.exes.get? s.id = some f ∧
      s.writeBinTo = some w.dest ∧ (cfg.copyExe = true ∨ s.copyExe = true))) := by
  obtain ⟨h1, h2, -⟩ := buildDag_done h hr
  obtain ⟨h0, h3⟩ := h1.side.writes f w hw
  rw [h2.ext.config] at h0
  refine ⟨h0, ?_⟩
  rcases h3 with ⟨h3, h4, h5⟩ | ⟨h3, k, h4, h5, h6⟩
  · exact Or.inl ⟨h3, h4, h5⟩
  · obtain ⟨s, hs, rfl, h7⟩ := used_source h (h1.side.used _ (AMap.mem_of_get? h4))
    rw [h7] at h5 h6
    rw [h2.ext.config] at h6
    refine Or.inr ⟨h3, s, hs, h4, h5, ?_⟩
    have : (cfg.copyExe || s.copyExe) = true := h6
    simpa using this

/-- **C91** When it is asked, and it is not a dry run, the input and the output of every solution are written. -/
theorem io_written (h : Fits n task sols) (hr : buildDag fs task seed sols (start n cfg) = .ok (a, ev))
    (hd : cfg.dryRun = false) (hc : cfg.copyExe = true) {i : Nat} {src : Src} (hi : sols[i]? = some src) :
    ∃ input handle output, Evaluates fs ev task i src (seed i) input handle output ∧
      ev.writes.get? input = some ⟨task.path ++ "/bin/io/" ++ nameOf src.path ++ ".in", false, false⟩ ∧
      ev.writes.get? output = some ⟨task.path ++ "/bin/io/" ++ nameOf src.path ++ ".out", false, false⟩ := by
  obtain ⟨h1, h2, h3⟩ := buildDag_done h hr
  obtain ⟨x, y, z, h4, h5, h6⟩ := (h3 i src hi).spec h1 (known h) (List.mem_of_getElem? hi)
  have e1 : ev.dag.config.dryRun = false := by rw [h2.ext.config]; exact hd
  have e2 : ev.dag.config.copyExe = true := by rw [h2.ext.config]; exact hc
  exact ⟨x, y, z, h4, h5 e1 e2, h6 e1 e2⟩

/-- The messages about the sample task. -/
example : messages Sample.task Sample.seed 2 =
    [generationOf 0 1000, validationOf 0, solutionOf 0, checkerOf 0,
     generationOf 1 1001, validationOf 1, solutionOf 1, checkerOf 1] := by decide

example : ∃ a ev, buildDag Build.Sample.fs Sample.task Sample.seed Sample.sols (start 10 { copyExe := true }) = .ok (a, ev) ∧
    (∃ e ∈ allExecs ev.dag, Reports ev e.uuid (checkerOf 1) ∧
      ∀ e' ∈ allExecs ev.dag, Reports ev e'.uuid (checkerOf 1) → e' = e) ∧
    ev.writes.values.map (·.dest) =
      ["/task/bin/io/slow.py.out", "/task/bin/io/slow.py.in", "/task/bin/checker", "/task/bin/io/fast.cpp.out",
       "/task/bin/fast", "/task/bin/validator", "/task/bin/io/fast.cpp.in", "/task/bin/official",
       "/task/bin/generator"] := by
  obtain ⟨a, ev, hr, -, hw⟩ := Sample.built
  exact ⟨a, ev, hr, one_execution_each Sample.task_fits hr (by decide), hw⟩

/-- Nothing is written without `copyExe`, nor in a dry run. -/
example : (∃ a ev, buildDag Build.Sample.fs Sample.small Sample.seed Sample.sols (start 10 {}) = .ok (a, ev) ∧
      ev.writes = []) ∧
    ∃ a ev, buildDag Build.Sample.fs Sample.task Sample.seed Sample.sols (start 10 { dryRun := true, copyExe := true }) =
      .ok (a, ev) ∧ ∀ f w, ev.writes.get? f ≠ some w := by
  obtain ⟨a, ev, hr, -, hw⟩ := Sample.small_built
  obtain ⟨a', ev', hr'⟩ := Sample.dry_built
  exact ⟨⟨a, ev, hr, hw⟩, a', ev', hr', fun f w hfw => by
    have := (written Sample.task_fits hr' hfw).1
    cases this⟩

end TM.Terry
