import Verif.Build.Fail
import Verif.Build.Spec
import Verif.CheckDag.Props
/-!
# From the invariants of the construction to the specification
-/
namespace TM.Build
open TM DagSpec Spec

/-! ## The context of a task -/

/-- A source file that is not used. -/
def noSrc : Src :=
  { id := 0, path := "", basePath := "",
    lang := { name := "", compiler := none, command := .system "", exeName := "" } }

/-- The context of a task. -/
def ctxOf (fs : FS) (root : String) (task : Task) (sols : List Src) : Ctx where
  fs := fs
  grader f := (((sources task sols).flatMap gradersOf).find? (fun g => g.file = f)).map (·.localPath)
  src k := ((sources task sols).find? (fun s => s.id = k)).getD noSrc
  mayWrite d := ∃ k tc, task.testcases.get? k = some tc ∧
    (d = inputDest root tc.id ∨ d = outputDest task tc.id)
  used k := ∃ s ∈ sources task sols, s.id = k

theorem ctx_knows {n : Uuid} {fs : FS} {root : String} {task : Task} {sols : List Src}
    (h : Fits n task sols) {s : Src} (hs : s ∈ sources task sols) :
    (ctxOf fs root task sols).Knows s := by
  refine ⟨?_, ⟨s, hs, rfl⟩, ?_⟩
  · show ((sources task sols).find? (fun t => t.id = s.id)).getD noSrc = s
    cases hf : (sources task sols).find? (fun t => decide (t.id = s.id)) with
    | none =>
      have := List.find?_eq_none.1 hf s hs
      simp at this
    | some t =>
      have h1 := List.mem_of_find?_eq_some hf
      have h2 := List.find?_some hf
      exact h.instances t h1 s hs (by simpa using h2)
  · intro m hm p hp
    have hg : p.2 ∈ gradersOf s := by
      simp only [gradersOf, hm, Option.getD_some]
      exact List.mem_map.2 ⟨p, hp, rfl⟩
    have hmem : p.2 ∈ (sources task sols).flatMap gradersOf := List.mem_flatMap.2 ⟨s, hs, hg⟩
    show (((sources task sols).flatMap gradersOf).find? (fun g => decide (g.file = p.2.file))).map
      (·.localPath) = some p.2.localPath
    cases hf : ((sources task sols).flatMap gradersOf).find? (fun g => decide (g.file = p.2.file)) with
    | none =>
      have := List.find?_eq_none.1 hf _ hmem
      simp at this
    | some g =>
      have h1 := List.mem_of_find?_eq_some hf
      have h2 := List.find?_some hf
      obtain ⟨t, ht, hgt⟩ := List.mem_flatMap.1 h1
      simp only [Option.map_some, Option.some.injEq]
      exact h.graderPath t ht s hs g hgt _ hg (by simpa using h2)

theorem AMap.value_of_get? {V : Type} {m : AMap Nat V} {k : Nat} {v : V} (h : m.get? k = some v) :
    v ∈ m.values := List.mem_map.2 ⟨_, AMap.mem_of_get? h, rfl⟩

theorem ctx_known {n : Uuid} {fs : FS} {root : String} {task : Task} {sols : List Src}
    (h : Fits n task sols) : task.Known (ctxOf fs root task sols) root sols := by
  have know : ∀ {s}, s ∈ sources task sols → (ctxOf fs root task sols).Knows s := ctx_knows h
  refine ⟨?_, ?_, ?_, ?_, ?_, fun k tc hk => ⟨k, tc, hk, Or.inl rfl⟩,
    fun k tc hk => ⟨k, tc, hk, Or.inr rfl⟩⟩
  · cases ht : task.type with
    | batch c =>
      cases c with
      | whiteDiff => trivial
      | custom s => exact know (by simp [sources, ht, typeSources])
    | communication s a b => exact know (by simp [sources, ht, typeSources])
    | none => trivial
  · intro s hs
    exact know (by simp [sources, hs])
  · intro k tc hk
    cases hi : tc.input with
    | staticFile p => trivial
    | custom s a =>
      refine know ?_
      simp only [sources, List.mem_append, List.mem_flatMap]
      exact Or.inr ⟨tc, AMap.value_of_get? hk, Or.inl (by simp [inputSources, hi])⟩
  · intro k tc hk
    cases hi : tc.output with
    | notAvailable => trivial
    | staticFile p => trivial
    | custom s a =>
      refine know ?_
      simp only [sources, List.mem_append, List.mem_flatMap]
      exact Or.inr ⟨tc, AMap.value_of_get? hk, Or.inr (by simp [outputSources, hi])⟩
  · intro st hst
    cases hi : st.validator with
    | assumeValid => trivial
    | custom s a =>
      refine know ?_
      simp only [sources, List.mem_append, List.mem_flatMap]
      exact Or.inl (Or.inr ⟨st, hst, by simp [validatorSources, hi]⟩)

theorem start_inv {n : Uuid} {fs : FS} {root : String} {task : Task} {sols : List Src}
    (h : Fits n task sols) (cfg : DagConfig) : Inv (ctxOf fs root task sols).G (start n cfg) [] := by
  refine ⟨⟨by simp [start, AMap.Wf, AMap.keys], by simp [start, AMap.Wf, AMap.keys], ?_⟩, ?_, ?_, ?_, ?_,
    ?_, ?_, ?_, ?_, ?_, ?_, ?_, Runnable.nil, ?_, ?_, ?_, ?_, ?_⟩
  all_goals simp [start, execUuids, allExecs, groupOuts, outsOf, AMap.keys, AMap.Wf]
  intro f hf
  simp only [Ctx.G, ctxOf, Option.isSome_map] at hf
  obtain ⟨g, hg⟩ := Option.isSome_iff_exists.1 hf
  have h1 := List.mem_of_find?_eq_some hg
  have h2 := List.find?_some hg
  obtain ⟨t, ht, hgt⟩ := List.mem_flatMap.1 h1
  have := h.graders t ht g hgt
  simp only [decide_eq_true_eq] at h2
  rw [← h2]; exact this

theorem start_side {fs : FS} {root : String} {task : Task} {sols : List Src} (n : Uuid)
    (cfg : DagConfig) : Side (ctxOf fs root task sols) [] (start n cfg) := by
  refine ⟨?_, ?_, ?_, ?_, ?_, ?_, ?_, ?_, ?_, ?_⟩
  all_goals simp [start, allExecs, AMap.keys, AMap.get?]

/-- What is known when the DAG has been built. -/
structure Done (c : Ctx) (ev : Eval) : Prop where
  inv : Inv c.G ev []
  side : Side c [] ev

/-! ## The validator of the server -/

theorem Inv.accepted {G : FileUuid → Prop} {ev : Eval} (i : Inv G ev []) :
    CheckDag.checkDag ev.dag (callbacks ev) = .ok () := by
  have wf : WellFormed ev.dag (callbacks ev) := by
    refine ⟨i.nonempty, i.fifos, by simpa [execUuids] using i.execs,
      fun e he => i.captureOut e (by simp [he]), fun e he => i.captureErr e (by simp [he]),
      by simpa [allFiles, groupOuts, outsOf] using i.files, ?_, ?_⟩
    · intro f hf
      obtain ⟨p, hp, rfl⟩ := List.mem_map.1 hf
      simpa [outsOf] using i.writes p hp
    · intro u hu
      obtain ⟨p, hp, rfl⟩ := List.mem_map.1 hu
      simpa [execUuids] using i.handlers p hp
  rcases CheckDag.checkDag_cases ev.dag (callbacks ev) i.wf with ⟨h1, -⟩ | ⟨_, -, h2, -⟩
  · exact h1
  · exact absurd ⟨wf, _, List.reverse_perm _, i.runnable⟩ h2

theorem Done.accepted {c : Ctx} {ev : Eval} (h : Done c ev) :
    CheckDag.checkDag ev.dag (callbacks ev) = .ok () := h.inv.accepted

theorem Done.input {c : Ctx} {ev : Eval} (h : Done c ev) {e : Execution} (he : e ∈ allExecs ev.dag)
    {f : FileUuid} (hf : f ∈ e.dependencies) : f ∈ allFiles ev.dag := by
  obtain ⟨-, h2, -⟩ := (CheckDag.checkDag_ok_iff _ _ h.inv.wf).1 h.accepted
  obtain ⟨p, hp, hep⟩ := List.mem_flatMap.1 he
  refine h2 p.1 p.2 hp f ?_
  simp only [ExecutionGroup.deps, List.mem_flatMap]
  exact ⟨e, hep, hf⟩

theorem mem_deps_of_get? {e : Execution} {path : String} {i : ExecutionInput}
    (h : e.inputs.get? path = some i) : i.file ∈ e.dependencies := by
  have := AMap.mem_of_get? h
  simp only [Execution.dependencies, List.mem_append, List.mem_map]
  grind

/-- A grader in the sandbox of an execution is provided from its file. -/
theorem Done.grader {c : Ctx} {ev : Eval} (h : Done c ev) {e : Execution} (he : e ∈ allExecs ev.dag)
    {path local_ : String} {i : ExecutionInput} (hi : e.inputs.get? path = some i)
    (hg : c.grader i.file = some local_) : CopyOf c.fs ev i.file local_ := by
  have hG : c.G i.file := by simp [Ctx.G, hg]
  have h1 := h.input he (mem_deps_of_get? hi)
  rw [mem_allFiles] at h1
  rcases h1 with h1 | h1
  · exact absurd h1 (h.inv.graders _ hG).2.1
  · cases hp : ev.dag.providedFiles.get? i.file with
    | none => exact absurd h1 (AMap.get?_eq_none_iff.1 hp)
    | some p =>
      obtain ⟨k, h2, rfl⟩ := h.side.graders _ _ _ hg hp
      exact ⟨k, h2, hp⟩

theorem ProvidedFrom.copy {G : FileUuid → Prop} {fs : FS} {ev : Eval} {f : FileUuid} {path : String}
    (h : ProvidedFrom G fs ev f path) : CopyOf fs ev f path := h.2

/-! ## Programs -/

theorem compilationGrader_eq (s : Src) : compilationGrader s = compiledWith s := by
  unfold compilationGrader compiledWith Spec.grader
  cases s.graders <;> cases s.lang.compiler <;> simp

theorem runtimeGrader_eq (s : Src) : runtimeGrader s = runWith s := by
  unfold runtimeGrader runWith Spec.grader
  cases s.graders <;> cases s.lang.compiler <;> simp

theorem graderPaths_eq (s : Src) : graderPaths s = (runWith s).toList.map (·.sandboxPath) := by
  unfold graderPaths; rw [runtimeGrader_eq]

theorem compilation_of {c : Ctx} {ev : Eval} (h : Done c ev) {s : Src} (hs : c.Knows s)
    {k : Compiler} (hk : s.lang.compiler = some k) {f : FileUuid} (hf : ev.exes.get? s.id = some f) :
    ∃ comp, Compilation c.fs ev s k comp f := by
  have h0 := h.side.exes _ _ hf
  rw [hs.src] at h0
  unfold ExeOk at h0
  simp only [hk] at h0
  obtain ⟨comp, h1, h2, h3, ⟨c1, c2, c3, c4, c5⟩, h5, h6, h9, h7⟩ := h0
  simp only [compilationGrader_eq] at c3 c4 c5
  rcases h7 with h7 | ⟨h7, h8⟩
  · cases h7
  refine ⟨comp, h1, h2, c1, ?_, h3, ?_, ?_, ?_, h5, h6, h9, h7, h8⟩
  · rw [c2]
    unfold compilerArgs
    rw [compilationGrader_eq]
    cases compiledWith s <;> simp
  · intro hg
    obtain ⟨x, hx, hp⟩ := c4 hg
    exact ⟨x, hx, hp.copy⟩
  · intro g hg
    refine ⟨c3 g hg, h.grader (i := ⟨g.file, g.executable⟩) h1 (c3 g hg) ?_⟩
    exact hs.compilation (by rw [compilationGrader_eq]; exact hg)
  · intro d hd hne hg
    obtain ⟨d', e1, e2, x, e3, e4⟩ := c5 d hd hne hg
    exact ⟨d', e1, e2, x, e3, e4.copy⟩

theorem executable_of {c : Ctx} {ev : Eval} (h : Done c ev) {s : Src} (hs : c.Knows s)
    {f : FileUuid} (hf : ev.exes.get? s.id = some f) : ExecutableOf c.fs ev s f := by
  unfold ExecutableOf
  cases hk : s.lang.compiler with
  | some k => exact compilation_of h hs hk hf
  | none =>
    have h0 := h.side.exes _ _ hf
    rw [hs.src] at h0
    unfold ExeOk at h0
    simp only [hk] at h0
    exact h0.copy

theorem RunOf.runs {c : Ctx} {ev : Eval} (h : Done c ev) {s : Src} (hs : c.Knows s)
    {args over over' : List String} {e : Execution} (he : e ∈ allExecs ev.dag)
    (hr : RunOf c ev s args over e) (ho : ∀ q, q ∈ over ↔ q ∈ over') :
    Runs c.fs ev s args over' e := by
  have hm : ∀ {q : String} {l : List String}, q ∉ over' ++ l → q ∉ over ++ l := by
    intro q l hq
    simp only [List.mem_append, not_or] at hq ⊢
    exact ⟨fun h => hq.1 ((ho q).1 h), hq.2⟩
  have hm1 : ∀ {q : String}, q ∉ over' → q ∉ over := fun hq h => hq ((ho _).1 h)
  refine ⟨he, hr.command, ?_, ?_, ?_, ?_, ?_, ?_⟩
  · rw [hr.line]; unfold commandLine; rw [runtimeGrader_eq]; cases runWith s <;> rfl
  · intro hq
    obtain ⟨f, h1, h2⟩ := hr.exe
    refine ⟨f, h2 ?_, h1, executable_of h hs h1⟩
    rw [graderPaths_eq, List.append_assoc]; rw [List.append_assoc] at hq; exact hm hq
  · intro d hd hq
    obtain ⟨d', h1, h2, f, h3, h4⟩ := hr.deps d hd (by rw [graderPaths_eq]; exact hm hq)
    exact ⟨d', h1, h2, f, h3, h4.copy⟩
  · intro g hg hq
    obtain ⟨h1, -⟩ := hr.grader g (by rw [runtimeGrader_eq]; exact hg) (hm1 hq)
    refine ⟨h1, h.grader (i := ⟨g.file, g.executable⟩) he h1 ?_⟩
    exact hs.runtime (by rw [runtimeGrader_eq]; exact hg)
  · intro a ha hp hq
    obtain ⟨f, h1, h2⟩ := hr.argFiles a ha hp (by
      rw [graderPaths_eq, List.append_assoc]; rw [List.append_assoc] at hq; exact hm hq)
    exact ⟨f, h1, h2.copy⟩
  · intro q hq
    refine hr.nothingElse q ?_
    simp only [graderPaths_eq, List.append_assoc] at hq ⊢
    exact hm hq

/-! ## The pieces -/

theorem ioPaths_eq (task : Task) (handle : Option FileUuid) (q : String) :
    q ∈ Build.ioPaths task handle ↔ q ∈ Spec.ioPaths task handle := by
  unfold Build.ioPaths Spec.ioPaths
  cases task.infile <;> cases handle <;> simp [or_comm]

theorem GenOk.spec {c : Ctx} {ev : Eval} (h : Done c ev) {g : InputGenerator} (hk : g.Known c)
    {st tc : Nat} {input : FileUuid} (hg : GenOk c ev g st tc input) :
    Generated c.fs ev g st tc input := by
  cases g with
  | staticFile path => exact ProvidedFrom.copy hg
  | custom src args =>
    obtain ⟨e, h1, h2, h3, h4, h5, h6, h7, h9, h8⟩ := hg
    exact ⟨e, h2.runs h hk h1 (fun _ => Iff.rfl), h4, h3, h5, h6, h7, h9, h8.1, h8.2⟩

theorem ValOk.spec {c : Ctx} {ev : Eval} (h : Done c ev) {v : InputValidator} (hk : v.Known c)
    {st tc : Nat} {name : Option String} {input : FileUuid} {handle : Option FileUuid}
    (hv : ValOk c ev v st name tc input handle) : Validated c.fs ev v st name tc input handle := by
  cases v with
  | assumeValid => exact hv
  | custom src args =>
    obtain ⟨f, h0, e, h1, h2, h3, h4, h5, h6, h7, h8, h9, h11, h10⟩ := hv
    exact ⟨f, e, h0, h2.runs h hk h1 (fun _ => Iff.rfl), h4, h3, h5, h6, h7, h8, h9, h11, h10.1, h10.2⟩

theorem OutOk.spec {c : Ctx} {ev : Eval} (h : Done c ev) {task : Task} {g : OutputGenerator}
    (hk : g.Known c) {st tc : Nat} {input f : FileUuid} {handle : Option FileUuid}
    (hg : OutOk c ev task g st tc input handle (some f)) :
    Solved c.fs ev task g st tc input handle f := by
  obtain ⟨_, ⟨⟩, hg⟩ := hg
  cases g with
  | notAvailable => exact hg.1
  | staticFile path => exact ProvidedFrom.copy hg
  | custom src args =>
    obtain ⟨e, h1, h2, h3, h4, h5, h6, h7, h9, h8⟩ := hg
    exact ⟨e, h2.runs h hk h1 (ioPaths_eq task handle), h3, h4, h5, h6, h7, h9, h8.1, h8.2⟩

theorem solutionLimits_eq (task : Task) (l : ExecutionLimits) :
    solutionLimits task l = limited task task.timeLimit l := by
  unfold solutionLimits limited Task.margin
  cases task.timeLimit <;> cases task.memoryLimit <;> rfl

theorem managerLimits_eq (task : Task) (n : Nat) (l : ExecutionLimits) :
    managerLimits task n l = limited task (task.timeLimit.map (fun t => (t + task.second) * n)) l := by
  unfold managerLimits limited Task.margin
  cases task.timeLimit <;> cases task.memoryLimit <;> rfl

theorem CheckOk.spec {c : Ctx} {ev : Eval} (h : Done c ev) {checker : Checker}
    (hk : checker.Known c) {st tc sol : Nat} {input correct test : FileUuid} {k : Execution}
    (hm : k ∈ allExecs ev.dag) (hc : CheckOk c ev checker st tc sol input correct test k) :
    Checks c.fs ev checker st tc sol input correct test k := by
  obtain ⟨h1, h2, h4, h3⟩ := hc
  refine ⟨hm, h1, h4, ?_⟩
  cases checker with
  | whiteDiff => exact ⟨h3.1, h3.2.1, h3.2.2.1, h3.2.2.2, h2⟩
  | custom src =>
    refine ⟨h3.1.runs h hk hm (fun q => ?_), h3.2.1, h3.2.2.1, h3.2.2.2.1,
      h3.2.2.2.2.1, h3.2.2.2.2.2, h2⟩
    simp only [List.mem_cons, List.not_mem_nil, or_false]
    grind

theorem EvalOk.spec {c : Ctx} {ev : Eval} (h : Done c ev) {task : Task} (hk : task.type.Known c)
    {st tc sol : Nat} {src : Src} (hs : c.Knows src) {input f : FileUuid}
    {handle : Option FileUuid} (he : EvalOk c ev task st tc sol src input handle (some f)) :
    Evaluated c.fs ev task st tc sol src input handle f := by
  unfold EvalOk at he
  unfold Evaluated
  cases ht : task.type with
  | none => simp only
  | batch checker =>
    simp only [ht] at he ⊢
    obtain ⟨_, ⟨⟩, e, h1, k, h2, out, h3, h4, h5, h6, h7, h8, h9, h10, h12, h11⟩ := he
    have hkc : checker.Known c := by rw [ht] at hk; exact hk
    exact ⟨e, k, out, h3.runs h hs h1 (ioPaths_eq task handle), h4, h5, h6, h10, h12,
      by rw [h7, solutionLimits_eq], h8, h9, h11.spec h hkc h2⟩
  | communication manager n io =>
    simp only [ht] at he ⊢
    obtain ⟨sender, hs1, p, hp, fifos, procs, man, h1, h2, h3, h4, h5, h6, h7, h8⟩ := he
    have hmem : ∀ e, e ∈ procs ∨ e = man → e ∈ allExecs ev.dag := by
      intro e he
      refine List.mem_flatMap.2 ⟨p, hp, ?_⟩
      rw [h1]; simpa using he
    have hkm : c.Knows manager := by rw [ht] at hk; exact hk
    refine ⟨sender, hs1, p, hp, fifos, procs, man, h1, h2, by rw [h2]; exact h3, h4, h5, ?_, ?_⟩
    · intro i q e hq he
      have hep := List.mem_of_getElem? he
      obtain ⟨a1, a2, a3, a4, a5, a6, a7, a8⟩ := h6 i q e hq he
      exact ⟨a1.runs h hs (hmem e (Or.inl hep)) (fun _ => Iff.rfl), a2, a3, a4,
        by rw [a5, solutionLimits_eq], h7 e hep input (by simp), h7 e hep f (by simp), a6, a7, a8⟩
    · obtain ⟨a1, a2, a3, a4, a5, a6, a7, a8, a9⟩ := h8
      exact ⟨a1.runs h hkm (hmem man (Or.inr rfl)) (ioPaths_eq task handle), a2, a3,
        by rw [a4, managerLimits_eq], a5, a6, a7, a8, a9⟩

theorem TcOk.spec {c : Ctx} {ev : Eval} (h : Done c ev) {root : String} {task : Task}
    {sols : List Src} (hk : task.Known c root sols) {st : Subtask}
    (hst : st ∈ task.subtasks.values) {k : Nat} {tc : Testcase}
    (htc : task.testcases.get? k = some tc) {input : FileUuid} {output : Option FileUuid}
    (ho : TcOk c ev root task sols st tc input output) :
    ∃ f handle, output = some f ∧ Prepared c.fs ev task sols st tc input handle f ∧
      Written ev input (inputDest root tc.id) ∧ Written ev f (outputDest task tc.id) := by
  obtain ⟨-, h1, h2, ⟨f, rfl, -, h3⟩, handle, h4, h5, h6⟩ := ho
  refine ⟨f, handle, rfl, ⟨h1.spec h (hk.input _ _ htc), h4.spec h (hk.validator _ hst),
    h5.spec h (hk.output _ _ htc), ?_⟩, h2, h3⟩
  intro j src hj
  exact (h6 j src hj).spec h hk.type (hk.sols src (List.mem_of_getElem? hj))

/-! ## The whole -/

theorem topics_eq (task : Task) (nsols : Nat) : task.topics nsols = messages task nsols := by
  have hi : ∀ (g : InputGenerator) st tc,
      g.topics st tc = (inputSources g).map (fun _ => .generation st tc) := by
    intro g st tc; cases g <;> rfl
  have hv : ∀ (g : InputValidator) st tc,
      g.topics st tc = (validatorSources g).map (fun _ => .validation st tc) := by
    intro g st tc; cases g <;> rfl
  have ho : ∀ (g : OutputGenerator) st tc,
      g.topics st tc = (outputSources g).map (fun _ => .officialOutput st tc) := by
    intro g st tc; cases g <;> rfl
  have he : ∀ (t : TaskType) st tc sol, t.topics st tc sol = evaluationMessages t st tc sol := by
    intro t st tc sol; cases t <;> rfl
  have ht : ∀ st (tc : Testcase), tc.topics task nsols st = testcaseMessages task nsols st tc := by
    intro st tc
    simp only [Testcase.topics, testcaseMessages, hi, hv, ho, he]
  unfold Task.topics messages Subtask.topics Subtask.inheritedTopics
  simp only [ht, hv]
  rfl

/-- Everything that is known about the DAG of a task. -/
theorem buildDag_done {n : Uuid} {cfg : DagConfig} {fs : FS} {root : String} {task : Task}
    {sols : List Src} {io : GeneratedIo} {ev : Eval} (h : Fits n task sols)
    (hr : buildDag fs root task sols (start n cfg) = .ok (io, ev)) :
    let c := ctxOf fs root task sols
    Done c ev ∧
    Prog c task.type (start n cfg) ev (messages task sols.length) (task.evaluations sols.length) ∧
    (∀ st ∈ task.subtasks.values, ∀ k ∈ st.owned, Built c ev root task sols io st k) ∧
    (∀ st ∈ task.subtasks.values, ∀ k ∈ st.testcases, k ∉ st.owned →
      Revalidated c ev io st k) := by
  have hr' : buildDag (ctxOf fs root task sols).fs root task sols (start n cfg) = .ok (io, ev) := hr
  obtain ⟨h1, h2, h3, h4⟩ := buildDag_spec (ctx_known h) h.testcaseIds h.owned (start_inv h cfg) hr'
  rw [topics_eq] at h2
  exact ⟨⟨h1, h2.step.side [] (start_side n cfg)⟩, h2, h3, h4⟩

end TM.Build
