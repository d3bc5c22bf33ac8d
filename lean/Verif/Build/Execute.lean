import Verif.Build.Prepare
/-!
# Executing a source file
-/
namespace TM.Build
open TM DagSpec

theorem Side.bind {c : Ctx} {U : List (ExecutionUuid × String)} {ev : Eval} {u : ExecutionUuid}
    {path : String} (h : Side c ((u, path) :: U) ev) :
    Side c U { ev with
      handlers := ev.handlers ++ [(u, .report (.compilation path))] ++
        [(u, .failureDiagnostic (.compilation path))]
      pending := ev.pending ++ [.compilation path] } := by
  have hx : Ext c.G ev { ev with
      handlers := ev.handlers ++ [(u, .report (.compilation path))] ++
        [(u, .failureDiagnostic (.compilation path))]
      pending := ev.pending ++ [.compilation path] } :=
    ⟨Nat.le_refl _, rfl, ⟨[], rfl⟩, fun _ p h => ⟨p, h, Or.inl rfl⟩, ⟨_, List.append_assoc ..⟩,
     ⟨_, rfl⟩, fun _ _ h => h, fun _ _ h => h, ⟨[], by simp⟩, fun _ h => Or.inl h⟩
  refine ⟨?_, h.keys, h.values, h.used, h.comps, ?_, ?_, h.graders, h.writes, h.bins⟩
  · intro k f hk
    refine ((h.exes k f hk).mono hx).more ?_
    intro p hp
    rcases List.mem_cons.1 hp with rfl | hp
    · right; simp
    · exact Or.inl hp
  · have := h.reports
    simp [List.filterMap_append, this, reportOf]
  · have := h.compTopics
    have e : ([Topic.compilation path].filter (fun t => !mainTopic t)).length = 1 := rfl
    simp only [List.length_cons] at this
    simp only [List.filter_append, List.length_append, e]
    omega

theorem bindCompilation_spec {c : Ctx} {s : Src} {ev ev' : Eval} {P : List Execution}
    {r : Option ExecutionUuid} {a : Unit} (h : Inv c.G ev P)
    (hu : ∀ u, r = some u → u ∈ execUuids ev.dag P) (hr : bindCompilation s r ev = .ok (a, ev')) :
    Inv c.G ev' P ∧ Ext c.G ev ev' ∧
    (∀ U, Side c (r.toList.map (·, s.path) ++ U) ev → Side c U ev') ∧
    ev'.pending.filter mainTopic = ev.pending.filter mainTopic ∧
    ev'.handlers.filterMap scoringOf = ev.handlers.filterMap scoringOf ∧
    ev'.exes = ev.exes ∧ ev'.dag = ev.dag ∧ ev'.senders = ev.senders ∧ ev'.writes = ev.writes ∧
    ev'.next = ev.next := by
  cases r with
  | none =>
    simp only [bindCompilation, pure_ok] at hr
    obtain ⟨_, rfl⟩ := hr
    exact ⟨h, .refl _ _, fun U hU => hU, rfl, rfl, rfl, rfl, rfl, rfl, rfl⟩
  | some u =>
    simp only [bindCompilation, bind_ok, bindCallbacks_ok, onExec_ok] at hr
    obtain ⟨_, _, rfl, rfl⟩ := hr
    have i1 := h.onExec (hu u rfl) (.report (.compilation s.path))
      (ev.pending ++ [.compilation s.path])
    have i2 := i1.onExec (hu u rfl) (.failureDiagnostic (.compilation s.path))
      (ev.pending ++ [.compilation s.path])
    have x1 := Ext.onExec c.G ev u (.report (.compilation s.path)) [.compilation s.path]
    have x2 := Ext.onExec c.G _ u (.failureDiagnostic (.compilation s.path)) [] |> x1.trans
    refine ⟨i2, by simpa using x2, ?_, by simp [mainTopic], by simp [scoringOf], rfl, rfl, rfl, rfl,
      rfl⟩
    intro U hU
    exact Side.bind (by simpa using hU)

theorem prepareBound_spec {c : Ctx} {s : Src} {ev ev' : Eval} {P : List Execution} {a : Unit}
    (h : Inv c.G ev P) (hs : c.Knows s) (hr : prepareBound c.fs s ev = .ok (a, ev')) :
    Inv c.G ev' P ∧ Step c ev ev' [] [] ∧ ev'.senders = ev.senders ∧
    ∃ f, ev'.exes.get? s.id = some f := by
  simp only [prepareBound, bind_ok] at hr
  obtain ⟨r, ev1, h1, h2⟩ := hr
  obtain ⟨i1, x1, s1, hh1, hp1, hs1, hf, hu, hnew⟩ := prepare_spec h hs h1
  obtain ⟨i2, x2, s2, hp2, hh2, he2, hd2, hs2, -, -⟩ := bindCompilation_spec i1 hu h2
  refine ⟨i2, ⟨x1.trans x2, fun U hU => s2 U (s1 U hU), ?_, ?_, fun k f hk => hnew k f (he2 ▸ hk)⟩,
    hs2.trans hs1, ?_⟩
  · rw [hp2, hp1]; simp
  · rw [hh2, hh1]; simp
  · rw [he2]; exact hf

/-- Steps that only provide files. -/
theorem Step.ofProvides {c : Ctx} {s : Src} (hs : c.Knows s) {ev ev' : Eval}
    (hx : Ext c.G ev ev') (ho : OnlyProvides ev ev') (hg : GradersFrom c.G c.fs s ev ev') :
    Step c ev ev' [] [] := by
  have e1 : ev'.exes = ev.exes := by rw [ho]
  have e2 : ev'.handlers = ev.handlers := by rw [ho]
  have e3 : ev'.pending = ev.pending := by rw [ho]
  have e4 : ev'.dag.executionGroups = ev.dag.executionGroups := by rw [ho]
  have e5 : ev'.writes = ev.writes := by rw [ho]
  refine Step.of (hs := []) hx e1 (by simp [e2]) (by simp [e3]) (by simp)
    (by simp [allExecs, e4]) (fun f path p h1 h2 => hg.side hs h1 h2) (fun f w hw => Or.inl (by rw [← e5]; exact hw))

theorem GSame.from {G : FileUuid → Prop} {fs : FS} {s : Src} {ev ev' : Eval} (h : GSame G ev ev') :
    GradersFrom G fs s ev ev' := fun f hf => Or.inl (h f hf)

theorem addArgs_spec {G : FileUuid → Prop} {fs : FS} {s : Src} {args : List String} :
    ∀ {ev ev' : Eval} {P : List Execution} {e e' : Execution}, Inv G ev (e :: P) →
    eachWith (addArg fs s) args e ev = .ok (e', ev') →
    Inv G ev' (e' :: P) ∧ Ext G ev ev' ∧ OnlyProvides ev ev' ∧ OnlyInputs e e' ∧
    (∀ a ∈ args, fs.present (joinPath s.basePath a) = true →
      ∃ f, e'.inputs.get? a = some ⟨f, false⟩ ∧ ProvidedFrom G fs ev' f (joinPath s.basePath a)) ∧
    (∀ q, q ∉ args → e'.inputs.get? q = e.inputs.get? q) ∧ GSame G ev ev' := by
  induction args with
  | nil =>
    intro ev ev' P e e' h hr
    simp only [eachWith, pure_ok] at hr
    obtain ⟨rfl, rfl⟩ := hr
    exact ⟨h, .refl _ _, rfl, rfl, by simp, fun _ _ => rfl, fun _ _ => rfl⟩
  | cons a args ih =>
    intro ev ev' P e e' h hr
    simp only [eachWith, bind_ok] at hr
    obtain ⟨e1, ev1, h1, h2⟩ := hr
    have step : Inv G ev1 (e1 :: P) ∧ Ext G ev ev1 ∧ OnlyProvides ev ev1 ∧ OnlyInputs e e1 ∧
        (fs.present (joinPath s.basePath a) = true →
          ∃ f, e1.inputs.get? a = some ⟨f, false⟩ ∧
            ProvidedFrom G fs ev1 f (joinPath s.basePath a)) ∧
        (∀ q, q ≠ a → e1.inputs.get? q = e.inputs.get? q) ∧ GSame G ev ev1 := by
      by_cases hp : fs.present (joinPath s.basePath a) = true
      · simp only [addArg, hp, if_true] at h1
        obtain ⟨a1, a2, a3, a4, a5, a6⟩ := addDep_spec h h1
        refine ⟨a1, a2, a3, by rw [a4]; rfl, fun _ => ⟨ev.next, ?_, a5⟩, ?_, a6⟩
        · rw [a4, get?_addInput, if_pos rfl]
        · intro q hq; rw [a4, get?_addInput, if_neg hq]
      · simp only [addArg, if_neg hp, pure_ok] at h1
        obtain ⟨rfl, rfl⟩ := h1
        exact ⟨h, .refl _ _, rfl, rfl, fun h' => absurd h' hp, fun _ _ => rfl, fun _ _ => rfl⟩
    obtain ⟨a1, a2, a3, a4, a5, a6, a7⟩ := step
    obtain ⟨b1, b2, b3, b4, b5, b6, b7⟩ := ih a1 h2
    refine ⟨b1, a2.trans b2, a3.trans b3, a4.trans b4, ?_, ?_, a7.trans b7⟩
    · intro x hx hp
      by_cases hm : x ∈ args
      · exact b5 x hm hp
      · rcases List.mem_cons.1 hx with rfl | hx
        · obtain ⟨f, h3, h4⟩ := a5 hp
          exact ⟨f, by rw [b6 _ hm]; exact h3, h4.mono b2⟩
        · exact absurd hx hm
    · intro q hq
      simp only [List.mem_cons, not_or] at hq
      rw [b6 q hq.2, a6 q hq.1]

/-- The sandbox path of the grader used at run time. -/
def graderPaths (s : Src) : List String := (runtimeGrader s).toList.map (·.sandboxPath)

/-- The command line, source_file.rs:161 and 180. -/
def commandLine (s : Src) (args : List String) : List String :=
  match runtimeGrader s with
  | some g => s.lang.addFile (s.lang.runArgs args) g.sandboxPath
  | none => s.lang.runArgs args

/-- `e` runs `s` with the arguments `args`: its command line and the content of its sandbox, except at
the paths `over` that have been used for something else. -/
structure RunOf (c : Ctx) (ev : Eval) (s : Src) (args over : List String) (e : Execution) :
    Prop where
  command : e.command = s.lang.command
  line : e.args = commandLine s args
  exe : ∃ f, ev.exes.get? s.id = some f ∧
    (s.lang.exeName ∉ over ++ s.lang.deps.map (·.sandboxPath) ++ graderPaths s →
      e.inputs.get? s.lang.exeName = some ⟨f, true⟩)
  deps : ∀ d ∈ s.lang.deps, d.sandboxPath ∉ over ++ graderPaths s →
    ∃ d' ∈ s.lang.deps, d'.sandboxPath = d.sandboxPath ∧
      ∃ f, e.inputs.get? d.sandboxPath = some ⟨f, d'.executable⟩ ∧
        ProvidedFrom c.G c.fs ev f d'.localPath
  grader : ∀ g, runtimeGrader s = some g → g.sandboxPath ∉ over →
    e.inputs.get? g.sandboxPath = some ⟨g.file, g.executable⟩ ∧
      ∃ p, ev.dag.providedFiles.get? g.file = some p
  argFiles : ∀ a ∈ args, c.fs.present (joinPath s.basePath a) = true →
    a ∉ over ++ s.lang.exeName :: s.lang.deps.map (·.sandboxPath) ++ graderPaths s →
    ∃ f, e.inputs.get? a = some ⟨f, false⟩ ∧ ProvidedFrom c.G c.fs ev f (joinPath s.basePath a)
  nothingElse : ∀ q, q ∉ over ++ args ++ s.lang.exeName :: s.lang.deps.map (·.sandboxPath) ++
    graderPaths s → e.inputs.get? q = none

theorem RunOf.mono {c : Ctx} {a b : Eval} {s : Src} {args over : List String} {e : Execution}
    (h : RunOf c a s args over e) (k : Ext c.G a b) : RunOf c b s args over e := by
  refine ⟨h.command, h.line, ?_, ?_, ?_, ?_, h.nothingElse⟩
  · obtain ⟨f, h1, h2⟩ := h.exe
    exact ⟨f, k.exes _ _ h1, h2⟩
  · intro d hd hq
    obtain ⟨d', h1, h2, f, h3, h4⟩ := h.deps d hd hq
    exact ⟨d', h1, h2, f, h3, h4.mono k⟩
  · intro g hg hq
    obtain ⟨h1, p, h2⟩ := h.grader g hg hq
    obtain ⟨p', h3, _⟩ := k.provided _ _ h2
    exact ⟨h1, p', h3⟩
  · intro x hx h1 h2
    obtain ⟨f, h3, h4⟩ := h.argFiles x hx h1 h2
    exact ⟨f, h3, h4.mono k⟩

/-- Changes of the other fields. -/
theorem RunOf.other {c : Ctx} {ev : Eval} {s : Src} {args over : List String} {e e' : Execution}
    (h : RunOf c ev s args over e) (h1 : e'.command = e.command) (h2 : e'.args = e.args)
    (h3 : e'.inputs = e.inputs) : RunOf c ev s args over e' :=
  ⟨h1.trans h.command, h2.trans h.line, h3 ▸ h.exe, h3 ▸ h.deps, h3 ▸ h.grader, h3 ▸ h.argFiles,
   h3 ▸ h.nothingElse⟩

theorem RunOf.input {c : Ctx} {ev : Eval} {s : Src} {args over : List String} {e : Execution}
    (h : RunOf c ev s args over e) (f : FileUuid) (path : String) (x : Bool) :
    RunOf c ev s args (path :: over) (addInput e f path x) := by
  have key : ∀ q, q ≠ path → (addInput e f path x).inputs.get? q = e.inputs.get? q := by
    intro q hq; rw [get?_addInput, if_neg hq]
  refine ⟨h.command, h.line, ?_, ?_, ?_, ?_, ?_⟩
  · obtain ⟨g, h1, h2⟩ := h.exe
    refine ⟨g, h1, fun hn => ?_⟩
    simp only [List.cons_append, List.mem_cons, not_or] at hn
    rw [key _ hn.1]; exact h2 hn.2
  · intro d hd hn
    simp only [List.cons_append, List.mem_cons, not_or] at hn
    rw [key _ hn.1]; exact h.deps d hd hn.2
  · intro g hg hn
    simp only [List.mem_cons, not_or] at hn
    rw [key _ hn.1]; exact h.grader g hg hn.2
  · intro a ha hp hn
    simp only [List.cons_append, List.mem_cons, not_or] at hn
    rw [key _ hn.1]; exact h.argFiles a ha hp hn.2
  · intro q hn
    simp only [List.cons_append, List.mem_cons, not_or] at hn
    rw [key _ hn.1]; exact h.nothingElse q hn.2

/-- The fields `execute` leaves to its caller. -/
structure Blank (e : Execution) : Prop where
  stdin : e.stdin = none
  stdout : e.stdout = none
  stderr : e.stderr = none
  captureStdout : e.captureStdout = none
  captureStderr : e.captureStderr = none
  outputs : e.outputs = []
  stdinPath : e.stdinRedirectPath = none
  stdoutPath : e.stdoutRedirectPath = none
  env : e.env = []
  tag : e.tag = none

theorem execute_spec {c : Ctx} {s : Src} {args : List String} {ev ev' : Eval}
    {P : List Execution} {e : Execution} (h : Inv c.G ev P) (hs : c.Knows s)
    (hr : execute c.fs s args ev = .ok (e, ev')) :
    Inv c.G ev' (e :: P) ∧ Step c ev ev' [] [] ∧ ev'.senders = ev.senders ∧
    RunOf c ev' s args [] e ∧ Blank e ∧ e.limits = s.lang.limits defaultLimits ∧
    e.copyEnv = ["LANG", "LC_ALL"] := by
  simp only [execute, bind_ok, look_ok, pure_ok] at hr
  obtain ⟨r, ev1, h1, hr⟩ := hr
  obtain ⟨i1, x1, sd1, hh1, hp1, hsn1, ⟨exe, hexe⟩, hu, hnew⟩ := prepare_spec h hs h1
  obtain ⟨e0, ev2, h2, hr⟩ := hr
  obtain ⟨rfl, rfl, i2⟩ := newExecution_spec i1 h2
  obtain ⟨e3, ev3, h3, hr⟩ := hr
  obtain ⟨i3, x3, o3, s3, ar3, in3, gs3⟩ := addArgs_spec i2 h3
  obtain ⟨exe', ev4, ⟨rfl, rfl⟩, hr⟩ := hr
  have e3x : ev3.exes = ev1.exes := by rw [o3]
  have hexe3 : ev3.exes.get? s.id = some exe := by rw [e3x]; exact hexe
  simp only [hexe3, Option.getD_some] at hr
  obtain ⟨e5, ev5, h5, hr⟩ := hr
  have i4 : Inv c.G ev3 (addInput { e3 with args := s.lang.runArgs args } exe s.lang.exeName true
      :: P) := by
    have := i3.other (e' := { e3 with args := s.lang.runArgs args }) rfl rfl rfl rfl rfl rfl rfl rfl
    exact this.input (i3.exes _ (AMap.mem_of_get? hexe3)) _ _
  obtain ⟨i5, x5, o5, s5, dp5, in5, gs5⟩ := addDeps_spec i4 h5
  obtain ⟨e6, ev6, h6, hr⟩ := hr
  obtain ⟨_, ev7, h7, rfl, rfl⟩ := hr
  -- the fields that never change
  have f5 : e5.command = s.lang.command ∧ e5.args = s.lang.runArgs args ∧ Blank e5 ∧
      e5.limits = defaultLimits ∧ e5.copyEnv = [] := by
    rw [s5]
    have : OnlyInputs _ e3 := s3
    rw [this]
    exact ⟨rfl, rfl, ⟨rfl, rfl, rfl, rfl, rfl, rfl, rfl, rfl, rfl, rfl⟩, rfl, rfl⟩
  have exe5 : s.lang.exeName ∉ s.lang.deps.map (·.sandboxPath) →
      e5.inputs.get? s.lang.exeName = some ⟨exe, true⟩ := by
    intro hn
    rw [in5 _ hn, get?_addInput, if_pos rfl]
  have arg5 : ∀ a ∈ args, c.fs.present (joinPath s.basePath a) = true →
      a ∉ s.lang.exeName :: s.lang.deps.map (·.sandboxPath) →
      ∃ f, e5.inputs.get? a = some ⟨f, false⟩ ∧
        ProvidedFrom c.G c.fs ev5 f (joinPath s.basePath a) := by
    intro a ha hp hn
    simp only [List.mem_cons, not_or] at hn
    obtain ⟨f, h8, h9⟩ := ar3 a ha hp
    refine ⟨f, ?_, h9.mono x5⟩
    rw [in5 _ hn.2, get?_addInput, if_neg hn.1]; exact h8
  have no5 : ∀ q, q ∉ args ++ s.lang.exeName :: s.lang.deps.map (·.sandboxPath) →
      e5.inputs.get? q = none := by
    intro q hq
    simp only [List.mem_append, List.mem_cons, not_or] at hq
    rw [in5 _ hq.2.2, get?_addInput, if_neg hq.2.1]
    show e3.inputs.get? q = none
    rw [in3 _ hq.1]; rfl
  have x15 : Ext c.G ev1 ev5 :=
    ((Ext.ofNext c.G ev1 (ev1.next + 1) (Nat.le_succ _)).trans x3).trans x5
  have o15 : OnlyProvides ev1 ev5 := by
    have : OnlyProvides ev1 { ev1 with next := ev1.next + 1 } := rfl
    exact (this.trans o3).trans o5
  have gs15 : GSame c.G ev1 ev5 := by
    have : GSame c.G ev1 { ev1 with next := ev1.next + 1 } := fun _ _ => rfl
    exact (this.trans gs3).trans gs5
  obtain ⟨fc, fa, fb, fl, fe⟩ := f5
  -- the grader
  have mid : Inv c.G ev6 (e6 :: P) ∧ Ext c.G ev1 ev6 ∧ OnlyProvides ev1 ev6 ∧
      GradersFrom c.G c.fs s ev1 ev6 ∧ RunOf c ev6 s args [] e6 ∧ Blank e6 ∧
      e6.limits = defaultLimits ∧ e6.copyEnv = [] := by
    cases hgr : runtimeGrader s with
    | none =>
      simp only [hgr, pure_ok] at h6
      obtain ⟨rfl, rfl⟩ := h6
      refine ⟨i5, x15, o15, gs15.from, ?_, fb, fl, fe⟩
      refine ⟨fc, by simp [commandLine, hgr, fa], ⟨exe, by rw [o5]; exact hexe3, ?_⟩, ?_,
        by simp [hgr], ?_, ?_⟩
      · intro hn
        exact exe5 (by simpa [graderPaths, hgr] using hn)
      · intro d hd _; exact dp5 d hd
      · intro a ha hp hn
        exact arg5 a ha hp (by simpa [graderPaths, hgr] using hn)
      · intro q hq
        exact no5 q (by simpa [graderPaths, hgr] using hq)
    | some g =>
      have gg : c.G g.file := runtimeGrader_ok hs.ok hgr
      simp only [hgr, bind_ok, provideFile_ok, pure_ok] at h6
      obtain ⟨_, _, ⟨kg, hkg, rfl⟩, rfl, rfl⟩ := h6
      obtain ⟨i6, x6, m6⟩ := i5.provideGrader gg ⟨kg, none, some g.localPath⟩
      have key : ∀ q, q ≠ g.sandboxPath →
          (addInput e5 g.file g.sandboxPath g.executable).inputs.get? q = e5.inputs.get? q := by
        intro q hq; rw [get?_addInput, if_neg hq]
      have gp : graderPaths s = [g.sandboxPath] := by simp [graderPaths, hgr]
      refine ⟨(i6.input m6 g.sandboxPath g.executable).other rfl rfl rfl rfl rfl rfl rfl rfl,
        x15.trans x6, ?_, ?_, ?_, ?_, fl, fe⟩
      · have : OnlyProvides ev5 { ev5 with
          dag := ev5.dag.provide g.file ⟨kg, none, some g.localPath⟩ } := rfl
        exact o15.trans this
      · intro f hf
        by_cases he : f = g.file
        · right
          refine ⟨g, kg, Or.inr hgr, he.symm, hkg, ?_⟩
          subst he
          simp [DagData.provide]
        · left
          rw [← gs15 f hf]
          show (AMap.insert _ _ _).get? f = _
          rw [AMap.get?_insert, if_neg he]
      · refine ⟨fc, ?_, ⟨exe, ?_, ?_⟩, ?_, ?_, ?_, ?_⟩
        · simp [commandLine, hgr, addInput, fa]
        · show ev5.exes.get? s.id = _
          rw [o5]; exact hexe3
        · intro hn
          rw [gp] at hn
          simp only [List.nil_append, List.mem_append, List.mem_singleton, not_or] at hn
          exact (key _ hn.2).trans (exe5 hn.1)
        · intro d hd hn
          rw [gp] at hn
          simp only [List.nil_append, List.mem_singleton] at hn
          obtain ⟨d', h8, h9, f, h10, h11⟩ := dp5 d hd
          exact ⟨d', h8, h9, f, (key _ hn).trans h10, h11.mono x6⟩
        · intro g' hg' _
          cases hg'.symm.trans hgr
          refine ⟨?_, _, by simp [DagData.provide]; rfl⟩
          show (addInput e5 g.file g.sandboxPath g.executable).inputs.get? g.sandboxPath = _
          rw [get?_addInput, if_pos rfl]
        · intro a ha hp hn
          rw [gp] at hn
          simp only [List.nil_append, List.mem_append, List.mem_singleton, not_or] at hn
          obtain ⟨f, h8, h9⟩ := arg5 a ha hp hn.1
          exact ⟨f, (key _ hn.2).trans h8, h9.mono x6⟩
        · intro q hn
          rw [gp] at hn
          simp only [List.nil_append, List.mem_append, List.mem_singleton, not_or] at hn
          refine (key _ hn.2).trans (no5 q ?_)
          simp only [List.mem_append, not_or]; exact hn.1
      · exact ⟨fb.stdin, fb.stdout, fb.stderr, fb.captureStdout, fb.captureStderr, fb.outputs,
          fb.stdinPath, fb.stdoutPath, fb.env, fb.tag⟩
  obtain ⟨i6, x6, o6, g6, r6, b6, l6, ce6⟩ := mid
  have hu6 : ∀ u, r = some u → u ∈ execUuids ev6.dag (e6 :: P) := by
    intro u hr
    have h8 := hu u hr
    have hd6 : ev6.dag.executionGroups = ev1.dag.executionGroups := by rw [o6]
    simp only [execUuids, allExecs, hd6, List.mem_append, List.map_cons, List.mem_cons] at h8 ⊢
    rcases h8 with h8 | h8
    · exact Or.inl h8
    · exact Or.inr (Or.inr h8)
  obtain ⟨i7, x7, s7, hp7, hh7, he7, hd7, hs7, hw7, hn7⟩ := bindCompilation_spec i6 hu6 h7
  have st6 := Step.ofProvides hs x6 o6 g6
  refine ⟨i7.other rfl rfl rfl rfl rfl rfl rfl rfl, ⟨(x1.trans x6).trans x7, ?_, ?_, ?_, ?_⟩, ?_,
    (r6.mono x7).other rfl rfl rfl, ?_, ?_, ?_⟩
  · intro U hU
    exact s7 U (st6.side _ (sd1 U hU))
  · rw [hp7, st6.topics, hp1]
  · rw [hh7, st6.scoring, hh1]
  · intro k f hk
    have : ev7.exes = ev1.exes := by rw [he7, o6]
    exact hnew k f (this ▸ hk)
  · rw [hs7, show ev6.senders = ev1.senders by rw [o6], hsn1]
  · exact ⟨b6.stdin, b6.stdout, b6.stderr, b6.captureStdout, b6.captureStderr, b6.outputs,
      b6.stdinPath, b6.stdoutPath, b6.env, b6.tag⟩
  · exact congrArg s.lang.limits l6
  · simp [ce6]

/-! ## Files that are not in the sandbox -/

/-- A file that existed and that is neither a grader nor an executable. -/
def Hidden (c : Ctx) (ev : Eval) (x : FileUuid) : Prop :=
  x < ev.next ∧ ¬ c.G x ∧ ∀ k, ev.exes.get? k ≠ some x

theorem Hidden.mono {c : Ctx} {a b : Eval} {ts : List Topic} {ss : List Handler} {x : FileUuid}
    (h : Hidden c a x) (k : Step c a b ts ss) : Hidden c b x := by
  refine ⟨Nat.lt_of_lt_of_le h.1 k.ext.next, h.2.1, fun q hq => ?_⟩
  rcases k.exes q x hq with h1 | h1
  · exact h.2.2 q h1
  · exact Nat.not_succ_le_self _ (Nat.le_trans h.1 h1)

/-- A file that has just been made. -/
theorem Inv.hiddenFresh {c : Ctx} {ev ev' : Eval} {P : List Execution} (h : Inv c.G ev P)
    (hn : ev.next < ev'.next) (he : ev'.exes = ev.exes) : Hidden c ev' ev.next := by
  refine ⟨hn, h.fresh_not_grader, fun k hk => ?_⟩
  rw [he] at hk
  have h1 := h.exes _ (AMap.mem_of_get? hk)
  rw [mem_allFiles] at h1
  refine Nat.lt_irrefl _ (h.boundF ev.next ?_)
  simp only [List.mem_append]
  exact h1.imp id Or.inr

theorem mem_deps_addInput {e : Execution} {f x : FileUuid} {path : String} {b : Bool}
    (h : x ∈ (addInput e f path b).dependencies) : x = f ∨ x ∈ e.dependencies := by
  simp only [addInput, Execution.dependencies, AMap.insert, List.mem_append, List.map_cons,
    List.mem_cons, AMap.erase, List.mem_map, List.mem_filter] at h ⊢
  grind

theorem addDep_files {fs : FS} {ev ev' : Eval} {e e' : Execution} {d : DepSpec}
    (hr : addDep fs e d ev = .ok (e', ev')) :
    ev.next ≤ ev'.next ∧ e'.stdin = e.stdin ∧
    ∀ x ∈ e'.dependencies, x ∈ e.dependencies ∨ ev.next ≤ x := by
  simp only [addDep, bind_ok, fresh_ok, provideFile_ok, pure_ok] at hr
  obtain ⟨f, ev1, ⟨rfl, rfl⟩, u, ev2, ⟨k, hk, rfl⟩, rfl, rfl⟩ := hr
  refine ⟨Nat.le_succ _, rfl, fun x hx => ?_⟩
  rcases mem_deps_addInput hx with rfl | hx
  · exact Or.inr (Nat.le_refl _)
  · exact Or.inl hx

theorem eachFiles {α : Type} {f : Execution → α → B Execution}
    (hf : ∀ {ev ev' : Eval} {e e' : Execution} {d : α}, f e d ev = .ok (e', ev') →
      ev.next ≤ ev'.next ∧ e'.stdin = e.stdin ∧
      ∀ x ∈ e'.dependencies, x ∈ e.dependencies ∨ ev.next ≤ x)
    {l : List α} : ∀ {ev ev' : Eval} {e e' : Execution}, eachWith f l e ev = .ok (e', ev') →
    ev.next ≤ ev'.next ∧ e'.stdin = e.stdin ∧
      ∀ x ∈ e'.dependencies, x ∈ e.dependencies ∨ ev.next ≤ x := by
  induction l with
  | nil =>
    intro ev ev' e e' hr
    simp only [eachWith, pure_ok] at hr
    obtain ⟨rfl, rfl⟩ := hr
    exact ⟨Nat.le_refl _, rfl, fun _ h => Or.inl h⟩
  | cons d l ih =>
    intro ev ev' e e' hr
    simp only [eachWith, bind_ok] at hr
    obtain ⟨e1, ev1, h1, h2⟩ := hr
    obtain ⟨a1, a2, a3⟩ := hf h1
    obtain ⟨b1, b2, b3⟩ := ih h2
    refine ⟨Nat.le_trans a1 b1, b2.trans a2, fun x hx => ?_⟩
    rcases b3 x hx with h3 | h3
    · exact a3 x h3
    · exact Or.inr (Nat.le_trans a1 h3)

theorem addArg_files {fs : FS} {s : Src} {ev ev' : Eval} {e e' : Execution} {a : String}
    (hr : addArg fs s e a ev = .ok (e', ev')) :
    ev.next ≤ ev'.next ∧ e'.stdin = e.stdin ∧
    ∀ x ∈ e'.dependencies, x ∈ e.dependencies ∨ ev.next ≤ x := by
  unfold addArg at hr
  by_cases hp : fs.present (joinPath s.basePath a) = true
  · simp only [hp, if_true] at hr
    exact addDep_files hr
  · simp only [hp, if_false, pure_ok, Bool.false_eq_true] at hr
    obtain ⟨rfl, rfl⟩ := hr
    exact ⟨Nat.le_refl _, rfl, fun _ h => Or.inl h⟩

/-- What `execute` puts in the sandbox is new, a grader or the executable. -/
theorem execute_hidden {c : Ctx} {s : Src} {args : List String} {ev ev' : Eval}
    {P : List Execution} {e : Execution} (h : Inv c.G ev P) (hs : c.Knows s)
    (hr : execute c.fs s args ev = .ok (e, ev')) {x : FileUuid} (hx : Hidden c ev x) :
    x ∉ e.dependencies := by
  simp only [execute, bind_ok, look_ok, pure_ok] at hr
  obtain ⟨r, ev1, h1, hr⟩ := hr
  obtain ⟨i1, x1, sd1, hh1, hp1, hsn1, ⟨exe, hexe⟩, hu, hnew⟩ := prepare_spec h hs h1
  obtain ⟨e0, ev2, h2, hr⟩ := hr
  obtain ⟨rfl, rfl, i2⟩ := newExecution_spec i1 h2
  obtain ⟨e3, ev3, h3, hr⟩ := hr
  obtain ⟨i3, x3, o3, s3, ar3, in3, gs3⟩ := addArgs_spec i2 h3
  obtain ⟨n3, -, f3⟩ := eachFiles addArg_files h3
  obtain ⟨exe', ev4, ⟨rfl, rfl⟩, hr⟩ := hr
  have hexe3 : ev3.exes.get? s.id = some exe := by rw [o3]; exact hexe
  simp only [hexe3, Option.getD_some] at hr
  obtain ⟨e5, ev5, h5, hr⟩ := hr
  obtain ⟨n5, -, f5⟩ := eachFiles addDep_files h5
  obtain ⟨e6, ev6, h6, hr⟩ := hr
  obtain ⟨_, ev7, h7, rfl, rfl⟩ := hr
  have hlt : ∀ y, ev.next ≤ y → x ≠ y := by
    rintro y hy rfl
    exact Nat.not_succ_le_self _ (Nat.le_trans hx.1 hy)
  have n1 : ev.next ≤ ev1.next := x1.next
  have n3' : ev.next ≤ ev3.next := Nat.le_trans n1 (Nat.le_trans (Nat.le_succ _) n3)
  have hne : x ≠ exe := by
    rintro rfl
    rcases hnew _ _ hexe with h8 | h8
    · exact hx.2.2 _ h8
    · exact hlt _ h8 rfl
  have k5 : x ∉ e5.dependencies := by
    intro hm
    rcases f5 x hm with h8 | h8
    · rcases mem_deps_addInput h8 with h8 | h8
      · exact hne h8
      · rcases f3 x h8 with h8 | h8
        · simp [Execution.dependencies] at h8
        · exact hlt _ (Nat.le_trans n1 (Nat.le_trans (Nat.le_succ _) h8)) rfl
    · exact hlt _ (Nat.le_trans n3' h8) rfl
  have k6 : x ∉ e6.dependencies := by
    cases hgr : runtimeGrader s with
    | none =>
      simp only [hgr, pure_ok] at h6
      obtain ⟨rfl, rfl⟩ := h6
      exact k5
    | some g =>
      simp only [hgr, bind_ok, provideFile_ok, pure_ok] at h6
      obtain ⟨_, _, ⟨kg, hkg, rfl⟩, rfl, rfl⟩ := h6
      intro hm
      have hm : x ∈ (addInput e5 g.file g.sandboxPath g.executable).dependencies := hm
      rcases mem_deps_addInput hm with h8 | h8
      · exact hx.2.1 (h8 ▸ runtimeGrader_ok hs.ok hgr)
      · exact k5 h8
  exact k6

end TM.Build
