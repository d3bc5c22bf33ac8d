import Verif.Build.Steps
/-!
# What preparing and executing a source file does
-/
namespace TM.Build
open TM DagSpec

theorem eachWith_inv {σ α : Type} {f : σ → α → B σ} (R : σ → Eval → Prop) {xs : List α}
    (hstep : ∀ x ∈ xs, ∀ acc ev acc' ev', R acc ev → f acc x ev = .ok (acc', ev') → R acc' ev')
    {acc acc' : σ} {ev ev' : Eval} (h : R acc ev) (hr : eachWith f xs acc ev = .ok (acc', ev')) :
    R acc' ev' := by
  induction xs generalizing acc ev with
  | nil => simp only [eachWith, pure_ok] at hr; obtain ⟨rfl, rfl⟩ := hr; exact h
  | cons x xs ih =>
    simp only [eachWith, bind_ok] at hr
    obtain ⟨a, ev1, h1, h2⟩ := hr
    exact ih (fun y hy => hstep y (List.mem_cons_of_mem _ hy))
      (hstep x List.mem_cons_self _ _ _ _ h h1) h2

theorem each_inv {α : Type} {f : α → B Unit} (R : Eval → Prop) {xs : List α}
    (hstep : ∀ x ∈ xs, ∀ ev u ev', R ev → f x ev = .ok (u, ev') → R ev')
    {u : Unit} {ev ev' : Eval} (h : R ev) (hr : each f xs ev = .ok (u, ev')) : R ev' := by
  induction xs generalizing ev with
  | nil => simp only [each, pure_ok] at hr; obtain ⟨_, rfl⟩ := hr; exact h
  | cons x xs ih =>
    simp only [each, bind_ok] at hr
    obtain ⟨a, ev1, h1, h2⟩ := hr
    exact ih (fun y hy => hstep y (List.mem_cons_of_mem _ hy))
      (hstep x List.mem_cons_self _ _ _ h h1) h2

/-- The only changes are new identifiers and provided files. -/
def OnlyProvides (ev ev' : Eval) : Prop :=
  ev' = { ev with next := ev'.next,
                  dag := { ev.dag with providedFiles := ev'.dag.providedFiles } }

theorem OnlyProvides.refl (ev : Eval) : OnlyProvides ev ev := rfl

theorem OnlyProvides.trans {a b c : Eval} (h : OnlyProvides a b) (k : OnlyProvides b c) :
    OnlyProvides a c := by
  unfold OnlyProvides at *
  rw [k, h]

/-- The graders are provided as before. -/
def GSame (G : FileUuid → Prop) (ev ev' : Eval) : Prop :=
  ∀ f, G f → ev'.dag.providedFiles.get? f = ev.dag.providedFiles.get? f

theorem GSame.trans {G : FileUuid → Prop} {a b c : Eval} (h : GSame G a b) (k : GSame G b c) :
    GSame G a c := fun f hf => (k f hf).trans (h f hf)

/-- `e'` is `e` with other inputs. -/
def OnlyInputs (e e' : Execution) : Prop := e' = { e with inputs := e'.inputs }

theorem OnlyInputs.refl (e : Execution) : OnlyInputs e e := rfl

theorem OnlyInputs.trans {a b c : Execution} (h : OnlyInputs a b) (k : OnlyInputs b c) :
    OnlyInputs a c := by
  unfold OnlyInputs at *
  rw [k, h]

theorem get?_addInput (e : Execution) (f : FileUuid) (path q : String) (x : Bool) :
    (addInput e f path x).inputs.get? q = if q = path then some ⟨f, x⟩ else e.inputs.get? q := by
  simp only [addInput, AMap.get?_insert]

/-- The file is provided from the path, and is not a grader. -/
def ProvidedFrom (G : FileUuid → Prop) (fs : FS) (ev : Eval) (f : FileUuid) (path : String) :
    Prop :=
  ¬ G f ∧ ∃ k, fs.key path = some k ∧
    ev.dag.providedFiles.get? f = some ⟨k, none, some path⟩

theorem ProvidedFrom.mono {G : FileUuid → Prop} {fs : FS} {a b : Eval} {f : FileUuid}
    {path : String} (h : ProvidedFrom G fs a f path) (k : Ext G a b) :
    ProvidedFrom G fs b f path := by
  obtain ⟨h1, key, h2, h3⟩ := h
  obtain ⟨p, h4, h5⟩ := k.provided _ _ h3
  rcases h5 with rfl | h5
  · exact ⟨h1, key, h2, h4⟩
  · exact absurd h5 h1

theorem Inv.fresh_not_grader {G : FileUuid → Prop} {ev : Eval} {P : List Execution}
    (h : Inv G ev P) : ¬ G ev.next := fun hg => Nat.lt_irrefl _ (h.graders _ hg).1

theorem Inv.gsame {G : FileUuid → Prop} {ev : Eval} {P : List Execution} (h : Inv G ev P)
    (p : ProvidedFile) :
    GSame G ev { ev with next := ev.next + 1, dag := ev.dag.provide ev.next p } := by
  intro f hf
  show (ev.dag.providedFiles.insert ev.next p).get? f = _
  rw [AMap.get?_insert, if_neg]
  rintro rfl
  exact h.fresh_not_grader hf

theorem addDep_spec {G : FileUuid → Prop} {fs : FS} {ev ev' : Eval} {P : List Execution}
    {e e' : Execution} {d : DepSpec} (h : Inv G ev (e :: P))
    (hr : addDep fs e d ev = .ok (e', ev')) :
    Inv G ev' (e' :: P) ∧ Ext G ev ev' ∧ OnlyProvides ev ev' ∧
    e' = addInput e ev.next d.sandboxPath d.executable ∧
    ProvidedFrom G fs ev' ev.next d.localPath ∧ GSame G ev ev' := by
  simp only [addDep, bind_ok, fresh_ok, provideFile_ok, pure_ok] at hr
  obtain ⟨f, ev1, ⟨rfl, rfl⟩, u, ev2, ⟨k, hk, rfl⟩, rfl, rfl⟩ := hr
  obtain ⟨h1, h2, h3⟩ := h.provideFresh ⟨k, none, some d.localPath⟩
  refine ⟨h1.input h3 _ _, h2, rfl, rfl, ⟨h.fresh_not_grader, k, hk, ?_⟩, h.gsame _⟩
  simp [DagData.provide]

/-- A dependency is in the sandbox: its path holds a file, the one of the last dependency with that
path. -/
def DepsIn (G : FileUuid → Prop) (fs : FS) (ev : Eval) (e : Execution) (ds : List DepSpec) : Prop :=
  ∀ d ∈ ds, ∃ d' ∈ ds, d'.sandboxPath = d.sandboxPath ∧
    ∃ f, e.inputs.get? d.sandboxPath = some ⟨f, d'.executable⟩ ∧
      ProvidedFrom G fs ev f d'.localPath

theorem addDeps_spec {G : FileUuid → Prop} {fs : FS} {ds : List DepSpec} :
    ∀ {ev ev' : Eval} {P : List Execution} {e e' : Execution}, Inv G ev (e :: P) →
    eachWith (addDep fs) ds e ev = .ok (e', ev') →
    Inv G ev' (e' :: P) ∧ Ext G ev ev' ∧ OnlyProvides ev ev' ∧ OnlyInputs e e' ∧
    DepsIn G fs ev' e' ds ∧
    (∀ q, q ∉ ds.map (·.sandboxPath) → e'.inputs.get? q = e.inputs.get? q) ∧ GSame G ev ev' := by
  induction ds with
  | nil =>
    intro ev ev' P e e' h hr
    simp only [eachWith, pure_ok] at hr
    obtain ⟨rfl, rfl⟩ := hr
    exact ⟨h, .refl _ _, rfl, rfl, by simp [DepsIn], fun _ _ => rfl, fun _ _ => rfl⟩
  | cons d ds ih =>
    intro ev ev' P e e' h hr
    simp only [eachWith, bind_ok] at hr
    obtain ⟨e1, ev1, h1, h2⟩ := hr
    obtain ⟨a1, a2, a3, a4, a5, a6⟩ := addDep_spec h h1
    obtain ⟨b1, b2, b3, b4, b5, b6, b7⟩ := ih a1 h2
    refine ⟨b1, a2.trans b2, a3.trans b3, ?_, ?_, ?_, a6.trans b7⟩
    · have : OnlyInputs e e1 := by rw [a4]; rfl
      exact this.trans b4
    · intro x hx
      by_cases hm : x.sandboxPath ∈ ds.map (·.sandboxPath)
      · obtain ⟨y, hy, hyx⟩ := List.mem_map.1 hm
        obtain ⟨d', hd', c1, f, c2, c3⟩ := b5 y hy
        refine ⟨d', List.mem_cons_of_mem _ hd', c1.trans hyx, f, ?_, c3⟩
        rw [← hyx]; exact c2
      · rcases List.mem_cons.1 hx with rfl | hx
        · refine ⟨x, List.mem_cons_self, rfl, ev.next, ?_, a5.mono b2⟩
          rw [b6 _ hm, a4, get?_addInput, if_pos rfl]
        · exact absurd (List.mem_map.2 ⟨x, hx, rfl⟩) hm
    · intro q hq
      simp only [List.map_cons, List.mem_cons, not_or] at hq
      rw [b6 q hq.2, a4, get?_addInput, if_neg hq.1]

/-- All the graders of a source file are known. -/
def GradersOk (G : FileUuid → Prop) (s : Src) : Prop :=
  ∀ m, s.graders = some m → ∀ p ∈ m, G p.2.file

theorem compilationGrader_ok {G : FileUuid → Prop} {s : Src} (h : GradersOk G s) {g : Grader}
    (hg : compilationGrader s = some g) : G g.file := by
  unfold compilationGrader at hg
  split at hg
  · cases hg
  · next m hm =>
    split at hg
    · cases hg
    · exact h m hm _ (AMap.mem_of_get? hg)

theorem runtimeGrader_ok {G : FileUuid → Prop} {s : Src} (h : GradersOk G s) {g : Grader}
    (hg : runtimeGrader s = some g) : G g.file := by
  unfold runtimeGrader at hg
  split at hg
  · cases hg
  · next m hm =>
    split at hg
    · cases hg
    · exact h m hm _ (AMap.mem_of_get? hg)

/-- The command line of the compiler, language.rs:228 and 244-257. -/
def compilerArgs (s : Src) (c : Compiler) : List String :=
  match compilationGrader s with
  | none => c.args ++ [c.sourceName]
  | some g => c.args ++ [g.sandboxPath] ++ (if c.graderOnly then [] else [c.sourceName])

/-- The files of the compilation: the source is there unless the grader takes its place. -/
def CompiledFrom (G : FileUuid → Prop) (fs : FS) (ev : Eval) (s : Src) (c : Compiler)
    (comp : Execution) : Prop :=
  comp.command = c.command ∧ comp.args = compilerArgs s c ∧
  (∀ g, compilationGrader s = some g → comp.inputs.get? g.sandboxPath = some ⟨g.file, g.executable⟩) ∧
  ((∀ g, compilationGrader s = some g → g.sandboxPath ≠ c.sourceName) →
    ∃ f, comp.inputs.get? c.sourceName = some ⟨f, false⟩ ∧ ProvidedFrom G fs ev f s.path) ∧
  (∀ d ∈ c.deps, d.sandboxPath ≠ c.sourceName →
    (∀ g, compilationGrader s = some g → g.sandboxPath ≠ d.sandboxPath) →
    ∃ d' ∈ c.deps, d'.sandboxPath = d.sandboxPath ∧
      ∃ f, comp.inputs.get? d.sandboxPath = some ⟨f, d'.executable⟩ ∧
        ProvidedFrom G fs ev f d'.localPath)

theorem CompiledFrom.mono {G : FileUuid → Prop} {fs : FS} {a b : Eval} {s : Src} {c : Compiler}
    {comp : Execution} (h : CompiledFrom G fs a s c comp) (k : Ext G a b) :
    CompiledFrom G fs b s c comp :=
  ⟨h.1, h.2.1, h.2.2.1, fun hg => by
    obtain ⟨f, h1, h2⟩ := h.2.2.2.1 hg; exact ⟨f, h1, h2.mono k⟩,
   fun d h1 h2 h3 => by
    obtain ⟨d', h4, h5, f, h6, h7⟩ := h.2.2.2.2 d h1 h2 h3
    exact ⟨d', h4, h5, f, h6, h7.mono k⟩⟩

/-- Where the binary is written: only with `copy_exe`. -/
def binWrite (ev : Eval) (s : Src) (copy : Bool) (exe : FileUuid) : AMap FileUuid WriteTo :=
  match copy, s.writeBinTo with
  | true, some dest => if ev.dag.config.dryRun then ev.writes else ev.writes.insert exe ⟨dest, true, false⟩
  | _, _ => ev.writes

theorem maybeWrite_ok {s : Src} {copy : Bool} {exe : FileUuid} {ev ev' : Eval} {a : Unit} :
    writeBin s copy exe ev = .ok (a, ev') ↔
    ev' = { ev with writes := binWrite ev s copy exe } := by
  unfold binWrite writeBin
  cases copy <;> cases s.writeBinTo <;> simp only [pure_ok, writeFileTo_ok]
  · exact ⟨fun h => h.2.symm, fun h => ⟨trivial, h.symm⟩⟩
  · exact ⟨fun h => h.2.symm, fun h => ⟨trivial, h.symm⟩⟩
  · exact ⟨fun h => h.2.symm, fun h => ⟨trivial, h.symm⟩⟩
  · split <;> exact Iff.rfl

theorem Inv.binWrite {G : FileUuid → Prop} {ev : Eval} {P : List Execution} (h : Inv G ev P)
    {f : FileUuid} (hf : f ∈ allFiles ev.dag ∨ f ∈ outsOf P) (s : Src) (copy : Bool) :
    Inv G { ev with writes := binWrite ev s copy f } P := by
  have key := maybeWrite_ok (s := s) (copy := copy) (exe := f) (ev := ev) (a := ())
    (ev' := { ev with writes := Build.binWrite ev s copy f })
  unfold Build.binWrite
  split
  · next dest _ =>
    have := h.write hf dest true
    split at this <;> simp_all
  · exact h

theorem Ext.binWrite {G : FileUuid → Prop} {ev : Eval} {f : FileUuid}
    (hf : ev.writes.get? f = none) (s : Src) (copy : Bool) :
    Ext G ev { ev with writes := Build.binWrite ev s copy f } := by
  unfold Build.binWrite
  split
  · next dest _ =>
    have := Ext.write (G := G) hf dest true
    split at this <;> simp_all
  · exact .refl _ _

/-- The graders are provided as before, or from their paths. -/
def GradersFrom (G : FileUuid → Prop) (fs : FS) (s : Src) (ev ev' : Eval) : Prop :=
  ∀ f, G f → ev'.dag.providedFiles.get? f = ev.dag.providedFiles.get? f ∨
    ∃ g k, (compilationGrader s = some g ∨ runtimeGrader s = some g) ∧ g.file = f ∧
      fs.key g.localPath = some k ∧
      ev'.dag.providedFiles.get? f = some ⟨k, none, some g.localPath⟩

theorem finalize_spec {G : FileUuid → Prop} {fs : FS} {s : Src} {c : Compiler} {copy : Bool}
    {ev ev' : Eval} {P : List Execution} {comp : Execution} {exe : FileUuid}
    (h : Inv G ev P) (hg : GradersOk G s)
    (hr : finalize fs s c copy ev = .ok ((comp, exe), ev')) :
    Inv G ev' (comp :: P) ∧ Ext G ev ev' ∧ CompiledFrom G fs ev' s c comp ∧
    comp.outputs = [(c.binaryName, exe)] ∧ comp.stdout = none ∧ comp.stderr = none ∧
    ev.next ≤ comp.uuid ∧ ev.next ≤ exe ∧
    ev'.dag.executionGroups = ev.dag.executionGroups ∧
    ev'.handlers = ev.handlers ∧ ev'.pending = ev.pending ∧ ev'.exes = ev.exes ∧
    ev'.senders = ev.senders ∧ ev'.writes = binWrite ev s copy exe ∧
    ev'.dag.config = ev.dag.config ∧
    comp.env = c.env [] ∧ comp.limits = c.limits defaultLimits ∧ GradersFrom G fs s ev ev' := by
  simp only [finalize, bind_ok, pure_ok] at hr
  obtain ⟨e0, ev0, h0, hr⟩ := hr
  obtain ⟨rfl, rfl, i0⟩ := newExecution_spec h h0
  obtain ⟨e1, ev1, h1, hr⟩ := hr
  have i0' : Inv G { ev with next := ev.next + 1 }
      ({ ({ uuid := ev.next, command := c.command, limits := defaultLimits } : Execution) with
        args := c.args } :: P) := i0.other rfl rfl rfl rfl rfl rfl rfl rfl
  obtain ⟨i1, x1, o1, s1, dp1, -, gs1⟩ := addDeps_spec i0' h1
  obtain ⟨src, ev2, h2, hr⟩ := hr
  rw [fresh_ok] at h2
  obtain ⟨rfl, rfl⟩ := h2
  obtain ⟨u, ev3, h3, hr⟩ := hr
  obtain ⟨k, hk, rfl⟩ := provideFile_ok.1 h3
  obtain ⟨i2, x2, m2⟩ := i1.provideFresh ⟨k, none, some s.path⟩
  have i3 := i2.input m2 c.sourceName false
  have hprov : ProvidedFrom G fs
      { ev1 with next := ev1.next + 1, dag := ev1.dag.provide ev1.next ⟨k, none, some s.path⟩ }
      ev1.next s.path := ⟨i1.fresh_not_grader, k, hk, by simp [DagData.provide]⟩
  obtain ⟨e2, ev4, h4, hr⟩ := hr
  obtain ⟨⟨exe', e3⟩, ev5, h5, hr⟩ := hr
  obtain ⟨u', ev6, h6, hr⟩ := hr
  simp only [Prod.mk.injEq] at hr
  obtain ⟨⟨rfl, rfl⟩, rfl⟩ := hr
  have s1a : e1.args = c.args := by rw [s1]
  have s1c : e1.command = c.command := by rw [s1]
  have s1o : e1.outputs = [] := by rw [s1]
  have s1so : e1.stdout = none := by rw [s1]
  have s1se : e1.stderr = none := by rw [s1]
  have s1u : e1.uuid = ev.next := by rw [s1]
  have s1en : e1.env = [] := by rw [s1]
  have s1l : e1.limits = defaultLimits := by rw [s1]
  have base : Ext G ev ev1 := (Ext.ofNext G ev (ev.next + 1) (Nat.le_succ _)).trans x1
  have base2 := base.trans x2
  have gs0 : GSame G ev { ev with next := ev.next + 1 } := fun _ _ => rfl
  have gs2 := (gs0.trans gs1).trans (i1.gsame ⟨k, none, some s.path⟩)
  -- the grader
  have mid : Inv G ev4 (e2 :: P) ∧ Ext G ev ev4 ∧ CompiledFrom G fs ev4 s c e2 ∧
      e2.outputs = [] ∧ e2.stdout = none ∧ e2.stderr = none ∧ e2.uuid = ev.next ∧
      e2.env = [] ∧ e2.limits = defaultLimits ∧ GradersFrom G fs s ev ev4 ∧
      ev4 = { ev with next := ev4.next,
                      dag := { ev.dag with providedFiles := ev4.dag.providedFiles } } := by
    have oo : OnlyProvides ev { ev1 with
        next := ev1.next + 1, dag := ev1.dag.provide ev1.next ⟨k, none, some s.path⟩ } := by
      unfold OnlyProvides at o1 ⊢
      rw [o1]; rfl
    cases hgr : compilationGrader s with
    | none =>
      simp only [hgr, pure_ok] at h4
      obtain ⟨rfl, rfl⟩ := h4
      refine ⟨i3.other rfl rfl rfl rfl rfl rfl rfl rfl, base2, ?_, s1o, s1so, s1se, s1u, s1en, s1l,
        fun f hf => Or.inl (gs2 f hf), oo⟩
      refine ⟨s1c, by simp [compilerArgs, hgr, addInput, s1a], by simp [hgr], fun _ => ?_, ?_⟩
      · exact ⟨_, by rw [get?_addInput, if_pos rfl], hprov⟩
      · intro d hd hds _
        obtain ⟨d', b1, b2, f, b3, b4⟩ := dp1 d hd
        refine ⟨d', b1, b2, f, ?_, b4.mono x2⟩
        rw [get?_addInput, if_neg hds]; exact b3
    | some g =>
      have gg := compilationGrader_ok hg hgr
      simp only [hgr, bind_ok, provideFile_ok, pure_ok] at h4
      obtain ⟨u, ev5', ⟨kg, hkg, rfl⟩, rfl, rfl⟩ := h4
      obtain ⟨i4, x4, m4⟩ := i3.provideGrader gg ⟨kg, none, some g.localPath⟩
      have x5 := base2.trans x4
      have i5 := (i4.other (e' := { addInput e1 ev1.next c.sourceName false with
        args := (addInput e1 ev1.next c.sourceName false).args ++ [g.sandboxPath] })
        rfl rfl rfl rfl rfl rfl rfl rfl).input m4 g.sandboxPath g.executable
      refine ⟨?_, x5, ?_, ?_, ?_, ?_, ?_, ?_, ?_, ?_, ?_⟩
      · split
        · exact i5
        · exact i5.other rfl rfl rfl rfl rfl rfl rfl rfl
      · refine ⟨by split <;> exact s1c, ?_, ?_, ?_, ?_⟩
        · split
          · next hgo => simp [compilerArgs, hgr, addInput, s1a, hgo]
          · next hgo => simp [compilerArgs, hgr, addInput, s1a, hgo]
        · intro g' hg'
          rw [hgr] at hg'; cases hg'
          have : (addInput { addInput e1 ev1.next c.sourceName false with
              args := (addInput e1 ev1.next c.sourceName false).args ++ [g.sandboxPath] }
              g.file g.sandboxPath g.executable).inputs.get? g.sandboxPath =
              some ⟨g.file, g.executable⟩ := by rw [get?_addInput, if_pos rfl]
          split <;> exact this
        · intro hne
          refine ⟨ev1.next, ?_, hprov.mono x4⟩
          have hne' := fun e => hne g hgr (Eq.symm e)
          have : (addInput { addInput e1 ev1.next c.sourceName false with
              args := (addInput e1 ev1.next c.sourceName false).args ++ [g.sandboxPath] }
              g.file g.sandboxPath g.executable).inputs.get? c.sourceName =
              some ⟨ev1.next, false⟩ := by
            rw [get?_addInput, if_neg hne']
            show (addInput e1 ev1.next c.sourceName false).inputs.get? c.sourceName = _
            rw [get?_addInput, if_pos rfl]
          split <;> exact this
        · intro d hd hds hdg
          have hdg' := fun e => hdg g hgr (Eq.symm e)
          obtain ⟨d', b1, b2, f, b3, b4⟩ := dp1 d hd
          refine ⟨d', b1, b2, f, ?_, b4.mono (x2.trans x4)⟩
          have : (addInput { addInput e1 ev1.next c.sourceName false with
              args := (addInput e1 ev1.next c.sourceName false).args ++ [g.sandboxPath] }
              g.file g.sandboxPath g.executable).inputs.get? d.sandboxPath =
              some ⟨f, d'.executable⟩ := by
            rw [get?_addInput, if_neg hdg']
            show (addInput e1 ev1.next c.sourceName false).inputs.get? d.sandboxPath = _
            rw [get?_addInput, if_neg hds]
            exact b3
          split <;> exact this
      · split <;> exact s1o
      · split <;> exact s1so
      · split <;> exact s1se
      · split <;> exact s1u
      · split <;> exact s1en
      · split <;> exact s1l
      · intro f hf
        by_cases he : f = g.file
        · right
          refine ⟨g, kg, Or.inl hgr, he.symm, hkg, ?_⟩
          subst he
          simp [DagData.provide]
        · left
          rw [← gs2 f hf]
          show (AMap.insert _ _ _).get? f = _
          rw [AMap.get?_insert, if_neg he]
      · unfold OnlyProvides at o1
        rw [o1]; rfl
  obtain ⟨i4, x4, c4, o4, so4, se4, u4, en4, l4, gf4, eq4⟩ := mid
  obtain ⟨rfl, rfl, rfl, i5⟩ := outputOf_spec i4 (by rw [o4]; rfl) h5
  rw [maybeWrite_ok] at h6
  subst h6
  have hw5 := i4.writes_lt (Nat.le_refl _)
  have i6 := i5.binWrite (f := ev4.next)
    (Or.inr (by simp [outsOf, Execution.outputFiles])) s copy
  have x5 : Ext G ev { ev4 with next := ev4.next + 1 } := x4.trans (Ext.ofNext G _ _ (Nat.le_succ _))
  have x6 := x5.trans (Ext.binWrite (ev := { ev4 with next := ev4.next + 1 }) hw5 s copy)
  have hgs : ev4.dag.executionGroups = ev.dag.executionGroups := by rw [eq4]
  have hh : ev4.handlers = ev.handlers := by rw [eq4]
  have hp : ev4.pending = ev.pending := by rw [eq4]
  have he : ev4.exes = ev.exes := by rw [eq4]
  have hs : ev4.senders = ev.senders := by rw [eq4]
  have hwr : ev4.writes = ev.writes := by rw [eq4]
  have hcf : ev4.dag.config = ev.dag.config := by rw [eq4]
  refine ⟨i6.other rfl rfl rfl rfl rfl rfl rfl rfl, x6, ?_, by simp [o4], so4, se4,
    by show ev.next ≤ e2.uuid; rw [u4]; exact Nat.le_refl _, x4.next, hgs, hh, hp, he, hs, ?_, hcf,
    congrArg c.env en4, congrArg c.limits l4, gf4⟩
  · have c6 : CompiledFrom G fs { ev4 with next := ev4.next + 1 } s c e2 :=
      c4.mono (Ext.ofNext G _ _ (Nat.le_succ _))
    have c7 := c6.mono (Ext.binWrite (ev := { ev4 with next := ev4.next + 1 }) hw5 s copy)
    exact ⟨c7.1, c7.2.1, c7.2.2.1, c7.2.2.2.1, c7.2.2.2.2⟩
  · simp only [binWrite, hwr, hcf]

end TM.Build
