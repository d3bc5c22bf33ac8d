import Verif.Build.Source
/-!
# What is tracked while the DAG is built
-/
namespace TM.Build
open TM DagSpec

/-- The file system, the graders with their paths and the instances of `SourceFile` in use. -/
structure Ctx where
  fs : FS
  grader : FileUuid → Option String
  src : Nat → Src
  mayWrite : String → Prop
  used : Nat → Prop

/-- The files of the graders. -/
def Ctx.G (c : Ctx) (f : FileUuid) : Prop := (c.grader f).isSome = true

/-- A source file of the context. -/
structure Ctx.Knows (c : Ctx) (s : Src) : Prop where
  src : c.src s.id = s
  used : c.used s.id
  graders : ∀ m, s.graders = some m → ∀ p ∈ m, c.grader p.2.file = some p.2.localPath

theorem Ctx.Knows.ok {c : Ctx} {s : Src} (h : c.Knows s) : GradersOk c.G s := by
  intro m hm p hp
  simp [Ctx.G, h.graders m hm p hp]

theorem Ctx.Knows.compilation {c : Ctx} {s : Src} (h : c.Knows s) {g : Grader}
    (hg : compilationGrader s = some g) : c.grader g.file = some g.localPath := by
  unfold compilationGrader at hg
  split at hg
  · cases hg
  · next m hm =>
    split at hg
    · cases hg
    · exact h.graders m hm _ (AMap.mem_of_get? hg)

theorem Ctx.Knows.runtime {c : Ctx} {s : Src} (h : c.Knows s) {g : Grader}
    (hg : runtimeGrader s = some g) : c.grader g.file = some g.localPath := by
  unfold runtimeGrader at hg
  split at hg
  · cases hg
  · next m hm =>
    split at hg
    · cases hg
    · exact h.graders m hm _ (AMap.mem_of_get? hg)

/-- An execution that compiles. -/
def isComp (e : Execution) : Bool := e.tag == some "compilation"

/-- What the UI is told by a handler. -/
def reportOf : ExecutionUuid × Handler → Option Topic
  | (_, .report t) => some t
  | _ => none

/-- A topic that is not a compilation. -/
def mainTopic : Topic → Bool
  | .compilation _ => false
  | _ => true

/-- The handlers that take part in the score, and those of the sample files. -/
def scoringOf : ExecutionUuid × Handler → Option Handler
  | (_, .report _) => none
  | (_, .failureDiagnostic _) => none
  | (_, .latexErrors _) => none
  | (_, h) => some h

/-- The executable of a source file: the output of its compilation, or the file itself. -/
def ExeOk (c : Ctx) (U : List (ExecutionUuid × String)) (ev : Eval) (s : Src) (f : FileUuid) : Prop :=
  match s.lang.compiler with
  | some k => ∃ comp ∈ allExecs ev.dag, comp.tag = some "compilation" ∧
      comp.outputs = [(k.binaryName, f)] ∧ CompiledFrom c.G c.fs ev s k comp ∧
      comp.captureStdout = some COMPILATION_CONTENT_LENGTH ∧
      comp.captureStderr = some COMPILATION_CONTENT_LENGTH ∧ comp.priority = COMPILATION_PRIORITY ∧
      ((comp.uuid, s.path) ∈ U ∨ ((comp.uuid, .report (.compilation s.path)) ∈ ev.handlers ∧
        (comp.uuid, .failureDiagnostic (.compilation s.path)) ∈ ev.handlers))
  | none => ProvidedFrom c.G c.fs ev f s.path

theorem Ext.mem_handlers {G : FileUuid → Prop} {a b : Eval} (h : Ext G a b)
    {p : ExecutionUuid × Handler} (hp : p ∈ a.handlers) : p ∈ b.handlers := by
  obtain ⟨l, hl⟩ := h.handlers
  rw [hl]; exact List.mem_append_left _ hp

theorem ExeOk.mono {c : Ctx} {U : List (ExecutionUuid × String)} {a b : Eval} {s : Src} {f : FileUuid}
    (h : ExeOk c U a s f) (k : Ext c.G a b) : ExeOk c U b s f := by
  unfold ExeOk at h ⊢
  cases hc : s.lang.compiler with
  | none => simp only [hc] at h ⊢; exact h.mono k
  | some w =>
    simp only [hc] at h ⊢
    obtain ⟨comp, h1, h2, h3, h4, h5, h6, h8, h7⟩ := h
    refine ⟨comp, k.mem_exec h1, h2, h3, h4.mono k, h5, h6, h8, ?_⟩
    rcases h7 with h7 | ⟨h7, h8⟩
    · exact Or.inl h7
    · exact Or.inr ⟨k.mem_handlers h7, k.mem_handlers h8⟩

theorem ExeOk.more {c : Ctx} {U V : List (ExecutionUuid × String)} {a : Eval} {s : Src} {f : FileUuid}
    (h : ExeOk c U a s f) (hUV : ∀ u ∈ U, u ∈ V ∨
      ((u.1, .report (.compilation u.2)) ∈ a.handlers ∧
        (u.1, .failureDiagnostic (.compilation u.2)) ∈ a.handlers)) : ExeOk c V a s f := by
  unfold ExeOk at h ⊢
  cases hc : s.lang.compiler with
  | none => simp only [hc] at h ⊢; exact h
  | some w =>
    simp only [hc] at h ⊢
    obtain ⟨comp, h1, h2, h3, h4, h5, h6, h8, h7⟩ := h
    refine ⟨comp, h1, h2, h3, h4, h5, h6, h8, ?_⟩
    rcases h7 with h7 | h7
    · exact hUV _ h7
    · exact Or.inr h7

/-- The invariants that do not depend on the executions under construction; `U` are the compilations
whose callbacks are not bound yet. -/
structure Side (c : Ctx) (U : List (ExecutionUuid × String)) (ev : Eval) : Prop where
  exes : ∀ k f, ev.exes.get? k = some f → ExeOk c U ev (c.src k) f
  keys : ev.exes.keys.Nodup
  values : (ev.exes.map (·.2)).Nodup
  used : ∀ p ∈ ev.exes, c.used p.1
  comps : ((allExecs ev.dag).filter isComp).length =
    (ev.exes.filter (fun p => (c.src p.1).lang.compiler.isSome)).length
  reports : ev.handlers.filterMap reportOf = ev.pending
  compTopics : (ev.pending.filter (fun t => !mainTopic t)).length + U.length =
    ((allExecs ev.dag).filter isComp).length
  graders : ∀ f path p, c.grader f = some path → ev.dag.providedFiles.get? f = some p →
    ∃ k, c.fs.key path = some k ∧ p = ⟨k, none, some path⟩
  writes : ∀ f w, ev.writes.get? f = some w → ev.dag.config.dryRun = false ∧
    ((w.executable = false ∧ c.mayWrite w.dest) ∨
     (w.executable = true ∧ ∃ k, ev.exes.get? k = some f ∧ (c.src k).writeBinTo = some w.dest ∧
      (ev.dag.config.copyExe || (c.src k).copyExe) = true))
  bins : ∀ k f dest, ev.exes.get? k = some f → ev.dag.config.dryRun = false →
    (ev.dag.config.copyExe || (c.src k).copyExe) = true → (c.src k).writeBinTo = some dest →
    ev.writes.get? f = some ⟨dest, true, false⟩

/-- Going from `ev` to `ev'`, the messages `ts` have been sent and the handlers `ss` registered,
besides those of the compilations. -/
structure Step (c : Ctx) (ev ev' : Eval) (ts : List Topic) (ss : List Handler) : Prop where
  ext : Ext c.G ev ev'
  side : ∀ U, Side c U ev → Side c U ev'
  topics : ev'.pending.filter mainTopic = ev.pending.filter mainTopic ++ ts
  scoring : ev'.handlers.filterMap scoringOf = ev.handlers.filterMap scoringOf ++ ss
  exes : ∀ k f, ev'.exes.get? k = some f → ev.exes.get? k = some f ∨ ev.next ≤ f

theorem Step.refl (c : Ctx) (ev : Eval) : Step c ev ev [] [] :=
  ⟨.refl _ _, fun _ h => h, by simp, by simp, fun _ _ h => Or.inl h⟩

theorem Step.trans {c : Ctx} {x y z : Eval} {t1 t2 : List Topic} {s1 s2 : List Handler}
    (h : Step c x y t1 s1) (k : Step c y z t2 s2) : Step c x z (t1 ++ t2) (s1 ++ s2) :=
  ⟨h.ext.trans k.ext, fun U hs => k.side U (h.side U hs),
   by rw [k.topics, h.topics, List.append_assoc], by rw [k.scoring, h.scoring, List.append_assoc],
   fun q f hf => by
    rcases k.exes q f hf with h1 | h1
    · exact h.exes q f h1
    · exact Or.inr (Nat.le_trans h.ext.next h1)⟩

theorem Step.trans0 {c : Ctx} {x y z : Eval} {t : List Topic} {s : List Handler}
    (h : Step c x y [] []) (k : Step c y z t s) : Step c x z t s := by
  simpa using h.trans k

theorem Step.then0 {c : Ctx} {x y z : Eval} {t : List Topic} {s : List Handler}
    (h : Step c x y t s) (k : Step c y z [] []) : Step c x z t s := by
  simpa using h.trans k

/-- A step that compiles nothing. -/
theorem Step.of {c : Ctx} {ev ev' : Eval} {hs : List (ExecutionUuid × Handler)}
    (hx : Ext c.G ev ev') (he : ev'.exes = ev.exes) (hh : ev'.handlers = ev.handlers ++ hs)
    (hp : ev'.pending = ev.pending ++ hs.filterMap reportOf)
    (hm : ∀ t ∈ hs.filterMap reportOf, mainTopic t = true)
    (hg : ((allExecs ev'.dag).filter isComp).length = ((allExecs ev.dag).filter isComp).length)
    (hgr : ∀ f path p, c.grader f = some path → ev'.dag.providedFiles.get? f = some p →
      ev.dag.providedFiles.get? f = some p ∨
        ∃ k, c.fs.key path = some k ∧ p = ⟨k, none, some path⟩)
    (hw : ∀ f w, ev'.writes.get? f = some w → ev.writes.get? f = some w ∨
      (ev.dag.config.dryRun = false ∧ w.executable = false ∧ c.mayWrite w.dest)) :
    Step c ev ev' ((hs.filterMap reportOf).filter mainTopic) (hs.filterMap scoringOf) := by
  refine ⟨hx, fun U h => ?_, by simp [hp], by simp [hh], fun _ _ h => Or.inl (he ▸ h)⟩
  refine ⟨?_, by rw [he]; exact h.keys, by rw [he]; exact h.values, by rw [he]; exact h.used,
    by rw [hg, he]; exact h.comps,
    by rw [hh, hp, List.filterMap_append, h.reports], ?_, ?_, ?_, ?_⟩
  rotate_left
  · rw [hg, hp, List.filter_append, ← h.compTopics]
    have : (hs.filterMap reportOf).filter (fun t => !mainTopic t) = [] := by
      rw [List.filter_eq_nil_iff]; intro t ht; simp [hm t ht]
    rw [this, List.append_nil]
  rotate_left
  rotate_left
  · intro k f dest h1 h2 h3 h4
    rw [hx.config] at h2 h3
    rw [he] at h1
    exact hx.writes _ _ (h.bins k f dest h1 h2 h3 h4)
  · intro k f hk
    rw [he] at hk
    exact (h.exes k f hk).mono hx
  · intro f path p h1 h2
    rcases hgr f path p h1 h2 with h3 | h3
    · exact h.graders f path p h1 h3
    · exact h3
  · intro f w h1
    rw [hx.config]
    rcases hw f w h1 with h2 | ⟨h2, h3, h4⟩
    · obtain ⟨h3, h4⟩ := h.writes f w h2
      refine ⟨h3, h4.imp id ?_⟩
      rintro ⟨h5, k, h6, h7, h8⟩
      exact ⟨h5, k, by rw [he]; exact h6, h7, h8⟩
    · exact ⟨h2, Or.inl ⟨h3, h4⟩⟩

theorem Step.ofNext (c : Ctx) (ev : Eval) (n : Nat) (h : ev.next ≤ n) :
    Step c ev { ev with next := n } [] [] :=
  Step.of (hs := []) (.ofNext _ _ _ h) rfl (by simp) (by simp) (by simp) rfl (fun _ _ _ _ h => Or.inl h)
    (fun _ _ h => Or.inl h)

theorem Step.ofNextOr {c : Ctx} {ev ev' : Eval} {A B : Prop}
    (h : (A ∧ ev' = ev) ∨ (B ∧ ev' = { ev with next := ev.next + 1 })) : Step c ev ev' [] [] := by
  rcases h with ⟨_, rfl⟩ | ⟨_, rfl⟩
  · exact .refl _ _
  · exact .ofNext _ _ _ (Nat.le_succ _)

theorem Step.ofNextOr3 {c : Ctx} {ev ev' : Eval} {A B D : Prop}
    (h : (A ∧ ev' = ev) ∨ (B ∧ D ∧ ev' = { ev with next := ev.next + 1 })) :
    Step c ev ev' [] [] := by
  rcases h with ⟨_, rfl⟩ | ⟨_, _, rfl⟩
  · exact .refl _ _
  · exact .ofNext _ _ _ (Nat.le_succ _)

/-- A fresh file is provided. -/
theorem Step.provideFresh {c : Ctx} {ev : Eval} {P : List Execution} (h : Inv c.G ev P)
    (p : ProvidedFile) :
    Step c ev { ev with next := ev.next + 1, dag := ev.dag.provide ev.next p } [] [] := by
  refine Step.of (hs := []) (h.provideFresh p).2.1 rfl (by simp) (by simp) (by simp) rfl ?_
    (fun _ _ h => Or.inl h)
  intro f path q h1 h2
  left
  have h3 : (ev.dag.providedFiles.insert ev.next p).get? f = some q := h2
  rw [AMap.get?_insert] at h3
  split at h3
  · next he => subst he; exact absurd (by simp [Ctx.G, h1]) h.fresh_not_grader
  · exact h3

/-- A grader is provided. -/
theorem Step.provideGrader {c : Ctx} {ev : Eval} {P : List Execution} (h : Inv c.G ev P)
    {f : FileUuid} {path : String} (hf : c.grader f = some path) {k : FileStoreKey}
    (hk : c.fs.key path = some k) :
    Step c ev { ev with dag := ev.dag.provide f ⟨k, none, some path⟩ } [] [] := by
  have hg : c.G f := by simp [Ctx.G, hf]
  refine Step.of (hs := []) (h.provideGrader hg _).2.1 rfl (by simp) (by simp) (by simp) rfl ?_
    (fun _ _ h => Or.inl h)
  intro f' path' q h1 h2
  have h3 : (ev.dag.providedFiles.insert f ⟨k, none, some path⟩).get? f' = some q := h2
  rw [AMap.get?_insert] at h3
  split at h3
  · next he =>
    subst he
    rw [hf] at h1; cases h1; cases h3
    exact Or.inr ⟨k, hk, rfl⟩
  · exact Or.inl h3

/-- Callbacks. -/
theorem Step.onExec (c : Ctx) (ev : Eval) (u : ExecutionUuid) (hd : Handler)
    (q : List Topic) (hq : q = (reportOf (u, hd)).toList) (hm : ∀ t ∈ q, mainTopic t = true) :
    Step c ev { ev with handlers := ev.handlers ++ [(u, hd)], pending := ev.pending ++ q }
      (q.filter mainTopic) (scoringOf (u, hd)).toList := by
  have h1 : [(u, hd)].filterMap reportOf = q := by
    subst hq; cases h : reportOf (u, hd) <;> simp [h]
  have h2 : [(u, hd)].filterMap scoringOf = (scoringOf (u, hd)).toList := by
    cases h : scoringOf (u, hd) <;> simp [h]
  have := Step.of (c := c) (hs := [(u, hd)]) (Ext.onExec c.G ev u hd q) rfl rfl
    (by simp only [h1]) (by rw [h1]; exact hm) rfl (fun _ _ _ _ h => Or.inl h) (fun _ _ h => Or.inl h)
  rw [h1, h2] at this
  exact this

theorem Step.bind (c : Ctx) (ev : Eval) (u : ExecutionUuid) {t : Topic} (ht : mainTopic t = true) :
    Step c ev { ev with handlers := ev.handlers ++ [(u, .report t)], pending := ev.pending ++ [t] }
      [t] [] := by
  have := Step.onExec c ev u (.report t) [t] rfl (by simpa using ht)
  simpa [ht, scoringOf] using this

theorem Step.handler (c : Ctx) (ev : Eval) (u : ExecutionUuid) {hd : Handler}
    (h1 : reportOf (u, hd) = none) :
    Step c ev { ev with handlers := ev.handlers ++ [(u, hd)] } [] (scoringOf (u, hd)).toList := by
  have := Step.onExec c ev u hd [] (by rw [h1]; rfl) (by simp)
  simpa using this

/-- A file written by the task. -/
theorem Step.write {c : Ctx} {ev : Eval} {f : FileUuid} (hf : ev.writes.get? f = none)
    {dest : String} (hd : c.mayWrite dest) :
    Step c ev (if ev.dag.config.dryRun then ev
      else { ev with writes := ev.writes.insert f ⟨dest, false, false⟩ }) [] [] := by
  have hx := Ext.write (G := c.G) hf dest false
  split
  · exact .refl _ _
  · next hdry =>
    rw [if_neg hdry] at hx
    refine Step.of (hs := []) hx rfl (by simp) (by simp) (by simp) rfl
      (fun _ _ _ _ h => Or.inl h) ?_
    intro y w hw
    have h3 : (ev.writes.insert f ⟨dest, false, false⟩).get? y = some w := hw
    rw [AMap.get?_insert] at h3
    split at h3
    · cases h3
      exact Or.inr ⟨by simpa using hdry, rfl, hd⟩
    · exact Or.inl h3

/-- An execution is added. -/
theorem Step.addExec {c : Ctx} {ev ev' : Eval} {P : List Execution} {e : Execution} {a : Unit}
    (h : Inv c.G ev (e :: P)) (ht : isComp e = false) (hr : addExec e ev = .ok (a, ev')) :
    Step c ev ev' [] [] := by
  obtain ⟨-, hx, -, -, hg, hh, hp, he, hw, -, hpf⟩ := addExec_spec h hr
  refine Step.of (hs := []) hx he (by simp [hh]) (by simp [hp]) (by simp) ?_ ?_ ?_
  · have ht' : isComp { e with config := ev.dag.config } = false := ht
    simp [allExecs, hg, ht']
  · intro f path p _ h2; rw [hpf] at h2; exact Or.inl h2
  · intro f w h2; rw [hw] at h2; exact Or.inl h2

/-- A group of executions is added. -/
theorem Step.addGroupOf {c : Ctx} {ev ev' : Eval} {g : GroupUuid × ExecutionGroup}
    (hx : Ext c.G ev ev') (hg : ev'.dag.executionGroups = g :: ev.dag.executionGroups)
    (ht : ∀ e ∈ g.2.executions, isComp e = false) (hh : ev'.handlers = ev.handlers)
    (hp : ev'.pending = ev.pending) (he : ev'.exes = ev.exes) (hw : ev'.writes = ev.writes)
    (hpf : ev'.dag.providedFiles = ev.dag.providedFiles) :
    Step c ev ev' [] [] := by
  refine Step.of (hs := []) hx he (by simp [hh]) (by simp [hp]) (by simp) ?_ ?_ ?_
  · have : g.2.executions.filter isComp = [] := by
      rw [List.filter_eq_nil_iff]; intro e h1; simp [ht e h1]
    simp [allExecs, hg, List.filter_append, this]
  · intro f path p _ h2; rw [hpf] at h2; exact Or.inl h2
  · intro f w h2; rw [hw] at h2; exact Or.inl h2

end TM.Build
