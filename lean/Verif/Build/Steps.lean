import Verif.Build.Inv
/-!
# What the elementary steps of the construction do
-/
namespace TM.Build
open TM DagSpec

/-- What never changes while the DAG is built: nothing is removed. -/
structure Ext (G : FileUuid → Prop) (ev ev' : Eval) : Prop where
  next : ev.next ≤ ev'.next
  config : ev'.dag.config = ev.dag.config
  groups : ∃ l, ev'.dag.executionGroups = l ++ ev.dag.executionGroups
  provided : ∀ f p, ev.dag.providedFiles.get? f = some p →
    ∃ p', ev'.dag.providedFiles.get? f = some p' ∧ (p' = p ∨ G f)
  handlers : ∃ l, ev'.handlers = ev.handlers ++ l
  pending : ∃ l, ev'.pending = ev.pending ++ l
  exes : ∀ k f, ev.exes.get? k = some f → ev'.exes.get? k = some f
  writes : ∀ f w, ev.writes.get? f = some w → ev'.writes.get? f = some w
  senders : ∃ l, ev'.senders = ev.senders ++ l
  keys : ∀ k ∈ ev'.dag.executionGroups.keys, k ∈ ev.dag.executionGroups.keys ∨ ev.next ≤ k

theorem Ext.refl (G : FileUuid → Prop) (ev : Eval) : Ext G ev ev :=
  ⟨Nat.le_refl _, rfl, ⟨[], rfl⟩, fun _ p h => ⟨p, h, Or.inl rfl⟩, ⟨[], by simp⟩, ⟨[], by simp⟩,
   fun _ _ h => h, fun _ _ h => h, ⟨[], by simp⟩, fun _ h => Or.inl h⟩

theorem Ext.trans {G : FileUuid → Prop} {a b c : Eval} (h : Ext G a b) (k : Ext G b c) :
    Ext G a c := by
  refine ⟨Nat.le_trans h.next k.next, k.config.trans h.config, ?_, ?_, ?_, ?_,
    fun q f hf => k.exes q f (h.exes q f hf), fun q f hf => k.writes q f (h.writes q f hf), ?_, ?_⟩
  · obtain ⟨l, hl⟩ := h.groups; obtain ⟨m, hm⟩ := k.groups
    exact ⟨m ++ l, by rw [hm, hl, List.append_assoc]⟩
  · intro f p hp
    obtain ⟨p1, h1, h2⟩ := h.provided f p hp
    obtain ⟨p2, h3, h4⟩ := k.provided f p1 h1
    exact ⟨p2, h3, by grind⟩
  · obtain ⟨l, hl⟩ := h.handlers; obtain ⟨m, hm⟩ := k.handlers
    exact ⟨l ++ m, by rw [hm, hl, List.append_assoc]⟩
  · obtain ⟨l, hl⟩ := h.pending; obtain ⟨m, hm⟩ := k.pending
    exact ⟨l ++ m, by rw [hm, hl, List.append_assoc]⟩
  · obtain ⟨l, hl⟩ := h.senders; obtain ⟨m, hm⟩ := k.senders
    exact ⟨l ++ m, by rw [hm, hl, List.append_assoc]⟩
  · intro x hx
    rcases k.keys x hx with h1 | h1
    · exact h.keys x h1
    · exact Or.inr (Nat.le_trans h.next h1)

theorem Ext.allFiles {G : FileUuid → Prop} {a b : Eval} (h : Ext G a b) {f : FileUuid}
    (hf : f ∈ allFiles a.dag) : f ∈ allFiles b.dag := by
  rw [mem_allFiles] at hf ⊢
  rcases hf with hf | hf
  · left
    obtain ⟨l, hl⟩ := h.groups
    simp only [groupOuts, hl, List.flatMap_append, List.mem_append]
    exact Or.inr hf
  · right
    rw [AMap.mem_keys_iff] at hf ⊢
    obtain ⟨p, hp⟩ := hf
    obtain ⟨p', hp', _⟩ := h.provided f p hp
    exact ⟨p', hp'⟩

theorem Ext.mem_exec {G : FileUuid → Prop} {a b : Eval} (h : Ext G a b) {e : Execution}
    (he : e ∈ allExecs a.dag) : e ∈ allExecs b.dag := by
  obtain ⟨l, hl⟩ := h.groups
  simp only [allExecs, hl, List.flatMap_append, List.mem_append]
  exact Or.inr he

theorem Ext.mem_handler {G : FileUuid → Prop} {a b : Eval} (h : Ext G a b)
    {p : ExecutionUuid × Handler} (hp : p ∈ a.handlers) : p ∈ b.handlers := by
  obtain ⟨l, hl⟩ := h.handlers
  rw [hl]; exact List.mem_append.2 (Or.inl hp)

/-- Steps that only take identifiers. -/
theorem Ext.ofNext (G : FileUuid → Prop) (ev : Eval) (n : Nat) (h : ev.next ≤ n) :
    Ext G ev { ev with next := n } :=
  ⟨h, rfl, ⟨[], rfl⟩, fun _ p h => ⟨p, h, Or.inl rfl⟩, ⟨[], by simp⟩, ⟨[], by simp⟩,
   fun _ _ h => h, fun _ _ h => h, ⟨[], by simp⟩, fun _ h => Or.inl h⟩

/-! ## Executions -/

theorem hd_mem {α : Type} {l P : List α} {e : α} : e ∈ l ++ e :: P := by simp


theorem newExecution_spec {G : FileUuid → Prop} {ev ev' : Eval} {P : List Execution}
    {c : ExecutionCommand} {e : Execution} (h : Inv G ev P)
    (hr : newExecution c ev = .ok (e, ev')) :
    e = { uuid := ev.next, command := c, limits := defaultLimits } ∧
    ev' = { ev with next := ev.next + 1 } ∧ Inv G ev' (e :: P) := by
  simp only [newExecution, bind_ok, fresh_ok, pure_ok] at hr
  obtain ⟨u, ev1, ⟨rfl, rfl⟩, rfl, rfl⟩ := hr
  exact ⟨rfl, rfl, h.newExec _ rfl rfl rfl rfl rfl⟩

theorem addInput_deps {e : Execution} {f : FileUuid} {path : String} {x : Bool} {y : FileUuid}
    (h : y ∈ (addInput e f path x).dependencies) : y = f ∨ y ∈ e.dependencies := by
  simp only [addInput, Execution.dependencies, AMap.insert, List.map_cons, List.mem_append,
    List.mem_cons, List.mem_map] at h ⊢
  rcases h with h | h | ⟨p, hp, h⟩
  · exact Or.inr (Or.inl h)
  · exact Or.inl h
  · exact Or.inr (Or.inr ⟨p, (AMap.mem_erase.1 hp).1, h⟩)

theorem Inv.input {G : FileUuid → Prop} {ev : Eval} {P : List Execution} {e : Execution}
    (h : Inv G ev (e :: P)) {f : FileUuid} (hf : f ∈ allFiles ev.dag) (path : String) (x : Bool) :
    Inv G ev (addInput e f path x :: P) := by
  refine h.modify rfl rfl ?_ (h.captureOut e (by simp)) (h.captureErr e (by simp))
  intro y hy
  rcases addInput_deps hy with rfl | hy
  · exact hf
  · exact h.pdeps e (by simp) y hy

/-- Changes of the fields the invariant does not look at. -/
theorem Inv.other {G : FileUuid → Prop} {ev : Eval} {P : List Execution} {e e' : Execution}
    (h : Inv G ev (e :: P)) (h1 : e'.uuid = e.uuid) (h2 : e'.stdin = e.stdin)
    (h3 : e'.stdout = e.stdout) (h4 : e'.stderr = e.stderr) (h5 : e'.inputs = e.inputs)
    (h6 : e'.outputs = e.outputs) (h7 : e'.captureStdout = e.captureStdout)
    (h8 : e'.captureStderr = e.captureStderr) : Inv G ev (e' :: P) := by
  refine h.modify h1 (by simp only [Execution.outputFiles, h3, h4, h6]) ?_ ?_ ?_
  · simp only [Execution.dependencies, h2, h5]; exact h.pdeps e (by simp)
  · rw [h7, h3]; exact h.captureOut e (by simp)
  · rw [h8, h4]; exact h.captureErr e (by simp)

theorem Inv.stdin {G : FileUuid → Prop} {ev : Eval} {P : List Execution} {e : Execution}
    (h : Inv G ev (e :: P)) {f : FileUuid} (hf : f ∈ allFiles ev.dag) :
    Inv G ev ({ e with stdin := some f } :: P) := by
  refine h.modify rfl rfl ?_ (h.captureOut e (by simp)) (h.captureErr e (by simp))
  intro y hy
  simp only [Execution.dependencies, Option.toList_some, List.mem_append, List.mem_singleton] at hy
  rcases hy with rfl | hy
  · exact hf
  · exact h.pdeps e (by simp) y (by simp only [Execution.dependencies, List.mem_append]; exact Or.inr hy)

theorem stdoutOf_spec {G : FileUuid → Prop} {ev ev' : Eval} {P : List Execution}
    {e e' : Execution} {f : FileUuid} (h : Inv G ev (e :: P))
    (hr : stdoutOf e ev = .ok ((f, e'), ev')) :
    e' = { e with stdout := some f } ∧ Inv G ev' (e' :: P) ∧
    ((e.stdout = some f ∧ ev' = ev) ∨
     (e.stdout = none ∧ f = ev.next ∧ ev' = { ev with next := ev.next + 1 })) := by
  cases hs : e.stdout with
  | some f' =>
    simp only [stdoutOf, hs, pure_ok, Prod.mk.injEq] at hr
    obtain ⟨⟨rfl, rfl⟩, rfl⟩ := hr
    have : e = { e with stdout := some f' } := by rw [← hs]
    exact ⟨this, h, Or.inl ⟨rfl, rfl⟩⟩
  | none =>
    simp only [stdoutOf, hs, bind_ok, fresh_ok, pure_ok, Prod.mk.injEq] at hr
    obtain ⟨u, ev1, ⟨rfl, rfl⟩, ⟨rfl, rfl⟩, rfl⟩ := hr
    refine ⟨rfl, ?_, Or.inr ⟨rfl, rfl, rfl⟩⟩
    refine h.addOut rfl ?_ rfl (fun _ => by simp) (h.captureErr e (by simp))
    simp [Execution.outputFiles, hs]

theorem stderrOf_spec {G : FileUuid → Prop} {ev ev' : Eval} {P : List Execution}
    {e e' : Execution} {f : FileUuid} (h : Inv G ev (e :: P))
    (hr : stderrOf e ev = .ok ((f, e'), ev')) :
    e' = { e with stderr := some f } ∧ Inv G ev' (e' :: P) ∧
    ((e.stderr = some f ∧ ev' = ev) ∨
     (e.stderr = none ∧ f = ev.next ∧ ev' = { ev with next := ev.next + 1 })) := by
  cases hs : e.stderr with
  | some f' =>
    simp only [stderrOf, hs, pure_ok, Prod.mk.injEq] at hr
    obtain ⟨⟨rfl, rfl⟩, rfl⟩ := hr
    have : e = { e with stderr := some f' } := by rw [← hs]
    exact ⟨this, h, Or.inl ⟨rfl, rfl⟩⟩
  | none =>
    simp only [stderrOf, hs, bind_ok, fresh_ok, pure_ok, Prod.mk.injEq] at hr
    obtain ⟨u, ev1, ⟨rfl, rfl⟩, ⟨rfl, rfl⟩, rfl⟩ := hr
    refine ⟨rfl, ?_, Or.inr ⟨rfl, rfl, rfl⟩⟩
    refine h.addOut rfl ?_ rfl (h.captureOut e (by simp)) (fun _ => by simp)
    simp only [Execution.outputFiles, hs, Option.toList_some, Option.toList_none, List.nil_append,
      List.singleton_append]
    exact List.perm_middle

theorem outputOf_spec {G : FileUuid → Prop} {ev ev' : Eval} {P : List Execution}
    {e e' : Execution} {f : FileUuid} {path : String} (h : Inv G ev (e :: P))
    (hne : e.outputs.get? path = none)
    (hr : outputOf e path ev = .ok ((f, e'), ev')) :
    f = ev.next ∧ e' = { e with outputs := (path, ev.next) :: e.outputs } ∧
    ev' = { ev with next := ev.next + 1 } ∧ Inv G ev' (e' :: P) := by
  simp only [outputOf, bind_ok, fresh_ok, hne, pure_ok, Prod.mk.injEq] at hr
  obtain ⟨u, ev1, ⟨rfl, rfl⟩, ⟨rfl, rfl⟩, rfl⟩ := hr
  have he : e.outputs.erase path = e.outputs := by
    unfold AMap.erase
    apply List.filter_eq_self.2
    intro p hp
    simp only [ne_eq, decide_not, Bool.not_eq_true', decide_eq_false_iff_not]
    rintro rfl
    exact AMap.get?_eq_none_iff.1 hne (List.mem_map.2 ⟨p, hp, rfl⟩)
  refine ⟨rfl, by simp only [AMap.insert, he], rfl, ?_⟩
  refine h.addOut rfl ?_ rfl (h.captureOut e (by simp)) (h.captureErr e (by simp))
  simp only [Execution.outputFiles, AMap.insert, he, List.map_cons]
  have h1 : (e.stderr.toList ++ ev.next :: e.outputs.map (·.2)).Perm
      (ev.next :: (e.stderr.toList ++ e.outputs.map (·.2))) := List.perm_middle
  exact (List.Perm.append_left _ h1).trans List.perm_middle

theorem captureStdout_spec {G : FileUuid → Prop} {ev ev' : Eval} {P : List Execution}
    {e e' : Execution} {n : Nat} (h : Inv G ev (e :: P))
    (hr : captureStdout e n ev = .ok (e', ev')) :
    ∃ f, e' = { e with stdout := some f, captureStdout := some n } ∧ Inv G ev' (e' :: P) ∧
    ((e.stdout = some f ∧ ev' = ev) ∨
     (e.stdout = none ∧ f = ev.next ∧ ev' = { ev with next := ev.next + 1 })) := by
  simp only [captureStdout, bind_ok, pure_ok] at hr
  obtain ⟨⟨f, e1⟩, ev1, h1, rfl, rfl⟩ := hr
  obtain ⟨rfl, h2, h3⟩ := stdoutOf_spec h h1
  have h4 := h2.captureErr _ hd_mem
  have h5 := h2.pdeps _ List.mem_cons_self
  exact ⟨f, rfl, h2.modify rfl rfl h5 (fun _ => by simp) h4, h3⟩

theorem captureStderr_spec {G : FileUuid → Prop} {ev ev' : Eval} {P : List Execution}
    {e e' : Execution} {n : Nat} (h : Inv G ev (e :: P))
    (hr : captureStderr e n ev = .ok (e', ev')) :
    ∃ f, e' = { e with stderr := some f, captureStderr := some n } ∧ Inv G ev' (e' :: P) ∧
    ((e.stderr = some f ∧ ev' = ev) ∨
     (e.stderr = none ∧ f = ev.next ∧ ev' = { ev with next := ev.next + 1 })) := by
  simp only [captureStderr, bind_ok, pure_ok] at hr
  obtain ⟨⟨f, e1⟩, ev1, h1, rfl, rfl⟩ := hr
  obtain ⟨rfl, h2, h3⟩ := stderrOf_spec h h1
  have h4 := h2.captureOut _ hd_mem
  have h5 := h2.pdeps _ List.mem_cons_self
  exact ⟨f, rfl, h2.modify rfl rfl h5 h4 (fun _ => by simp), h3⟩

/-- In both cases above the state is an extension. -/
theorem Ext.ofNextOr {G : FileUuid → Prop} {ev ev' : Eval} {A B : Prop}
    (h : (A ∧ ev' = ev) ∨ (B ∧ ev' = { ev with next := ev.next + 1 })) : Ext G ev ev' := by
  rcases h with ⟨_, rfl⟩ | ⟨_, rfl⟩
  · exact .refl _ _
  · exact .ofNext _ _ _ (Nat.le_succ _)

/-! ## The DAG -/

theorem provideFile_ok {fs : FS} {f : FileUuid} {path : String} {ev ev' : Eval} {a : Unit} :
    provideFile fs f path ev = .ok (a, ev') ↔
    ∃ k, fs.key path = some k ∧
      ev' = { ev with dag := ev.dag.provide f ⟨k, none, some path⟩ } := by
  unfold provideFile
  cases h : fs.key path with
  | none => simp [fail]
  | some k => simp [upd, eq_comm]

theorem Ext.provide {G : FileUuid → Prop} {ev : Eval} {f : FileUuid} {p : ProvidedFile}
    (h : f ∉ ev.dag.providedFiles.keys ∨ G f) :
    Ext G ev { ev with dag := ev.dag.provide f p } := by
  refine ⟨Nat.le_refl _, rfl, ⟨[], rfl⟩, ?_, ⟨[], by simp⟩, ⟨[], by simp⟩, fun _ _ h => h,
    fun _ _ h => h, ⟨[], by simp⟩, fun _ h => Or.inl h⟩
  intro x q hq
  show ∃ p', (ev.dag.providedFiles.insert f p).get? x = some p' ∧ _
  rw [AMap.get?_insert]
  split
  · next he =>
    subst he
    rcases h with h | h
    · exact absurd (AMap.mem_keys_iff.2 ⟨q, hq⟩) h
    · exact ⟨p, rfl, Or.inr h⟩
  · exact ⟨q, hq, Or.inl rfl⟩

theorem Inv.fresh_not_provided {G : FileUuid → Prop} {ev : Eval} {P : List Execution}
    (h : Inv G ev P) : ev.next ∉ ev.dag.providedFiles.keys ∧ ev.next ∉ groupOuts ev.dag ∧
      ev.next ∉ outsOf P := by
  have := fun hm => Nat.lt_irrefl _ (h.boundF ev.next hm)
  simp only [List.mem_append, not_or] at this
  grind

/-- A fresh file provided from a path. -/
theorem Inv.provideFresh {G : FileUuid → Prop} {ev : Eval} {P : List Execution}
    (h : Inv G ev P) (p : ProvidedFile) :
    Inv G { ev with next := ev.next + 1, dag := ev.dag.provide ev.next p } P ∧
    Ext G ev { ev with next := ev.next + 1, dag := ev.dag.provide ev.next p } ∧
    ev.next ∈ allFiles (ev.dag.provide ev.next p) := by
  obtain ⟨h1, h2, h3⟩ := h.fresh_not_provided
  refine ⟨h.fresh.provide ev.next p (Nat.lt_succ_self _) h2 h3, ?_,
    provide_allFiles.2 (Or.inl rfl)⟩
  exact (Ext.ofNext G ev (ev.next + 1) (Nat.le_succ _)).trans
    (Ext.provide (ev := { ev with next := ev.next + 1 }) (Or.inl h1))

/-- A grader provided (possibly again). -/
theorem Inv.provideGrader {G : FileUuid → Prop} {ev : Eval} {P : List Execution}
    (h : Inv G ev P) {f : FileUuid} (hg : G f) (p : ProvidedFile) :
    Inv G { ev with dag := ev.dag.provide f p } P ∧
    Ext G ev { ev with dag := ev.dag.provide f p } ∧
    f ∈ TM.DagSpec.allFiles (ev.dag.provide f p) :=
  ⟨h.provide f p (h.graders f hg).1 (h.graders f hg).2.1 (h.graders f hg).2.2,
   Ext.provide (Or.inr hg), provide_allFiles.2 (Or.inl rfl)⟩

theorem onExec_ok {u : ExecutionUuid} {hd : Handler} {ev ev' : Eval} {a : Unit} :
    onExec u hd ev = .ok (a, ev') ↔ ev' = { ev with handlers := ev.handlers ++ [(u, hd)] } := by
  simp [onExec, upd, eq_comm]

theorem bindCallbacks_ok {u : ExecutionUuid} {t : Topic} {ev ev' : Eval} {a : Unit} :
    bindCallbacks u t ev = .ok (a, ev') ↔
    ev' = { ev with handlers := ev.handlers ++ [(u, .report t)], pending := ev.pending ++ [t] } := by
  simp only [bindCallbacks, bind_ok, upd_ok, onExec_ok]
  constructor
  · rintro ⟨_, _, rfl, rfl⟩; rfl
  · rintro rfl; exact ⟨(), _, rfl, rfl⟩

theorem Inv.onExec {G : FileUuid → Prop} {ev : Eval} {P : List Execution} (h : Inv G ev P)
    {u : ExecutionUuid} (hu : u ∈ execUuids ev.dag P) (hd : Handler) (q : List Topic) :
    Inv G { ev with handlers := ev.handlers ++ [(u, hd)], pending := q } P := by
  exact { h with
    handlers := by
      intro p hp
      rcases List.mem_append.1 hp with hp | hp
      · exact h.handlers p hp
      · simp only [List.mem_singleton] at hp
        subst hp; exact hu }

theorem Ext.onExec (G : FileUuid → Prop) (ev : Eval) (u : ExecutionUuid) (hd : Handler)
    (q : List Topic) :
    Ext G ev { ev with handlers := ev.handlers ++ [(u, hd)], pending := ev.pending ++ q } :=
  ⟨Nat.le_refl _, rfl, ⟨[], rfl⟩, fun _ p h => ⟨p, h, Or.inl rfl⟩, ⟨_, rfl⟩, ⟨q, rfl⟩,
   fun _ _ h => h, fun _ _ h => h, ⟨[], by simp⟩, fun _ h => Or.inl h⟩

theorem mem_execUuids_head {d : DagData} {e : Execution} {P : List Execution} :
    e.uuid ∈ execUuids d (e :: P) := by
  simp [execUuids]

theorem writeFileTo_ok {f : FileUuid} {dest : String} {x : Bool} {ev ev' : Eval} {a : Unit} :
    writeFileTo f dest x ev = .ok (a, ev') ↔
    ev' = (if ev.dag.config.dryRun then ev
      else { ev with writes := ev.writes.insert f ⟨dest, x, false⟩ }) := by
  unfold writeFileTo
  rw [upd_ok]
  exact eq_comm

theorem Inv.write {G : FileUuid → Prop} {ev : Eval} {P : List Execution} (h : Inv G ev P)
    {f : FileUuid} (hf : f ∈ allFiles ev.dag ∨ f ∈ outsOf P) (dest : String) (x : Bool) :
    Inv G (if ev.dag.config.dryRun then ev
      else { ev with writes := ev.writes.insert f ⟨dest, x, false⟩ }) P := by
  split
  · exact h
  · exact { h with
      writesWf := AMap.wf_insert h.writesWf _ _
      writes := by
        intro p hp
        simp only [AMap.insert, List.mem_cons] at hp
        rcases hp with rfl | hp
        · exact hf
        · exact h.writes p (AMap.mem_erase.1 hp).1 }

theorem Ext.write {G : FileUuid → Prop} {ev : Eval} {f : FileUuid}
    (hf : ev.writes.get? f = none) (dest : String) (x : Bool) :
    Ext G ev (if ev.dag.config.dryRun then ev
      else { ev with writes := ev.writes.insert f ⟨dest, x, false⟩ }) := by
  split
  · exact .refl _ _
  · refine ⟨Nat.le_refl _, rfl, ⟨[], rfl⟩, fun _ p h => ⟨p, h, Or.inl rfl⟩, ⟨[], by simp⟩,
      ⟨[], by simp⟩, fun _ _ h => h, ?_, ⟨[], by simp⟩, fun _ h => Or.inl h⟩
    intro y w hw
    show (ev.writes.insert f _).get? y = some w
    rw [AMap.get?_insert]
    split
    · next he => subst he; rw [hf] at hw; cases hw
    · exact hw

/-- The files with a destination are known, so a new file has none. -/
theorem Inv.writes_lt {G : FileUuid → Prop} {ev : Eval} {P : List Execution} (h : Inv G ev P)
    {f : FileUuid} (hf : ev.next ≤ f) : ev.writes.get? f = none := by
  rw [AMap.get?_eq_none_iff]
  intro hm
  obtain ⟨w, hw⟩ := AMap.mem_keys_iff.1 hm
  have := h.writes _ (AMap.mem_of_get? hw)
  have : f < ev.next := by
    rcases this with this | this
    · rw [mem_allFiles] at this
      exact h.boundF f (by simp only [List.mem_append]; grind)
    · exact h.boundF f (by simp [this])
  exact absurd this (Nat.not_lt.2 hf)

theorem addExec_ok {e : Execution} {ev ev' : Eval} {a : Unit} :
    addExec e ev = .ok (a, ev') ↔
    ev' = { ev with next := ev.next + 1, dag := ev.dag.addExecution ev.next e } := by
  simp only [addExec, bind_ok, fresh_ok, upd_ok]
  constructor
  · rintro ⟨_, _, ⟨rfl, rfl⟩, rfl⟩; rfl
  · rintro rfl; exact ⟨_, _, ⟨rfl, rfl⟩, rfl⟩

theorem addExec_spec {G : FileUuid → Prop} {ev ev' : Eval} {P : List Execution} {e : Execution}
    {a : Unit} (h : Inv G ev (e :: P)) (hr : addExec e ev = .ok (a, ev')) :
    Inv G ev' P ∧ Ext G ev ev' ∧
    { e with config := ev.dag.config } ∈ allExecs ev'.dag ∧
    (∀ f ∈ e.outputFiles, f ∈ allFiles ev'.dag) ∧
    ev'.dag.executionGroups =
      (ev.next, { uuid := ev.next, executions := [{ e with config := ev.dag.config }] }) ::
        ev.dag.executionGroups ∧
    ev'.handlers = ev.handlers ∧ ev'.pending = ev.pending ∧ ev'.exes = ev.exes ∧
    ev'.writes = ev.writes ∧ ev'.senders = ev.senders ∧
    ev'.dag.providedFiles = ev.dag.providedFiles := by
  rw [addExec_ok] at hr
  subst hr
  have hfr : ev.next ∉ ev.dag.executionGroups.keys := fun hm => Nat.lt_irrefl _ (h.boundG _ hm)
  have hg := Inv.addGroup (Q := [e]) (P := P) h.fresh { uuid := ev.next, executions := [e] } rfl
    (by simp) (.inr rfl) (by simp) hfr (Nat.lt_succ_self _)
  have heq : ev.dag.addExecutionGroup { uuid := ev.next, executions := [e] } =
      ev.dag.addExecution ev.next e := rfl
  have hg1 := hg.1
  have hg2 := hg.2
  simp only [heq] at hg1 hg2
  have hgr : (ev.dag.addExecution ev.next e).executionGroups =
      (ev.next, { uuid := ev.next, executions := [{ e with config := ev.dag.config }] }) ::
        ev.dag.executionGroups := hg2
  refine ⟨hg1, ?_, ?_, ?_, hgr, rfl, rfl, rfl, rfl, rfl, rfl⟩
  · refine ⟨Nat.le_succ _, rfl, ⟨[_], hgr⟩, fun _ p h => ⟨p, h, Or.inl rfl⟩, ⟨[], by simp⟩,
      ⟨[], by simp⟩, fun _ _ h => h, fun _ _ h => h, ⟨[], by simp⟩, ?_⟩
    intro k hk
    simp only [AMap.keys, hgr, List.map_cons, List.mem_cons] at hk
    rcases hk with rfl | hk
    · exact Or.inr (Nat.le_refl _)
    · exact Or.inl hk
  · simp [allExecs, hgr]
  · intro f hf
    rw [mem_allFiles]
    left
    simp only [groupOuts, hgr, List.flatMap_cons, List.mem_append]
    left
    simpa [ExecutionGroup.outs, Execution.outputFiles] using hf

end TM.Build
