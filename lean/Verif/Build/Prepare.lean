import Verif.Build.Track
/-!
# Preparing a source file
-/
namespace TM.Build
open TM DagSpec

theorem Inv.file_lt {G : FileUuid → Prop} {ev : Eval} {P : List Execution} (h : Inv G ev P) {f : FileUuid}
    (hf : f ∈ allFiles ev.dag) : f < ev.next := by
  rw [mem_allFiles] at hf
  refine h.boundF f ?_
  simp only [List.mem_append]
  exact hf.imp id Or.inr

theorem Inv.setExe {G : FileUuid → Prop} {ev : Eval} {P : List Execution} (h : Inv G ev P)
    {f : FileUuid} (hf : f ∈ allFiles ev.dag) (k : Nat) :
    Inv G { ev with exes := ev.exes.insert k f } P := by
  exact { h with
    exes := by
      intro p hp
      simp only [AMap.insert, List.mem_cons] at hp
      rcases hp with rfl | hp
      · exact hf
      · exact h.exes p (AMap.mem_erase.1 hp).1 }

theorem Ext.setExe (G : FileUuid → Prop) {ev : Eval} {k : Nat} (hk : ev.exes.get? k = none)
    (f : FileUuid) : Ext G ev { ev with exes := ev.exes.insert k f } := by
  refine ⟨Nat.le_refl _, rfl, ⟨[], rfl⟩, fun _ p h => ⟨p, h, Or.inl rfl⟩, ⟨[], by simp⟩,
    ⟨[], by simp⟩, ?_, fun _ _ h => h, ⟨[], by simp⟩, fun _ h => Or.inl h⟩
  intro y w hw
  show (ev.exes.insert k f).get? y = some w
  rw [AMap.get?_insert]
  split
  · next he => subst he; rw [hk] at hw; cases hw
  · exact hw

theorem GradersFrom.side {c : Ctx} {s : Src} (hs : c.Knows s) {ev ev' : Eval}
    (h : GradersFrom c.G c.fs s ev ev') {f : FileUuid} {path : String} {p : ProvidedFile}
    (h1 : c.grader f = some path) (h2 : ev'.dag.providedFiles.get? f = some p) :
    ev.dag.providedFiles.get? f = some p ∨ ∃ k, c.fs.key path = some k ∧ p = ⟨k, none, some path⟩ := by
  rcases h f (by simp [Ctx.G, h1]) with h3 | ⟨g, k, h3, h4, h5, h6⟩
  · left; rw [← h3]; exact h2
  · right
    subst h4
    have : c.grader g.file = some g.localPath := h3.elim hs.compilation hs.runtime
    rw [this] at h1; cases h1
    rw [h6] at h2; cases h2
    exact ⟨k, h5, rfl⟩

/-- The state after the executable of `s` has been set, if everything else is in place. -/
theorem Side.newExe {c : Ctx} {U V : List (ExecutionUuid × String)} {s : Src} {ev ev' : Eval} {f : FileUuid}
    (h : Side c U ev) (hs : c.Knows s) (hk : ev.exes.get? s.id = none)
    (hf : ∀ p ∈ ev.exes, p.2 ≠ f) (hx : Ext c.G ev ev') (he : ev'.exes = ev.exes.insert s.id f)
    (hh : ev'.handlers = ev.handlers) (hp : ev'.pending = ev.pending)
    (hg : GradersFrom c.G c.fs s ev ev')
    (hw : ev'.writes = binWrite ev s (ev.dag.config.copyExe || s.copyExe) f)
    (hc : ((allExecs ev'.dag).filter isComp).length =
      ((allExecs ev.dag).filter isComp).length + (if s.lang.compiler.isSome then 1 else 0))
    (hok : ExeOk c V ev' s f) (hUV : ∀ u ∈ U, u ∈ V)
    (hlen : V.length = U.length + (if s.lang.compiler.isSome then 1 else 0)) : Side c V ev' := by
  have hkeys : s.id ∉ ev.exes.keys := AMap.get?_eq_none_iff.1 hk
  have heq : ev.exes.erase s.id = ev.exes := by
    unfold AMap.erase
    apply List.filter_eq_self.2
    intro p hp
    simp only [ne_eq, decide_not, Bool.not_eq_true', decide_eq_false_iff_not]
    rintro h1
    exact hkeys (List.mem_map.2 ⟨p, hp, h1⟩)
  have hexes : ∀ k g, ev.exes.get? k = some g → ev'.exes.get? k = some g := hx.exes
  refine ⟨?_, ?_, ?_, ?_, ?_, by rw [hh, hp]; exact h.reports,
    by rw [hp, hc, hlen, ← h.compTopics]; omega, ?_, ?_, ?_⟩
  rotate_right
  · intro k g dest h1 h2 h3 h4
    rw [hx.config] at h2 h3
    rw [he, AMap.get?_insert] at h1
    split at h1
    · next hki =>
      cases h1; subst hki
      rw [hs.src] at h3 h4
      rw [hw, h3]
      unfold binWrite
      rw [h4]
      simp [h2]
    · exact hx.writes _ _ (h.bins k g dest h1 h2 h3 h4)
  · intro k g hkg
    rw [he, AMap.get?_insert] at hkg
    split at hkg
    · next hki => cases hkg; subst hki; rw [hs.src]; exact hok
    · exact ((h.exes k g hkg).mono hx).more (fun u hu => Or.inl (hUV u hu))
  · rw [he]
    exact AMap.wf_insert h.keys _ _
  · rw [he]
    simp only [AMap.insert, heq, List.map_cons, List.nodup_cons]
    refine ⟨fun hm => ?_, h.values⟩
    obtain ⟨p, h1, h2⟩ := List.mem_map.1 hm
    exact hf p h1 h2
  · intro p hp
    rw [he] at hp
    simp only [AMap.insert, heq, List.mem_cons] at hp
    rcases hp with rfl | hp
    · exact hs.used
    · exact h.used p hp
  · rw [hc, he, h.comps]
    simp only [AMap.insert, heq, List.filter_cons, hs.src]
    split <;> simp_all
  · intro x path p h1 h2
    rcases hg.side hs h1 h2 with h3 | h3
    · exact h.graders x path p h1 h3
    · exact h3
  · intro x w h1
    rw [hx.config]
    have old : ∀ w, ev.writes.get? x = some w → ev.dag.config.dryRun = false ∧
        ((w.executable = false ∧ c.mayWrite w.dest) ∨
         (w.executable = true ∧ ∃ k, ev'.exes.get? k = some x ∧ (c.src k).writeBinTo = some w.dest ∧
          (ev.dag.config.copyExe || (c.src k).copyExe) = true)) := by
      intro w hw
      obtain ⟨h3, h4⟩ := h.writes x w hw
      refine ⟨h3, h4.imp id ?_⟩
      rintro ⟨h5, k, h6, h7, h8⟩
      exact ⟨h5, k, hexes k _ h6, h7, h8⟩
    rw [hw] at h1
    unfold binWrite at h1
    split at h1
    · next dest hcopy hdest =>
      split at h1
      · exact old w h1
      · next hdry =>
        rw [AMap.get?_insert] at h1
        split at h1
        · next hxf =>
          cases h1; subst hxf
          refine ⟨by simpa using hdry, Or.inr ⟨rfl, s.id, ?_, ?_, ?_⟩⟩
          · rw [he, AMap.get?_insert, if_pos rfl]
          · rw [hs.src]; exact hdest
          · rw [hs.src]; exact hcopy
        · exact old w h1
    · exact old w h1

theorem prepare_spec {c : Ctx} {s : Src} {ev ev' : Eval} {P : List Execution}
    {r : Option ExecutionUuid} (h : Inv c.G ev P) (hs : c.Knows s)
    (hr : prepare c.fs s ev = .ok (r, ev')) :
    Inv c.G ev' P ∧ Ext c.G ev ev' ∧ (∀ U, Side c U ev → Side c (r.toList.map (·, s.path) ++ U) ev') ∧
    ev'.handlers = ev.handlers ∧ ev'.pending = ev.pending ∧ ev'.senders = ev.senders ∧
    (∃ f, ev'.exes.get? s.id = some f) ∧ (∀ u, r = some u → u ∈ execUuids ev'.dag P) ∧
    (∀ k f, ev'.exes.get? k = some f → ev.exes.get? k = some f ∨ ev.next ≤ f) := by
  simp only [prepare, bind_ok, look_ok] at hr
  obtain ⟨cell, ev1, ⟨rfl, rfl⟩, hr⟩ := hr
  obtain ⟨copy, ev1, ⟨rfl, rfl⟩, hr⟩ := hr
  cases hcell : ev.exes.get? s.id with
  | some f =>
    simp only [hcell, pure_ok] at hr
    obtain ⟨rfl, rfl⟩ := hr
    exact ⟨h, .refl _ _, fun U hU => hU, rfl, rfl, rfl, ⟨f, hcell⟩, by simp, fun _ _ h => Or.inl h⟩
  | none =>
    cases hcomp : s.lang.compiler with
    | none =>
      simp only [hcell, hcomp, bind_ok, fresh_ok, maybeWrite_ok, upd_ok, provideFile_ok,
        pure_ok] at hr
      obtain ⟨exe, ev1, ⟨rfl, rfl⟩, u, ev2, rfl, u, ev3, rfl, u, ev4, ⟨k, hk, rfl⟩, rfl, rfl⟩ := hr
      obtain ⟨i1, x1, m1⟩ := h.provideFresh ⟨k, none, some s.path⟩
      have hw0 := h.writes_lt (Nat.le_refl ev.next)
      have i2 := i1.binWrite (Or.inl m1) s (ev.dag.config.copyExe || s.copyExe)
      have x2 := x1.trans (Ext.binWrite (G := c.G) (ev := { ev with
        next := ev.next + 1, dag := ev.dag.provide ev.next ⟨k, none, some s.path⟩ }) hw0 s
        (ev.dag.config.copyExe || s.copyExe))
      have i3 := i2.setExe (f := ev.next) m1 s.id
      have x3 := x2.trans (Ext.setExe (ev := { ev with
        next := ev.next + 1, dag := ev.dag.provide ev.next ⟨k, none, some s.path⟩,
        writes := _ }) c.G hcell ev.next)
      have hold : ∀ p ∈ ev.exes, p.2 ≠ ev.next := fun p hp => Nat.ne_of_lt (h.file_lt (h.exes p hp))
      have hok : ProvidedFrom c.G c.fs { ev with
          next := ev.next + 1, dag := ev.dag.provide ev.next ⟨k, none, some s.path⟩ }
          ev.next s.path := ⟨h.fresh_not_grader, k, hk, by simp [DagData.provide]⟩
      have hnew : ∀ k f, (ev.exes.insert s.id ev.next).get? k = some f →
          ev.exes.get? k = some f ∨ ev.next ≤ f := by
        intro k f hf
        rw [AMap.get?_insert] at hf
        split at hf
        · cases hf; exact Or.inr (Nat.le_refl _)
        · exact Or.inl hf
      refine ⟨i3, x3, ?_, rfl, rfl, rfl, ⟨ev.next, by simp⟩, by simp, hnew⟩
      intro U hU
      refine hU.newExe hs hcell hold x3 rfl rfl rfl (fun f hf => Or.inl (h.gsame _ f hf)) rfl ?_ ?_
        (fun u hu => by simpa using hu) (by simp [hcomp])
      · simp [hcomp, DagData.provide, allExecs]
      · unfold ExeOk
        simp only [hcomp]
        exact hok
    | some w =>
      simp only [hcell, hcomp, bind_ok, upd_ok, pure_ok] at hr
      obtain ⟨⟨comp, exe⟩, ev1, h1, comp2, ev2, h2, comp3, ev3, h3, u, ev4, h4, u', ev5, rfl, rfl,
        rfl⟩ := hr
      obtain ⟨i1, x1, cf, ho, hso, hse, hu, hexe, hgr, hh, hp, he, hsn, hw, hcf, -, -, hgf⟩ :=
        finalize_spec h hs.ok h1
      have i1' : Inv c.G ev1 ({ comp with
        tag := some "compilation", priority := COMPILATION_PRIORITY } :: P) :=
        i1.other rfl rfl rfl rfl rfl rfl rfl rfl
      obtain ⟨f2, rfl, i2, e2⟩ := captureStdout_spec i1' h2
      obtain ⟨f3, rfl, i3, e3⟩ := captureStderr_spec i2 h3
      have x2 : Ext c.G ev1 ev2 := by
        rcases e2 with ⟨_, rfl⟩ | ⟨_, _, rfl⟩
        · exact .refl _ _
        · exact .ofNext _ _ _ (Nat.le_succ _)
      have q2 : ev2.dag = ev1.dag ∧ ev2.handlers = ev1.handlers ∧ ev2.pending = ev1.pending ∧
          ev2.exes = ev1.exes ∧ ev2.writes = ev1.writes ∧ ev2.senders = ev1.senders := by
        rcases e2 with ⟨_, rfl⟩ | ⟨_, _, rfl⟩ <;> simp
      have x3 : Ext c.G ev2 ev3 := by
        rcases e3 with ⟨_, rfl⟩ | ⟨_, _, rfl⟩
        · exact .refl _ _
        · exact .ofNext _ _ _ (Nat.le_succ _)
      have q3 : ev3.dag = ev2.dag ∧ ev3.handlers = ev2.handlers ∧ ev3.pending = ev2.pending ∧
          ev3.exes = ev2.exes ∧ ev3.writes = ev2.writes ∧ ev3.senders = ev2.senders := by
        rcases e3 with ⟨_, rfl⟩ | ⟨_, _, rfl⟩ <;> simp
      have i3' := i3.other (e' := { comp with
        tag := some "compilation", priority := COMPILATION_PRIORITY
        stdout := some f2, captureStdout := some COMPILATION_CONTENT_LENGTH
        stderr := some f3, captureStderr := some COMPILATION_CONTENT_LENGTH
        limits := { comp.limits with
          allowMultiprocess := true, readOnly := false, mountTmpfs := true, mountProc := true } })
        rfl rfl rfl rfl rfl rfl rfl rfl
      obtain ⟨i4, x4, m4, o4, g4, hh4, hp4, he4, hw4, hs4, hpf4⟩ := addExec_spec i3' h4
      obtain ⟨qd2, qh2, qp2, qe2, qw2, qs2⟩ := q2
      obtain ⟨qd3, qh3, qp3, qe3, qw3, qs3⟩ := q3
      have hfile : exe ∈ allFiles ev4.dag := o4 exe (by
        simp [Execution.outputFiles, ho])
      have i5 := i4.setExe hfile s.id
      have hcell4 : ev4.exes.get? s.id = none := by rw [he4, qe3, qe2, he]; exact hcell
      have x5 := (((x1.trans x2).trans x3).trans x4).trans (Ext.setExe c.G hcell4 exe)
      have hold : ∀ p ∈ ev.exes, p.2 ≠ exe := fun p hp =>
        Nat.ne_of_lt (Nat.lt_of_lt_of_le (h.file_lt (h.exes p hp)) hexe)
      have hmem : comp.uuid ∈ execUuids ev4.dag P := by
        simp only [execUuids, List.mem_append, List.mem_map]
        exact Or.inl ⟨_, m4, rfl⟩
      refine ⟨i5, x5, ?_, ?_, ?_, ?_, ⟨exe, by simp⟩, ?_, ?_⟩
      · intro U hU
        refine hU.newExe (f := exe) hs hcell hold x5 ?_ ?_ ?_ ?_ ?_ ?_ ?_ (fun u hu => by simp [hu])
          (by simp [hcomp])
        · show ev4.exes.insert s.id exe = _
          rw [he4, qe3, qe2, he]
        · show ev4.handlers = _
          rw [hh4, qh3, qh2, hh]
        · show ev4.pending = _
          rw [hp4, qp3, qp2, hp]
        · intro f hf
          have := hgf f hf
          show ev4.dag.providedFiles.get? f = _ ∨ ∃ g k, _ ∧ _ ∧ _ ∧ ev4.dag.providedFiles.get? f = _
          rw [hpf4, qd3, qd2]; exact this
        · show ev4.writes = _
          rw [hw4, qw3, qw2, hw]
        · show ((allExecs ev4.dag).filter isComp).length = _
          have hgg : ev3.dag.executionGroups = ev.dag.executionGroups := by rw [qd3, qd2, hgr]
          simp [allExecs, g4, hgg, hcomp, isComp]
        · unfold ExeOk
          simp only [hcomp]
          refine ⟨_, m4, rfl, ho, ?_, rfl, rfl, rfl, Or.inl (by simp)⟩
          have cf5 := cf.mono (((x2.trans x3).trans x4).trans (Ext.setExe c.G hcell4 exe))
          exact ⟨cf5.1, cf5.2.1, cf5.2.2.1, cf5.2.2.2.1, cf5.2.2.2.2⟩
      · show ev4.handlers = _
        rw [hh4, qh3, qh2, hh]
      · show ev4.pending = _
        rw [hp4, qp3, qp2, hp]
      · show ev4.senders = _
        rw [hs4, qs3, qs2, hsn]
      · rintro u ⟨⟩; exact hmem
      · intro k f hf
        have hf : (ev4.exes.insert s.id exe).get? k = some f := hf
        rw [AMap.get?_insert] at hf
        split at hf
        · cases hf; exact Or.inr hexe
        · rw [he4, qe3, qe2, he] at hf; exact Or.inl hf

end TM.Build
