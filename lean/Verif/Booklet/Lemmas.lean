import Verif.Booklet.Spec
import Verif.Build.Source
import Verif.Build.Bridge
/-!
# Lemmas on the executions of a booklet
-/
namespace TM.Booklet
open TM TM.Build TM.Text DagSpec Build.Spec Spec

/-- No grader: nothing is provided twice. -/
def G0 : FileUuid → Prop := fun _ => False

theorem Inv.noGraders {G : FileUuid → Prop} {ev : Eval} {P : List Execution} (h : Inv G ev P) : Inv G0 ev P :=
  { h with graders := fun _ hf => hf.elim }

theorem CopyOf.mono {fs : FS} {a b : Eval} {f : FileUuid} {path : String} (h : CopyOf fs a f path) (k : Ext G0 a b) :
    CopyOf fs b f path := by
  obtain ⟨key, h1, h2⟩ := h
  obtain ⟨p, h3, h4⟩ := k.provided _ _ h2
  rcases h4 with rfl | h4
  · exact ⟨key, h1, h3⟩
  · exact h4.elim

theorem CopyOf.mem {fs : FS} {a : Eval} {f : FileUuid} {path : String} (h : CopyOf fs a f path) :
    f ∈ DagSpec.allFiles a.dag := by
  obtain ⟨key, h1, h2⟩ := h
  exact mem_allFiles.2 (Or.inr (AMap.mem_keys_iff.2 ⟨_, h2⟩))

theorem Spec.InputsAre.mono {α : Type} {P Q : FileUuid → α → Prop} {E : String → α → Prop} {e : Execution}
    (h : InputsAre P E e) (k : ∀ f o, P f o → Q f o) : InputsAre Q E e :=
  ⟨fun p i hi => ⟨(h.1 p i hi).1, (h.1 p i hi).2.imp fun _ ho => ⟨ho.1, k _ _ ho.2⟩⟩, h.2⟩

theorem Spec.InputsAre.congr {α : Type} {P : FileUuid → α → Prop} {E F : String → α → Prop} {e e' : Execution}
    (h : InputsAre P E e) (hi : e'.inputs = e.inputs) (k : ∀ p o, E p o ↔ F p o) : InputsAre P F e' := by
  refine ⟨fun p i h' => ?_, fun p o ho => ?_⟩
  · rw [hi] at h'
    exact ⟨(h.1 p i h').1, (h.1 p i h').2.imp fun _ ho => ⟨(k _ _).1 ho.1, ho.2⟩⟩
  · rw [hi]; exact h.2 p o ((k _ _).2 ho)

/-- One more file. -/
theorem Spec.InputsAre.add {α : Type} {P : FileUuid → α → Prop} {E : String → α → Prop} {e : Execution}
    (h : InputsAre P E e) {f : FileUuid} {o : α} (hf : P f o) (path : String) :
    InputsAre P (fun p x => E p x ∨ (p = path ∧ x = o)) (addInput e f path false) := by
  refine ⟨fun p i hi => ?_, fun p x hx => ?_⟩
  · rw [get?_addInput] at hi
    split at hi
    · cases hi
      exact ⟨rfl, o, Or.inr ⟨by assumption, rfl⟩, hf⟩
    · exact ⟨(h.1 p i hi).1, (h.1 p i hi).2.imp fun _ ho => ⟨Or.inl ho.1, ho.2⟩⟩
  · rw [get?_addInput]
    split
    · exact ⟨_, rfl⟩
    · rcases hx with hx | ⟨hx, -⟩
      · exact h.2 p x hx
      · contradiction

theorem writeAllowFail_ok {f : FileUuid} {dest : String} {ev ev' : Eval} {a : Unit} :
    writeAllowFail f dest ev = .ok (a, ev') ↔
    ev' = (if ev.dag.config.dryRun then ev
      else { ev with writes := ev.writes.insert f ⟨dest, false, true⟩ }) := by
  unfold writeAllowFail
  rw [upd_ok]
  exact eq_comm

theorem writeAllowFail_spec {ev ev' : Eval} {P : List Execution} {f : FileUuid} {dest : String} {a : Unit}
    (h : Inv G0 ev P) (hf : f ∈ DagSpec.allFiles ev.dag ∨ f ∈ outsOf P) (hn : ev.writes.get? f = none)
    (hr : writeAllowFail f dest ev = .ok (a, ev')) :
    Inv G0 ev' P ∧ Ext G0 ev ev' ∧ MayBeWritten ev' f dest ∧ (∀ g, g ≠ f → ev'.writes.get? g = ev.writes.get? g) ∧
      ev'.next = ev.next := by
  rw [writeAllowFail_ok] at hr
  subst hr
  unfold MayBeWritten
  split
  · rename_i hd
    exact ⟨h, .refl _ _, (fun h' => by rw [h'] at hd; cases hd), fun _ _ => rfl, rfl⟩
  · refine ⟨{ h with
      writesWf := AMap.wf_insert h.writesWf _ _
      writes := by
        intro p hp
        simp only [AMap.insert, List.mem_cons] at hp
        rcases hp with rfl | hp
        · exact hf
        · exact h.writes p (AMap.mem_erase.1 hp).1 },
      ⟨Nat.le_refl _, rfl, ⟨[], rfl⟩, fun _ p h => ⟨p, h, Or.inl rfl⟩, ⟨[], by simp⟩,
        ⟨[], by simp⟩, fun _ _ h => h, ?_, ⟨[], by simp⟩, fun _ h => Or.inl h⟩, ?_, ?_, rfl⟩
    · intro y w hw
      show (ev.writes.insert f _).get? y = some w
      rw [AMap.get?_insert]
      split
      · next he => subst he; rw [hn] at hw; cases hw
      · exact hw
    · intro _
      show (ev.writes.insert f _).get? f = _
      rw [AMap.get?_insert, if_pos rfl]
    · intro g hg
      show (ev.writes.insert f _).get? g = _
      rw [AMap.get?_insert, if_neg hg]

theorem Spec.MayBeWritten.mono {a b : Eval} {f : FileUuid} {dest : String} (h : MayBeWritten a f dest) (k : Ext G0 a b) :
    MayBeWritten b f dest := by
  intro hd; rw [k.config] at hd; exact k.writes _ _ (h hd)

theorem Spec.Logged.mono {a b : Eval} {root kind name : String} {e : Execution} (h : Logged a root kind name e) (k : Ext G0 a b) :
    Logged b root kind name e := by
  intro hc
  rw [k.config] at hc
  obtain ⟨f, g, h1, h2, h3, h4⟩ := h hc
  exact ⟨f, g, h1, h2, MayBeWritten.mono h3 k, MayBeWritten.mono h4 k⟩

/-- The logs: only the standard output and error change. -/
theorem saveLogs_spec {root kind name : String} {ev ev' : Eval} {P : List Execution} {e e' : Execution}
    (h : Inv G0 ev (e :: P)) (ho : e.stdout = none) (he : e.stderr = none)
    (hr : saveLogs root kind name e ev = .ok (e', ev')) :
    Inv G0 ev' (e' :: P) ∧ Ext G0 ev ev' ∧ Logged ev' root kind name e' ∧
    (∃ x y, e' = { e with stdout := x, stderr := y }) := by
  simp only [saveLogs, bind_ok, look_ok] at hr
  obtain ⟨c, _, ⟨rfl, rfl⟩, hr⟩ := hr
  split at hr
  · rename_i hc
    simp only [bind_ok, pure_ok] at hr
    obtain ⟨⟨f, e1⟩, ev1, h1, u, ev2, h2, ⟨g, e2⟩, ev3, h3, v, ev4, h4, rfl, rfl⟩ := hr
    obtain ⟨rfl, i1, hs⟩ := stderrOf_spec h h1
    rw [he] at hs
    rcases hs with ⟨hs, -⟩ | ⟨-, rfl, rfl⟩
    · cases hs
    have hfw : ev.writes.get? ev.next = none := h.writes_lt (Nat.le_refl _)
    obtain ⟨i2, x2, w2, o2, n2⟩ := writeAllowFail_spec i1 (Or.inr (by simp [outsOf, Execution.outputFiles])) hfw h2
    obtain ⟨rfl, i3, hs⟩ := stdoutOf_spec i2 h3
    simp only [ho] at hs
    rcases hs with ⟨hs, -⟩ | ⟨-, rfl, rfl⟩
    · cases hs
    have hgw : ev2.writes.get? ev2.next = none := i2.writes_lt (Nat.le_refl _)
    obtain ⟨i4, x4, w4, o4, n4⟩ := writeAllowFail_spec i3 (Or.inr (by simp [outsOf, Execution.outputFiles])) hgw h4
    have x3 : Ext G0 ev2 { ev2 with next := ev2.next + 1 } := .ofNext _ _ _ (Nat.le_succ _)
    refine ⟨i4, ((Ext.ofNext _ _ _ (Nat.le_succ _)).trans x2).trans (x3.trans x4), ?_, ⟨_, _, rfl⟩⟩
    intro _
    exact ⟨_, _, rfl, rfl, MayBeWritten.mono w2 (x3.trans x4), w4⟩
  · rename_i hc
    simp only [pure_ok] at hr
    obtain ⟨rfl, rfl⟩ := hr
    refine ⟨h, .refl _ _, ?_, ⟨_, _, rfl⟩⟩
    intro hc'
    exact absurd hc' hc

/-- Copies of files. -/
theorem addCopies_spec {α : Type} {w : World} (R : Eval → FileUuid → α → Prop) (mk : String → α)
    (mono : ∀ {a b : Eval} {f o}, Ext G0 a b → R a f o → R b f o)
    (copy : ∀ {a : Eval} {f path}, CopyOf w.toFS a f path → R a f (mk path)) {ds : List DepSpec} :
    ∀ {E : String → α → Prop} {ev ev' : Eval} {P : List Execution} {e e' : Execution}, Inv G0 ev (e :: P) →
    InputsAre (R ev) E e → (∀ d ∈ ds, d.executable = false) →
    eachWith (addDep w.toFS) ds e ev = .ok (e', ev') →
    Inv G0 ev' (e' :: P) ∧ Ext G0 ev ev' ∧ OnlyInputs e e' ∧
    InputsAre (R ev') (fun p o => E p o ∨ ∃ d ∈ ds, p = d.sandboxPath ∧ o = mk d.localPath) e' := by
  induction ds with
  | nil =>
    intro E ev ev' P e e' h hi _ hr
    simp only [eachWith, pure_ok] at hr
    obtain ⟨rfl, rfl⟩ := hr
    exact ⟨h, .refl _ _, rfl, hi.congr rfl (by simp)⟩
  | cons d ds ih =>
    intro E ev ev' P e e' h hi hx hr
    simp only [eachWith, bind_ok] at hr
    obtain ⟨e1, ev1, h1, h2⟩ := hr
    obtain ⟨a1, a2, -, a4, a5, -⟩ := addDep_spec h h1
    rw [hx d List.mem_cons_self] at a4
    have hc : CopyOf w.toFS ev1 ev.next d.localPath := a5.copy
    have hi1 := (hi.mono (fun _ _ => mono a2)).add (copy hc) d.sandboxPath
    rw [← a4] at hi1
    obtain ⟨b1, b2, b3, b4⟩ := ih a1 hi1 (fun d' hd' => hx d' (List.mem_cons_of_mem _ hd')) h2
    refine ⟨b1, a2.trans b2, ?_, b4.congr rfl ?_⟩
    · have : OnlyInputs e e1 := by rw [a4]; rfl
      exact this.trans b3
    · intro p o
      simp only [List.mem_cons]
      constructor
      · rintro ((h | h) | ⟨d', hd', h⟩)
        · exact Or.inl h
        · exact Or.inr ⟨d, Or.inl rfl, h⟩
        · exact Or.inr ⟨d', Or.inr hd', h⟩
      · rintro (h | ⟨d', rfl | hd', h⟩)
        · exact Or.inl (Or.inl h)
        · exact Or.inl (Or.inr h)
        · exact Or.inr ⟨d', hd', h⟩

/-! ## Asymptote -/

theorem Spec.Draws.mono {w : World} {root booklet src : String} {a b : Eval} {f : FileUuid} {e : Execution}
    (h : Draws w root a booklet src f e) (k : Ext G0 a b) : Draws w root b booklet src f e := by
  obtain ⟨h1, h2, h3, h4, h5, h6, h7, h8, h9, h10, h11, h12, h13, h14⟩ := h
  exact ⟨k.mem_exec h1, h2, h3, h4.mono (fun _ _ hc => CopyOf.mono hc k), h5, h6, h7, h8, h9, h10, h11,
    k.mem_handler h12, k.mem_handler h13, Logged.mono h14 k⟩

theorem Spec.Crops.mono {w : World} {booklet src : String} {a b : Eval} {g f : FileUuid} {e : Execution}
    (h : Crops w a booklet src g f e) (k : Ext G0 a b) : Crops w b booklet src g f e := by
  obtain ⟨h1, h2, h3, h4, h5, h6, h7, h8, h9, h10, h11, h12, h13⟩ := h
  exact ⟨k.mem_exec h1, h2, h3, h4, h5, h6, h7, h8, h9, h10, h11, k.mem_handler h12, k.mem_handler h13⟩

theorem Spec.Holds.mono {w : World} {root booklet : String} {a b : Eval} {f : FileUuid} {o : Origin}
    (h : Holds w root a booklet f o) (k : Ext G0 a b) : Holds w root b booklet f o := by
  cases o with
  | text t =>
    obtain ⟨p, h3, h4⟩ := k.provided _ _ h
    rcases h4 with rfl | h4
    · exact h3
    · exact h4.elim
  | copy path => exact CopyOf.mono h k
  | picture src =>
    obtain ⟨g, e1, e2, h1, h2⟩ := h
    exact ⟨g, e1, e2, h1.mono k, h2.mono k⟩

theorem out_mem {ev : Eval} {e : Execution} {path : String} {f : FileUuid} (he : e ∈ DagSpec.allExecs ev.dag)
    (ho : e.outputs = [(path, f)]) : f ∈ DagSpec.allFiles ev.dag := by
  rw [mem_allFiles]
  left
  obtain ⟨p, hp, hep⟩ := List.mem_flatMap.1 he
  refine List.mem_flatMap.2 ⟨p, hp, ?_⟩
  simp only [ExecutionGroup.outs, List.mem_flatMap]
  exact ⟨e, hep, by simp [Execution.outputFiles, ho]⟩

theorem Spec.Holds.mem {w : World} {root booklet : String} {a : Eval} {f : FileUuid} {o : Origin}
    (h : Holds w root a booklet f o) : f ∈ DagSpec.allFiles a.dag := by
  cases o with
  | text t => exact mem_allFiles.2 (Or.inr (AMap.mem_keys_iff.2 ⟨_, h⟩))
  | copy path => exact CopyOf.mem h
  | picture src =>
    obtain ⟨g, e1, e2, h1, h2⟩ := h
    exact out_mem h2.1 h2.2.2.2.2.1

end TM.Booklet
