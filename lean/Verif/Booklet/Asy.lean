import Verif.Booklet.Lemmas
/-!
# The executions of a picture
-/
namespace TM.Booklet
open TM TM.Build TM.Text DagSpec Build.Spec Spec

theorem ext_next {G : FileUuid → Prop} {ev ev' : Eval} {A B C : Prop}
    (h : (A ∧ ev' = ev) ∨ (B ∧ C ∧ ev' = { ev with next := ev.next + 1 })) : Ext G ev ev' := by
  rcases h with ⟨_, rfl⟩ | ⟨_, _, rfl⟩
  · exact .refl _ _
  · exact .ofNext _ _ _ (Nat.le_succ _)

theorem asyDeps_plain (w : World) (src : String) : ∀ d ∈ asyDeps w src, d.executable = false := by
  intro d hd
  simp only [asyDeps, List.mem_map] at hd
  obtain ⟨_, _, rfl⟩ := hd
  rfl

theorem asyCompile_spec {w : World} {root booklet src : String} {ev ev' : Eval} {P : List Execution} {g : FileUuid}
    (h : Inv G0 ev P) (hr : asyCompile w root booklet src ev = .ok (g, ev')) :
    Inv G0 ev' P ∧ Ext G0 ev ev' ∧ ∃ comp, Draws w root ev' booklet src g comp := by
  simp only [asyCompile, bind_ok, fresh_ok, pure_ok, bindCallbacks_ok, onExec_ok] at hr
  obtain ⟨_, _, ⟨rfl, rfl⟩, comp, ev1, h1, _, ev2, h2, _, ev3, rfl, e1, ev4, h4, ⟨g', e2⟩, ev5, h5, e3, ev6, h6, e4, ev7, h7,
    _, ev8, rfl, _, ev9, h9, rfl, rfl⟩ := hr
  obtain ⟨hn1, hn2, hn3⟩ := h.fresh_not_provided
  obtain ⟨rfl, rfl, i1⟩ := newExecution_spec h.fresh h1
  simp only [provideFile_ok] at h2
  obtain ⟨k, hk, rfl⟩ := h2
  have i1' := i1.other (e' := {
      uuid := ev.next + 1
      command := .system "asy"
      limits := asyLimits w
      args := ["-f", "pdf", "-localhistory", "tm-compilation.asy"]
      tag := some "booklet" })
    rfl rfl rfl rfl rfl rfl rfl rfl
  have i2 := i1'.provide ev.next ⟨k, none, some src⟩ (Nat.lt_succ_of_lt (Nat.lt_succ_self _)) hn2
    (by simpa [outsOf, Execution.outputFiles] using hn3)
  have x2 : Ext G0 ev { ev with next := ev.next + 1 + 1, dag := ev.dag.provide ev.next ⟨k, none, some src⟩ } :=
    (Ext.ofNext G0 ev (ev.next + 1 + 1) (Nat.le_of_lt (Nat.lt_succ_of_lt (Nat.lt_succ_self _)))).trans
      (Ext.provide (ev := { ev with next := ev.next + 1 + 1 }) (Or.inl hn1))
  have i3 := i2.input (f := ev.next) (provide_allFiles.2 (Or.inl rfl)) "tm-compilation.asy" false
  have i4 := i3.onExec (u := ev.next + 1) mem_execUuids_head
    (.report (.bookletDependency booklet (String.ofList (fileName src.toList)) 0))
    (ev.pending ++ [.bookletDependency booklet (String.ofList (fileName src.toList)) 0])
  have x4 := x2.trans (Ext.onExec G0
    { ev with next := ev.next + 1 + 1, dag := ev.dag.provide ev.next ⟨k, none, some src⟩ } (ev.next + 1)
    (.report (.bookletDependency booklet (String.ofList (fileName src.toList)) 0))
    [.bookletDependency booklet (String.ofList (fileName src.toList)) 0])
  have hc : CopyOf w.toFS { ev with
      next := ev.next + 1 + 1
      dag := ev.dag.provide ev.next ⟨k, none, some src⟩
      handlers := ev.handlers ++ [(ev.next + 1, .report (.bookletDependency booklet (String.ofList (fileName src.toList)) 0))]
      pending := ev.pending ++ [.bookletDependency booklet (String.ofList (fileName src.toList)) 0] } ev.next src :=
    ⟨k, hk, by simp [DagData.provide]⟩
  obtain ⟨i5, x5, o5, p5⟩ := addCopies_spec (w := w) (fun a f (o : String) => CopyOf w.toFS a f o) id
    (fun k h => CopyOf.mono h k) (fun h => h)
    (E := fun p o => p = "tm-compilation.asy" ∧ o = src) i4 (by
      refine ⟨fun p i hi => ?_, fun p o ho => ?_⟩
      · rw [get?_addInput] at hi
        split at hi
        · cases hi
          exact ⟨rfl, src, ⟨by assumption, rfl⟩, hc⟩
        · cases hi
      · rw [get?_addInput, if_pos ho.1]
        exact ⟨_, rfl⟩) (asyDeps_plain w src) h4
  unfold OnlyInputs at o5
  obtain ⟨rfl, rfl, rfl, i6⟩ := outputOf_spec i5 (by rw [o5]; rfl) h5
  obtain ⟨i7, x7, l7, sx, sy, rfl⟩ := saveLogs_spec i6 (by rw [o5]; rfl) (by rw [o5]; rfl) h6
  obtain ⟨fe, rfl, i8, hs⟩ := captureStderr_spec i7 h7
  have x8 := ext_next (G := G0) hs
  have i9 := i8.onExec (u := e1.uuid) mem_execUuids_head
    (.failureDiagnostic (.bookletDependency booklet (String.ofList (fileName src.toList)) 0)) ev7.pending
  have x9 := Ext.onExec G0 ev7 e1.uuid
    (.failureDiagnostic (.bookletDependency booklet (String.ofList (fileName src.toList)) 0)) []
  simp only [List.append_nil] at x9
  obtain ⟨i10, x10, m10, -, -, hh, -⟩ := addExec_spec i9 h9
  have x6 : Ext G0 ev4 { ev4 with next := ev4.next + 1 } := .ofNext _ _ _ (Nat.le_succ _)
  have x68 := (x6.trans x7).trans x8
  have hu : e1.uuid = ev.next + 1 := by rw [o5]; rfl
  refine ⟨i10, (((x4.trans x5).trans x68).trans x9).trans x10, _, m10, ?_, ?_, ?_, ?_, ?_, ?_, ?_, ?_, ?_, rfl, ?_, ?_, ?_⟩
  · rw [o5]; rfl
  · rw [o5]; rfl
  · refine (p5.mono (fun _ _ hc => CopyOf.mono hc ((x68.trans x9).trans x10))).congr rfl ?_
    intro p o
    constructor
    · rintro (⟨rfl, rfl⟩ | ⟨d, hd, rfl, rfl⟩)
      · exact .source
      · simp only [asyDeps, List.mem_map, List.mem_filter, decide_eq_true_eq] at hd
        obtain ⟨f, ⟨h1, h2⟩, rfl⟩ := hd
        exact .sibling h1 h2
    · rintro (_ | ⟨hf, hne⟩)
      · exact Or.inl ⟨rfl, rfl⟩
      · refine Or.inr ⟨_, List.mem_map.2 ⟨_, List.mem_filter.2 ⟨hf, by simpa using hne⟩, rfl⟩, rfl, rfl⟩
  · show (_ :: e1.outputs) = _
    rw [o5]; rfl
  · rw [o5]; rfl
  · rw [o5]; rfl
  · rw [o5]; rfl
  · rw [o5]; rfl
  · rw [o5]; rfl
  · show (e1.uuid, _) ∈ _
    rw [hu]
    refine (((x5.trans x68).trans x9).trans x10).mem_handler ?_
    exact List.mem_append.2 (Or.inr (List.mem_singleton.2 rfl))
  · refine x10.mem_handler ?_
    exact List.mem_append.2 (Or.inr (List.mem_singleton.2 rfl))
  · have := Logged.mono l7 ((x8.trans x9).trans x10)
    intro hcl
    obtain ⟨f, g, h1, h2, h3, h4⟩ := this hcl
    have h1 : sy = some f := h1
    have : fe = f := by
      subst h1
      rcases hs with ⟨h5, _⟩ | ⟨h5, _⟩
      · simpa using h5.symm
      · cases h5
    subst this
    exact ⟨fe, g, rfl, h2, h3, h4⟩

theorem asyCrop_spec {w : World} {booklet src : String} {ev ev' : Eval} {P : List Execution} {g f : FileUuid}
    (h : Inv G0 ev P) (hg : g ∈ DagSpec.allFiles ev.dag) (hr : asyCrop w booklet src g ev = .ok (f, ev')) :
    Inv G0 ev' P ∧ Ext G0 ev ev' ∧ ∃ crop, Crops w ev' booklet src g f crop := by
  simp only [asyCrop, bind_ok, pure_ok, bindCallbacks_ok, onExec_ok] at hr
  obtain ⟨crop, ev1, h1, _, ev2, rfl, ⟨g', e2⟩, ev5, h5, e3, ev6, h6, _, ev8, rfl, _, ev9, h9, rfl, rfl⟩ := hr
  obtain ⟨rfl, rfl, i1⟩ := newExecution_spec h h1
  have i1' := i1.other (e' := {
      uuid := ev.next
      command := .system "pdfcrop"
      limits := cropLimits w
      args := ["source.pdf"]
      tag := some "booklet" })
    rfl rfl rfl rfl rfl rfl rfl rfl
  have i3 := i1'.input hg "source.pdf" false
  have i4 := i3.onExec (u := ev.next) mem_execUuids_head
    (.report (.bookletDependency booklet (String.ofList (fileName src.toList)) 1))
    (ev.pending ++ [.bookletDependency booklet (String.ofList (fileName src.toList)) 1])
  have x4 := (Ext.ofNext G0 ev (ev.next + 1) (Nat.le_succ _)).trans (Ext.onExec G0
    { ev with next := ev.next + 1 } ev.next
    (.report (.bookletDependency booklet (String.ofList (fileName src.toList)) 1))
    [.bookletDependency booklet (String.ofList (fileName src.toList)) 1])
  obtain ⟨rfl, rfl, rfl, i6⟩ := outputOf_spec i4 rfl h5
  obtain ⟨fe, rfl, i8, hs⟩ := captureStderr_spec i6 h6
  have x8 := ext_next (G := G0) hs
  have i9 := i8.onExec (u := ev.next) mem_execUuids_head
    (.failureDiagnostic (.bookletDependency booklet (String.ofList (fileName src.toList)) 1)) ev6.pending
  have x9 := Ext.onExec G0 ev6 ev.next
    (.failureDiagnostic (.bookletDependency booklet (String.ofList (fileName src.toList)) 1)) []
  simp only [List.append_nil] at x9
  obtain ⟨i10, x10, m10, -, -, hh, -⟩ := addExec_spec i9 h9
  have x6 := Ext.trans (Ext.ofNext G0 _ _ (Nat.le_succ _)) x8
  refine ⟨i10, ((x4.trans x6).trans x9).trans x10, _, m10, rfl, rfl, rfl, rfl, rfl, rfl, rfl, rfl, rfl, rfl, ?_, ?_⟩
  · refine ((x6.trans x9).trans x10).mem_handler ?_
    exact List.mem_append.2 (Or.inr (List.mem_singleton.2 rfl))
  · refine x10.mem_handler ?_
    exact List.mem_append.2 (Or.inr (List.mem_singleton.2 rfl))

theorem compileAsy_spec {w : World} {root booklet src : String} {ev ev' : Eval} {P : List Execution} {f : FileUuid}
    (h : Inv G0 ev P) (hr : compileAsy w root booklet src ev = .ok (f, ev')) :
    Inv G0 ev' P ∧ Ext G0 ev ev' ∧ Holds w root ev' booklet f (.picture src) := by
  simp only [compileAsy, bind_ok] at hr
  obtain ⟨g, ev1, h1, h2⟩ := hr
  obtain ⟨i1, x1, comp, d1⟩ := asyCompile_spec h h1
  obtain ⟨i2, x2, crop, d2⟩ := asyCrop_spec i1 (out_mem d1.1 d1.2.2.2.2.1) h2
  exact ⟨i2, x1.trans x2, g, comp, crop, d1.mono x2, d2⟩

end TM.Booklet
