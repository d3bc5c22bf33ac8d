import Verif.Booklet.Deps
import Verif.Booklet.Trace
/-!
# The whole booklet
-/
namespace TM.Booklet
open TM TM.Build TM.Text DagSpec Build.Spec Spec

theorem provideText_ok {w : World} {f : FileUuid} {t : Text} {ev ev' : Eval} {a : Unit} :
    provideText w f t ev = .ok (a, ev') ↔
      ev' = { ev with dag := ev.dag.provide f ⟨w.hash (bytesOf t), some (bytesOf t), none⟩ } := by
  unfold provideText provideContent
  rw [upd_ok]
  exact eq_comm

/-- The files of a statement are added to the sandbox. -/
theorem foldInputs_spec {w : World} {root booklet name : String} {ev : Eval} {P : List Execution}
    {deps : List (String × FileUuid)} (hd : ∀ d ∈ deps, ∃ o, Holds w root ev booklet d.2 o) :
    ∀ {e : Execution}, Inv G0 ev (e :: P) →
    Inv G0 ev (deps.foldl (fun e d => addInput e d.2 (name ++ "/" ++ d.1) false) e :: P) ∧
    OnlyInputs e (deps.foldl (fun e d => addInput e d.2 (name ++ "/" ++ d.1) false) e) := by
  induction deps with
  | nil => intro e h; exact ⟨h, rfl⟩
  | cons d ds ih =>
    intro e h
    obtain ⟨o, ho⟩ := hd d List.mem_cons_self
    obtain ⟨a, b⟩ := ih (fun d' hd' => hd d' (List.mem_cons_of_mem _ hd')) (h.input ho.mem (name ++ "/" ++ d.1) false)
    refine ⟨a, OnlyInputs.trans ?_ b⟩
    rfl

theorem foldInputs_are {w : World} {root booklet name : String} {ev : Eval}
    {deps : List (String × FileUuid)} {F : String → Origin → Prop}
    (hd : ∀ d ∈ deps, ∃ o, F d.1 o ∧ Holds w root ev booklet d.2 o) :
    ∀ {e : Execution} {E : String → Origin → Prop}, InputsAre (Holds w root ev booklet) E e →
    InputsAre (Holds w root ev booklet)
      (fun p o => E p o ∨ ∃ d ∈ deps, p = name ++ "/" ++ d.1 ∧ F d.1 o ∧ Holds w root ev booklet d.2 o)
      (deps.foldl (fun e d => addInput e d.2 (name ++ "/" ++ d.1) false) e) := by
  induction deps with
  | nil => intro e E h; exact h.congr rfl (by simp)
  | cons d ds ih =>
    intro e E h
    obtain ⟨o, ho, hh⟩ := hd d List.mem_cons_self
    have h1 := h.add hh (name ++ "/" ++ d.1)
    have h2 := ih (fun d' hd' => hd d' (List.mem_cons_of_mem _ hd')) h1
    refine ⟨fun p i hi => ?_, fun p x hx => ?_⟩
    · obtain ⟨a, x, hx, hp⟩ := h2.1 p i hi
      refine ⟨a, x, ?_, hp⟩
      rcases hx with (hx | ⟨rfl, rfl⟩) | ⟨d', hd', hx⟩
      · exact Or.inl hx
      · exact Or.inr ⟨d, List.mem_cons_self, rfl, ho, hh⟩
      · exact Or.inr ⟨d', List.mem_cons_of_mem _ hd', hx⟩
    · rcases hx with hx | ⟨d', hd', hx⟩
      · exact h2.2 p x (Or.inl (Or.inl hx))
      · rcases List.mem_cons.1 hd' with rfl | hd'
        · exact h2.2 p o (Or.inl (Or.inr ⟨hx.1, rfl⟩))
        · exact h2.2 p x (Or.inr ⟨d', hd', hx⟩)

/-- The files of the sandbox that are there because of a statement. -/
def OfStatement (w : World) (logo : Option String) (s : Statement) (p : String) (o : Origin) : Prop :=
  (p = s.name ++ "/statement.tex" ∧ o = .text (statementTex s.heading s.content)) ∨
  ∃ f, p = s.name ++ "/" ++ f ∧ Needed w logo s f o

theorem addStatement_spec {w : World} {root : String} {b : Booklet} {s : Statement} {ev ev' : Eval} {P : List Execution}
    {e e' : Execution} {E : String → Origin → Prop} (h : Inv G0 ev (e :: P)) (hi : InputsAre (Holds w root ev b.name) E e)
    (hr : addStatement w root b e s ev = .ok (e', ev')) :
    Inv G0 ev' (e' :: P) ∧ Ext G0 ev ev' ∧ OnlyInputs e e' ∧
    InputsAre (Holds w root ev' b.name) (fun p o => E p o ∨ OfStatement w b.logo s p o) e' := by
  simp only [addStatement, bind_ok, fresh_ok, provideText_ok, pure_ok] at hr
  obtain ⟨_, _, ⟨rfl, rfl⟩, _, ev1, rfl, deps, ev2, h2, rfl, rfl⟩ := hr
  obtain ⟨i1, x1, m1⟩ := h.provideFresh ⟨w.hash (bytesOf (statementTex s.heading s.content)),
    some (bytesOf (statementTex s.heading s.content)), none⟩
  have i2 := i1.input m1 (s.name ++ "/statement.tex") false
  obtain ⟨i3, x3, mk⟩ := buildDeps_spec i2 h2
  have t1 : Holds w root { ev with
      next := ev.next + 1
      dag := ev.dag.provide ev.next ⟨w.hash (bytesOf (statementTex s.heading s.content)),
        some (bytesOf (statementTex s.heading s.content)), none⟩ } b.name ev.next
      (.text (statementTex s.heading s.content)) := by
    simp [Holds, DagData.provide]
  have p1 := ((hi.mono (fun _ _ hh => hh.mono x1)).add t1 (s.name ++ "/statement.tex")).mono (fun _ _ hh => hh.mono x3)
  have p2 := foldInputs_are (name := s.name) mk.1 p1
  obtain ⟨i4, o4⟩ := foldInputs_spec (name := s.name) (fun d hd => (mk.1 d hd).imp fun _ ho => ho.2) i3
  refine ⟨i4, x1.trans x3, OnlyInputs.trans (show OnlyInputs e (addInput e ev.next (s.name ++ "/statement.tex") false) from rfl) o4, ⟨fun p i hi => ?_, fun p x hx => ?_⟩⟩
  · obtain ⟨a, x, hx, hp⟩ := p2.1 p i hi
    refine ⟨a, x, ?_, hp⟩
    rcases hx with (hx | hx) | ⟨d, hd, rfl, hn, -⟩
    · exact Or.inl hx
    · exact Or.inr (Or.inl hx)
    · exact Or.inr (Or.inr ⟨_, rfl, hn⟩)
  · rcases hx with hx | hx | ⟨f, rfl, hn⟩
    · exact p2.2 p x (Or.inl (Or.inl hx))
    · exact p2.2 p x (Or.inl (Or.inr hx))
    · obtain ⟨d, hd, rfl⟩ := mk.2 f x hn
      obtain ⟨o, ho⟩ := mk.1 d hd
      exact p2.2 _ o (Or.inr ⟨d, hd, rfl, ho⟩)

theorem addStatements_spec {w : World} {root : String} {b : Booklet} {ss : List Statement} :
    ∀ {ev ev' : Eval} {P : List Execution} {e e' : Execution} {E : String → Origin → Prop}, Inv G0 ev (e :: P) →
    InputsAre (Holds w root ev b.name) E e → eachWith (addStatement w root b) ss e ev = .ok (e', ev') →
    Inv G0 ev' (e' :: P) ∧ Ext G0 ev ev' ∧ OnlyInputs e e' ∧
    InputsAre (Holds w root ev' b.name) (fun p o => E p o ∨ ∃ s ∈ ss, OfStatement w b.logo s p o) e' := by
  induction ss with
  | nil =>
    intro ev ev' P e e' E h hi hr
    simp only [eachWith, pure_ok] at hr
    obtain ⟨rfl, rfl⟩ := hr
    exact ⟨h, .refl _ _, rfl, hi.congr rfl (by simp)⟩
  | cons s ss ih =>
    intro ev ev' P e e' E h hi hr
    simp only [eachWith, bind_ok] at hr
    obtain ⟨e1, ev1, h1, h2⟩ := hr
    obtain ⟨a1, a2, a3, a4⟩ := addStatement_spec h hi h1
    obtain ⟨b1, b2, b3, b4⟩ := ih a1 a4 h2
    refine ⟨b1, a2.trans b2, a3.trans b3, b4.congr rfl ?_⟩
    intro p o
    simp only [List.mem_cons]
    constructor
    · rintro ((h | h) | ⟨d', hd', h⟩)
      · exact Or.inl h
      · exact Or.inr ⟨s, Or.inl rfl, h⟩
      · exact Or.inr ⟨d', Or.inr hd', h⟩
    · rintro (h | ⟨d', rfl | hd', h⟩)
      · exact Or.inl (Or.inl h)
      · exact Or.inl (Or.inr h)
      · exact Or.inr ⟨d', hd', h⟩

theorem Spec.Compiles.mono {w : World} {root : String} {a b : Eval} {k : Booklet} {e : Execution}
    (h : Compiles w root a k e) (x : Ext G0 a b) : Compiles w root b k e := by
  obtain ⟨h1, h2, h3, h4, ⟨f, h5, h5'⟩, h6, h7, h8, h9, h10, h11, h12, h13, h14, h15, h16⟩ := h
  exact ⟨x.mem_exec h1, h2, h3, h4.mono (fun _ _ hc => hc.mono x), ⟨f, h5, MayBeWritten.mono h5' x⟩, h6, h7, h8, h9, h10, h11,
    h12, h13, x.mem_handler h14, x.mem_handler h15, Logged.mono h16 x⟩

theorem build_spec {w : World} {root : String} {b : Booklet} {ev ev' : Eval} {P : List Execution} {a : Unit} (h : Inv G0 ev P)
    (hr : Booklet.build w root b ev = .ok (a, ev')) :
    Inv G0 ev' P ∧ Ext G0 ev ev' ∧ ∃ e, Compiles w root ev' b e := by
  simp only [Booklet.build, Booklet.compile, bind_ok, fresh_ok, provideText_ok, bindCallbacks_ok, onExec_ok, pure_ok] at hr
  obtain ⟨_, _, ⟨exec, ev1, h1, ⟨out, e2⟩, ev2, h2, _, _, ⟨rfl, rfl⟩, _, ev3, rfl, e4, ev4, h4, e5, ev5, h5, _, ev6, rfl, e7, ev7,
    h7, e8, ev8, h8, _, ev9, rfl, _, ev10, h10, rfl, rfl⟩, h11⟩ := hr
  obtain ⟨rfl, rfl, i1⟩ := newExecution_spec h h1
  have i1' := i1.other (e' := {
      uuid := ev.next
      command := .system "latexmk"
      limits := latexLimits
      args := ["-shell-escape", "-f", "-interaction=nonstopmode", "-pdf", "booklet.tex"]
      tag := some "booklet"
      priority := BOOKLET_PRIORITY })
    rfl rfl rfl rfl rfl rfl rfl rfl
  obtain ⟨rfl, rfl, rfl, i2⟩ := outputOf_spec i1' rfl h2
  obtain ⟨i3, x3, m3⟩ := i2.provideFresh ⟨w.hash (bytesOf b.tex), some (bytesOf b.tex), none⟩
  have i4 := i3.input m3 "booklet.tex" false
  have x0 : Ext G0 ev { ev with next := ev.next + 1 + 1 } :=
    Ext.ofNext G0 ev (ev.next + 1 + 1) (Nat.le_of_lt (Nat.lt_succ_of_lt (Nat.lt_succ_self _)))
  have t3 : Holds w root { ev with
      next := ev.next + 1 + 1 + 1
      dag := ev.dag.provide (ev.next + 1 + 1) ⟨w.hash (bytesOf b.tex), some (bytesOf b.tex), none⟩ } b.name (ev.next + 1 + 1)
      (.text b.tex) := by
    simp [Holds, DagData.provide]
  obtain ⟨i5, x5, o5, p5⟩ := addStatements_spec (E := fun p o => p = "booklet.tex" ∧ o = .text b.tex) i4 (by
      refine ⟨fun p i hi => ?_, fun p o ho => ?_⟩
      · rw [get?_addInput] at hi
        split at hi
        · cases hi
          exact ⟨rfl, _, ⟨by assumption, rfl⟩, t3⟩
        · cases hi
      · rw [get?_addInput, if_pos ho.1]
        exact ⟨_, rfl⟩) h4
  obtain ⟨i6, x6, o6, p6⟩ := addCopies_spec (w := w) (Holds w root · b.name) Origin.copy
    (fun k h => h.mono k) (fun h => h) i5 p5 (by
      intro d hd
      simp only [templates, List.mem_map] at hd
      obtain ⟨_, _, rfl⟩ := hd
      rfl) h5
  have o := OnlyInputs.trans o5 o6
  unfold OnlyInputs at o
  have i7 := i6.onExec (u := e5.uuid) mem_execUuids_head (.report (.booklet b.name)) (ev5.pending ++ [.booklet b.name])
  have x7 := Ext.onExec G0 ev5 e5.uuid (.report (.booklet b.name)) [.booklet b.name]
  obtain ⟨i8, x8, l8, sx, sy, rfl⟩ := saveLogs_spec i7 (by rw [o]; rfl) (by rw [o]; rfl) h7
  obtain ⟨fo, rfl, i9, hs⟩ := captureStdout_spec i8 h8
  have x9 := ext_next (G := G0) hs
  have i10 := i9.onExec (u := e5.uuid) mem_execUuids_head (.latexErrors b.name) ev8.pending
  have x10 := Ext.onExec G0 ev8 e5.uuid (.latexErrors b.name) []
  simp only [List.append_nil] at x10
  obtain ⟨i11, x11, m11, f11, -, -, -, -, w11, -⟩ := addExec_spec i10 h10
  have hout : e5.outputs = [("booklet.pdf", ev.next + 1)] := by rw [o]; rfl
  -- the output has no destination yet
  have hnw : ∀ {z : Eval}, z.writes = ev8.writes → z.writes.get? (ev.next + 1) = none := by
    intro z hz
    rw [hz]
    have b3 : Bounded { ev with
        next := ev.next + 1 + 1 + 1
        dag := ev.dag.provide (ev.next + 1 + 1) ⟨w.hash (bytesOf b.tex), some (bytesOf b.tex), none⟩ } := i4.boundG
    obtain ⟨b4, n4, w4, -⟩ := Does.eachWith (fun x s _ hx => addStatement_does w root b _ x hx s) _
      ⟨rfl, rfl, rfl, rfl⟩ _ _ _ b3 h4
    obtain ⟨b5, n5, w5, -⟩ := addDeps_does w.toFS (templates w) e4 _ _ _ b4 h5
    obtain ⟨b7, n7, w7, -⟩ := saveLogs_does root "booklets" b.name e5 (by rw [o]; rfl) (by rw [o]; rfl) _ _ _ i7.boundG h7
    obtain ⟨b8, n8, w8, -⟩ := captureStdout_does _ _ _ _ _ b7 h8
    have l3 : ev.next + 1 < ev.next + 1 + 1 + 1 := Nat.lt_succ_of_lt (Nat.lt_succ_self _)
    have l4 := Nat.lt_of_lt_of_le l3 n4
    have l5 := Nat.lt_of_lt_of_le l4 n5
    have l7 := Nat.lt_of_lt_of_le l5 n7
    rw [w8 _ l7, w7 _ l5]
    show ev5.writes.get? _ = none
    rw [w5 _ l4, w4 _ l3]
    exact h.writes_lt (Nat.le_succ _)
  obtain ⟨i12, x12, mw, -, -⟩ := writeAllowFail_spec i11 (Or.inl (f11 _ (by simp [Execution.outputFiles, hout])))
    (hnw w11) h11
  have xa := ((x7.trans x8).trans x9).trans ((x10.trans x11).trans x12)
  refine ⟨i12, (((x0.trans x3).trans x5).trans x6).trans xa, _, x12.mem_exec m11, ?_, ?_, ?_, ⟨ev.next + 1, hout, mw⟩, ?_, ?_, ?_, ?_, ?_,
    ?_, ?_, rfl, ?_, ?_, ?_⟩
  · rw [o]; rfl
  · rw [o]; rfl
  · refine (p6.mono (fun _ _ hc => hc.mono xa)).congr rfl ?_
    intro p q
    constructor
    · rintro ((⟨rfl, rfl⟩ | ⟨s, hs, ⟨rfl, rfl⟩ | ⟨f, rfl, hn⟩⟩) | ⟨d, hd, rfl, rfl⟩)
      · exact .booklet
      · exact .statement hs
      · exact .needed hs hn
      · simp only [templates, List.mem_map] at hd
        obtain ⟨f, hf, rfl⟩ := hd
        exact .template hf
    · rintro (_ | ⟨hs⟩ | ⟨hs, hn⟩ | ⟨hf⟩)
      · exact Or.inl (Or.inl ⟨rfl, rfl⟩)
      · exact Or.inl (Or.inr ⟨_, hs, Or.inl ⟨rfl, rfl⟩⟩)
      · exact Or.inl (Or.inr ⟨_, hs, Or.inr ⟨_, rfl, hn⟩⟩)
      · exact Or.inr ⟨_, List.mem_map.2 ⟨_, hf, rfl⟩, rfl, rfl⟩
  · rw [o]; rfl
  · rw [o]; rfl
  · rw [o]; rfl
  · rw [o]; rfl
  · rw [o]; rfl
  · rw [o]; rfl
  · rw [o]; rfl
  · refine (((x8.trans x9).trans ((x10.trans x11).trans x12))).mem_handler ?_
    exact List.mem_append.2 (Or.inr (List.mem_singleton.2 rfl))
  · refine (x11.trans x12).mem_handler ?_
    exact List.mem_append.2 (Or.inr (List.mem_singleton.2 rfl))
  · have := Logged.mono l8 (x9.trans ((x10.trans x11).trans x12))
    intro hcl
    obtain ⟨f, g, h1, h2, h3, h4⟩ := this hcl
    have h2 : sx = some g := h2
    have : fo = g := by
      subst h2
      rcases hs with ⟨h5, _⟩ | ⟨h5, _⟩
      · simpa using h5.symm
      · cases h5
    subst this
    exact ⟨f, fo, h1, rfl, h3, h4⟩

end TM.Booklet
