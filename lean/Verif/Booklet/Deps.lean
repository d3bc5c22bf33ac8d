import Verif.Booklet.Asy
/-!
# The files of a statement
-/
namespace TM.Booklet
open TM TM.Build TM.Text DagSpec Build.Spec Spec

theorem contains_iff (t p : Text) : contains t p = true ↔ ∃ x y, t = x ++ p ++ y := by
  induction t with
  | nil =>
    simp only [contains, List.isEmpty_iff]
    constructor
    · rintro rfl; exact ⟨[], [], rfl⟩
    · rintro ⟨x, y, h⟩
      have := congrArg List.length h
      simp only [List.length_nil, List.length_append] at this
      exact List.length_eq_zero_iff.1 (by omega)
  | cons c cs ih =>
    simp only [contains, Bool.or_eq_true, List.isPrefixOf_iff_prefix, ih]
    constructor
    · rintro (⟨y, h⟩ | ⟨x, y, h⟩)
      · exact ⟨[], y, h.symm⟩
      · exact ⟨c :: x, y, by rw [h]; rfl⟩
    · rintro ⟨x, y, h⟩
      cases x with
      | nil => exact Or.inl ⟨y, h.symm⟩
      | cons d x =>
        simp only [List.cons_append, List.cons.injEq] at h
        exact Or.inr ⟨x, y, h.2⟩

/-- The dependencies found, for the files in `E`. -/
def Made (w : World) (root : String) (ev : Eval) (booklet : String) (deps : List (String × FileUuid))
    (E : String → Origin → Prop) : Prop :=
  (∀ d ∈ deps, ∃ o, E d.1 o ∧ Holds w root ev booklet d.2 o) ∧ ∀ p o, E p o → ∃ d ∈ deps, d.1 = p

theorem Made.congr {w : World} {root : String} {ev ev' : Eval} {booklet : String} {deps : List (String × FileUuid)}
    {E F : String → Origin → Prop} (h : Made w root ev booklet deps E) (k : Ext G0 ev ev') (e : ∀ p o, E p o ↔ F p o) :
    Made w root ev' booklet deps F :=
  ⟨fun d hd => (h.1 d hd).imp fun _ ho => ⟨(e _ _).1 ho.1, ho.2.mono k⟩, fun p o ho => h.2 p o ((e _ _).2 ho)⟩

theorem Made.snoc {w : World} {root : String} {ev : Eval} {booklet : String} {deps : List (String × FileUuid)}
    {E : String → Origin → Prop} (h : Made w root ev booklet deps E) {f : FileUuid} {o : Origin}
    (hf : Holds w root ev booklet f o) (path : String) :
    Made w root ev booklet (deps ++ [(path, f)]) (fun p x => E p x ∨ (p = path ∧ x = o)) := by
  constructor
  · intro d hd
    rcases List.mem_append.1 hd with hd | hd
    · exact (h.1 d hd).imp fun _ ho => ⟨Or.inl ho.1, ho.2⟩
    · rw [List.mem_singleton] at hd
      subst hd
      exact ⟨o, Or.inr ⟨rfl, rfl⟩, hf⟩
  · rintro p x (hx | ⟨rfl, rfl⟩)
    · obtain ⟨d, hd, he⟩ := h.2 p x hx
      exact ⟨d, List.mem_append.2 (Or.inl hd), he⟩
    · exact ⟨_, List.mem_append.2 (Or.inr List.mem_cons_self), rfl⟩

theorem pushCopy_spec {w : World} {root booklet : String} {ev ev' : Eval} {P : List Execution}
    {deps deps' : List (String × FileUuid)} {E : String → Origin → Prop} {path sandbox : String} (h : Inv G0 ev P)
    (hm : Made w root ev booklet deps E) (hr : pushCopy w deps path sandbox ev = .ok (deps', ev')) :
    Inv G0 ev' P ∧ Ext G0 ev ev' ∧
    Made w root ev' booklet deps' (fun p o => E p o ∨ (p = sandbox ∧ o = .copy path)) := by
  simp only [pushCopy, bind_ok, fresh_ok, provideFile_ok, pure_ok] at hr
  obtain ⟨_, _, ⟨rfl, rfl⟩, _, _, ⟨k, hk, rfl⟩, rfl, rfl⟩ := hr
  obtain ⟨h1, h2, h3⟩ := h.provideFresh ⟨k, none, some path⟩
  refine ⟨h1, h2, (hm.congr h2 (fun _ _ => Iff.rfl)).snoc ?_ _⟩
  exact ⟨k, hk, by simp [DagData.provide]⟩

/-- What is needed because of the file `f`. -/
def FileOf (w : World) (logo : Option String) (s : Statement) (f p : String) (o : Origin) : Prop :=
  (extOf f = "asy".toList ∧ (∃ x y, s.content = x ++ (withExt f "pdf").toList ++ y) ∧ p = withExt f "pdf" ∧
    o = .picture (joinPath s.dir f)) ∨
  (extOf f ≠ "asy".toList ∧
    (extOf f = "pdf".toList → (∃ l, logo = some l ∧ fileName l.toList = fileName f.toList) ∨
      ¬ HasSource w (joinPath s.dir f)) ∧ p = f ∧ o = .copy (joinPath s.dir f))

theorem isLogo_iff {logo : Option String} {f : String} :
    isLogo logo f = true ↔ ∃ l, logo = some l ∧ fileName l.toList = fileName f.toList := by
  unfold isLogo
  cases logo <;> simp

theorem validPdf_some {w : World} {path : String} {b : Bool} (h : validPdf w path = some b) :
    b = true ↔ ¬ HasSource w path := by
  unfold validPdf at h
  cases hr : w.real path with
  | none => rw [hr] at h; cases h
  | some p =>
    rw [hr] at h
    simp only [Option.map_some, Option.some.injEq] at h
    subst h
    unfold HasSource
    constructor
    · rintro h ⟨q, hq, hs⟩
      rw [hr] at hq; cases hq
      simp only [Bool.and_eq_true, Bool.not_eq_true'] at h
      rcases hs with hs | hs
      · rw [hs] at h; cases h.1
      · rw [hs] at h; cases h.2
    · intro h
      simp only [Bool.and_eq_true, Bool.not_eq_true']
      constructor
      · cases ha : w.present (withExt p "asy") with
        | false => rfl
        | true => exact absurd ⟨p, rfl, Or.inl ha⟩ (hr ▸ h)
      · cases ha : w.present (withExt p "tex") with
        | false => rfl
        | true => exact absurd ⟨p, rfl, Or.inr ha⟩ (hr ▸ h)

theorem processDep_spec {w : World} {root booklet : String} {logo : Option String} {s : Statement} {ev ev' : Eval}
    {P : List Execution} {deps deps' : List (String × FileUuid)} {E : String → Origin → Prop} {f : String} (h : Inv G0 ev P)
    (hm : Made w root ev booklet deps E) (hr : processDep w root booklet logo s deps f ev = .ok (deps', ev')) :
    Inv G0 ev' P ∧ Ext G0 ev ev' ∧ Made w root ev' booklet deps' (fun p o => E p o ∨ FileOf w logo s f p o) := by
  have ea : "asy".toList = ['a', 's', 'y'] := by decide
  have ep : "pdf".toList = ['p', 'd', 'f'] := by decide
  unfold FileOf
  rw [ea, ep]
  unfold processDep at hr
  split at hr
  · rename_i he
    split at hr
    · rename_i hc
      rw [contains_iff] at hc
      simp only [bind_ok, pure_ok] at hr
      obtain ⟨g, ev1, h1, rfl, rfl⟩ := hr
      obtain ⟨i1, x1, d1⟩ := compileAsy_spec h h1
      refine ⟨i1, x1, ((hm.congr x1 (fun _ _ => Iff.rfl)).snoc d1 _).congr (.refl _ _) ?_⟩
      intro p o
      constructor
      · rintro (h | ⟨rfl, rfl⟩)
        · exact Or.inl h
        · exact Or.inr (Or.inl ⟨he, hc, rfl, rfl⟩)
      · rintro (h | ⟨-, -, h⟩ | ⟨h, -⟩)
        · exact Or.inl h
        · exact Or.inr h
        · exact absurd he h
    · rename_i hc
      rw [contains_iff] at hc
      simp only [pure_ok] at hr
      obtain ⟨rfl, rfl⟩ := hr
      refine ⟨h, .refl _ _, hm.congr (.refl _ _) ?_⟩
      intro p o
      constructor
      · exact Or.inl
      · rintro (h | ⟨-, h, -⟩ | ⟨h, -⟩)
        · exact h
        · exact absurd h hc
        · exact absurd he h
  · rename_i he
    have copied : (extOf f = ['p', 'd', 'f'] → (∃ l, logo = some l ∧ fileName l.toList = fileName f.toList) ∨
          ¬ HasSource w (joinPath s.dir f)) → pushCopy w deps (joinPath s.dir f) f ev = .ok (deps', ev') →
        Inv G0 ev' P ∧ Ext G0 ev ev' ∧ Made w root ev' booklet deps' (fun p o => E p o ∨
          ((extOf f = ['a', 's', 'y'] ∧ (∃ x y, s.content = x ++ (withExt f "pdf").toList ++ y) ∧ p = withExt f "pdf" ∧
            o = .picture (joinPath s.dir f)) ∨
          (extOf f ≠ ['a', 's', 'y'] ∧
            (extOf f = ['p', 'd', 'f'] → (∃ l, logo = some l ∧ fileName l.toList = fileName f.toList) ∨
              ¬ HasSource w (joinPath s.dir f)) ∧ p = f ∧ o = .copy (joinPath s.dir f)))) := by
      intro hp hr
      obtain ⟨i1, x1, m1⟩ := pushCopy_spec h hm hr
      refine ⟨i1, x1, m1.congr (.refl _ _) ?_⟩
      intro p o
      constructor
      · rintro (h | h)
        · exact Or.inl h
        · exact Or.inr (Or.inr ⟨he, hp, h⟩)
      · rintro (h | ⟨h, -⟩ | ⟨-, -, h⟩)
        · exact Or.inl h
        · exact absurd h he
        · exact Or.inr h
    split at hr
    · rename_i hp
      cases hv : validPdf w (joinPath s.dir f) with
      | none => rw [hv] at hr; simp only [fail_ok] at hr
      | some b =>
        rw [hv] at hr
        have hb := validPdf_some hv
        cases b with
        | true => exact copied (fun _ => Or.inr (hb.1 rfl)) hr
        | false =>
          simp only [pure_ok] at hr
          obtain ⟨rfl, rfl⟩ := hr
          refine ⟨h, .refl _ _, hm.congr (.refl _ _) ?_⟩
          intro p o
          constructor
          · exact Or.inl
          · rintro (h | ⟨h, -⟩ | ⟨-, h, -⟩)
            · exact h
            · exact absurd h he
            · rcases h hp.1 with h | h
              · rw [← isLogo_iff, hp.2] at h; cases h
              · have := hb.2 h; cases this
    · rename_i hp
      refine copied ?_ hr
      intro hpdf
      refine Or.inl (isLogo_iff.1 ?_)
      cases hl : isLogo logo f with
      | true => rfl
      | false => exact absurd ⟨hpdf, hl⟩ hp

theorem genDep_spec {w : World} {root booklet : String} {s : Statement} {ev ev' : Eval}
    {P : List Execution} {deps deps' : List (String × FileUuid)} {E : String → Origin → Prop} {g : String} (h : Inv G0 ev P)
    (hm : Made w root ev booklet deps E) (hr : genDep w s deps g ev = .ok (deps', ev')) :
    Inv G0 ev' P ∧ Ext G0 ev ev' ∧ Made w root ev' booklet deps' (fun p o => E p o ∨
      (w.isFile (s.dir ++ "/../gen/" ++ g) = true ∧ p = g ∧ o = .copy (s.dir ++ "/../gen/" ++ g))) := by
  unfold genDep at hr
  split at hr
  · rename_i hf
    obtain ⟨i1, x1, m1⟩ := pushCopy_spec h hm hr
    refine ⟨i1, x1, m1.congr (.refl _ _) ?_⟩
    intro p o
    simp [hf]
  · rename_i hf
    simp only [pure_ok] at hr
    obtain ⟨rfl, rfl⟩ := hr
    refine ⟨h, .refl _ _, hm.congr (.refl _ _) ?_⟩
    intro p o
    simp [hf]

/-- A loop that adds the files of `F x` for every `x`. -/
theorem loop_spec {α : Type} {w : World} {root booklet : String} {step : List (String × FileUuid) → α → B (List (String × FileUuid))}
    {F : α → String → Origin → Prop}
    (hstep : ∀ {ev ev' : Eval} {P : List Execution} {deps deps' : List (String × FileUuid)} {E : String → Origin → Prop} {x : α},
      Inv G0 ev P → Made w root ev booklet deps E → step deps x ev = .ok (deps', ev') →
      Inv G0 ev' P ∧ Ext G0 ev ev' ∧ Made w root ev' booklet deps' (fun p o => E p o ∨ F x p o)) {xs : List α} :
    ∀ {ev ev' : Eval} {P : List Execution} {deps deps' : List (String × FileUuid)} {E : String → Origin → Prop},
      Inv G0 ev P → Made w root ev booklet deps E → eachWith step xs deps ev = .ok (deps', ev') →
      Inv G0 ev' P ∧ Ext G0 ev ev' ∧ Made w root ev' booklet deps' (fun p o => E p o ∨ ∃ x ∈ xs, F x p o) := by
  induction xs with
  | nil =>
    intro ev ev' P deps deps' E h hm hr
    simp only [eachWith, pure_ok] at hr
    obtain ⟨rfl, rfl⟩ := hr
    exact ⟨h, .refl _ _, hm.congr (.refl _ _) (by simp)⟩
  | cons x xs ih =>
    intro ev ev' P deps deps' E h hm hr
    simp only [eachWith, bind_ok] at hr
    obtain ⟨d1, ev1, h1, h2⟩ := hr
    obtain ⟨i1, x1, m1⟩ := hstep h hm h1
    obtain ⟨i2, x2, m2⟩ := ih i1 m1 h2
    refine ⟨i2, x1.trans x2, m2.congr (.refl _ _) ?_⟩
    intro p o
    simp only [List.mem_cons]
    constructor
    · rintro ((h | h) | ⟨y, hy, h⟩)
      · exact Or.inl h
      · exact Or.inr ⟨x, Or.inl rfl, h⟩
      · exact Or.inr ⟨y, Or.inr hy, h⟩
    · rintro (h | ⟨y, rfl | hy, h⟩)
      · exact Or.inl (Or.inl h)
      · exact Or.inl (Or.inr h)
      · exact Or.inr ⟨y, hy, h⟩

theorem buildDeps_spec {w : World} {root booklet : String} {logo : Option String} {s : Statement} {ev ev' : Eval}
    {P : List Execution} {deps : List (String × FileUuid)} (h : Inv G0 ev P)
    (hr : buildDeps w root booklet logo s ev = .ok (deps, ev')) :
    Inv G0 ev' P ∧ Ext G0 ev ev' ∧ Made w root ev' booklet deps (Needed w logo s) := by
  simp only [buildDeps, bind_ok] at hr
  obtain ⟨d1, ev1, h1, h2⟩ := hr
  obtain ⟨i1, x1, m1⟩ := loop_spec (F := FileOf w logo s) processDep_spec (E := fun _ _ => False) h
    ⟨by simp, by simp⟩ h1
  obtain ⟨i2, x2, m2⟩ := loop_spec (F := fun g p o => w.isFile (s.dir ++ "/../gen/" ++ g) = true ∧ p = g ∧
    o = Origin.copy (s.dir ++ "/../gen/" ++ g)) genDep_spec i1 m1 h2
  refine ⟨i2, x1.trans x2, m2.congr (.refl _ _) ?_⟩
  intro p o
  constructor
  · rintro ((h | ⟨f, hf, ⟨h1, h2, rfl, rfl⟩ | ⟨h1, h2, rfl, rfl⟩⟩) | ⟨g, hg, h1, rfl, rfl⟩)
    · exact h.elim
    · exact .picture hf h1 h2
    · exact .file hf h1 h2
    · exact .gen hg h1
  · rintro (⟨hf, h1, h2⟩ | ⟨hf, h1, h2⟩ | ⟨hg, h1⟩)
    · exact Or.inl (Or.inr ⟨_, hf, Or.inl ⟨h1, h2, rfl, rfl⟩⟩)
    · exact Or.inl (Or.inr ⟨_, hf, Or.inr ⟨h1, h2, rfl, rfl⟩⟩)
    · exact Or.inr ⟨_, hg, h1, rfl, rfl⟩

end TM.Booklet
