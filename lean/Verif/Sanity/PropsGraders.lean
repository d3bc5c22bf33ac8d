import Verif.Sanity.Graders
/-!
# The languages and the graders (C80)
-/
namespace TM.Sanity
open TM TM.Ui

/-! ## Lemmas -/

theorem splitDot_of {stem ext : Name} (h1 : stem ≠ []) (h2 : '.' ∉ ext) (h3 : stem ++ '.' :: ext ≠ "..".toList) :
    splitDot (stem ++ '.' :: ext) = (stem, some ext) := by
  have hr : (stem ++ '.' :: ext).reverse = ext.reverse ++ ('.' :: stem.reverse) := by simp
  have hp : ∀ c ∈ ext.reverse, decide (c ≠ '.') = true := by
    intro c hc
    rw [List.mem_reverse] at hc
    rw [decide_eq_true_eq]
    rintro rfl
    exact h2 hc
  unfold splitDot
  simp only
  rw [hr, List.takeWhile_append_of_pos hp, List.dropWhile_append_of_pos hp]
  simp only [List.takeWhile_cons, List.dropWhile_cons, ne_eq, not_true_eq_false, decide_false,
    Bool.false_eq_true, if_false, List.append_nil, List.reverse_reverse]
  rw [if_neg]
  rintro (h | h)
  · exact h1 (by simpa using h)
  · exact h3 h

theorem splitDot_some {f s e : Name} (h : splitDot f = (s, some e)) :
    f = s ++ '.' :: e ∧ s ≠ [] ∧ '.' ∉ e := by
  unfold splitDot at h
  simp only at h
  have hsplit : f.reverse.takeWhile (· ≠ '.') ++ f.reverse.dropWhile (· ≠ '.') = f.reverse :=
    List.takeWhile_append_dropWhile ..
  have hall := List.all_takeWhile (p := fun c : Char => decide (c ≠ '.')) (l := f.reverse)
  generalize hd : f.reverse.dropWhile (fun c => decide (c ≠ '.')) = d at h hsplit
  generalize ht : f.reverse.takeWhile (fun c => decide (c ≠ '.')) = t at h hsplit hall
  cases d with
  | nil => cases h
  | cons c stem =>
    simp only at h
    have hc : c = '.' := by
      have hne : f.reverse.dropWhile (fun c => decide (c ≠ '.')) ≠ [] := by rw [hd]; simp
      have := List.head_dropWhile_not (fun c : Char => decide (c ≠ '.')) hne
      simp only [hd, List.head_cons] at this
      simpa using this
    subst hc
    split at h
    · cases h
    · next hn =>
      cases h
      refine ⟨?_, ?_, ?_⟩
      · have : f = f.reverse.reverse := by simp
        rw [this, ← hsplit]
        simp
      · intro hs
        exact hn (.inl (by simpa using hs))
      · intro hm
        rw [List.mem_reverse] at hm
        have := List.all_eq_true.1 hall '.' hm
        simp at this

/-- No extension is of two languages. -/
theorem extensions_disjoint : ∀ l ∈ knownLanguages, ∀ l' ∈ knownLanguages, ∀ e ∈ l.extensions,
    e ∈ l'.extensions → l = l' := by decide +kernel

theorem extensions_nonempty : ∀ l ∈ knownLanguages, ∀ e ∈ l.extensions, e.toList ≠ [] ∧ '.' ∉ e.toList := by
  decide +kernel

theorem names_distinct : ∀ l ∈ knownLanguages, ∀ l' ∈ knownLanguages, l.name = l'.name → l = l' := by
  decide +kernel

theorem first_extension : ∀ l ∈ knownLanguages, l.extensions.headD "" ∈ l.extensions ∧
    (l.extensions.headD "").toList.map Char.toLower = (l.extensions.headD "").toList := by decide +kernel

/-- **C80** The language of a file is the one its extension is of, up to the case; there is never more than
one. -/
theorem language_exact (f : Name) (l : Language) : detectLanguage f = some l ↔ SourceIn l f := by
  unfold detectLanguage SourceIn
  simp only
  constructor
  · intro h
    have hm := List.mem_of_find?_eq_some h
    have hp := List.find?_some h
    rw [List.any_eq_true] at hp
    obtain ⟨e, he, hext⟩ := hp
    rw [beq_iff_eq] at hext
    refine ⟨hm, ?_⟩
    cases hs : splitDot f with
    | mk s o =>
      rw [hs] at hext
      cases o with
      | none =>
        simp only [Option.getD_none, List.map_nil] at hext
        exact absurd hext.symm (extensions_nonempty l hm e he).1
      | some x =>
        obtain ⟨h1, h2, h3⟩ := splitDot_some hs
        exact ⟨s, x, h1, h2, h3, e, he, hext⟩
  · rintro ⟨hm, stem, ext, rfl, hs, hd, e, he, hext⟩
    have hne : stem ++ '.' :: ext ≠ "..".toList := by
      intro hc
      have hlen : ext = [] := by
        cases stem with
        | nil => exact absurd rfl hs
        | cons a s =>
          have := congrArg List.length hc
          simp at this
          cases ext with
          | nil => rfl
          | cons b t => simp at this; omega
      rw [hlen] at hext
      exact (extensions_nonempty l hm e he).1 hext.symm
    rw [splitDot_of hs hd hne]
    simp only [Option.getD_some]
    rw [List.find?_eq_some_iff_append]
    refine ⟨List.any_eq_true.2 ⟨e, he, by simp [hext]⟩, ?_⟩
    obtain ⟨a, b, hab⟩ := List.append_of_mem hm
    -- the first occurrence
    have hall : ∀ l' ∈ knownLanguages, (l'.extensions.any fun e => List.map Char.toLower ext == e.toList) = true →
        l' = l := by
      intro l' hl' hany
      obtain ⟨e', he', h'⟩ := List.any_eq_true.1 hany
      rw [beq_iff_eq, hext] at h'
      have : e = e' := String.toList_inj.1 h'
      subst this
      exact extensions_disjoint l' hl' l hm e he' he
    have hnd : knownLanguages.Nodup := by decide +kernel
    refine ⟨a, b, hab, ?_⟩
    intro l' hl'
    rw [Bool.not_eq_true']
    cases hany : (l'.extensions.any fun e => List.map Char.toLower ext == e.toList) with
    | false => rfl
    | true =>
      exfalso
      have := hall l' (by rw [hab]; simp [hl']) hany
      subst this
      rw [hab, List.nodup_append] at hnd
      exact hnd.2.2 _ hl' _ (List.mem_cons_self ..) rfl

theorem source_unique {f : Name} {l l' : Language} (h : SourceIn l f) (h' : SourceIn l' f) : l = l' := by
  have := (language_exact f l).2 h
  rw [(language_exact f l').2 h'] at this
  cases this; rfl

theorem glob_literal : ∀ (k p f : Name), (∀ c ∈ k, c ≠ '*' ∧ c ≠ '?') →
    (Glob (k ++ p) f ↔ ∃ g, f = k ++ g ∧ Glob p g) := by
  intro k
  induction k with
  | nil => intro p f _; simp
  | cons c k ih =>
    intro p f hc
    have hcc := hc c (by simp)
    have ih := ih p
    constructor
    · intro h
      generalize hp : (c :: k) ++ p = q at h
      cases h with
      | nil => cases hp
      | one p' cs d h => cases hp; exact absurd rfl hcc.2
      | many p' a cs h => cases hp; exact absurd rfl hcc.1
      | same p' cs d hd h =>
        cases hp
        obtain ⟨g, h1, h2⟩ := (ih cs (fun d hd => hc d (by simp [hd]))).1 h
        exact ⟨g, by rw [h1]; rfl, h2⟩
    · rintro ⟨g, rfl, h⟩
      exact .same _ _ c hcc.1 ((ih _ (fun d hd => hc d (by simp [hd]))).2 ⟨g, rfl, h⟩)

theorem glob_star (f : Name) : Glob ['*'] f := by
  have := Glob.many [] f [] .nil
  simpa using this

theorem grader_glob (f : Name) : (wildMatch "grader.*".toList f = true ∨ wildMatch "stub.*".toList f = true) ↔
    ∃ ext, f = "grader.".toList ++ ext ∨ f = "stub.".toList ++ ext := by
  rw [wildMatch_iff, wildMatch_iff]
  have h1 := glob_literal "grader.".toList ['*'] f (by decide)
  have h2 := glob_literal "stub.".toList ['*'] f (by decide)
  have e1 : "grader.*".toList = "grader.".toList ++ ['*'] := by decide
  have e2 : "stub.*".toList = "stub.".toList ++ ['*'] := by decide
  rw [e1, e2, h1, h2]
  constructor
  · rintro (⟨g, h, -⟩ | ⟨g, h, -⟩)
    · exact ⟨g, .inl h⟩
    · exact ⟨g, .inr h⟩
  · rintro ⟨g, h | h⟩
    · exact .inl ⟨g, h, glob_star g⟩
    · exact .inr ⟨g, h, glob_star g⟩

theorem mem_graders {files : List Name} {g : Name} :
    g ∈ files.filter (wildMatch "grader.*".toList) ++ files.filter (wildMatch "stub.*".toList) ↔
      g ∈ files ∧ ∃ ext, g = "grader.".toList ++ ext ∨ g = "stub.".toList ++ ext := by
  rw [List.mem_append, List.mem_filter, List.mem_filter, ← grader_glob]
  exact ⟨fun h => h.elim (fun h => ⟨h.1, .inl h.2⟩) (fun h => ⟨h.1, .inr h.2⟩),
    fun h => h.2.elim (fun x => .inl ⟨h.1, x⟩) (fun x => .inr ⟨h.1, x⟩)⟩

/-- The last grader of each language is in the map. -/
theorem graderMap_get (gs : List Name) (l : Language) (hl : l ∈ knownLanguages) :
    (graderMap gs).get? l.name = (gs.filter (fun g => detectLanguage g = some l)).getLast? := by
  have key : ∀ (gs : List Name) (m : AMap String Name), (gs.foldl (fun m g => match detectLanguage g with
      | none => m
      | some l => m.insert l.name g) m).get? l.name =
      ((gs.filter (fun g => detectLanguage g = some l)).getLast?).or (m.get? l.name) := by
    intro gs
    induction gs with
    | nil => intro m; rfl
    | cons g gs ih =>
      intro m
      rw [List.foldl_cons, ih, List.filter_cons]
      cases hg : detectLanguage g with
      | none => simp
      | some l' =>
        by_cases h : l' = l
        · subst h
          simp only [AMap.get?_insert, if_true, decide_true]
          cases gs.filter (fun g => decide (detectLanguage g = some l')) with
          | nil => rfl
          | cons a r =>
            rw [List.getLast?_cons_cons]
            cases hlast : (a :: r).getLast? with
            | none => simp at hlast
            | some x => rfl
        · have hn : ¬ l.name = l'.name := by
            intro hn
            exact h (names_distinct l' (((language_exact g l').1 hg).1) l hl hn.symm)
          simp only [AMap.get?_insert, hn, if_false, Option.some.injEq, h, decide_false, Bool.false_eq_true]
  have := key gs []
  refine Eq.trans this ?_
  simp

/-! ## Properties -/

/-- **C80** A solution in a language gets exactly one of the graders of its language, if there are some and
none otherwise: for the compilation if the language is compiled, for the executions if it is not. -/
theorem grader_given (files : List Name) {l : Language} (hl : l ∈ knownLanguages) :
    ((∀ g ∈ files, ¬ GraderIn l g) ∧ compilationGrader (taskGraders files) l = none ∧
      runtimeGraders (taskGraders files) l = []) ∨
    ∃ g ∈ files, GraderIn l g ∧
      (l.compiled = true → compilationGrader (taskGraders files) l = some g ∧
        runtimeGraders (taskGraders files) l = []) ∧
      (l.compiled = false → compilationGrader (taskGraders files) l = none ∧
        runtimeGraders (taskGraders files) l = [g]) := by
  have hget := graderMap_get (files.filter (wildMatch "grader.*".toList) ++
    files.filter (wildMatch "stub.*".toList)) l hl
  unfold taskGraders
  generalize hg : (files.filter (wildMatch "grader.*".toList) ++ files.filter (wildMatch "stub.*".toList)) = gs at hget
  cases hlast : (gs.filter (fun g => detectLanguage g = some l)).getLast? with
  | none =>
    left
    rw [hlast] at hget
    refine ⟨?_, ?_, ?_⟩
    · intro g hgf hgr
      rw [List.getLast?_eq_none_iff] at hlast
      have : g ∈ gs.filter (fun g => detectLanguage g = some l) := by
        rw [List.mem_filter, ← hg, mem_graders]
        exact ⟨⟨hgf, hgr.2⟩, by simpa using (language_exact g l).2 hgr.1⟩
      rw [hlast] at this
      cases this
    · unfold compilationGrader AMap.contains
      rw [hget]
      simp
    · unfold runtimeGraders AMap.contains
      rw [hget]
      simp
  | some g =>
    right
    rw [hlast] at hget
    have hm := List.mem_of_getLast? hlast
    rw [List.mem_filter, ← hg, mem_graders, decide_eq_true_eq] at hm
    refine ⟨g, hm.1.1, ⟨(language_exact g l).1 hm.2, hm.1.2⟩, ?_, ?_⟩
    · intro hc
      unfold compilationGrader runtimeGraders AMap.contains
      rw [hget]
      simp [hc]
    · intro hc
      unfold compilationGrader runtimeGraders AMap.contains
      rw [hget]
      simp [hc]

/-- The name of a file before the last dot. -/
def Stem (s f : Name) : Prop := ∃ ext, f = s ++ '.' :: ext ∧ '.' ∉ ext

theorem needed_get {m : AMap String Name} {files : List Name} {l : Language} (hl : l ∈ knownLanguages) :
    (∃ p, (neededGraders m files).get? (l.extensions.headD "") = some p) ↔
      ∃ f ∈ files, SourceIn l f ∧ (splitDot f).1 ≠ "grader".toList ∧ (splitDot f).1 ≠ "stub".toList := by
  have key : ∀ (fs : List Name) (acc : AMap String (Name × Name)),
      (∃ p, (fs.foldl (fun by_ext f =>
        if (splitDot f).1 = "grader".toList ∨ (splitDot f).1 = "stub".toList then by_ext
        else match detectLanguage f with
          | none => by_ext
          | some l => by_ext.insert (l.extensions.headD "") (wantedGrader m (l.extensions.headD ""), f)) acc).get?
          (l.extensions.headD "") = some p) ↔
      (∃ p, acc.get? (l.extensions.headD "") = some p) ∨
      ∃ f ∈ fs, SourceIn l f ∧ (splitDot f).1 ≠ "grader".toList ∧ (splitDot f).1 ≠ "stub".toList := by
    intro fs
    induction fs with
    | nil => intro acc; simp
    | cons f fs ih =>
      intro acc
      rw [List.foldl_cons, ih]
      have hkeep : (∃ p, acc.get? (l.extensions.headD "") = some p) ∨
            (∃ x ∈ fs, SourceIn l x ∧ (splitDot x).1 ≠ "grader".toList ∧ (splitDot x).1 ≠ "stub".toList) →
          (∃ p, acc.get? (l.extensions.headD "") = some p) ∨
            ∃ x ∈ f :: fs, SourceIn l x ∧ (splitDot x).1 ≠ "grader".toList ∧ (splitDot x).1 ≠ "stub".toList := by
        rintro (h | ⟨x, h1, h2⟩)
        · exact .inl h
        · exact .inr ⟨x, by simp [h1], h2⟩
      by_cases hs : (splitDot f).1 = "grader".toList ∨ (splitDot f).1 = "stub".toList
      · rw [if_pos hs]
        refine ⟨hkeep, ?_⟩
        rintro (h | ⟨x, h1, h2⟩)
        · exact .inl h
        · rcases List.mem_cons.1 h1 with rfl | h1
          · rcases hs with hs | hs
            · exact absurd hs h2.2.1
            · exact absurd hs h2.2.2
          · exact .inr ⟨x, h1, h2⟩
      · rw [if_neg hs]
        cases hd : detectLanguage f with
        | none =>
          refine ⟨hkeep, ?_⟩
          rintro (h | ⟨x, h1, h2⟩)
          · exact .inl h
          · rcases List.mem_cons.1 h1 with rfl | h1
            · rw [(language_exact x l).2 h2.1] at hd; cases hd
            · exact .inr ⟨x, h1, h2⟩
        | some l' =>
          have hl' := (language_exact f l').1 hd
          simp only [AMap.get?_insert]
          by_cases he : l.extensions.headD "" = l'.extensions.headD ""
          · have : l = l' := extensions_disjoint l hl l' hl'.1 _ (first_extension l hl).1
              (by rw [he]; exact (first_extension l' hl'.1).1)
            subst this
            simp only [if_true]
            refine ⟨fun _ => .inr ⟨f, by simp, hl', fun h => hs (.inl h), fun h => hs (.inr h)⟩, fun _ => .inl ⟨_, rfl⟩⟩
          · rw [if_neg he]
            refine ⟨hkeep, ?_⟩
            rintro (h | ⟨x, h1, h2⟩)
            · exact .inl h
            · rcases List.mem_cons.1 h1 with rfl | h1
              · exact absurd (by rw [source_unique h2.1 hl']) he
              · exact .inr ⟨x, h1, h2⟩
  unfold neededGraders
  refine (key _ _).trans ?_
  constructor
  · rintro (⟨p, h⟩ | ⟨f, h1, h2⟩)
    · cases h
    · exact ⟨f, (List.mem_filter.1 h1).1, h2⟩
  · rintro ⟨f, h1, h2⟩
    refine .inr ⟨f, List.mem_filter.2 ⟨h1, ?_⟩, h2⟩
    rw [wildMatch_iff]
    obtain ⟨-, stem, ext, rfl, -⟩ := h2.1
    exact .many ".*".toList stem _ (.same ['*'] ext '.' (by decide) (glob_star ext))

theorem needed_value {m : AMap String Name} {files : List Name} {k : String} {w f : Name}
    (h : (k, (w, f)) ∈ neededGraders m files) : ∃ l, f ∈ files ∧ SourceIn l f ∧ k = l.extensions.headD "" ∧
      w = wantedGrader m k ∧ (splitDot f).1 ≠ "grader".toList ∧ (splitDot f).1 ≠ "stub".toList := by
  have key : ∀ (fs : List Name) (acc : AMap String (Name × Name)),
      (∀ q ∈ acc, ∃ l, q.2.2 ∈ files ∧ SourceIn l q.2.2 ∧ q.1 = l.extensions.headD "" ∧ q.2.1 = wantedGrader m q.1 ∧
        (splitDot q.2.2).1 ≠ "grader".toList ∧ (splitDot q.2.2).1 ≠ "stub".toList) → (∀ f ∈ fs, f ∈ files) →
      ∀ q ∈ fs.foldl (fun by_ext f =>
        if (splitDot f).1 = "grader".toList ∨ (splitDot f).1 = "stub".toList then by_ext
        else match detectLanguage f with
          | none => by_ext
          | some l => by_ext.insert (l.extensions.headD "") (wantedGrader m (l.extensions.headD ""), f)) acc,
        ∃ l, q.2.2 ∈ files ∧ SourceIn l q.2.2 ∧ q.1 = l.extensions.headD "" ∧ q.2.1 = wantedGrader m q.1 ∧
        (splitDot q.2.2).1 ≠ "grader".toList ∧ (splitDot q.2.2).1 ≠ "stub".toList := by
    intro fs
    induction fs with
    | nil => intro acc h _; exact h
    | cons f fs ih =>
      intro acc hacc hfs
      rw [List.foldl_cons]
      refine ih _ ?_ (fun x hx => hfs x (by simp [hx]))
      split
      · exact hacc
      · next hs =>
        split
        · exact hacc
        · next l hd =>
          intro q hq
          rcases List.mem_cons.1 hq with rfl | hq
          · exact ⟨l, hfs f (by simp), (language_exact f l).1 hd, rfl, rfl, fun h => hs (.inl h), fun h => hs (.inr h)⟩
          · exact hacc q (AMap.mem_erase.1 hq).1
  exact key _ [] (by intro q hq; cases hq) (fun f hf => (List.mem_filter.1 hf).1) _ h

theorem needed_wf (m : AMap String Name) (files : List Name) : (neededGraders m files).Wf := by
  have key : ∀ (fs : List Name) (acc : AMap String (Name × Name)), acc.Wf → (fs.foldl (fun by_ext f =>
        if (splitDot f).1 = "grader".toList ∨ (splitDot f).1 = "stub".toList then by_ext
        else match detectLanguage f with
          | none => by_ext
          | some l => by_ext.insert (l.extensions.headD "") (wantedGrader m (l.extensions.headD ""), f)) acc).Wf := by
    intro fs
    induction fs with
    | nil => intro acc h; exact h
    | cons f fs ih =>
      intro acc h
      rw [List.foldl_cons]
      refine ih _ ?_
      split
      · exact h
      · split
        · exact h
        · exact AMap.wf_insert h _ _
  exact key _ [] AMap.wf_nil

theorem wanted_grader {m : AMap String Name} {l : Language} (hl : l ∈ knownLanguages) :
    GraderIn l (wantedGrader m (l.extensions.headD "")) := by
  obtain ⟨h1, h2⟩ := first_extension l hl
  have hd := (extensions_nonempty l hl _ h1).2
  unfold wantedGrader
  split
  · exact ⟨⟨hl, "stub".toList, _, rfl, by decide, hd, _, h1, h2⟩, _, .inr rfl⟩
  · exact ⟨⟨hl, "grader".toList, _, rfl, by decide, hd, _, h1, h2⟩, _, .inl rfl⟩

/-- **C80** If a task has a grader and no error is shown, there is a grader for every solution: the one it
gets when it is built. -/
theorem no_grader_missing (files : List Name) (h : checkMissingGraders (taskGraders files) files = [])
    (hg : ∃ l, ∃ g ∈ files, GraderIn l g) {f : Name} (hf : f ∈ files) {l : Language} (hs : SourceIn l f)
    (hn1 : ¬ Stem "grader".toList f) (hn2 : ¬ Stem "stub".toList f) : ∃ g ∈ files, GraderIn l g := by
  unfold checkMissingGraders at h
  have hne : (taskGraders files).isEmpty = false := by
    obtain ⟨l0, g, hg1, hg2⟩ := hg
    have hl0 := hg2.1.1
    have hget := graderMap_get (files.filter (wildMatch "grader.*".toList) ++
      files.filter (wildMatch "stub.*".toList)) l0 hl0
    cases hm : taskGraders files with
    | nil =>
      exfalso
      unfold taskGraders at hm
      rw [hm] at hget
      have : g ∈ (files.filter (wildMatch "grader.*".toList) ++ files.filter (wildMatch "stub.*".toList)).filter
          (fun g => decide (detectLanguage g = some l0)) := by
        rw [List.mem_filter, mem_graders]
        exact ⟨⟨hg1, hg2.2⟩, by simpa using (language_exact g l0).2 hg2.1⟩
      have hnil := List.getLast?_eq_none_iff.1 hget.symm
      rw [hnil] at this
      cases this
    | cons a b => rfl
  rw [if_neg (by rw [hne]; simp)] at h
  have hstem : ∀ s : Name, '.' ∉ s → ¬ Stem s f → (splitDot f).1 ≠ s := by
    intro s _ hns he
    obtain ⟨hlk, stem, ext, rfl, h1, h2, e, he1, he2⟩ := hs
    by_cases hdd : stem ++ '.' :: ext = "..".toList
    · have hlen : ext = [] := by
        cases stem with
        | nil => exact absurd rfl h1
        | cons a s =>
          have := congrArg List.length hdd
          simp at this
          cases ext with
          | nil => rfl
          | cons b t => simp at this; omega
      rw [hlen] at he2
      exact (extensions_nonempty l hlk e he1).1 he2.symm
    · rw [splitDot_of h1 h2 hdd] at he
      exact hns ⟨ext, by rw [← he], h2⟩
  obtain ⟨⟨w, c⟩, hp⟩ := (needed_get (m := taskGraders files) hs.1).2
    ⟨f, hf, hs, hstem _ (by decide) hn1, hstem _ (by decide) hn2⟩
  obtain ⟨l', -, -, -, hw, -⟩ := needed_value (AMap.mem_of_get? hp)
  rw [List.filter_eq_nil_iff] at h
  have := h (w, c) (List.mem_map.2 ⟨_, AMap.mem_of_get? hp, rfl⟩)
  simp only [decide_eq_true_eq, Decidable.not_not] at this
  refine ⟨w, this, ?_⟩
  rw [hw]
  exact wanted_grader hs.1

/-- All the graders have the name that is looked for: `base`, with the first extension of the language. -/
def Usual (base : Name) (files : List Name) : Prop :=
  ∀ l, ∀ g ∈ files, GraderIn l g → g = base ++ '.' :: (l.extensions.headD "").toList

/-- **C80** If an error is shown about a file, then there is no grader for its language.  Missing: the
graders with other extensions of the language (`grader.cc`), or with different names, see
`grader_false_alarm`. -/
theorem grader_missing_partial {files : List Name} {base : Name}
    (hb : base = "grader".toList ∨ base = "stub".toList) (hu : Usual base files) {w f : Name}
    (h : (w, f) ∈ checkMissingGraders (taskGraders files) files) :
    ∃ l, f ∈ files ∧ SourceIn l f ∧ ∀ g ∈ files, ¬ GraderIn l g := by
  unfold checkMissingGraders at h
  split at h
  · cases h
  · next hne =>
    obtain ⟨hm, hnot⟩ := List.mem_filter.1 h
    rw [decide_eq_true_eq] at hnot
    obtain ⟨⟨k, p⟩, hk, rfl⟩ := List.mem_map.1 hm
    obtain ⟨l, h1, h2, rfl, h4, -⟩ := needed_value hk
    refine ⟨l, h1, h2, ?_⟩
    intro g hg hgr
    apply hnot
    simp only at h4 ⊢
    rw [h4]
    -- what is looked for is what there is
    have hbase : wantedGrader (taskGraders files) (l.extensions.headD "") = base ++ '.' :: (l.extensions.headD "").toList := by
      have hvals : ∀ v ∈ (taskGraders files).values, ∃ l', GraderIn l' v ∧ v ∈ files := by
        intro v hv
        obtain ⟨⟨k', v'⟩, hkv, rfl⟩ := List.mem_map.1 hv
        have key : ∀ (gs : List Name) (acc : AMap String Name), (∀ q ∈ acc, ∃ l', GraderIn l' q.2 ∧ q.2 ∈ files) →
            (∀ x ∈ gs, x ∈ files ∧ ∃ ext, x = "grader.".toList ++ ext ∨ x = "stub.".toList ++ ext) →
            ∀ q ∈ gs.foldl (fun m g => match detectLanguage g with
              | none => m
              | some l => m.insert l.name g) acc, ∃ l', GraderIn l' q.2 ∧ q.2 ∈ files := by
          intro gs
          induction gs with
          | nil => intro acc h _; exact h
          | cons x gs ih =>
            intro acc hacc hgs
            rw [List.foldl_cons]
            refine ih _ ?_ (fun y hy => hgs y (by simp [hy]))
            split
            · exact hacc
            · next l' hd =>
              intro q hq
              rcases List.mem_cons.1 hq with rfl | hq
              · exact ⟨l', ⟨(language_exact x l').1 hd, (hgs x (by simp)).2⟩, (hgs x (by simp)).1⟩
              · exact hacc q (AMap.mem_erase.1 hq).1
        exact key _ [] (by intro q hq; cases hq) (fun x hx => mem_graders.1 hx) _ hkv
      have hstems : ∀ v ∈ (taskGraders files).values, (splitDot v).1 = base := by
        intro v hv
        obtain ⟨l', h5, h6⟩ := hvals v hv
        rw [hu l' v h6 h5]
        have hext := extensions_nonempty l' h5.1.1 _ (first_extension l' h5.1.1).1
        rw [splitDot_of (by rcases hb with rfl | rfl <;> decide) hext.2]
        rcases hb with rfl | rfl <;> (intro hc; exact nomatch hc)
      unfold wantedGrader
      rcases hb with rfl | rfl
      · rw [if_neg]
        · rfl
        · rw [Bool.not_eq_true, List.any_eq_false]
          intro v hv
          rw [hstems v hv]
          decide
      · rw [if_pos]
        · rfl
        · have : ∃ v, v ∈ (taskGraders files).values := by
            cases hm : taskGraders files with
            | nil => rw [hm] at hne; exact absurd rfl hne
            | cons a b => exact ⟨a.2, by simp [AMap.values]⟩
          obtain ⟨v, hv⟩ := this
          exact List.any_eq_true.2 ⟨v, hv, by rw [hstems v hv]; decide⟩
    rw [hbase, ← hu l g hg hgr]
    exact hg

/-- **C80** ... with the other names the error is shown even if the solution gets its grader. -/
theorem grader_false_alarm : ∃ (files : List Name) (w f g : Name) (l : Language),
    (w, f) ∈ checkMissingGraders (taskGraders files) files ∧ SourceIn l f ∧ g ∈ files ∧
      compilationGrader (taskGraders files) l = some g := by
  refine ⟨["grader.cc".toList, "sol.cc".toList], "grader.cpp".toList, "sol.cc".toList, "grader.cc".toList,
    ⟨"C++", ["cpp", "cc", "c++"], true⟩, by decide +kernel, ?_, by simp, by decide +kernel⟩
  exact (language_exact _ _).1 (by decide +kernel)

/-- The folder `sol` of a task: the Python solution has no grader. -/
example : checkMissingGraders (taskGraders (["grader.cpp", "Makefile", "slow.py", "solution.CPP", "template.cc"].map
    String.toList)) (["grader.cpp", "Makefile", "slow.py", "solution.CPP", "template.cc"].map String.toList) =
    [("grader.py".toList, "slow.py".toList)] := by decide +kernel

/-- The hypotheses of `grader_missing_partial` are met by that folder. -/
example : Usual "grader".toList (["grader.cpp", "Makefile", "slow.py", "solution.CPP", "template.cc"].map
    String.toList) := by
  intro l g hg hgr
  have h1 := (language_exact g l).2 hgr.1
  have h2 := (grader_glob g).2 hgr.2
  have : ∀ g ∈ ["grader.cpp", "Makefile", "slow.py", "solution.CPP", "template.cc"].map String.toList,
      (wildMatch "grader.*".toList g = true ∨ wildMatch "stub.*".toList g = true) →
      (detectLanguage g).all (fun l => g == "grader".toList ++ '.' :: (l.extensions.headD "").toList) = true := by
    decide +kernel
  have := this g hg h2
  rw [h1] at this
  simpa using this

end TM.Sanity
