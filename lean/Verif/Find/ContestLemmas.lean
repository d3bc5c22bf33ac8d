import Verif.Find.ContestSpec
import Verif.Find.SolLemmas
import Verif.Clean.Lemmas

/-!
# The booklets of a contest: lemmas
-/
namespace TM.Find
open TM AMap

theorem tex_matches (n : Name) : nameMatches "*.tex".toList n = true ↔ ∃ a, n = a ++ ".tex".toList := by
  have ht : Clean.tokens none "*.tex".toList = some [.star, .lit '.', .lit 't', .lit 'e', .lit 'x'] := by decide
  unfold nameMatches
  rw [ht]
  dsimp only
  have h := fun b => Clean.matchToks_lit ['.', 't', 'e', 'x'] b
  simp only [List.map_cons, List.map_nil] at h
  rw [Clean.matchToks, Clean.anyTail_iff]
  have e : ".tex".toList = ['.', 't', 'e', 'x'] := by decide
  rw [e]
  constructor
  · rintro ⟨a, b, rfl, hb⟩; exact ⟨a, by rw [(h b).1 hb]⟩
  · rintro ⟨a, rfl⟩; exact ⟨a, _, rfl, (h _).2 rfl⟩

theorem stem_tex {a : Name} (h : a ≠ []) : stemOf (a ++ ".tex".toList) = a := by
  unfold stemOf
  have e : ".tex".toList = '.' :: ['t', 'e', 'x'] := by decide
  rw [e, Sanity.splitDot_of h (by decide)]
  intro hd
  have := congrArg List.length hd
  have hl := List.length_pos_iff.2 h
  simp only [List.length_append, List.length_cons, List.length_nil] at this
  have e2 : ("..".toList).length = 2 := by decide
  omega

theorem filter_eq_of_nodup {α : Type} [DecidableEq α] {l : List α} (h : l.Nodup) (a : α) :
    l.filter (fun x => decide (x = a)) = if a ∈ l then [a] else [] := by
  induction l with
  | nil => simp
  | cons b l ih =>
    rw [List.nodup_cons] at h
    rw [List.filter_cons, ih h.2]
    by_cases hb : b = a
    · subst hb
      simp [h.1]
    · simp [hb, Ne.symm hb]

/-- The statements in one of the directories. -/
def texOf (w : World) (dir : RPath) (d : Name) : List (Name × RPath) :=
  ((w.entries (w.resolve dir ++ [d])).filter (nameMatches "*.tex".toList)).map
    (fun n => (stemOf n, inDir dir d n))

theorem findStatements_eq {w : World} {dir : RPath} (hreal : RealNames w) (hplain : Plain dir) :
    findStatements w dir = some (texOf w dir "statement".toList ++ texOf w dir "testo".toList) := by
  have h1 := listFiles_pat (w := w) (base := dir) (dir := "statement".toList) "*.tex".toList (by decide)
    (by decide) hreal hplain (by decide) (by decide)
  have h2 := listFiles_pat (w := w) (base := dir) (dir := "testo".toList) "*.tex".toList (by decide)
    (by decide) hreal hplain (by decide) (by decide)
  have hsplit : ∀ (p : RPath) (ps : List RPath) (l r : List RPath), listFiles w dir [p] = some l →
      listFiles w dir ps = some r → listFiles w dir (p :: ps) = some (l ++ r) := by
    intro p ps l r h1 h2
    simp only [listFiles] at h1 ⊢
    cases hg : globPath w (dir.join p) with
    | none => rw [hg] at h1; cases h1
    | some g =>
      rw [hg] at h1
      simp only [Option.map_some, List.append_nil, Option.some.injEq] at h1
      simp only [h2, Option.map_some, h1]
  unfold findStatements statementPattern testoPattern
  rw [hsplit _ _ _ _ h1 h2, Option.map_some, List.filterMap_append]
  have hmap : ∀ d : Name, (((w.entries (w.resolve dir ++ [d])).filter (nameMatches "*.tex".toList)).map
      (inDir dir d)).filterMap languageOf = texOf w dir d := by
    intro d
    unfold texOf
    rw [List.filterMap_map]
    have hfm : ∀ (l : List Name), (∀ n ∈ l, n ∈ (w.entries (w.resolve dir ++ [d])).filter (nameMatches "*.tex".toList)) →
        l.filterMap (languageOf ∘ inDir dir d) = l.map (fun n => (stemOf n, inDir dir d n)) := by
      intro l
      induction l with
      | nil => intro _; rfl
      | cons n l ih =>
        intro h
        rw [List.filterMap_cons, List.map_cons, ih (fun m hm => h m (by simp [hm]))]
        have hk := hreal _ (mem_entries.1 (List.mem_filter.1 (h n (by simp))).1) n (by simp)
        have hfn : (inDir dir d n).fileName = some n := fileName_some.2 ⟨by simp [inDir], hk.2⟩
        simp only [Function.comp, languageOf, hfn, Option.map_some]
    exact hfm _ (fun _ h => h)
  rw [hmap, hmap]

theorem mem_texOf {w : World} {dir : RPath} {d : Name} (hh : ¬ HasEntry w dir d ".tex".toList) {lang : Name}
    {p : RPath} : (lang, p) ∈ texOf w dir d ↔
      lang ≠ [] ∧ HasEntry w dir d (lang ++ ".tex".toList) ∧ p = inDir dir d (lang ++ ".tex".toList) := by
  have hent : ∀ n, n ∈ w.entries (w.resolve dir ++ [d]) ↔ HasEntry w dir d n := by
    intro n; unfold HasEntry; rw [mem_entries]; simp
  unfold texOf
  rw [List.mem_map]
  constructor
  · rintro ⟨n, hn, he⟩
    rw [List.mem_filter, tex_matches, hent] at hn
    obtain ⟨h1, a, rfl⟩ := hn
    have ha : a ≠ [] := by rintro rfl; exact hh h1
    rw [stem_tex ha] at he
    cases he
    exact ⟨ha, h1, rfl⟩
  · rintro ⟨h1, h2, rfl⟩
    refine ⟨lang ++ ".tex".toList, ?_, by rw [stem_tex h1]⟩
    rw [List.mem_filter, tex_matches, hent]
    exact ⟨h2, lang, rfl⟩

theorem texOf_lang {w : World} (hwf : w.fs.Wf) {dir : RPath} {d : Name} (hh : ¬ HasEntry w dir d ".tex".toList)
    {lang : Name} (hl : lang ≠ []) :
    (texOf w dir d).filter (fun q => decide (q.1 = lang)) =
      if w.resolve dir ++ [d, lang ++ ".tex".toList] ∈ w.fs.keys
      then [(lang, inDir dir d (lang ++ ".tex".toList))] else [] := by
  have hent : ∀ n, n ∈ w.entries (w.resolve dir ++ [d]) ↔ w.resolve dir ++ [d, n] ∈ w.fs.keys := by
    intro n; rw [mem_entries]; simp
  unfold texOf
  rw [List.filter_map, List.filter_filter]
  have hcongr : (w.entries (w.resolve dir ++ [d])).filter
      (fun a => ((fun q : Name × RPath => decide (q.1 = lang)) ∘ fun n => (stemOf n, inDir dir d n)) a &&
        nameMatches "*.tex".toList a) =
      (w.entries (w.resolve dir ++ [d])).filter (fun n => decide (n = lang ++ ".tex".toList)) := by
    refine List.filter_congr ?_
    intro n hn
    simp only [Function.comp]
    rw [Bool.eq_iff_iff, Bool.and_eq_true, decide_eq_true_eq, decide_eq_true_eq, tex_matches]
    constructor
    · rintro ⟨h1, a, rfl⟩
      have ha : a ≠ [] := by
        rintro rfl
        exact hh ((hent _).1 hn)
      rw [stem_tex ha] at h1
      rw [h1]
    · rintro rfl
      exact ⟨stem_tex hl, lang, rfl⟩
  rw [hcongr, filter_eq_of_nodup (entries_nodup hwf _)]
  by_cases h : w.resolve dir ++ [d, lang ++ ".tex".toList] ∈ w.fs.keys
  · rw [if_pos ((hent _).2 h), if_pos h, List.map_cons, stem_tex hl, List.map_nil]
  · rw [if_neg (fun x => h ((hent _).1 x)), if_neg h, List.map_nil]

theorem statements_two {w : World} (hwf : w.fs.Wf) (t : TaskAt) {d1 d2 : Name}
    (h1 : ¬ HasEntry w t.path d1 ".tex".toList) (h2 : ¬ HasEntry w t.path d2 ".tex".toList)
    {lang : Name} (hl : lang ≠ []) :
    ((texOf w t.path d1 ++ texOf w t.path d2).filter
      (fun q => decide (q.1 = lang))).map (fun q => (⟨t, q.2⟩ : StatementOf)) =
    [d1, d2].filterMap (fun d =>
      if w.resolve t.path ++ [d, lang ++ ".tex".toList] ∈ w.fs.keys
      then some ⟨t, inDir t.path d (lang ++ ".tex".toList)⟩ else none) := by
  rw [List.filter_append, texOf_lang hwf h1 hl, texOf_lang hwf h2 hl]
  generalize ".tex".toList = x
  rw [List.filterMap_cons, List.filterMap_cons, List.filterMap_nil]
  by_cases h1 : w.resolve t.path ++ [d1, lang ++ x] ∈ w.fs.keys <;>
    by_cases h2 : w.resolve t.path ++ [d2, lang ++ x] ∈ w.fs.keys <;>
    simp only [h1, h2, if_true, if_false, List.map_append, List.map_cons, List.map_nil, List.nil_append,
      List.cons_append]

/-- The statements of a task, by language. -/
theorem statements_lang {w : World} (hwf : w.fs.Wf) (t : TaskAt) (hh : NoHiddenTex w t.path)
    {lang : Name} (hl : lang ≠ []) :
    ((texOf w t.path "statement".toList ++ texOf w t.path "testo".toList).filter
      (fun q => decide (q.1 = lang))).map (fun q => (⟨t, q.2⟩ : StatementOf)) = statementsIn w t lang :=
  statements_two hwf t (hh _ (by simp [texDirs])) (hh _ (by simp [texDirs])) hl

theorem statements_nolang {w : World} {t : TaskAt} (hh : NoHiddenTex w t.path) :
    ∀ q ∈ texOf w t.path "statement".toList ++ texOf w t.path "testo".toList, q.1 ≠ [] := by
  rintro ⟨lang, p⟩ hq
  rw [List.mem_append, mem_texOf (hh _ (by simp [texDirs])), mem_texOf (hh _ (by simp [texDirs]))] at hq
  rcases hq with h | h <;> exact h.1

theorem mem_statementsIn {w : World} {t : TaskAt} {lang : Name} (hl : lang ≠ []) {s : StatementOf} :
    s ∈ statementsIn w t lang ↔ s.task = t ∧ TexFile w t.path lang s.path := by
  unfold statementsIn TexFile HasEntry
  rw [List.mem_filterMap]
  constructor
  · rintro ⟨d, hd, h⟩
    by_cases hc : w.resolve t.path ++ [d, lang ++ ".tex".toList] ∈ w.fs.keys
    · rw [if_pos hc] at h
      cases h
      exact ⟨rfl, hl, d, hd, hc, rfl⟩
    · rw [if_neg hc] at h; cases h
  · rintro ⟨h1, -, d, hd, h2, h3⟩
    refine ⟨d, hd, ?_⟩
    rw [if_pos h2, ← h3, ← h1]

/-! ## The languages -/

theorem insert_fold (t : TaskAt) (l : List (Name × RPath)) : ∀ (m : AMap Name (List StatementOf)),
    m.Wf → (∀ k, m.get? k ≠ some []) →
    let r := l.foldl (fun m q => m.insert q.1 ((m.get? q.1).getD [] ++ [⟨t, q.2⟩])) m
    r.Wf ∧ (∀ k, r.get? k ≠ some []) ∧ ∀ k, (r.get? k).getD [] =
      (m.get? k).getD [] ++ (l.filter (fun q => decide (q.1 = k))).map (fun q => ⟨t, q.2⟩) := by
  induction l with
  | nil => intro m h1 h2; exact ⟨h1, h2, by simp⟩
  | cons q l ih =>
    intro m h1 h2
    rw [List.foldl_cons]
    obtain ⟨i1, i2, i3⟩ := ih (m.insert q.1 ((m.get? q.1).getD [] ++ [⟨t, q.2⟩])) (wf_insert h1 _ _) (by
      intro k
      rw [get?_insert]
      by_cases hk : k = q.1
      · rw [if_pos hk]; simp
      · rw [if_neg hk]; exact h2 k)
    refine ⟨i1, i2, ?_⟩
    intro k
    rw [i3 k, get?_insert, List.filter_cons]
    by_cases hk : k = q.1
    · subst hk
      simp
    · rw [if_neg hk, if_neg (by simpa using Ne.symm hk)]

theorem byLanguage_spec {w : World} (hwf : w.fs.Wf) (hreal : RealNames w) : ∀ (ts : List TaskAt)
    (m : AMap Name (List StatementOf)),
    (∀ t ∈ ts, Plain t.path ∧ NoHiddenTex w t.path) → m.Wf → (∀ k, m.get? k ≠ some []) → m.get? [] = none →
    ∃ r, byLanguage w ts m = some r ∧ r.Wf ∧ (∀ k, r.get? k ≠ some []) ∧ r.get? [] = none ∧
      ∀ k, k ≠ [] → (r.get? k).getD [] = (m.get? k).getD [] ++ ts.flatMap (fun t => statementsIn w t k) := by
  intro ts
  induction ts with
  | nil => intro m _ h1 h2 h3; exact ⟨m, rfl, h1, h2, h3, by simp⟩
  | cons t ts ih =>
    intro m h h1 h2 h3
    obtain ⟨hp, hh⟩ := h t (by simp)
    have hf := findStatements_eq hreal hp
    obtain ⟨i1, i2, i3⟩ := insert_fold t (texOf w t.path "statement".toList ++ texOf w t.path "testo".toList) m h1 h2
    have hnil : (List.foldl (fun m q => m.insert q.1 ((m.get? q.1).getD [] ++ [⟨t, q.2⟩])) m
        (texOf w t.path "statement".toList ++ texOf w t.path "testo".toList)).get? [] = none := by
      have := i3 []
      rw [h3, List.filter_eq_nil_iff.2 (by
        intro q hq
        have := statements_nolang hh q hq
        simpa using this)] at this
      cases hc : (List.foldl (fun m q => m.insert q.1 ((m.get? q.1).getD [] ++ [⟨t, q.2⟩])) m
        (texOf w t.path "statement".toList ++ texOf w t.path "testo".toList)).get? [] with
      | none => rfl
      | some v =>
        rw [hc] at this
        simp only [Option.getD_some, Option.getD_none, List.map_nil, List.append_nil] at this
        subst this
        exact absurd hc (i2 [])
    obtain ⟨r, r1, r2, r3, r4, r5⟩ := ih _ (fun x hx => h x (by simp [hx])) i1 i2 hnil
    refine ⟨r, ?_, r2, r3, r4, ?_⟩
    · rw [byLanguage, hf]
      exact r1
    · intro k hk
      rw [r5 k hk, i3 k, statements_lang hwf t hh hk, List.flatMap_cons, List.append_assoc]

theorem contestLoop_ok {w : World} {cf : ContestFile} {contest : RPath} : ∀ (l : List (Name × List StatementOf)),
    ((∃ bs, contestLoop w cf contest l = .ok bs) ↔
      (l ≠ [] → configOk w cf contest = true) ∧ ∀ q ∈ l, ∀ s ∈ q.2, (w.read s.path).isSome = true) ∧
    ∀ bs, contestLoop w cf contest l = .ok bs →
      bs = l.map (fun q => ⟨q.1, contest.join ⟨false, [q.1 ++ ".pdf".toList]⟩, q.2⟩) := by
  intro l
  induction l with
  | nil =>
    refine ⟨⟨fun _ => ⟨fun h => absurd rfl h, fun q hq => nomatch hq⟩, fun _ => ⟨[], rfl⟩⟩, ?_⟩
    intro bs h
    cases h
    rfl
  | cons q l ih =>
    obtain ⟨lang, sts⟩ := q
    rw [contestLoop]
    by_cases hc : configOk w cf contest = false
    · rw [if_pos hc]
      refine ⟨⟨(fun h => by obtain ⟨bs, h⟩ := h; cases h), fun h => ?_⟩, (fun bs h => by cases h)⟩
      have := h.1 (by simp)
      rw [hc] at this
      cases this
    · rw [if_neg hc]
      have hc' : configOk w cf contest = true := by simpa using hc
      cases hfind : sts.find? (fun s => (w.read s.path).isNone) with
      | some s =>
        dsimp only
        refine ⟨⟨(fun h => by obtain ⟨bs, h⟩ := h; cases h), fun h => ?_⟩, (fun bs h => by cases h)⟩
        have h1 := List.find?_some hfind
        have h2 := h.2 (lang, sts) (by simp) s (List.mem_of_find?_eq_some hfind)
        cases hr : w.read s.path with
        | none => rw [hr] at h2; cases h2
        | some c => simp [hr] at h1
      | none =>
        dsimp only
        have hall : ∀ s ∈ sts, (w.read s.path).isSome = true := by
          intro s hs
          have := List.find?_eq_none.1 hfind s hs
          cases hr : w.read s.path with
          | none => simp [hr] at this
          | some c => rfl
        cases hl : contestLoop w cf contest l with
        | error e =>
          dsimp only
          rw [hl] at ih
          refine ⟨⟨(fun h => by obtain ⟨bs, h⟩ := h; cases h), fun h => ?_⟩, (fun bs h => by cases h)⟩
          obtain ⟨bs, hbs⟩ := ih.1.2 ⟨fun _ => hc', fun q hq => h.2 q (by simp [hq])⟩
          cases hbs
        | ok bs =>
          dsimp only
          rw [hl] at ih
          have hi := ih.1.1 ⟨bs, rfl⟩
          refine ⟨⟨fun _ => ⟨fun _ => hc', ?_⟩, fun _ => ⟨_, rfl⟩⟩, ?_⟩
          · intro q hq
            rcases List.mem_cons.1 hq with rfl | hq
            · exact hall
            · exact hi.2 q hq
          · intro bs' h
            cases h
            rw [ih.2 bs rfl]
            rfl

theorem parent_contest {t : TaskAt} {contest : RPath} : t.path.parent = some contest ↔ ContestOf t contest := by
  unfold RPath.parent ContestOf
  obtain ⟨name, abs, comps⟩ := t
  dsimp only
  constructor
  · intro h
    by_cases hc : comps = []
    · rw [if_pos hc] at h; cases h
    · rw [if_neg hc] at h
      cases h
      exact ⟨comps.getLast hc, by rw [List.dropLast_concat_getLast]⟩
  · rintro ⟨n, h⟩
    cases h
    rw [if_neg (by simp)]
    simp

theorem sameContest_iff {contest : RPath} : ∀ (ts : List TaskAt),
    sameContest contest ts = .ok () ↔ ∀ t ∈ ts, ContestOf t contest := by
  intro ts
  induction ts with
  | nil => simp [sameContest]
  | cons t ts ih =>
    rw [sameContest]
    cases hp : t.path.parent with
    | none =>
      dsimp only
      refine ⟨(fun h => by cases h), fun h => ?_⟩
      have := parent_contest.2 (h t (by simp))
      rw [hp] at this
      cases this
    | some d =>
      dsimp only
      by_cases hd : contest = d
      · subst hd
        rw [if_neg (by simp), ih]
        exact ⟨fun h x hx => (List.mem_cons.1 hx).elim (fun e => e ▸ parent_contest.1 hp) (h x),
          fun h x hx => h x (by simp [hx])⟩
      · rw [if_pos hd]
        refine ⟨(fun h => by cases h), fun h => ?_⟩
        have := parent_contest.2 (h t (by simp))
        rw [hp] at this
        cases this
        exact absurd rfl hd

theorem read_isText {w : World} {p : RPath} : (w.read p).isSome = true ↔ IsText w p := by
  unfold World.read IsText
  cases h : w.fs.get? (w.resolve p) with
  | none => simp
  | some n =>
    cases n with
    | dir => simp
    | file c => cases c <;> simp

theorem configOk_iff {w : World} {cf : ContestFile} {dir : RPath} : configOk w cf dir = true ↔ ContestOk w cf dir := by
  unfold configOk contestYaml ContestOk
  have he := exists_iff w (dir.join ⟨false, [contestName]⟩)
  generalize dir.join ⟨false, [contestName]⟩ = p at he ⊢
  by_cases h : w.exists p = true
  · rw [if_pos h]
    have hk := he.1 h
    simp only [hk, not_true_eq_false, false_or]
    unfold World.read
    cases hg : w.fs.get? (w.resolve p) with
    | none => simp
    | some n =>
      cases n with
      | dir => simp
      | file c =>
        cases c with
        | none => simp
        | some t => cases hp : cf.parse t <;> simp [hp]
  · rw [if_neg h]
    have hk : ¬ w.resolve p ∈ w.fs.keys := fun x => h (he.2 x)
    simp [hk]

end TM.Find
