import Verif.Parse.Spec
import Verif.Find.SolLemmas
import Verif.Find.TaskLemmas
import Verif.Sanity.PropsGraders

/-!
# The parts of a task: lemmas
-/
namespace TM.Parse
open TM AMap TM.Find

/-- No character is special in patterns. -/
def PlainName (n : Name) : Prop := ∀ c ∈ n, c ≠ '*' ∧ c ≠ '?' ∧ c ≠ '['

theorem tokens_lits (n rest : Name) (h : PlainName n) :
    Clean.tokens none (n ++ rest) = (Clean.tokens none rest).map (n.map Clean.Tok.lit ++ ·) := by
  induction n with
  | nil => simp
  | cons c cs ih =>
    have hc := h c (by simp)
    rw [List.cons_append, Clean.tokens, if_neg hc.1, if_neg hc.2.1, if_neg hc.2.2,
      ih (fun x hx => h x (by simp [hx]))]
    cases Clean.tokens none rest <;> simp

theorem matchToks_lits (n : Name) (ts : List Clean.Tok) : ∀ (m : Name),
    Clean.matchToks (n.map Clean.Tok.lit ++ ts) m = true ↔ ∃ r, m = n ++ r ∧ Clean.matchToks ts r = true := by
  induction n with
  | nil => intro m; simp
  | cons c cs ih =>
    intro m
    cases m with
    | nil =>
      simp [Clean.matchToks]
    | cons d ds =>
      simp only [List.map_cons, List.cons_append, Clean.matchToks, Bool.and_eq_true, beq_iff_eq,
        List.cons.injEq]
      rw [ih ds]
      constructor
      · rintro ⟨rfl, r, h1, h2⟩; exact ⟨r, ⟨rfl, h1⟩, h2⟩
      · rintro ⟨r, ⟨h0, h1⟩, h2⟩; exact ⟨h0.symm, r, h1, h2⟩

theorem star_toks (n : Name) : Clean.matchToks [Clean.Tok.star] n = true := by
  have h := star_matches n
  have e : Clean.tokens none ['*'] = some [Clean.Tok.star] := by decide
  unfold nameMatches at h
  rw [e] at h
  exact h

/-- The pattern `stem.*`. -/
theorem dotstar (stem : Name) (h : PlainName stem) :
    (Clean.tokens none (stem ++ ['.', '*'])).isSome = true ∧ hasMeta (stem ++ ['.', '*']) = true ∧
    ∀ n, nameMatches (stem ++ ['.', '*']) n = true ↔ ∃ ext, n = stem ++ '.' :: ext := by
  have e : Clean.tokens none (stem ++ ['.', '*']) =
      some ((stem ++ ['.']).map Clean.Tok.lit ++ [Clean.Tok.star]) := by
    have e0 : Clean.tokens none ['.', '*'] = some [Clean.Tok.lit '.', Clean.Tok.star] := by decide
    rw [tokens_lits stem _ h, e0]
    simp
  refine ⟨by rw [e]; rfl, by simp [hasMeta], fun n => ?_⟩
  unfold nameMatches
  rw [e]
  simp only []
  rw [matchToks_lits]
  constructor
  · rintro ⟨r, h1, _⟩; exact ⟨r, by simpa using h1⟩
  · rintro ⟨r, h1⟩; exact ⟨r, by simpa using h1, star_toks r⟩

theorem listFiles_cons (w : World) (base p : RPath) (ps : List RPath) :
    listFiles w base (p :: ps) =
      (listFiles w base [p]).bind (fun l => (listFiles w base ps).map (l ++ ·)) := by
  cases h : globPath w (base.join p) with
  | none => simp [listFiles, h]
  | some l => simp [listFiles, h]

theorem listFiles_append (w : World) (base : RPath) (ps qs : List RPath) :
    listFiles w base (ps ++ qs) =
      (listFiles w base ps).bind (fun l => (listFiles w base qs).map (l ++ ·)) := by
  induction ps with
  | nil => cases h : listFiles w base qs <;> simp [listFiles, h]
  | cons p ps ih =>
    rw [List.cons_append, listFiles_cons, ih, listFiles_cons w base p ps]
    cases listFiles w base [p] with
    | none => rfl
    | some a =>
      cases listFiles w base ps with
      | none => rfl
      | some b => cases listFiles w base qs <;> simp

theorem join_two {base : RPath} {dir n : Name} (hd : dir ≠ dot) :
    base.join ⟨false, [dir, n]⟩ = inDir base dir n := by
  unfold RPath.join inDir
  simp only [Bool.false_eq_true, if_false, List.head?_cons, Option.some.injEq, hd]
  by_cases h : base.comps = [] ∧ base.abs = false
  · rw [if_pos h, h.1, h.2]; rfl
  · rw [if_neg h]

/-- A pattern that is not one. -/
theorem listFiles_exact {w : World} {base : RPath} {dir n : Name} (hplain : Plain base)
    (hd : PlainName dir) (hn : PlainName n) (hd2 : dir ≠ dot) :
    listFiles w base [⟨false, [dir, n]⟩] =
      some (if w.exists (inDir base dir n) then [inDir base dir n] else []) := by
  unfold listFiles globPath
  rw [join_two hd2]
  have hmem : ∀ c ∈ (inDir base dir n).comps, PlainName c := by
    intro c hc
    unfold inDir at hc
    dsimp only at hc
    rw [List.mem_append] at hc
    rcases hc with hc | hc
    · exact hplain c hc
    · simp only [List.mem_cons, List.not_mem_nil, or_false] at hc
      rcases hc with rfl | rfl
      · exact hd
      · exact hn
  have hv : ((inDir base dir n).comps.all (fun c => (Clean.tokens none c).isSome)) = true := by
    rw [List.all_eq_true]
    intro c hc
    exact (tokens_plain c (hmem c hc)).1
  rw [if_pos hv]
  have h := globFrom_plain w (inDir base dir n).comps ⟨(inDir base dir n).abs, []⟩ []
    (fun c hc => (tokens_plain c (hmem c hc)).2)
  rw [List.append_nil] at h
  rw [h]
  simp only [List.nil_append, globFrom, listFiles, Option.map_some, List.append_nil]

/-- The files of the patterns `dir/stem.*`. -/
theorem listFiles_places {w : World} {base : RPath} (hreal : RealNames w) (hplain : Plain base) :
    ∀ (places : List (Name × Name)), (∀ e ∈ places, PlainName e.1 ∧ PlainName e.2 ∧ e.1 ≠ dot ∧ e.1 ≠ dotdot) →
    listFiles w base (places.map (fun e => ⟨false, [e.1, e.2 ++ ['.', '*']]⟩)) =
      some (places.flatMap (fun e => ((w.entries (w.resolve base ++ [e.1])).filter
        (nameMatches (e.2 ++ ['.', '*']))).map (inDir base e.1))) := by
  intro places
  induction places with
  | nil => intro _; rfl
  | cons e es ih =>
    intro h
    have he := h e (by simp)
    have hd := dotstar e.2 he.2.1
    rw [List.map_cons, listFiles_cons, ih (fun x hx => h x (by simp [hx])),
      listFiles_pat _ hd.2.1 hd.1 hreal hplain he.1 he.2.2]
    simp

theorem listFiles_names {w : World} {base : RPath} (hplain : Plain base) :
    ∀ (places : List (Name × Name)), (∀ e ∈ places, PlainName e.1 ∧ PlainName e.2 ∧ e.1 ≠ dot) →
    listFiles w base (places.map (fun e => ⟨false, [e.1, e.2]⟩)) =
      some (places.flatMap (fun e => if w.exists (inDir base e.1 e.2) then [inDir base e.1 e.2] else [])) := by
  intro places
  induction places with
  | nil => intro _; rfl
  | cons e es ih =>
    intro h
    have he := h e (by simp)
    rw [List.map_cons, listFiles_cons, ih (fun x hx => h x (by simp [hx])),
      listFiles_exact hplain he.1 he.2.1 he.2.2]
    simp

theorem inDir_inj {base : RPath} {d d' n n' : Name} (h : inDir base d n = inDir base d' n') : d = d' ∧ n = n' := by
  unfold inDir at h
  simp only [RPath.mk.injEq, true_and] at h
  have := List.append_cancel_left h
  simpa using this

theorem fileName_inDir {base : RPath} {d n : Name} (h : n ≠ dot ∧ n ≠ dotdot) :
    (inDir base d n).fileName = some n := by
  unfold RPath.fileName inDir
  simp [h.1, h.2]

theorem stem_eq {a b x y : Name} (ha : '.' ∉ a) (hb : '.' ∉ b) (h : a ++ '.' :: x = b ++ '.' :: y) : a = b ∧ x = y := by
  induction a generalizing b with
  | nil =>
    cases b with
    | nil => simpa using h
    | cons c b => simp only [List.nil_append, List.cons_append, List.cons.injEq] at h; simp [← h.1] at hb
  | cons c a ih =>
    cases b with
    | nil => simp only [List.nil_append, List.cons_append, List.cons.injEq] at h; simp [h.1] at ha
    | cons c' b =>
      simp only [List.cons_append, List.cons.injEq] at h
      have := ih (b := b) (fun hh => ha (by simp [hh])) (fun hh => hb (by simp [hh])) h.2
      exact ⟨by rw [h.1, this.1], this.2⟩

/-- A name without dots has no language. -/
theorem no_language {n : Name} (h : '.' ∉ n) : Sanity.detectLanguage n = none := by
  cases e : Sanity.detectLanguage n with
  | none => rfl
  | some l =>
    obtain ⟨_, stem, ext, hn, _⟩ := (Sanity.language_exact n l).1 e
    rw [hn] at h
    simp at h

/-- The sources that are found: they have different paths and are exactly the parts. -/
theorem findSource_spec {w : World} {base : RPath} (hreal : RealNames w) (hplain : Plain base) (hwf : w.fs.Wf)
    (places extra : List (String × String))
    (hp : ∀ e ∈ places, PlainName e.1.toList ∧ PlainName e.2.toList ∧ e.1.toList ≠ dot ∧ e.1.toList ≠ dotdot ∧
      '.' ∉ e.2.toList)
    (he : ∀ e ∈ extra, PlainName e.1.toList ∧ PlainName e.2.toList ∧ e.1.toList ≠ dot ∧ '.' ∉ e.2.toList)
    (hnd : places.Nodup) (graders : Bool) (wb : WriteBin) :
    ∃ l, findSource w base (places.map (fun e => ⟨false, [e.1.toList, e.2.toList ++ ['.', '*']]⟩) ++
        extra.map (fun e => ⟨false, [e.1.toList, e.2.toList]⟩)) graders wb = some l ∧
      (l.map (·.path)).Nodup ∧
      (∀ s ∈ l, Part w base places s.path s.language ∧ toSrc w base graders wb s.path = some s) ∧
      (∀ p lang, Part w base places p lang → ∃ s ∈ l, s.path = p) := by
  have h1 := listFiles_places hreal hplain (places.map (fun e => (e.1.toList, e.2.toList))) (by
    intro e h
    obtain ⟨x, hx, rfl⟩ := List.mem_map.1 h
    have := hp x hx
    exact ⟨this.1, this.2.1, this.2.2.1, this.2.2.2.1⟩)
  have h2 := listFiles_names (w := w) hplain (extra.map (fun e => (e.1.toList, e.2.toList))) (by
    intro e h
    obtain ⟨x, hx, rfl⟩ := List.mem_map.1 h
    have := he x hx
    exact ⟨this.1, this.2.1, this.2.2.1⟩)
  rw [List.map_map] at h1 h2
  have h1' : listFiles w base (places.map (fun e => ⟨false, [e.1.toList, e.2.toList ++ ['.', '*']]⟩)) = _ := h1
  have h2' : listFiles w base (extra.map (fun e => ⟨false, [e.1.toList, e.2.toList]⟩)) = _ := h2
  unfold findSource
  rw [listFiles_append, h1', h2']
  simp only [Option.bind_some, Option.map_some, List.filterMap_append]
  -- the extra patterns give nothing
  have hx : (List.flatMap (fun e => if w.exists (inDir base e.1 e.2) = true then [inDir base e.1 e.2] else [])
      (extra.map (fun e => (e.1.toList, e.2.toList)))).filterMap (toSrc w base graders wb) = [] := by
    rw [List.filterMap_eq_nil_iff]
    intro p hpm
    obtain ⟨e, hem, hpe⟩ := List.mem_flatMap.1 hpm
    obtain ⟨x, hxm, rfl⟩ := List.mem_map.1 hem
    have hd := he x hxm
    split at hpe
    · simp only [List.mem_singleton] at hpe
      subst hpe
      have hl : languageOf (inDir base x.1.toList x.2.toList) = none := by
        have hnd : x.2.toList ≠ dot ∧ x.2.toList ≠ dotdot := by
          constructor <;> (intro hh; apply hd.2.2.2; rw [hh]; decide)
        unfold languageOf
        rw [fileName_inDir hnd]
        exact no_language hd.2.2.2
      unfold toSrc
      rw [hl]
      split <;> rfl
    · simp at hpe
  rw [hx, List.append_nil]
  refine ⟨_, rfl, ?_, ?_, ?_⟩
  · -- nodup
    have hpath : ∀ (L : List RPath), ((L.filterMap (toSrc w base graders wb)).map (·.path)) =
        L.filter (fun p => (toSrc w base graders wb p).isSome) := by
      intro L
      induction L with
      | nil => rfl
      | cons p L ih =>
        rw [List.filterMap_cons, List.filter_cons]
        cases e : toSrc w base graders wb p with
        | none => simp [ih]
        | some s =>
          have : s.path = p := by
            unfold toSrc at e
            split at e
            · split at e
              · cases e
              · cases e; rfl
            · cases e
          simp [ih, this]
    rw [hpath]
    apply List.Pairwise.filter
    have hnd' : ∀ (ps : List (String × String)), (∀ e ∈ ps, PlainName e.2.toList ∧ '.' ∉ e.2.toList) → ps.Nodup →
        (List.flatMap (fun e => ((w.entries (w.resolve base ++ [e.1])).filter
          (nameMatches (e.2 ++ ['.', '*']))).map (inDir base e.1)) (ps.map (fun e => (e.1.toList, e.2.toList)))).Nodup := by
      intro ps
      induction ps with
      | nil => intro _ _; simp
      | cons e ps ih =>
        intro hh hn
        rw [List.nodup_cons] at hn
        rw [List.map_cons, List.flatMap_cons, List.nodup_append]
        refine ⟨?_, ih (fun x hx => hh x (by simp [hx])) hn.2, ?_⟩
        · unfold List.Nodup
          rw [List.pairwise_map]
          refine List.Pairwise.imp ?_ (List.Pairwise.filter _ (entries_nodup hwf _))
          intro a b hab hh
          exact hab (inDir_inj hh).2
        · intro p hp q hq hpq
          subst hpq
          obtain ⟨n, hn1, rfl⟩ := List.mem_map.1 hp
          obtain ⟨x, hx, hx2⟩ := List.mem_flatMap.1 hq
          obtain ⟨y, hy, rfl⟩ := List.mem_map.1 hx
          obtain ⟨m, hm1, hm2⟩ := List.mem_map.1 hx2
          have hi := inDir_inj hm2
          obtain ⟨a, ha⟩ := ((dotstar e.2.toList (hh e (by simp)).1).2.2 n).1 (List.mem_filter.1 hn1).2
          obtain ⟨b, hb⟩ := ((dotstar y.2.toList (hh y (by simp [hy])).1).2.2 m).1 (List.mem_filter.1 hm1).2
          have hs := (stem_eq (hh e (by simp)).2 (hh y (by simp [hy])).2 (ha.symm.trans (hi.2.symm.trans hb))).1
          have h1 : e.1 = y.1 := String.toList_injective hi.1.symm
          have h2 : e.2 = y.2 := String.toList_injective hs
          have : e = y := Prod.ext h1 h2
          subst this
          exact hn.1 hy
    exact hnd' places (fun e h => ⟨(hp e h).2.1, (hp e h).2.2.2.2⟩) hnd
  · -- sound
    intro s hs
    obtain ⟨p, hpm, hps⟩ := List.mem_filterMap.1 hs
    obtain ⟨e, hem, hpe⟩ := List.mem_flatMap.1 hpm
    obtain ⟨x, hxm, rfl⟩ := List.mem_map.1 hem
    obtain ⟨n, hn1, rfl⟩ := List.mem_map.1 hpe
    obtain ⟨hn2, hn3⟩ := List.mem_filter.1 hn1
    obtain ⟨ext, rfl⟩ := ((dotstar x.2.toList (hp x hxm).2.1).2.2 n).1 hn3
    have hmem := mem_entries.1 hn2
    have hr := hreal _ hmem (x.2.toList ++ '.' :: ext) (by simp)
    unfold toSrc at hps
    split at hps
    · next hex =>
      unfold languageOf at hps
      rw [fileName_inDir ⟨hr.2.1, hr.2.2⟩] at hps
      dsimp only at hps
      cases hl : Sanity.detectLanguage (x.2.toList ++ '.' :: ext) with
      | none => rw [hl] at hps; cases hps
      | some l =>
        rw [hl] at hps
        cases hps
        dsimp only
        refine ⟨⟨x.1, x.2, ext, hxm, ?_, rfl, (Sanity.language_exact _ _).1 hl⟩, ?_⟩
        · unfold HasEntry
          simpa using hmem
        · unfold toSrc
          rw [if_pos hex]
          unfold languageOf
          rw [fileName_inDir ⟨hr.2.1, hr.2.2⟩]
          dsimp only
          rw [hl]
    · cases hps
  · -- complete
    rintro p lang ⟨dir, stem, ext, hin, hent, rfl, hsrc⟩
    have hmem : w.resolve base ++ [dir.toList] ++ [stem.toList ++ '.' :: ext] ∈ w.fs.keys := by
      unfold HasEntry at hent; simpa using hent
    have hr := hreal _ hmem (stem.toList ++ '.' :: ext) (by simp)
    have hpp := hp _ hin
    have hex : w.exists (inDir base dir.toList (stem.toList ++ '.' :: ext)) = true := by
      rw [exists_iff]
      unfold inDir
      rw [resolve_append w base _ (by
        intro x hx
        simp only [List.mem_cons, List.not_mem_nil, or_false] at hx
        rcases hx with rfl | rfl
        · exact ⟨hpp.2.2.1, hpp.2.2.2.1⟩
        · exact ⟨hr.2.1, hr.2.2⟩)]
      exact hent
    have hs : ∃ s, toSrc w base graders wb (inDir base dir.toList (stem.toList ++ '.' :: ext)) = some s ∧
        s.path = inDir base dir.toList (stem.toList ++ '.' :: ext) := by
      unfold toSrc
      rw [if_pos hex]
      unfold languageOf
      rw [fileName_inDir ⟨hr.2.1, hr.2.2⟩]
      dsimp only
      rw [(Sanity.language_exact _ _).2 hsrc]
      exact ⟨_, rfl, rfl⟩
    obtain ⟨s, hs1, hs2⟩ := hs
    refine ⟨s, List.mem_filterMap.2 ⟨_, ?_, hs1⟩, hs2⟩
    refine List.mem_flatMap.2 ⟨(dir.toList, stem.toList), List.mem_map.2 ⟨_, hin, rfl⟩, ?_⟩
    refine List.mem_map.2 ⟨_, List.mem_filter.2 ⟨mem_entries.2 hmem, ?_⟩, rfl⟩
    exact ((dotstar stem.toList hpp.2.1).2.2 _).2 ⟨ext, rfl⟩

theorem part_language {w : World} {base : RPath} {places : List (String × String)} {p : RPath} {l l' : Sanity.Language}
    (h : Part w base places p l) (h' : Part w base places p l') : l = l' := by
  obtain ⟨d, s, e, _, _, hp, hl⟩ := h
  obtain ⟨d', s', e', _, _, hp', hl'⟩ := h'
  have := (inDir_inj (hp.symm.trans hp')).2
  rw [← this] at hl'
  have h1 := (Sanity.language_exact _ _).2 hl
  have h2 := (Sanity.language_exact _ _).2 hl'
  rw [h1] at h2
  exact Option.some.inj h2

/-- What `only` gives on the sources that are found. -/
theorem only_spec {w : World} {base : RPath} {places : List (String × String)} {graders : Bool} {wb : WriteBin}
    {l : List Src} {er : Err} (her : er ≠ .panic)
    (hnd : (l.map (·.path)).Nodup)
    (hs : ∀ s ∈ l, Part w base places s.path s.language ∧ toSrc w base graders wb s.path = some s)
    (hc : ∀ p lang, Part w base places p lang → ∃ s ∈ l, s.path = p) :
    (only er (some l) = .ok none ↔ NoPart w base places) ∧
    (∀ s, only er (some l) = .ok (some s) ↔
      OnlyPart w base places s.path s.language ∧ toSrc w base graders wb s.path = some s) ∧
    (∀ e, only er (some l) = .error e ↔ e = er ∧ ManyParts w base places) := by
  match l, hnd, hs, hc with
  | [], _, hs, hc =>
    have hno : NoPart w base places := by
      intro p lang hp; obtain ⟨s, hs, _⟩ := hc p lang hp; simp at hs
    refine ⟨⟨fun _ => hno, fun _ => rfl⟩, fun s => ⟨fun h => (by cases h), fun h => absurd h.1.1 (hno _ _)⟩,
      fun e => ⟨fun h => (by cases h), fun h => ?_⟩⟩
    obtain ⟨_, p, l, _, _, hp, _⟩ := h
    exact absurd hp (hno _ _)
  | [a], _, hs, hc =>
    have ha := hs a (by simp)
    have hon : ∀ q l', Part w base places q l' → q = a.path := by
      intro q l' hq
      obtain ⟨s, hs, rfl⟩ := hc q l' hq
      simp only [List.mem_singleton] at hs
      rw [hs]
    refine ⟨⟨fun h => (by cases h), fun h => absurd ha.1 (h _ _)⟩, fun s => ⟨fun h => ?_, fun h => ?_⟩,
      fun e => ⟨fun h => (by cases h), fun h => ?_⟩⟩
    · cases h; exact ⟨⟨ha.1, hon⟩, ha.2⟩
    · have e := hon _ _ h.1.1
      have h2 := h.2
      rw [e, ha.2] at h2
      cases h2
      rfl
    · obtain ⟨_, p, l, q, l', hp, hq, hne⟩ := h
      exact absurd ((hon _ _ hp).trans (hon _ _ hq).symm) hne
  | a :: b :: rest, hnd, hs, hc =>
    have ha := hs a (by simp)
    have hb := hs b (by simp)
    have hne : a.path ≠ b.path := by
      simp only [List.map_cons, List.nodup_cons, List.mem_cons] at hnd
      exact fun h => hnd.1 (Or.inl h)
    refine ⟨⟨fun h => (by cases h), fun h => absurd ha.1 (h _ _)⟩, fun s => ⟨fun h => (by cases h), fun h => ?_⟩,
      fun e => ⟨fun h => ?_, fun h => ?_⟩⟩
    · exact absurd ((h.1.2 _ _ ha.1).trans (h.1.2 _ _ hb.1).symm) hne
    · cases h; exact ⟨rfl, _, _, _, _, ha.1, hb.1, hne⟩
    · rw [h.1]; rfl

end TM.Parse
