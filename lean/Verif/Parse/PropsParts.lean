import Verif.Parse.PartLemmas
import Verif.Parse.Sample

/-!
# C109: what a task is made of
-/
namespace TM.Parse
open TM AMap TM.Find

section
variable {w : World} {base : RPath}

theorem nextTo_unique {p a b : RPath} (ha : NextTo p a) (hb : NextTo p b) : a = b := by
  obtain ⟨cs, stem, ext, h1, h2, h3⟩ := ha
  obtain ⟨cs', stem', ext', h1', h2', h3'⟩ := hb
  rw [h2] at h2'
  simp only [RPath.mk.injEq] at h2'
  have hl := congrArg List.reverse h2'.2
  simp only [List.reverse_append, List.reverse_cons, List.reverse_nil, List.nil_append, List.cons_append,
    List.cons.injEq, List.reverse_inj] at hl
  obtain ⟨hn, hc⟩ := hl
  have hr := congrArg List.reverse hn
  simp only [List.reverse_append, List.reverse_cons, List.append_assoc, List.cons_append, List.nil_append] at hr
  have := stem_eq (by simpa using h1) (by simpa using h1') hr
  have hs : stem = stem' := List.reverse_inj.1 this.2
  cases a; cases b
  simp only at h3 h3' h2'
  rw [h3, h3', hc, hs, h2'.1]

theorem withoutExtension_nextTo {places : List (String × String)} {p : RPath} {l : Sanity.Language}
    (h : Part w base places p l) : NextTo p (withoutExtension p) := by
  obtain ⟨dir, stem, ext, _, _, rfl, hsrc⟩ := h
  have hd := sourceIn_not_dots hsrc
  obtain ⟨_, a, x, hn, ha, hx, _⟩ := hsrc
  unfold withoutExtension
  rw [fileName_inDir hd, hn]
  rw [hn] at hd
  dsimp only
  rw [Sanity.splitDot_of ha hx hd.2]
  refine ⟨base.comps ++ [dir.toList], a, x, hx, ?_, ?_⟩
  · simp [inDir]
  · have e : base.comps ++ [dir.toList, a ++ '.' :: x] = (base.comps ++ [dir.toList]) ++ [a ++ '.' :: x] := by simp
    unfold inDir
    simp only [e, List.dropLast_concat]

theorem toSrc_eq {graders : Bool} {wb : WriteBin} {s : Src} (h : toSrc w base graders wb s.path = some s) :
    s = { path := s.path
          language := s.language
          graders := graders
          writeBin := some (binOf base wb s.path)
          copyExe := false
          linkStatic := false } := by
  unfold toSrc at h
  split at h
  · split at h
    · cases h
    · rw [Option.some.injEq] at h
      rw [← h]
  · cases h

/-- A part that is compiled in `bin/`. -/
theorem finds_bin (places extra : List (String × String)) {pats : List RPath} {er : Err} (her : er ≠ .panic)
    (graders : Bool) (bin : String) (hreal : RealNames w) (hplain : Plain base) (hwf : w.fs.Wf)
    (hp : ∀ e ∈ places, PlainName e.1.toList ∧ PlainName e.2.toList ∧ e.1.toList ≠ dot ∧ e.1.toList ≠ dotdot ∧
      '.' ∉ e.2.toList)
    (he : ∀ e ∈ extra, PlainName e.1.toList ∧ PlainName e.2.toList ∧ e.1.toList ≠ dot ∧ '.' ∉ e.2.toList)
    (hnd : places.Nodup)
    (hpats : pats = places.map (fun e => ⟨false, [e.1.toList, e.2.toList ++ ['.', '*']]⟩) ++
        extra.map (fun e => ⟨false, [e.1.toList, e.2.toList]⟩)) :
    Finds (only er (findSource w base pats graders (.path (pat "bin" bin)))) w base places er
      (fun s p l => s = plainSrc base graders bin p l) := by
  obtain ⟨L, h1, h2, h3, h4⟩ := findSource_spec hreal hplain hwf places extra hp he hnd graders (.path (pat "bin" bin))
  rw [hpats, h1]
  obtain ⟨a, b, c⟩ := only_spec her h2 h3 h4
  have hj : base.join (pat "bin" bin) = ⟨base.abs, base.comps ++ ["bin".toList, bin.toList]⟩ := by
    unfold pat
    exact join_two (by decide)
  refine ⟨a, fun s => ?_, c⟩
  rw [b s]
  constructor
  · rintro ⟨ho, ht⟩
    refine ⟨s.path, s.language, ho, ?_⟩
    have := toSrc_eq ht
    dsimp only [binOf] at this
    rw [hj] at this
    exact this
  · rintro ⟨p, l, ho, rfl⟩
    refine ⟨ho, ?_⟩
    obtain ⟨s, hs, hsp⟩ := h4 p l ho.1
    have h := h3 s hs
    have hl := part_language ho.1 (hsp ▸ h.1)
    have := toSrc_eq h.2
    dsimp only [binOf] at this
    rw [hj] at this
    have e : s = plainSrc base graders bin p l := by
      rw [this, hsp, ← hl]; rfl
    rw [← e]
    exact h.2

/-- A part that is compiled next to its source. -/
theorem finds_shipped (places : List (String × String)) {pats : List RPath} {er : Err} (her : er ≠ .panic)
    (hreal : RealNames w) (hplain : Plain base) (hwf : w.fs.Wf)
    (hp : ∀ e ∈ places, PlainName e.1.toList ∧ PlainName e.2.toList ∧ e.1.toList ≠ dot ∧ e.1.toList ≠ dotdot ∧
      '.' ∉ e.2.toList)
    (hnd : places.Nodup)
    (hpats : pats = places.map (fun e => ⟨false, [e.1.toList, e.2.toList ++ ['.', '*']]⟩)) :
    Finds (only er (findSource w base pats false .withoutExtension)) w base places er
      (fun s p l => Shipped s.shipped p l ∧ s.copyExe = false ∧ s.linkStatic = false) := by
  obtain ⟨L, h1, h2, h3, h4⟩ := findSource_spec hreal hplain hwf places [] hp (by simp) hnd false .withoutExtension
  rw [List.map_nil, List.append_nil] at h1
  rw [hpats, h1]
  obtain ⟨a, b, c⟩ := only_spec her h2 h3 h4
  refine ⟨a, fun s => ?_, c⟩
  rw [b s]
  have made : ∀ {s : Src}, s ∈ L → Shipped s.shipped s.path s.language ∧ s.copyExe = false ∧ s.linkStatic = false := by
    intro s hs
    have h := h3 s hs
    have e := toSrc_eq h.2
    refine ⟨⟨rfl, rfl, ?_, rfl, rfl, withoutExtension s.path, ?_, withoutExtension_nextTo h.1⟩, ?_, ?_⟩
    all_goals first | rfl | (rw [e]; rfl) | (unfold Src.shipped; rw [e]; rfl) | (rw [e])
  constructor
  · rintro ⟨ho, ht⟩
    refine ⟨s.path, s.language, ho, ?_⟩
    obtain ⟨s', hs', hsp⟩ := h4 s.path s.language ho.1
    have h := (h3 s' hs').2
    rw [hsp, ht] at h
    cases h
    exact made hs'
  · rintro ⟨p, l, ho, ⟨r1, r2, r3, r4, r5, bin, r6, r7⟩, r8, r9⟩
    obtain ⟨s', hs', hsp⟩ := h4 p l ho.1
    obtain ⟨⟨q1, q2, q3, q4, q5, bin', q6, q7⟩, q8, q9⟩ := made hs'
    have hl := part_language ho.1 (hsp ▸ (h3 s' hs').1)
    rw [hsp] at q7
    have hb := nextTo_unique r7 q7
    have e : s = s' := by
      cases s; cases s'
      simp only [Src.shipped] at r1 r2 r3 r6 r8 r9 q3 q6 q8 q9 hsp hl
      subst r1 r2 r8 r9 q8 q9 hb
      rw [← hsp, ← hl, r3, q3, r6, q6]
    subst e
    have hp2 : s.path = p := r1
    have hl2 : s.language = l := r2
    rw [hp2, hl2]
    refine ⟨ho, ?_⟩
    have := (h3 s hs').2
    rwa [hp2] at this

/-! ## The theorems -/

/-- **C109** The validator of the inputs is the only source called `validator.*` or `valida.*` in `gen/`; it is
compiled in `bin/validator`.  With two of them the task is refused. -/
theorem validator_found (hreal : RealNames w) (hplain : Plain base) (hwf : w.fs.Wf) :
    Finds (validatorSource w base) w base validators .multipleValidators
      (fun s p l => s = plainSrc base false "validator" p l) :=
  finds_bin validators [("gen", "validator"), ("gen", "valida")] (by simp) false "validator" hreal hplain hwf
    (by unfold PlainName; decide +kernel) (by unfold PlainName; decide +kernel) (by decide) (by decide +kernel)

/-- **C109** The official solution is the only source called `solution.*` or `soluzione.*` in `sol/`; it is compiled,
with the grader of its language, in `bin/official_solution`. -/
theorem official_found (hreal : RealNames w) (hplain : Plain base) (hwf : w.fs.Wf) :
    Finds (officialSource w base) w base officials .multipleSolutions
      (fun s p l => s = plainSrc base true "official_solution" p l) :=
  finds_bin officials [("sol", "solution"), ("sol", "soluzione")] (by simp) true "official_solution" hreal hplain hwf
    (by unfold PlainName; decide +kernel) (by unfold PlainName; decide +kernel) (by decide) (by decide +kernel)

/-- **C109** The generator is looked for among the sources called `generator.*` or `generatore.*` in `gen/`: the
sources that are given to the reader of `gen/GEN` (which refuses them unless there is exactly one) are those. -/
theorem generators_found (hreal : RealNames w) (hplain : Plain base) (hwf : w.fs.Wf) :
    ∃ gs, generatorSources w base = some gs ∧ (gs.map (·.path)).Nodup ∧
      ∀ p, (∃ s ∈ gs, s.path = p) ↔ ∃ l, Part w base generators p l := by
  have e : [pat "gen" "generator.*", pat "gen" "generatore.*", pat "gen" "generator", pat "gen" "generatore"] =
      generators.map (fun e => (⟨false, [e.1.toList, e.2.toList ++ ['.', '*']]⟩ : RPath)) ++
        [("gen", "generator"), ("gen", "generatore")].map (fun e => ⟨false, [e.1.toList, e.2.toList]⟩) := by
    decide +kernel
  unfold generatorSources
  rw [e]
  obtain ⟨L, h1, h2, h3, h4⟩ := findSource_spec hreal hplain hwf generators
    [("gen", "generator"), ("gen", "generatore")] (by unfold PlainName; decide +kernel)
    (by unfold PlainName; decide +kernel) (by decide) false (.path (pat "bin" "generator"))
  refine ⟨L, h1, h2, fun p => ⟨?_, ?_⟩⟩
  · rintro ⟨s, hs, rfl⟩
    exact ⟨_, (h3 s hs).1⟩
  · rintro ⟨l, hl⟩
    exact h4 p l hl

theorem manager_found (hreal : RealNames w) (hplain : Plain base) (hwf : w.fs.Wf) :
    Finds (only .multipleManagers (findSource w base [pat "check" "manager.*", pat "cor" "manager.*"]
      false .withoutExtension)) w base managers .multipleManagers
      (fun s p l => Shipped s.shipped p l ∧ s.copyExe = false ∧ s.linkStatic = false) :=
  finds_shipped managers (by simp) hreal hplain hwf (by unfold PlainName; decide +kernel) (by decide)
    (by decide +kernel)

theorem checker_found (hreal : RealNames w) (hplain : Plain base) (hwf : w.fs.Wf) :
    Finds (only .multipleCheckers (findSource w base [pat "check" "checker.*", pat "cor" "correttore.*"]
      false .withoutExtension)) w base checkers .multipleCheckers
      (fun s p l => Shipped s.shipped p l ∧ s.copyExe = false ∧ s.linkStatic = false) :=
  finds_shipped checkers (by simp) hreal hplain hwf (by unfold PlainName; decide +kernel) (by decide)
    (by decide +kernel)

theorem userIo_iff {o : Option Text} {io : UserIo} : parseUserIo o = .ok io ↔ IoOf o io := by
  constructor
  · intro h
    unfold parseUserIo at h
    split at h
    · cases h; exact .missing
    · split at h
      · next e => cases h; rw [e]; exact .std
      · split at h
        · next e => cases h; rw [e]; exact .fifo
        · cases h
  · intro h
    cases h with
    | missing => rfl
    | std => simp only [parseUserIo, if_true]
    | fifo => simp only [parseUserIo]; rw [if_neg (by decide +kernel)]; rfl

theorem userIo_error {o : Option Text} {e : Err} : parseUserIo o = .error e ↔ e = .badUserIo ∧ ∀ io, ¬ IoOf o io := by
  cases h : parseUserIo o with
  | ok io => exact ⟨fun h' => (by cases h'), fun h' => absurd (userIo_iff.1 h) (h'.2 io)⟩
  | error e' =>
    have : e' = .badUserIo := by
      unfold parseUserIo at h
      split at h
      · cases h
      · split at h
        · cases h
        · split at h
          · cases h
          · cases h; rfl
    subst this
    constructor
    · intro h'; cases h'
      refine ⟨rfl, fun io hio => ?_⟩
      rw [userIo_iff.2 hio] at h; cases h
    · rintro ⟨rfl, _⟩; rfl

theorem shipped_unique {a b : Src} {p : RPath} {l : Sanity.Language} (ha : Shipped a p l) (hb : Shipped b p l) : a = b := by
  obtain ⟨a1, a2, a3, a4, a5, bin, a6, a7⟩ := ha
  obtain ⟨b1, b2, b3, b4, b5, bin', b6, b7⟩ := hb
  have := nextTo_unique a7 b7
  subst this
  cases a; cases b
  simp only at a1 a2 a3 a4 a5 a6 b1 b2 b3 b4 b5 b6
  simp [*]

theorem onlyPart_unique {places : List (String × String)} {p q : RPath} {l l' : Sanity.Language}
    (h : OnlyPart w base places p l) (h' : OnlyPart w base places q l') : p = q ∧ l = l' := by
  have e := h.2 _ _ h'.1
  subst e
  exact ⟨rfl, part_language h.1 h'.1⟩

theorem trichotomy {r : Except Err (Option Src)} {places : List (String × String)} {er : Err}
    {made : Src → RPath → Sanity.Language → Prop} (h : Finds r w base places er made) :
    NoPart w base places ∨ (∃ p l, OnlyPart w base places p l) ∨ ManyParts w base places := by
  cases e : r with
  | error x => exact Or.inr (Or.inr ((h.2.2 x).1 e).2)
  | ok o =>
    cases o with
    | none => exact Or.inl (h.1.1 e)
    | some s => obtain ⟨p, l, h1, _⟩ := (h.2.1 s).1 e; exact Or.inr (Or.inl ⟨p, l, h1⟩)

/-- **C109** A task is a communication task exactly when it has a manager; its checker is otherwise the only source
called `checker.*` in `check/` or `correttore.*` in `cor/`, or the comparison of the outputs without the spaces.
Checkers and managers are compiled statically next to their source. -/
theorem kind_exact (hreal : RealNames w) (hplain : Plain base) (hwf : w.fs.Wf) (y : Yaml) (k : Kind) :
    parseKind w base y = .ok k ↔ KindOf w base y k := by
  have hm := manager_found hreal hplain hwf
  have hc := checker_found hreal hplain hwf
  have ho := official_found hreal hplain hwf
  unfold parseKind parseCommunication
  generalize only .multipleManagers _ = rm at hm ⊢
  cases rm with
  | error e =>
    obtain ⟨_, p, l, q, l', h1, h2, h3⟩ := (hm.2.2 e).1 rfl
    refine ⟨fun h => (by cases h), fun h => ?_⟩
    cases h with
    | communication a _ _ => exact absurd ((a.2 _ _ h1).trans (a.2 _ _ h2).symm) h3
    | batch a _ _ => exact absurd h1 (a _ _)
  | ok m =>
    cases m with
    | some m =>
      obtain ⟨p, l, h1, h2, h3, h4⟩ := (hm.2.1 m).1 rfl
      dsimp only
      cases hio : parseUserIo y.userIo with
      | error e =>
        refine ⟨fun h => (by cases h), fun h => ?_⟩
        cases h with
        | communication _ _ c => rw [userIo_iff.2 c] at hio; cases hio
        | batch a _ _ => exact absurd h1.1 (a _ _)
      | ok io =>
        constructor
        · intro h
          cases h
          exact .communication h1 h2 (userIo_iff.1 hio)
        · intro h
          cases h with
          | communication a b c =>
            obtain ⟨rfl, rfl⟩ := onlyPart_unique h1 a
            rw [userIo_iff.2 c] at hio
            cases hio
            rw [shipped_unique b h2]
          | batch a _ _ => exact absurd h1.1 (a _ _)
    | none =>
      have hno := hm.1.1 rfl
      dsimp only
      unfold parseBatch
      generalize only .multipleCheckers _ = rc at hc ⊢
      have back : ∀ {c o}, CheckerOf w base c → OfficialOf w base o →
          ∃ x, rc = .ok x ∧ officialSource w base = .ok o ∧
            c = (match x with | none => Checker.whiteDiff | some c => .custom c.shipped) := by
        intro c o h1 h2
        have h2' : officialSource w base = .ok o := by
          rcases h2 with ⟨h2, rfl⟩ | ⟨p, l, h2, rfl⟩
          · exact ho.1.2 h2
          · exact (ho.2.1 _).2 ⟨p, l, h2, rfl⟩
        rcases h1 with ⟨h1, rfl⟩ | ⟨p, l, s, h1, h3, rfl⟩
        · exact ⟨none, hc.1.2 h1, h2', rfl⟩
        · cases rc with
          | error e =>
            obtain ⟨_, p', l', q, l'', g1, g2, g3⟩ := (hc.2.2 e).1 rfl
            exact absurd ((h1.2 _ _ g1).trans (h1.2 _ _ g2).symm) g3
          | ok x =>
            cases x with
            | none => exact absurd h1.1 (hc.1.1 rfl _ _)
            | some s' =>
              obtain ⟨p', l', g1, g2, _⟩ := (hc.2.1 s').1 rfl
              obtain ⟨rfl, rfl⟩ := onlyPart_unique h1 g1
              exact ⟨some s', rfl, h2', by rw [shipped_unique h3 g2]⟩
      constructor
      · intro h
        cases rc with
        | error e => cases h
        | ok x =>
          dsimp only at h
          cases hof : officialSource w base with
          | error e => rw [hof] at h; cases h
          | ok o =>
            rw [hof] at h
            cases h
            refine .batch hno ?_ ?_
            · cases x with
              | none => exact Or.inl ⟨hc.1.1 rfl, rfl⟩
              | some s =>
                obtain ⟨p, l, g1, g2, _⟩ := (hc.2.1 s).1 rfl
                exact Or.inr ⟨p, l, s.shipped, g1, g2, rfl⟩
            · cases o with
              | none => exact Or.inl ⟨ho.1.1 hof, rfl⟩
              | some s =>
                obtain ⟨p, l, g1, rfl⟩ := (ho.2.1 s).1 hof
                exact Or.inr ⟨p, l, g1, rfl⟩
      · intro h
        cases h with
        | communication a _ _ => exact absurd a.1 (hno _ _)
        | batch _ b c =>
          obtain ⟨x, rfl, h2, rfl⟩ := back b c
          dsimp only
          rw [h2]
          cases x <;> rfl

/-- **C109** The reasons why the kind of a task cannot be decided. -/
theorem kind_error (hreal : RealNames w) (hplain : Plain base) (hwf : w.fs.Wf) (y : Yaml) (e : Err) :
    parseKind w base y = .error e ↔
      (e = .multipleManagers ∧ ManyParts w base managers) ∨
      (e = .badUserIo ∧ (∃ p l, OnlyPart w base managers p l) ∧ ∀ io, ¬ IoOf y.userIo io) ∨
      (e = .multipleCheckers ∧ NoPart w base managers ∧ ManyParts w base checkers) ∨
      (e = .multipleSolutions ∧ NoPart w base managers ∧ ¬ ManyParts w base checkers ∧
        ManyParts w base officials) := by
  have hm := manager_found hreal hplain hwf
  have hc := checker_found hreal hplain hwf
  have ho := official_found hreal hplain hwf
  have no_many : ∀ {places}, NoPart w base places → ¬ ManyParts w base places :=
    fun h ⟨p, l, _, _, h1, _⟩ => h _ _ h1
  have only_many : ∀ {places p l}, OnlyPart w base places p l → ¬ ManyParts w base places :=
    fun h ⟨_, _, _, _, h1, h2, h3⟩ => h3 ((h.2 _ _ h1).trans (h.2 _ _ h2).symm)
  have only_no : ∀ {places p l}, OnlyPart w base places p l → ¬ NoPart w base places :=
    fun h h' => h' _ _ h.1
  unfold parseKind parseCommunication
  generalize only .multipleManagers _ = rm at hm ⊢
  cases rm with
  | error x =>
    obtain ⟨rfl, hmany⟩ := (hm.2.2 x).1 rfl
    dsimp only
    constructor
    · intro h; cases h; exact Or.inl ⟨rfl, hmany⟩
    · rintro (⟨rfl, _⟩ | ⟨_, ⟨p, l, h⟩, _⟩ | ⟨_, h, _⟩ | ⟨_, h, _⟩)
      · rfl
      · exact absurd hmany (only_many h)
      · exact absurd hmany (no_many h)
      · exact absurd hmany (no_many h)
  | ok m =>
    cases m with
    | some m =>
      obtain ⟨p, l, h1, _⟩ := (hm.2.1 m).1 rfl
      dsimp only
      constructor
      · intro h
        refine Or.inr (Or.inl ?_)
        cases hio : parseUserIo y.userIo with
        | error x =>
          rw [hio] at h
          cases h
          obtain ⟨rfl, hbad⟩ := userIo_error.1 hio
          exact ⟨rfl, ⟨p, l, h1⟩, hbad⟩
        | ok io => rw [hio] at h; cases h
      · rintro (⟨_, h⟩ | ⟨rfl, _, h⟩ | ⟨_, h, _⟩ | ⟨_, h, _⟩)
        · exact absurd h (only_many h1)
        · rw [userIo_error.2 ⟨rfl, h⟩]
        · exact absurd h (only_no h1)
        · exact absurd h (only_no h1)
    | none =>
      have hno := hm.1.1 rfl
      dsimp only
      unfold parseBatch
      generalize only .multipleCheckers _ = rc at hc ⊢
      cases rc with
      | error x =>
        obtain ⟨rfl, hmany⟩ := (hc.2.2 x).1 rfl
        dsimp only
        constructor
        · intro h; cases h; exact Or.inr (Or.inr (Or.inl ⟨rfl, hno, hmany⟩))
        · rintro (⟨_, h⟩ | ⟨_, ⟨p, l, h⟩, _⟩ | ⟨rfl, _⟩ | ⟨_, _, h, _⟩)
          · exact absurd h (no_many hno)
          · exact absurd hno (only_no h)
          · rfl
          · exact absurd hmany h
      | ok x =>
        have hnc : ¬ ManyParts w base checkers := by
          intro h
          have := (hc.2.2 .multipleCheckers).2 ⟨rfl, h⟩
          cases this
        dsimp only
        constructor
        · intro h
          refine Or.inr (Or.inr (Or.inr ?_))
          cases hof : officialSource w base with
          | error z =>
            rw [hof] at h
            simp only [Except.error.injEq] at h
            subst h
            obtain ⟨rfl, hmany⟩ := (ho.2.2 z).1 hof
            exact ⟨rfl, hno, hnc, hmany⟩
          | ok o => rw [hof] at h; cases h
        · rintro (⟨_, h⟩ | ⟨_, ⟨p, l, h⟩, _⟩ | ⟨_, _, h⟩ | ⟨rfl, _, _, h⟩)
          · exact absurd h (no_many hno)
          · exact absurd hno (only_no h)
          · exact absurd h hnc
          · rw [(ho.2.2 _).2 ⟨rfl, h⟩]

end

/-! ## Concrete cases -/

def pathsOf (r : Except Err (Option Src)) : Option (Option String) :=
  r.toOption.map (·.map (fun s => String.ofList (pathText s.path)))

/-- Non-vacuity: a batch task with everything, where `check/checker.txt` is not a source. -/
example : (sampleWorld batchFiles).fs.Wf ∧ RealNames (sampleWorld batchFiles) ∧ Plain samplePath ∧
    pathsOf (validatorSource (sampleWorld batchFiles) samplePath) = some (some "/t/gen/valida.cpp") ∧
    pathsOf (officialSource (sampleWorld batchFiles) samplePath) = some (some "/t/sol/soluzione.cpp") ∧
    (generatorSources (sampleWorld batchFiles) samplePath).map (·.map (fun s => String.ofList (pathText s.path))) =
      some ["/t/gen/generator.py"] := by
  refine ⟨by unfold AMap.Wf; decide +kernel, by unfold RealNames; decide +kernel, by unfold Plain; decide +kernel, ?_⟩
  decide +kernel

/-- Non-vacuity: with a manager, the two checkers do not matter. -/
example : (sampleWorld commFiles).fs.Wf ∧ RealNames (sampleWorld commFiles) ∧
    (readYaml sampleYaml).bind (fun y => (parseKind (sampleWorld commFiles) samplePath y).toOption) =
      some (.communication ⟨⟨true, [['t'], "check".toList, "manager.cpp".toList]⟩, ⟨"C++", ["cpp", "cc", "c++"], true⟩, false,
        some ⟨true, [['t'], "check".toList, "manager".toList]⟩, true, true⟩ 1 .stdIo) ∧
    ManyParts (sampleWorld commFiles) samplePath checkers := by
  refine ⟨by unfold AMap.Wf; decide +kernel, by unfold RealNames; decide +kernel, by decide +kernel, ?_⟩
  refine ⟨inDir samplePath "check".toList "checker.cpp".toList, ⟨"C++", ["cpp", "cc", "c++"], true⟩,
    inDir samplePath "cor".toList "correttore.cpp".toList, ⟨"C++", ["cpp", "cc", "c++"], true⟩,
    ⟨"check", "checker", "cpp".toList, by decide, ?_, by decide +kernel, ?_⟩,
    ⟨"cor", "correttore", "cpp".toList, by decide, ?_, by decide +kernel, ?_⟩, by decide +kernel⟩
  · unfold HasEntry; decide +kernel
  · exact (Sanity.language_exact _ _).1 (by decide +kernel)
  · unfold HasEntry; decide +kernel
  · exact (Sanity.language_exact _ _).1 (by decide +kernel)

/-- A source without an extension is never a part of the task, although its name is searched. -/
theorem no_extension_ignored {w : World} {base : RPath} (places : List (String × String)) (hp : ∀ e ∈ places, '.' ∉ e.2.toList)
    (dir stem : String) (h : (dir, stem) ∈ places) : ∀ l, ¬ Part w base places (inDir base dir.toList stem.toList) l := by
  rintro l ⟨d, s, ext, _, _, he, _⟩
  have : (stem.toList) = s.toList ++ '.' :: ext := by
    unfold inDir at he
    simp only [RPath.mk.injEq, List.append_cancel_left_eq, List.cons.injEq, and_true, true_and] at he
    exact he.2
  exact hp _ h (by rw [this]; simp)

end TM.Parse
