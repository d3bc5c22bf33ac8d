import Verif.Find.PropsTask
import Verif.Sanity.PropsGraders

/-!
# Which solutions: lemmas
-/
namespace TM.Find
open TM AMap

theorem nameLe_total : TotalLe nameLe := by
  refine ⟨?_, ?_, ?_⟩
  · intro a
    induction a with
    | nil => intro b; simp [nameLe]
    | cons x a ih =>
      intro b
      cases b with
      | nil => simp [nameLe]
      | cons y b =>
        simp only [nameLe]
        by_cases h1 : x.toNat < y.toNat
        · simp [h1]
        · by_cases h2 : y.toNat < x.toNat
          · simp [h1, h2]
          · simpa [h1, h2] using ih b
  · intro a
    induction a with
    | nil => intro b c _ _; simp [nameLe]
    | cons x a ih =>
      intro b c hab hbc
      cases b with
      | nil => simp [nameLe] at hab
      | cons y b =>
        cases c with
        | nil => simp [nameLe] at hbc
        | cons z c =>
          simp only [nameLe] at hab hbc ⊢
          by_cases h1 : x.toNat < y.toNat
          · by_cases h2 : y.toNat < z.toNat
            · rw [if_pos (by omega)]
            · rw [if_neg h2] at hbc
              by_cases h3 : z.toNat < y.toNat
              · rw [if_pos h3] at hbc; cases hbc
              · rw [if_pos (by omega)]
          · rw [if_neg h1] at hab
            by_cases h1' : y.toNat < x.toNat
            · rw [if_pos h1'] at hab; cases hab
            · rw [if_neg h1'] at hab
              by_cases h2 : y.toNat < z.toNat
              · rw [if_pos (by omega)]
              · rw [if_neg h2] at hbc
                by_cases h3 : z.toNat < y.toNat
                · rw [if_pos h3] at hbc; cases hbc
                · rw [if_neg h3] at hbc
                  rw [if_neg (by omega), if_neg (by omega)]
                  exact ih b c hab hbc
  · intro a
    induction a with
    | nil =>
      intro b _ h
      cases b with
      | nil => rfl
      | cons y b => simp [nameLe] at h
    | cons x a ih =>
      intro b hab hba
      cases b with
      | nil => simp [nameLe] at hab
      | cons y b =>
        simp only [nameLe] at hab hba
        by_cases h1 : x.toNat < y.toNat
        · rw [if_neg (by omega), if_pos h1] at hba; cases hba
        · rw [if_neg h1] at hab
          by_cases h2 : y.toNat < x.toNat
          · rw [if_pos h2] at hab; cases hab
          · rw [if_neg h2] at hab
            rw [if_neg (by omega), if_neg (by omega)] at hba
            have hxy : x = y := by
              apply Char.ext
              apply UInt32.toNat_inj.1
              have : x.toNat = y.toNat := by omega
              exact this
            rw [hxy, ih b hab hba]

theorem dropLast_last {α : Type} {p : List α} {n : α} (h : p.getLast? = some n) : p.dropLast ++ [n] = p := by
  have hne : p ≠ [] := by rintro rfl; cases h
  rw [List.getLast?_eq_some_getLast hne] at h
  cases h
  exact List.dropLast_concat_getLast hne

theorem mem_entries {w : World} {d : Place} {n : Name} : n ∈ w.entries d ↔ d ++ [n] ∈ w.fs.keys := by
  unfold World.entries
  rw [(isort_perm _ _).mem_iff, List.mem_filterMap]
  constructor
  · rintro ⟨p, hp, h⟩
    by_cases hc : p ≠ [] ∧ p.dropLast = d
    · rw [if_pos hc] at h
      rw [← hc.2, dropLast_last h]
      exact hp
    · rw [if_neg hc] at h; cases h
  · intro h
    exact ⟨d ++ [n], h, by simp⟩

theorem filterMap_last_nodup {d : Place} : ∀ {ks : List Place}, ks.Nodup →
    (ks.filterMap (fun p => if p ≠ [] ∧ p.dropLast = d then p.getLast? else none)).Nodup := by
  intro ks
  induction ks with
  | nil => intro _; simp
  | cons p ks ih =>
    intro h
    rw [List.nodup_cons] at h
    rw [List.filterMap_cons]
    by_cases hc : p ≠ [] ∧ p.dropLast = d
    · rw [if_pos hc]
      cases hl : p.getLast? with
      | none => exact ih h.2
      | some n =>
        simp only [List.nodup_cons]
        refine ⟨?_, ih h.2⟩
        intro hm
        rw [List.mem_filterMap] at hm
        obtain ⟨q, hq, hq2⟩ := hm
        by_cases hcq : q ≠ [] ∧ q.dropLast = d
        · rw [if_pos hcq] at hq2
          have e1 := dropLast_last hl
          have e2 := dropLast_last hq2
          rw [hc.2] at e1
          rw [hcq.2] at e2
          rw [← e1, e2] at h
          exact h.1 hq
        · rw [if_neg hcq] at hq2; cases hq2
    · rw [if_neg hc]
      exact ih h.2

theorem entries_nodup {w : World} (h : w.fs.Wf) (d : Place) : (w.entries d).Nodup :=
  (isort_perm _ _).nodup_iff.2 (filterMap_last_nodup h)

theorem entries_sorted (w : World) (d : Place) : (w.entries d).Pairwise (fun a b => nameLe a b = true) :=
  isort_sorted nameLe_total _

/-! ## Patterns -/

theorem tokens_plain (n : Name) (h : ∀ c ∈ n, c ≠ '*' ∧ c ≠ '?' ∧ c ≠ '[') :
    (Clean.tokens none n).isSome = true ∧ hasMeta n = false := by
  constructor
  · induction n with
    | nil => rfl
    | cons c cs ih =>
      have hc := h c (by simp)
      have := ih (fun x hx => h x (by simp [hx]))
      simp [Clean.tokens, hc.1, hc.2.1, hc.2.2, this]
  · unfold hasMeta
    rw [List.any_eq_false]
    intro c hc
    have := h c hc
    simp [this.1, this.2.1, this.2.2]

theorem globFrom_plain (w : World) : ∀ (cs : List Name) (acc : RPath) (rest : List Name),
    (∀ n ∈ cs, hasMeta n = false) →
    globFrom w acc (cs ++ rest) = globFrom w ⟨acc.abs, acc.comps ++ cs⟩ rest := by
  intro cs
  induction cs with
  | nil => intro acc rest _; cases acc; simp
  | cons c cs ih =>
    intro acc rest h
    rw [List.cons_append]
    have : globFrom w acc (c :: (cs ++ rest)) = globFrom w (acc.push c) (cs ++ rest) := by
      rw [globFrom, h c (by simp)]; simp
    rw [this, ih (acc.push c) rest (fun n hn => h n (by simp [hn]))]
    simp [RPath.push]

theorem star_matches (n : Name) : nameMatches ['*'] n = true := by
  have : Clean.tokens none ['*'] = some [Clean.Tok.star] := by decide
  unfold nameMatches
  rw [this]
  simp only [Clean.matchToks]
  induction n with
  | nil => simp [Clean.anyTail]
  | cons c cs ih => simp [Clean.anyTail, ih]

theorem resolve_append (w : World) (p : RPath) (l : List Name) (h : ∀ n ∈ l, n ≠ dot ∧ n ≠ dotdot) :
    w.resolve ⟨p.abs, p.comps ++ l⟩ = w.resolve p ++ l := by
  unfold World.resolve
  rw [List.foldl_append, resolve_plain w l h]

/-- The files of a directory of the task that match a pattern. -/
theorem listFiles_pat {w : World} {base : RPath} {dir : Name} (pat : Name) (hpat : hasMeta pat = true)
    (hpat2 : (Clean.tokens none pat).isSome = true) (hreal : RealNames w) (hplain : Plain base)
    (hd : ∀ c ∈ dir, c ≠ '*' ∧ c ≠ '?' ∧ c ≠ '[') (hd2 : dir ≠ dot ∧ dir ≠ dotdot) :
    listFiles w base [⟨false, [dir, pat]⟩] =
      some (((w.entries (w.resolve base ++ [dir])).filter (nameMatches pat)).map (inDir base dir)) := by
  have hjoin : base.join ⟨false, [dir, pat]⟩ = ⟨base.abs, base.comps ++ [dir, pat]⟩ := by
    unfold RPath.join
    simp only [Bool.false_eq_true, if_false, List.head?_cons, Option.some.injEq, hd2.1]
    by_cases h : base.comps = [] ∧ base.abs = false
    · rw [if_pos h, h.1, h.2]; rfl
    · rw [if_neg h]
  have hvalid : (base.comps ++ [dir, pat]).all (fun c => (Clean.tokens none c).isSome) = true := by
    rw [List.all_eq_true]
    intro c hc
    rw [List.mem_append] at hc
    rcases hc with hc | hc
    · exact (tokens_plain c (hplain c hc)).1
    · simp only [List.mem_cons, List.not_mem_nil, or_false] at hc
      rcases hc with rfl | rfl
      · exact (tokens_plain c hd).1
      · exact hpat2
  have hglob : globFrom w ⟨base.abs, []⟩ (base.comps ++ [dir, pat]) =
      ((w.entries (w.resolve base ++ [dir])).filter (nameMatches pat)).map (inDir base dir) := by
    have e : base.comps ++ [dir, pat] = (base.comps ++ [dir]) ++ [pat] := by simp
    rw [e, globFrom_plain w (base.comps ++ [dir]) ⟨base.abs, []⟩ [pat] (by
      intro n hn
      rw [List.mem_append] at hn
      rcases hn with hn | hn
      · exact (tokens_plain n (hplain n hn)).2
      · simp only [List.mem_singleton] at hn
        subst hn
        exact (tokens_plain n hd).2)]
    rw [globFrom]
    rw [if_pos hpat]
    have hres : w.resolve ⟨base.abs, [] ++ (base.comps ++ [dir])⟩ = w.resolve base ++ [dir] := by
      rw [List.nil_append]
      exact resolve_append w base [dir] (by simpa using hd2)
    have hstep : ∀ n ∈ (w.entries (w.resolve base ++ [dir])).filter (nameMatches pat),
        globFrom w (RPath.push ⟨base.abs, [] ++ (base.comps ++ [dir])⟩ n) [] = [inDir base dir n] := by
      intro n hn
      have hk := mem_entries.1 (List.mem_filter.1 hn).1
      have hr := hreal _ hk n (by simp)
      have hpush : RPath.push ⟨base.abs, [] ++ (base.comps ++ [dir])⟩ n = inDir base dir n := by
        simp [RPath.push, inDir]
      rw [hpush, globFrom]
      have hex : w.exists (inDir base dir n) = true := by
        rw [exists_iff]
        unfold inDir
        rw [resolve_append w base [dir, n] (by
          intro x hx
          simp only [List.mem_cons, List.not_mem_nil, or_false] at hx
          rcases hx with rfl | rfl
          · exact hd2
          · exact ⟨hr.2.1, hr.2.2⟩)]
        simpa using hk
      rw [if_pos hex]
    dsimp only at hres ⊢
    rw [hres]
    generalize (w.entries (w.resolve base ++ [dir])).filter (nameMatches pat) = ns at hstep ⊢
    clear hjoin hvalid e hres
    induction ns with
    | nil => rfl
    | cons n ns ih =>
      rw [List.flatMap_cons, hstep n (by simp), List.map_cons]
      rw [ih (fun m hm => hstep m (by simp [hm]))]
      rfl
  unfold listFiles globPath
  rw [hjoin]
  dsimp only
  rw [if_pos hvalid, hglob]
  simp [listFiles]

/-- The files of a directory of the task. -/
theorem listFiles_dir {w : World} {base : RPath} {dir : Name} (hreal : RealNames w) (hplain : Plain base)
    (hd : ∀ c ∈ dir, c ≠ '*' ∧ c ≠ '?' ∧ c ≠ '[') (hd2 : dir ≠ dot ∧ dir ≠ dotdot) :
    listFiles w base [⟨false, [dir, ['*']]⟩] =
      some ((w.entries (w.resolve base ++ [dir])).map (inDir base dir)) := by
  rw [listFiles_pat ['*'] (by decide) (by decide) hreal hplain hd hd2,
    List.filter_eq_self.2 (fun n _ => star_matches n)]

/-! ## The names of the filters -/

theorem pieces_noslash {a : Text} (h : '/' ∉ a) : pieces a = [a] := by
  induction a with
  | nil => rfl
  | cons c cs ih =>
    have h1 : c ≠ '/' := fun e => h (by simp [e])
    have h2 : '/' ∉ cs := fun e => h (by simp [e])
    simp [pieces, h1, ih h2]

theorem pieces_ne_nil (a : Text) : pieces a ≠ [] := by
  cases a with
  | nil => simp [pieces]
  | cons c cs =>
    unfold pieces
    by_cases h : c = '/'
    · simp [h]
    · simp only [h, if_false]
      split <;> simp

theorem pieces_slash (d : Text) {a : Text} (h : '/' ∉ a) : pieces (d ++ '/' :: a) = pieces d ++ [a] := by
  induction d with
  | nil => simp [pieces, pieces_noslash h]
  | cons c cs ih =>
    rw [List.cons_append]
    by_cases hc : c = '/'
    · simp [pieces, hc, ih]
    · have hne := pieces_ne_nil cs
      simp only [pieces, hc, if_false, ih]
      cases hp : pieces cs with
      | nil => exact absurd hp hne
      | cons p ps => simp

theorem ofText_last {f a : Text} (hf : f = a ∨ ∃ d, f = d ++ '/' :: a) (h : '/' ∉ a) (h1 : a ≠ [])
    (h2 : a ≠ dot) : (RPath.ofText f).comps.getLast? = some a := by
  have hp : ∃ pre, pieces f = pre ++ [a] := by
    rcases hf with rfl | ⟨d, rfl⟩
    · exact ⟨[], by simp [pieces_noslash h]⟩
    · exact ⟨_, pieces_slash d h⟩
  obtain ⟨pre, hp⟩ := hp
  unfold RPath.ofText
  rw [hp]
  simp only [List.filter_append, List.filter_cons, h1, ne_eq, not_false_eq_true, decide_true, if_true,
    List.filter_nil]
  by_cases ha : f.head? = some '/'
  · simp [ha, h2]
  · simp only [ha, decide_false, Bool.false_eq_true, if_false]
    cases hq : pre.filter (fun p => decide (¬ p = [])) with
    | nil => simp
    | cons p ps =>
      simp only [List.cons_append, List.filter_append, List.filter_cons, h2, not_false_eq_true, decide_true, if_true,
        List.filter_nil]
      rw [← List.cons_append, List.getLast?_append]
      simp

theorem filterName_of {f a : Text} (hf : f = a ∨ ∃ d, f = d ++ '/' :: a) (h : '/' ∉ a) (h1 : a ≠ [])
    (h2 : a ≠ dot) (h3 : a ≠ dotdot) : filterName f = some a := by
  unfold filterName RPath.fileName
  rw [ofText_last hf h h1 h2]
  simp [h2, h3]

theorem tail_unique {f a b : Text} (ha : f = a ∨ ∃ d, f = d ++ '/' :: a) (hb : f = b ∨ ∃ d, f = d ++ '/' :: b)
    (ha2 : '/' ∉ a) (hb2 : '/' ∉ b) : a = b := by
  have h1 : (pieces f).getLast? = some a := by
    rcases ha with rfl | ⟨d, rfl⟩
    · simp [pieces_noslash ha2]
    · simp [pieces_slash d ha2]
  have h2 : (pieces f).getLast? = some b := by
    rcases hb with rfl | ⟨d, rfl⟩
    · simp [pieces_noslash hb2]
    · simp [pieces_slash d hb2]
  rw [h1] at h2
  exact Option.some.inj h2

theorem solutionFilters_good : ∀ (fs : List Text), (∀ f ∈ fs, GoodFilter f) →
    ∃ ns, solutionFilters fs = some ns ∧ (ns = [] ↔ fs = []) ∧
      ∀ a, a ∈ ns ↔ ∃ f ∈ fs, (f = a ∨ ∃ d, f = d ++ '/' :: a) ∧ '/' ∉ a := by
  intro fs
  induction fs with
  | nil => intro _; exact ⟨[], rfl, by simp, by simp⟩
  | cons f fs ih =>
    intro h
    obtain ⟨ns, e1, e2, e3⟩ := ih (fun g hg => h g (by simp [hg]))
    obtain ⟨a, a1, a2, a3, a4, a5⟩ := h f (by simp)
    have hn := filterName_of a1 a2 a3 a4 a5
    refine ⟨a :: ns, by simp [solutionFilters, hn, e1], by simp, ?_⟩
    intro b
    constructor
    · intro hb
      rcases List.mem_cons.1 hb with rfl | hb
      · exact ⟨f, by simp, a1, a2⟩
      · obtain ⟨g, g1, g2⟩ := (e3 b).1 hb
        exact ⟨g, by simp [g1], g2⟩
    · rintro ⟨g, hg, g1, g2⟩
      rcases List.mem_cons.1 hg with rfl | hg
      · rw [tail_unique g1 a1 g2 a2]; simp
      · exact List.mem_cons_of_mem _ ((e3 b).2 ⟨g, hg, g1, g2⟩)

/-! ## The chain of filters -/

/-- The solution of a path, if it is one. -/
def loaded (w : World) (p : RPath) : Option Found :=
  match solutionNew w p with
  | some (some s) => some s
  | _ => none

/-- The path goes through the filters. -/
def passes (w : World) (graders : List RPath) (filters : List Name) (p : RPath) : Bool :=
  !decide (p ∈ graders) && w.exists p && (kept filters p == some true)

theorem pick_eq {w : World} {graders : List RPath} {filters : List Name} : ∀ {ps : List RPath},
    (∀ p ∈ ps, p ∉ graders → w.exists p = true → p.fileName.isSome = true) →
    pick w graders filters ps = some ((ps.filter (passes w graders filters)).filterMap (loaded w)) := by
  intro ps
  induction ps with
  | nil => intro _; rfl
  | cons p ps ih =>
    intro h
    have ih := ih (fun q hq => h q (by simp [hq]))
    have hp := h p (by simp)
    rw [pick, List.filter_cons]
    by_cases hg : p ∈ graders
    · have : passes w graders filters p = false := by simp [passes, hg]
      rw [if_pos hg, this, ih]
      simp
    · rw [if_neg hg]
      by_cases he : w.exists p = false
      · have : passes w graders filters p = false := by simp [passes, he]
        rw [if_pos he, this, ih]
        simp
      · have he' : w.exists p = true := by simpa using he
        rw [if_neg he]
        obtain ⟨n, hn⟩ := Option.isSome_iff_exists.1 (hp hg he')
        have hk : ∃ b, kept filters p = some b := by
          unfold kept
          rw [hn]
          by_cases hf : filters = []
          · exact ⟨true, by simp [hf]⟩
          · exact ⟨_, by rw [if_neg hf]; rfl⟩
        obtain ⟨b, hk⟩ := hk
        rw [hk]
        cases b with
        | false =>
          have : passes w graders filters p = false := by simp [passes, hk]
          rw [this]
          simpa using ih
        | true =>
          have hpass : passes w graders filters p = true := by simp [passes, hk, hg, he']
          rw [hpass]
          simp only [if_true, List.filterMap_cons]
          have hs : solutionNew w p = some (loaded w p) := by
            have : ∃ r, solutionNew w p = some r := by
              unfold solutionNew
              rw [hn]
              dsimp only
              split
              · exact ⟨_, rfl⟩
              · split
                · exact ⟨_, rfl⟩
                · split <;> exact ⟨_, rfl⟩
            obtain ⟨r, hr⟩ := this
            unfold loaded
            rw [hr]
            cases r <;> rfl
          rw [hs]
          cases hl : loaded w p with
          | none => simpa using ih
          | some s => simp [ih]

theorem fileName_some {p : RPath} {n : Name} : p.fileName = some n ↔
    p.comps.getLast? = some n ∧ n ≠ dot ∧ n ≠ dotdot := by
  unfold RPath.fileName
  cases h : p.comps.getLast? with
  | none => simp
  | some m =>
    dsimp only
    by_cases hm : m = dotdot ∨ m = dot
    · rw [if_pos hm]
      constructor
      · intro h; cases h
      · rintro ⟨e, h1, h2⟩
        cases e
        rcases hm with hm | hm
        · exact absurd hm h2
        · exact absurd hm h1
    · rw [if_neg hm]
      constructor
      · intro e; cases e
        exact ⟨rfl, fun e => hm (.inr e), fun e => hm (.inl e)⟩
      · rintro ⟨e, _, _⟩; exact e

theorem sourceIn_not_dots {l : Sanity.Language} {n : Name} (h : Sanity.SourceIn l n) : n ≠ dot ∧ n ≠ dotdot := by
  obtain ⟨hl, stem, ext, rfl, h1, h2, e, he, h3⟩ := h
  have hne := Sanity.extensions_nonempty l hl e he
  have hx : ext ≠ [] := by
    rintro rfl
    exact hne.1 (by simpa using h3.symm)
  cases stem with
  | nil => exact absurd rfl h1
  | cons a s =>
    constructor
    · intro e; simp [dot] at e
    · intro e
      simp only [dotdot, List.cons_append, List.cons.injEq] at e
      cases s with
      | nil => simp only [List.nil_append, List.cons.injEq] at e; exact hx e.2.2
      | cons b s => simp at e

theorem loaded_iff {w : World} {p : RPath} {s : Found} : loaded w p = some s ↔
    s.path = p ∧ ∃ content, Loadable w p s.language content ∧
      Solution.extract content = .ok (s.checks, s.invalid) := by
  unfold loaded solutionNew Loadable
  constructor
  · intro h
    cases hn : p.fileName with
    | none => rw [hn] at h; cases h
    | some n =>
      rw [hn] at h
      dsimp only at h
      cases hd : Sanity.detectLanguage n with
      | none => rw [hd] at h; cases h
      | some l =>
        rw [hd] at h
        dsimp only at h
        cases hr : w.read p with
        | none => rw [hr] at h; cases h
        | some content =>
          rw [hr] at h
          dsimp only at h
          cases hx : Solution.extract content with
          | error e => rw [hx] at h; cases h
          | ok r =>
            rw [hx] at h
            cases h
            refine ⟨rfl, content, ⟨⟨n, (fileName_some.1 hn).1, (Sanity.language_exact n l).1 hd⟩, ?_, ?_⟩, hx⟩
            · unfold World.read at hr
              split at hr
              · next e => rw [e, hr]
              · cases hr
            · exact (Solution.extract_ok_iff content).1 ⟨_, hx⟩
  · rintro ⟨rfl, content, ⟨⟨n, n1, n2⟩, h2, h3⟩, hx⟩
    have hdots := sourceIn_not_dots n2
    have hn := fileName_some.2 ⟨n1, hdots.1, hdots.2⟩
    have hd := (Sanity.language_exact n s.language).2 n2
    have hr : w.read s.path = some content := by unfold World.read; rw [h2]
    rw [hn]
    dsimp only
    rw [hd]
    dsimp only
    rw [hr]
    dsimp only
    rw [hx]

end TM.Find
