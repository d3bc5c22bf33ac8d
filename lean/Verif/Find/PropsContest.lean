import Verif.Find.ContestLemmas

/-!
# C106: the booklets of a task and of a contest
-/
namespace TM.Find
open TM AMap

theorem taskBooklets_ok {w : World} {cf : ContestFile} {t : TaskAt} : ∀ (l : List (Name × RPath)),
    ((∃ bs, taskBooklets w cf t l = .ok bs) ↔
      (∀ q ∈ l, IsText w q.2) ∧ (l ≠ [] → ∃ contest, ContestOf t contest ∧ ContestOk w cf contest)) ∧
    ∀ bs, taskBooklets w cf t l = .ok bs →
      bs = l.map (fun q => ⟨q.1, q.2.withExtension "pdf".toList, [⟨t, q.2⟩]⟩) := by
  intro l
  induction l with
  | nil =>
    refine ⟨⟨fun _ => ⟨(fun q hq => nomatch hq), fun h => absurd rfl h⟩, fun _ => ⟨[], rfl⟩⟩, ?_⟩
    intro bs h
    cases h
    rfl
  | cons q l ih =>
    obtain ⟨lang, p⟩ := q
    rw [taskBooklets]
    by_cases hr : (w.read p).isNone = true
    · rw [if_pos hr]
      refine ⟨⟨(fun h => by obtain ⟨bs, h⟩ := h; cases h), fun h => ?_⟩, (fun bs h => by cases h)⟩
      have := read_isText.2 (h.1 (lang, p) (by simp))
      simp only at this
      cases hx : w.read p with
      | none => rw [hx] at this; cases this
      | some c => rw [hx] at hr; cases hr
    · rw [if_neg hr]
      have hr' : (w.read p).isSome = true := by
        cases hx : w.read p with
        | none => rw [hx] at hr; exact absurd rfl hr
        | some c => rfl
      cases hp : t.path.parent with
      | none =>
        dsimp only
        refine ⟨⟨(fun h => by obtain ⟨bs, h⟩ := h; cases h), fun h => ?_⟩, (fun bs h => by cases h)⟩
        obtain ⟨c, hc, -⟩ := h.2 (by simp)
        have := parent_contest.2 hc
        rw [hp] at this
        cases this
      | some contest =>
        dsimp only
        by_cases hc : configOk w cf contest = false
        · rw [if_pos hc]
          refine ⟨⟨(fun h => by obtain ⟨bs, h⟩ := h; cases h), fun h => ?_⟩, (fun bs h => by cases h)⟩
          obtain ⟨c, hc1, hc2⟩ := h.2 (by simp)
          have := parent_contest.2 hc1
          rw [hp] at this
          cases this
          rw [configOk_iff.2 hc2] at hc
          cases hc
        · rw [if_neg hc]
          have hc' : configOk w cf contest = true := by simpa using hc
          have hcon : ∃ contest, ContestOf t contest ∧ ContestOk w cf contest :=
            ⟨contest, parent_contest.1 hp, configOk_iff.1 hc'⟩
          cases hl : taskBooklets w cf t l with
          | error e =>
            dsimp only
            rw [hl] at ih
            refine ⟨⟨(fun h => by obtain ⟨bs, h⟩ := h; cases h), fun h => ?_⟩, (fun bs h => by cases h)⟩
            obtain ⟨bs, hbs⟩ := ih.1.2 ⟨fun q hq => h.1 q (by simp [hq]), fun _ => hcon⟩
            cases hbs
          | ok bs =>
            dsimp only
            rw [hl] at ih
            have hi := ih.1.1 ⟨bs, rfl⟩
            refine ⟨⟨fun _ => ⟨?_, fun _ => hcon⟩, fun _ => ⟨_, rfl⟩⟩, ?_⟩
            · intro q hq
              rcases List.mem_cons.1 hq with rfl | hq
              · exact read_isText.1 hr'
              · exact hi.1 q hq
            · intro bs' h
              cases h
              rw [ih.2 bs rfl]
              rfl

theorem withExt_tex {dir : RPath} {d lang : Name} (hl : lang ≠ []) :
    (inDir dir d (lang ++ ".tex".toList)).withExtension "pdf".toList = inDir dir d (lang ++ ".pdf".toList) := by
  have hfn : (inDir dir d (lang ++ ".tex".toList)).fileName = some (lang ++ ".tex".toList) := by
    refine fileName_some.2 ⟨by simp [inDir], ?_, ?_⟩
    · intro h
      have := congrArg List.length h
      have h4 : ".tex".toList.length = 4 := by decide
      rw [List.length_append, h4] at this
      simp [dot] at this
    · intro h
      have := congrArg List.length h
      have h4 : ".tex".toList.length = 4 := by decide
      rw [List.length_append, h4] at this
      simp [dotdot] at this
  have e1 : (inDir dir d (lang ++ ".tex".toList)).comps.dropLast = dir.comps ++ [d] := by
    unfold inDir
    generalize lang ++ ".tex".toList = x
    have : dir.comps ++ [d, x] = (dir.comps ++ [d]) ++ [x] := by simp
    rw [this, List.dropLast_concat]
  unfold RPath.withExtension
  rw [hfn]
  dsimp only
  rw [stem_tex hl, e1]
  have e2 : ".pdf".toList = '.' :: "pdf".toList := by decide
  unfold inDir
  rw [e2]
  simp

/-- **C106** The booklets of a task.  They are made exactly when all the statements (the `.tex` files in
`statement/` and `testo/`) are texts and, if there are some, the directory of the task is not the root and the
`contest.yaml` next to the task, if there is one, can be parsed.  There is one booklet for every statement, in
the language that is the name of the file, and it is written next to it; no two booklets are written in the same
place. -/
theorem task_booklets_partial {w : World} {cf : ContestFile} {t : TaskAt} (hwf : w.fs.Wf) (hreal : RealNames w)
    (hplain : Plain t.path) (hh : NoHiddenTex w t.path) :
    ((∃ bs, makeTaskBooklets w cf t = .ok bs) ↔ (∀ lang p, TexFile w t.path lang p → IsText w p) ∧
      ((∃ lang p, TexFile w t.path lang p) → ∃ contest, ContestOf t contest ∧ ContestOk w cf contest)) ∧
    ∀ bs, makeTaskBooklets w cf t = .ok bs →
      (∀ b, b ∈ bs ↔ ∃ d ∈ texDirs, b.language ≠ [] ∧ HasEntry w t.path d (b.language ++ ".tex".toList) ∧
        b.statements = [⟨t, inDir t.path d (b.language ++ ".tex".toList)⟩] ∧
        b.dest = inDir t.path d (b.language ++ ".pdf".toList)) ∧
      (bs.map (·.dest)).Nodup := by
  have hf := findStatements_eq hreal hplain
  have hs1 := hh "statement".toList (by simp [texDirs])
  have hs2 := hh "testo".toList (by simp [texDirs])
  have hmem : ∀ lang p, (lang, p) ∈ texOf w t.path "statement".toList ++ texOf w t.path "testo".toList ↔
      TexFile w t.path lang p := by
    intro lang p
    rw [List.mem_append, mem_texOf hs1, mem_texOf hs2]
    unfold TexFile texDirs
    constructor
    · rintro (⟨h1, h2, h3⟩ | ⟨h1, h2, h3⟩)
      · exact ⟨h1, _, by simp, h2, h3⟩
      · exact ⟨h1, _, by simp, h2, h3⟩
    · rintro ⟨h1, d, hd, h2, h3⟩
      simp only [List.mem_cons, List.not_mem_nil, or_false] at hd
      rcases hd with rfl | rfl
      · exact .inl ⟨h1, h2, h3⟩
      · exact .inr ⟨h1, h2, h3⟩
  have hnd : (texOf w t.path "statement".toList ++ texOf w t.path "testo".toList).Nodup := by
    have hone : ∀ d, (texOf w t.path d).Nodup := by
      intro d
      unfold texOf
      have h := (entries_nodup hwf (w.resolve t.path ++ [d])).filter (nameMatches "*.tex".toList)
      refine List.Pairwise.map _ ?_ h
      intro a b hab hc
      have := congrArg (fun q : Name × RPath => q.2.comps.getLast?) hc
      simp [inDir] at this
      exact hab this
    rw [List.nodup_append]
    refine ⟨hone _, hone _, ?_⟩
    rintro ⟨l1, p1⟩ h1 ⟨l2, p2⟩ h2 heq
    cases heq
    rw [mem_texOf hs1] at h1
    rw [mem_texOf hs2] at h2
    have := h1.2.2.symm.trans h2.2.2
    unfold inDir at this
    have hc := congrArg RPath.comps this
    simp only at hc
    have := List.append_cancel_left hc
    have hd : "statement".toList = "testo".toList := by
      have h0 := congrArg List.head? this
      simpa using h0
    exact absurd hd (by decide)
  obtain ⟨h1, h2⟩ := taskBooklets_ok (w := w) (cf := cf) (t := t)
    (texOf w t.path "statement".toList ++ texOf w t.path "testo".toList)
  unfold makeTaskBooklets
  rw [hf]
  dsimp only
  generalize texOf w t.path "statement".toList ++ texOf w t.path "testo".toList = l at hmem hnd h1 h2
  constructor
  · rw [h1]
    constructor
    · rintro ⟨a, b⟩
      refine ⟨fun lang p hp => a (lang, p) ((hmem lang p).2 hp), ?_⟩
      rintro ⟨lang, p, hp⟩
      have := (hmem lang p).2 hp
      exact b (fun e => by rw [e] at this; cases this)
    · rintro ⟨a, b⟩
      refine ⟨fun q hq => a q.1 q.2 ((hmem q.1 q.2).1 hq), ?_⟩
      intro hne
      cases l with
      | nil => exact absurd rfl hne
      | cons q l => exact b ⟨q.1, q.2, (hmem q.1 q.2).1 (by simp)⟩
  · intro bs hbs
    have hbs := h2 bs hbs
    subst hbs
    constructor
    · intro b
      rw [List.mem_map]
      constructor
      · rintro ⟨⟨lang, p⟩, hq, rfl⟩
        obtain ⟨hl, d, hd, he, rfl⟩ := (hmem lang p).1 hq
        exact ⟨d, hd, hl, he, rfl, withExt_tex hl⟩
      · rintro ⟨d, hd, hl, he, hs, hdest⟩
        obtain ⟨lang, dest, sts⟩ := b
        simp only at hl he hs hdest
        subst hs hdest
        exact ⟨(lang, inDir t.path d (lang ++ ".tex".toList)), (hmem _ _).2 ⟨hl, d, hd, he, rfl⟩,
          by simp only [withExt_tex hl]⟩
    · rw [List.map_map]
      unfold List.Nodup at hnd ⊢
      rw [List.pairwise_map]
      refine hnd.imp_of_mem ?_
      rintro ⟨l1, p1⟩ ⟨l2, p2⟩ hq1 hq2 hneq heq
      apply hneq
      obtain ⟨hl1, d1, hd1, he1, rfl⟩ := (hmem l1 p1).1 hq1
      obtain ⟨hl2, d2, hd2, he2, rfl⟩ := (hmem l2 p2).1 hq2
      simp only [Function.comp, withExt_tex hl1, withExt_tex hl2] at heq
      unfold inDir at heq
      have hc := List.append_cancel_left (congrArg RPath.comps heq)
      simp only [List.cons.injEq, and_true] at hc
      have := List.append_cancel_right hc.2
      rw [this, hc.1]

/-- **C106** The booklets of a contest.  They are made exactly when all the tasks are in the same directory, all the
statements are texts and, if there are some, the `contest.yaml` of that directory, if there is one, can be
parsed.  There is exactly one booklet for every language some task has a statement in; it is written in the directory of the contest and has
the statements in that language of all the tasks, in the order of the tasks. -/
theorem contest_booklets_partial {w : World} {cf : ContestFile} {ts : List TaskAt} (hwf : w.fs.Wf)
    (hreal : RealNames w) (hplain : ∀ t ∈ ts, Plain t.path ∧ NoHiddenTex w t.path) :
    ((∃ bs, makeContestBooklets w cf ts = .ok bs) ↔ ts = [] ∨ ∃ contest, (∀ t ∈ ts, ContestOf t contest) ∧
      (∀ t ∈ ts, ∀ lang p, TexFile w t.path lang p → IsText w p) ∧
      ((∃ t ∈ ts, ∃ lang p, TexFile w t.path lang p) → ContestOk w cf contest)) ∧
    ∀ bs, makeContestBooklets w cf ts = .ok bs →
      (bs.map (·.language)).Nodup ∧
      (∀ lang, (∃ b ∈ bs, b.language = lang) ↔ ∃ t ∈ ts, ∃ p, TexFile w t.path lang p) ∧
      ∀ b ∈ bs, b.statements = ts.flatMap (fun t => statementsIn w t b.language) ∧
        ∀ contest, (∀ t ∈ ts, ContestOf t contest) →
          b.dest = ⟨contest.abs, contest.comps ++ [b.language ++ ".pdf".toList]⟩ := by
  cases ts with
  | nil =>
    refine ⟨⟨fun _ => .inl rfl, fun _ => ⟨[], rfl⟩⟩, ?_⟩
    intro bs h
    cases h
    exact ⟨by simp, by simp, by simp⟩
  | cons t0 ts =>
    obtain ⟨m, m1, m2, m3, m4, m5⟩ := byLanguage_spec hwf hreal (t0 :: ts) [] hplain wf_nil
      (fun k => (by simp)) (by simp)
    have hval : ∀ k, k ≠ [] → (m.get? k).getD [] = (t0 :: ts).flatMap (fun t => statementsIn w t k) := by
      intro k hk
      rw [m5 k hk]
      simp
    have hne : ∀ k v, m.get? k = some v → k ≠ [] ∧ v = (t0 :: ts).flatMap (fun t => statementsIn w t k) := by
      intro k v hv
      have hk : k ≠ [] := by
        rintro rfl
        rw [m4] at hv
        cases hv
      have := hval k hk
      rw [hv] at this
      exact ⟨hk, this⟩
    have hpres : ∀ k, (∃ v, m.get? k = some v) ↔ ∃ t ∈ t0 :: ts, ∃ p, TexFile w t.path k p := by
      intro k
      constructor
      · rintro ⟨v, hv⟩
        obtain ⟨hk, he⟩ := hne k v hv
        cases v with
        | nil => exact absurd hv (m3 k)
        | cons s v =>
          have hs : s ∈ (t0 :: ts).flatMap (fun t => statementsIn w t k) := by rw [← he]; simp
          rw [List.mem_flatMap] at hs
          obtain ⟨t, ht, hs⟩ := hs
          exact ⟨t, ht, s.path, ((mem_statementsIn hk).1 hs).2⟩
      · rintro ⟨t, ht, p, hp⟩
        have hk := hp.1
        cases hg : m.get? k with
        | some v => exact ⟨v, rfl⟩
        | none =>
          exfalso
          have := hval k hk
          rw [hg] at this
          have hs : (⟨t, p⟩ : StatementOf) ∈ (t0 :: ts).flatMap (fun t => statementsIn w t k) := by
            rw [List.mem_flatMap]
            exact ⟨t, ht, (mem_statementsIn hk).2 ⟨rfl, hp⟩⟩
          rw [← this] at hs
          cases hs
    rw [makeContestBooklets]
    cases hp : t0.path.parent with
    | none =>
      dsimp only
      refine ⟨⟨(fun h => by obtain ⟨bs, h⟩ := h; cases h), fun h => ?_⟩, (fun bs h => by cases h)⟩
      rcases h with h | ⟨c, hc, -⟩
      · cases h
      · have := parent_contest.2 (hc t0 (by simp))
        rw [hp] at this
        cases this
    | some contest =>
      dsimp only
      have hc0 := parent_contest.1 hp
      have huniq : ∀ c, (∀ t ∈ t0 :: ts, ContestOf t c) → c = contest := by
        intro c hc
        have := parent_contest.2 (hc t0 (by simp))
        rw [hp] at this
        exact (Option.some.inj this).symm
      cases hsame : sameContest contest (t0 :: ts) with
      | error e =>
        dsimp only
        refine ⟨⟨(fun h => by obtain ⟨bs, h⟩ := h; cases h), fun h => ?_⟩, (fun bs h => by cases h)⟩
        rcases h with h | ⟨c, hc, -⟩
        · cases h
        · have := huniq c hc
          subst this
          rw [(sameContest_iff (t0 :: ts)).2 hc] at hsame
          cases hsame
      | ok u =>
        cases u
        dsimp only
        rw [m1]
        dsimp only
        have hall := (sameContest_iff (t0 :: ts)).1 hsame
        obtain ⟨l1, l2⟩ := contestLoop_ok (w := w) (cf := cf) (contest := contest) m
        have hentries : ∀ q, q ∈ m → m.get? q.1 = some q.2 := fun q hq => get?_of_mem m2 hq
        constructor
        · rw [l1, configOk_iff]
          constructor
          · rintro ⟨a, b⟩
            refine .inr ⟨contest, hall, ?_, ?_⟩
            · intro t ht lang p hp
              obtain ⟨v, hv⟩ := (hpres lang).2 ⟨t, ht, p, hp⟩
              obtain ⟨hk, he⟩ := hne lang v hv
              have hs : (⟨t, p⟩ : StatementOf) ∈ v := by
                rw [he, List.mem_flatMap]
                exact ⟨t, ht, (mem_statementsIn hk).2 ⟨rfl, hp⟩⟩
              exact read_isText.1 (b (lang, v) (mem_of_get? hv) _ hs)
            · rintro ⟨t, ht, lang, p, hp⟩
              obtain ⟨v, hv⟩ := (hpres lang).2 ⟨t, ht, p, hp⟩
              refine a (fun e => ?_)
              rw [e] at hv
              cases hv
          · rintro (h | ⟨c, c1, c2, c3⟩)
            · cases h
            · have := huniq c c1
              subst this
              refine ⟨?_, ?_⟩
              · intro hne'
                cases hm : m with
                | nil => exact absurd hm hne'
                | cons q m' =>
                  have := hentries q (by rw [hm]; simp)
                  obtain ⟨t, ht, p, hp⟩ := (hpres q.1).1 ⟨_, this⟩
                  exact c3 ⟨t, ht, q.1, p, hp⟩
              · intro q hq s hs
                obtain ⟨hk, he⟩ := hne q.1 q.2 (hentries q hq)
                rw [he, List.mem_flatMap] at hs
                obtain ⟨t, ht, hs⟩ := hs
                exact read_isText.2 (c2 t ht q.1 s.path ((mem_statementsIn hk).1 hs).2)
        · intro bs hbs
          have hbs := l2 bs hbs
          subst hbs
          refine ⟨?_, ?_, ?_⟩
          · rw [List.map_map]
            exact m2
          · intro lang
            rw [← hpres]
            constructor
            · rintro ⟨b, hb, rfl⟩
              obtain ⟨q, hq, rfl⟩ := List.mem_map.1 hb
              exact ⟨q.2, hentries q hq⟩
            · rintro ⟨v, hv⟩
              exact ⟨_, List.mem_map.2 ⟨(lang, v), mem_of_get? hv, rfl⟩, rfl⟩
          · intro b hb
            obtain ⟨q, hq, rfl⟩ := List.mem_map.1 hb
            obtain ⟨hk, he⟩ := hne q.1 q.2 (hentries q hq)
            refine ⟨he, ?_⟩
            intro c hc
            have := huniq c hc
            subst this
            have hnd : q.1 ++ ".pdf".toList ≠ dot := by
              intro h
              have := congrArg List.length h
              have h4 : ".pdf".toList.length = 4 := by decide
              rw [List.length_append, h4] at this
              simp [dot] at this
            simp only [RPath.join, Bool.false_eq_true, if_false, List.head?_cons, Option.some.injEq, hnd]
            by_cases h : c.comps = [] ∧ c.abs = false
            · rw [if_pos h, h.1, h.2]; rfl
            · rw [if_neg h]

theorem loadTasks_ok {load : RPath → Option Name} : ∀ (dirs : List RPath) (ts : List TaskAt),
    loadTasks load dirs = .ok ts ↔ ts.map (·.path) = dirs ∧ ∀ t ∈ ts, load t.path = some t.name := by
  intro dirs
  induction dirs with
  | nil =>
    intro ts
    rw [loadTasks]
    constructor
    · intro h; cases h; simp
    · rintro ⟨h, -⟩
      rw [List.map_eq_nil_iff] at h
      rw [h]
  | cons p dirs ih =>
    intro ts
    rw [loadTasks]
    cases hp : load p with
    | none =>
      dsimp only
      refine ⟨(fun h => by cases h), ?_⟩
      rintro ⟨h1, h2⟩
      cases ts with
      | nil => simp at h1
      | cons t ts =>
        rw [List.map_cons, List.cons.injEq] at h1
        have := h2 t (by simp)
        rw [h1.1, hp] at this
        cases this
    | some n =>
      dsimp only
      cases hl : loadTasks load dirs with
      | error e =>
        dsimp only
        refine ⟨(fun h => by cases h), ?_⟩
        rintro ⟨h1, h2⟩
        cases ts with
        | nil => simp at h1
        | cons t ts =>
          rw [List.map_cons, List.cons.injEq] at h1
          have := (ih ts).2 ⟨h1.2, fun x hx => h2 x (by simp [hx])⟩
          rw [hl] at this
          cases this
      | ok r =>
        dsimp only
        have hr := (ih r).1 hl
        constructor
        · intro h
          cases h
          refine ⟨by simp [hr.1], ?_⟩
          intro t ht
          rcases List.mem_cons.1 ht with rfl | ht
          · exact hp
          · exact hr.2 t ht
        · rintro ⟨h1, h2⟩
          cases ts with
          | nil => simp at h1
          | cons t ts =>
            rw [List.map_cons, List.cons.injEq] at h1
            have h3 := (ih ts).2 ⟨h1.2, fun x hx => h2 x (by simp [hx])⟩
            rw [hl] at h3
            cases h3
            have := h2 t (by simp)
            rw [h1.1, hp] at this
            obtain ⟨tn, tp⟩ := t
            simp only at this h1
            cases this
            rw [h1.1]

/-- **C106** `task-maker-tools booklet --contest-dir`: the booklets are those of the tasks listed in `contest.yaml`, in
that order, all of which must be tasks. -/
theorem contest_tool (w : World) (cf : ContestFile) (load : RPath → Option Name) (contest : RPath)
    (bs : List BookletOf) :
    bookletsOfContest w cf load contest = .ok bs ↔
      ∃ content tasks ts, w.fs.get? (w.resolve (contest.join ⟨false, [contestName]⟩)) = some (.file (some content)) ∧
        cf.parse content = some tasks ∧ ts.map (·.path) = tasks.map contest.join ∧
        (∀ t ∈ ts, load t.path = some t.name) ∧ makeContestBooklets w cf ts = .ok bs := by
  have hyaml : ∀ tasks, contestYaml w cf contest = some (some tasks) ↔
      ∃ content, w.fs.get? (w.resolve (contest.join ⟨false, [contestName]⟩)) = some (.file (some content)) ∧
        cf.parse content = some tasks := by
    intro tasks
    unfold contestYaml
    have he := exists_iff w (contest.join ⟨false, [contestName]⟩)
    generalize contest.join ⟨false, [contestName]⟩ = p at he ⊢
    constructor
    · intro h
      by_cases hx : w.exists p = true
      · rw [if_pos hx] at h
        unfold World.read at h
        cases hg : w.fs.get? (w.resolve p) with
        | none => rw [hg] at h; cases h
        | some n =>
          rw [hg] at h
          cases n with
          | dir => cases h
          | file c =>
            cases c with
            | none => cases h
            | some t => exact ⟨t, rfl, by simpa using h⟩
      · rw [if_neg hx] at h; cases h
    · rintro ⟨content, h1, h2⟩
      have hx := he.2 (mem_keys_iff.2 ⟨_, h1⟩)
      rw [if_pos hx]
      unfold World.read
      rw [h1]
      simp [h2]
  unfold bookletsOfContest
  constructor
  · intro h
    cases hy : contestYaml w cf contest with
    | none => rw [hy] at h; cases h
    | some o =>
      cases o with
      | none => rw [hy] at h; cases h
      | some tasks =>
        rw [hy] at h
        dsimp only at h
        unfold bookletsOfDirs at h
        cases hl : loadTasks load (tasks.map contest.join) with
        | error e => rw [hl] at h; cases h
        | ok ts =>
          rw [hl] at h
          obtain ⟨content, c1, c2⟩ := (hyaml tasks).1 hy
          obtain ⟨t1, t2⟩ := (loadTasks_ok _ ts).1 hl
          exact ⟨content, tasks, ts, c1, c2, t1, t2, h⟩
  · rintro ⟨content, tasks, ts, c1, c2, t1, t2, h⟩
    rw [(hyaml tasks).2 ⟨content, c1, c2⟩]
    dsimp only
    unfold bookletsOfDirs
    rw [(loadTasks_ok _ ts).2 ⟨t1, t2⟩]
    exact h

/-! ## Concrete cases -/

/-- A contest with two tasks: `a` has statements in two languages, `b` in one, in both directories. -/
def contestWorld : World :=
  ⟨[],
   [([['c'], ['a'], "statement".toList, "it.tex".toList], .file (some [])),
    ([['c'], ['a'], "statement".toList, "en.tex".toList], .file (some [])),
    ([['c'], ['a'], "statement".toList, "fig.asy".toList], .file (some [])),
    ([['c'], ['b'], "testo".toList, "it.tex".toList], .file (some [])),
    ([['c'], ['b'], "statement".toList, "it.tex".toList], .file (some [])),
    ([['c'], contestName], .file (some ['x']))]⟩

def contestFile : ContestFile := ⟨fun t => if t = ['x'] then some [⟨false, [['b']]⟩, ⟨false, [['a']]⟩] else none⟩

def showBooklets : Except Fail (List BookletOf) → Option (List (String × String × List String))
  | .error _ => none
  | .ok bs => some (bs.map (fun b => (String.ofList b.language, "/".intercalate (b.dest.comps.map String.ofList),
      b.statements.map (fun s => "/".intercalate (s.path.comps.map String.ofList)))))

/-- Non-vacuity: the booklets of the contest and of a task; a statement that is in both directories is there
twice. -/
example : contestWorld.fs.Wf ∧ RealNames contestWorld ∧
    (∀ d ∈ [[['c'], ['a']], [['c'], ['b']]], Plain ⟨true, d⟩ ∧ NoHiddenTex contestWorld ⟨true, d⟩) ∧
    (showBooklets (bookletsOfContest contestWorld contestFile (fun p => p.comps.getLast?) ⟨true, [['c']]⟩)).map
      (fun l => isort (fun a b => strLe a.1 b.1) l) =
      some [("en", "c/en.pdf", ["c/a/statement/en.tex"]),
        ("it", "c/it.pdf", ["c/b/statement/it.tex", "c/b/testo/it.tex", "c/a/statement/it.tex"])] ∧
    showBooklets (makeTaskBooklets contestWorld contestFile ⟨['a'], ⟨true, [['c'], ['a']]⟩⟩) =
      some [("en", "c/a/statement/en.pdf", ["c/a/statement/en.tex"]),
        ("it", "c/a/statement/it.pdf", ["c/a/statement/it.tex"])] := by
  refine ⟨by unfold AMap.Wf; decide +kernel, by unfold RealNames; decide +kernel, ?_, by decide +kernel, by decide +kernel⟩
  unfold Plain NoHiddenTex HasEntry
  decide +kernel

/-- Two tasks of the same directory are refused when their paths are written in different ways (`a` and `./b`). -/
theorem same_contest_refused : ∃ (w : World) (cf : ContestFile) (a b : TaskAt) (c d : RPath),
    a.path = RPath.ofText "a".toList ∧ b.path = RPath.ofText "./b".toList ∧
    a.path.parent = some c ∧ b.path.parent = some d ∧ w.resolve c = w.resolve d ∧
    makeContestBooklets w cf [a, b] = .error .otherContest := by
  refine ⟨{ contestWorld with cwd := [['c']] }, contestFile, ⟨['a'], ⟨false, [['a']]⟩⟩, ⟨['b'], ⟨false, [dot, ['b']]⟩⟩,
    ⟨false, []⟩, ⟨false, [dot]⟩, by decide +kernel, by decide +kernel, by decide +kernel, by decide +kernel, by decide +kernel, rfl⟩

/-- A `contest.yaml` that cannot be parsed, next to a task with a statement, makes the task impossible to load. -/
theorem contest_yaml_breaks_task : ∃ (w : World) (cf : ContestFile) (t : TaskAt),
    makeTaskBooklets w cf t = .error .badContest ∧ TexFile w t.path "en".toList (inDir t.path "statement".toList "en.tex".toList) := by
  refine ⟨contestWorld, ⟨fun _ => none⟩, ⟨['a'], ⟨true, [['c'], ['a']]⟩⟩, ?_, by decide, _, ?_, ?_, rfl⟩
  · rfl
  · simp [texDirs]
  · unfold HasEntry; decide +kernel

end TM.Find
