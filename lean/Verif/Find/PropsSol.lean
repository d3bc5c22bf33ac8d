import Verif.Find.SolLemmas

/-!
# C104: which solutions are evaluated
-/
namespace TM.Find
open TM AMap

/-- The name of the first path comes before the one of the second in alphabetical order. -/
def NameBefore (p q : RPath) : Prop :=
  ∃ a b, p.comps.getLast? = some a ∧ q.comps.getLast? = some b ∧
    ∃ x y : Name, ∃ d : Char, b = x ++ d :: y ∧ (a = x ∨ ∃ (c : Char) (z : Name), a = x ++ c :: z ∧ c.toNat < d.toNat)

theorem nameLe_before : ∀ {a b : Name}, nameLe a b = true → a ≠ b →
    ∃ x y : Name, ∃ d : Char, b = x ++ d :: y ∧ (a = x ∨ ∃ (c : Char) (z : Name), a = x ++ c :: z ∧ c.toNat < d.toNat) := by
  intro a
  induction a with
  | nil =>
    intro b _ hne
    cases b with
    | nil => exact absurd rfl hne
    | cons d y => exact ⟨[], y, d, rfl, .inl rfl⟩
  | cons c z ih =>
    intro b h hne
    cases b with
    | nil => simp [nameLe] at h
    | cons d y =>
      simp only [nameLe] at h
      by_cases h1 : c.toNat < d.toNat
      · exact ⟨[], y, d, rfl, .inr ⟨c, z, rfl, h1⟩⟩
      · rw [if_neg h1] at h
        by_cases h2 : d.toNat < c.toNat
        · rw [if_pos h2] at h; cases h
        · rw [if_neg h2] at h
          have hcd : c = d := by
            apply Char.ext
            apply UInt32.toNat_inj.1
            have : c.toNat = d.toNat := by omega
            exact this
          subst hcd
          obtain ⟨x, y', d', e1, e2⟩ := ih h (fun e => hne (by rw [e]))
          refine ⟨c :: x, y', d', by rw [e1]; rfl, ?_⟩
          rcases e2 with e2 | ⟨c', z', e2, e3⟩
          · exact .inl (by rw [e2])
          · exact .inr ⟨c', z', by rw [e2]; rfl, e3⟩

theorem solutions_exact {w : World} {c : Config} {base : RPath} {dir : Name} (graders : List RPath)
    (hwf : w.fs.Wf) (hreal : RealNames w) (hplain : Plain base)
    (hd : ∀ x ∈ dir, x ≠ '*' ∧ x ≠ '?' ∧ x ≠ '[') (hd2 : dir ≠ dot ∧ dir ≠ dotdot)
    (hf : ∀ f ∈ c.filters, GoodFilter f) (hp : ∀ p ∈ c.paths, Named p) :
    ∃ l, findSolutions w c base [⟨false, [dir, ['*']]⟩] graders = some l ∧
      (∀ p, (∃ s ∈ l, s.path = p) ↔ Candidate w c base dir p ∧ p ∉ graders ∧ Selected c p ∧
        ∃ lang content, Loadable w p lang content) ∧
      (∀ s ∈ l, ∃ content, Loadable w s.path s.language content ∧
        Solution.extract content = .ok (s.checks, s.invalid)) ∧
      (c.paths ≠ [] → (l.map (·.path)).Sublist c.paths ∧
        ∀ s ∈ l, (l.map (·.path)).count s.path = c.paths.count s.path) ∧
      (c.paths = [] → (l.map (·.path)).Pairwise NameBefore) := by
  obtain ⟨paths, hpaths, hcand, hnamed, hsorted⟩ : ∃ paths,
      solutionPaths w c base [⟨false, [dir, ['*']]⟩] = some paths ∧
      (∀ p, p ∈ paths ↔ Candidate w c base dir p) ∧ (∀ p ∈ paths, Named p) ∧
      ((c.paths ≠ [] → paths = c.paths) ∧ (c.paths = [] → paths.Pairwise NameBefore)) := by
    unfold solutionPaths
    by_cases hc : c.paths = []
    · rw [if_pos hc, listFiles_dir hreal hplain hd hd2]
      refine ⟨_, rfl, ?_, ?_, fun h => absurd hc h, fun _ => ?_⟩
      · intro p
        unfold Candidate HasEntry
        rw [List.mem_map]
        constructor
        · rintro ⟨n, hn, rfl⟩
          have := mem_entries.1 hn
          exact .inr ⟨hc, n, by simpa using this, rfl⟩
        · rintro (⟨h, -⟩ | ⟨-, n, hn, rfl⟩)
          · exact absurd hc h
          · exact ⟨n, mem_entries.2 (by simpa using hn), rfl⟩
      · intro p hp
        obtain ⟨n, hn, rfl⟩ := List.mem_map.1 hp
        have hr := hreal _ (mem_entries.1 hn) n (by simp)
        exact ⟨n, by simp [inDir], hr.2⟩
      · rw [List.pairwise_map]
        have h1 := entries_sorted w (w.resolve base ++ [dir])
        have h2 := entries_nodup hwf (w.resolve base ++ [dir])
        have h3 := h1.and h2
        refine h3.imp ?_
        intro a b hab
        exact ⟨a, b, by simp [inDir], by simp [inDir], nameLe_before hab.1 hab.2⟩
    · rw [if_neg hc]
      refine ⟨_, rfl, ?_, hp, fun _ => rfl, fun h => absurd h hc⟩
      intro p
      unfold Candidate
      exact ⟨fun h => .inl ⟨hc, h⟩, fun h => h.elim (·.2) (fun h => absurd h.1 hc)⟩
  obtain ⟨ns, hns, hnil, hmem⟩ := solutionFilters_good c.filters hf
  have hpick := pick_eq (w := w) (graders := graders) (filters := ns) (ps := paths) (by
    intro p hp _ _
    obtain ⟨n, n1, n2, n3⟩ := hnamed p hp
    rw [fileName_some.2 ⟨n1, n2, n3⟩]; rfl)
  have hmemL : ∀ s, s ∈ (paths.filter (passes w graders ns)).filterMap (loaded w) ↔
      s.path ∈ paths ∧ passes w graders ns s.path = true ∧ loaded w s.path = some s := by
    intro s
    rw [List.mem_filterMap]
    constructor
    · rintro ⟨p, hp, hl⟩
      rw [List.mem_filter] at hp
      have := (loaded_iff.1 hl).1
      subst this
      exact ⟨hp.1, hp.2, hl⟩
    · rintro ⟨h1, h2, h3⟩
      exact ⟨s.path, List.mem_filter.2 ⟨h1, h2⟩, h3⟩
  have hkept : ∀ p, Named p → (kept ns p = some true ↔ Selected c p) := by
    rintro p ⟨n, n1, n2, n3⟩
    unfold kept Selected
    by_cases hc : c.filters = []
    · rw [if_pos (hnil.2 hc)]
      simp [hc]
    · have hne : ns ≠ [] := fun h => hc (hnil.1 h)
      rw [if_neg hne, fileName_some.2 ⟨n1, n2, n3⟩]
      simp only [Option.map_some, Option.some.injEq, List.any_eq_true, hc, false_or]
      constructor
      · rintro ⟨a, ha, hpre⟩
        obtain ⟨f, f1, f2, f3⟩ := (hmem a).1 ha
        rw [List.isPrefixOf_iff_prefix] at hpre
        obtain ⟨rest, hr⟩ := hpre
        exact ⟨f, f1, a, n, rest, f2, f3, n1, hr.symm⟩
      · rintro ⟨f, f1, a, b, rest, f2, f3, f4, f5⟩
        rw [n1] at f4
        cases f4
        refine ⟨a, (hmem a).2 ⟨f, f1, f2, f3⟩, ?_⟩
        rw [List.isPrefixOf_iff_prefix]
        exact ⟨rest, f5.symm⟩
  have hmap : ∀ ps : List RPath, (ps.filterMap (loaded w)).map (·.path) =
      ps.filter (fun p => (loaded w p).isSome) := by
    intro ps
    induction ps with
    | nil => rfl
    | cons p ps ih =>
      rw [List.filterMap_cons, List.filter_cons]
      cases hl : loaded w p with
      | none => simpa using ih
      | some s =>
        have := (loaded_iff.1 hl).1
        simp [ih, this]
  refine ⟨_, by unfold findSolutions; rw [hpaths]; dsimp only; rw [hns]; exact hpick, ?_, ?_, ?_, ?_⟩
  · intro p
    constructor
    · rintro ⟨s, hs, rfl⟩
      obtain ⟨h1, h2, h3⟩ := (hmemL s).1 hs
      unfold passes at h2
      simp only [Bool.and_eq_true, Bool.not_eq_true', decide_eq_false_iff_not, beq_iff_eq] at h2
      obtain ⟨-, content, hl, -⟩ := loaded_iff.1 h3
      exact ⟨(hcand _).1 h1, h2.1.1, (hkept _ (hnamed _ h1)).1 h2.2, s.language, content, hl⟩
    · rintro ⟨h1, h2, h3, lang, content, hl⟩
      have hp1 := (hcand p).2 h1
      obtain ⟨r, hr⟩ := (Solution.extract_ok_iff content).2 hl.2.2
      have hload : loaded w p = some ⟨p, lang, r.1, r.2⟩ := loaded_iff.2 ⟨rfl, content, hl, hr⟩
      refine ⟨⟨p, lang, r.1, r.2⟩, (hmemL _).2 ⟨hp1, ?_, hload⟩, rfl⟩
      have hex : w.exists p = true := by
        rw [exists_iff, mem_keys_iff]
        exact ⟨_, hl.2.1⟩
      unfold passes
      simp [h2, hex, (hkept p (hnamed p hp1)).2 h3]
  · intro s hs
    obtain ⟨h1, h2, h3⟩ := (hmemL s).1 hs
    obtain ⟨-, content, hl, hx⟩ := loaded_iff.1 h3
    exact ⟨content, hl, hx⟩
  · intro hc
    rw [hmap, ← hsorted.1 hc]
    refine ⟨List.filter_sublist.trans List.filter_sublist, ?_⟩
    intro s hs
    obtain ⟨h1, h2, h3⟩ := (hmemL s).1 hs
    rw [List.count_filter (by simp [h3]), List.count_filter h2]
  · intro hc
    rw [hmap]
    exact ((hsorted.2 hc).filter _).filter _

/-- **C104** The solutions of an IOI task: those given by the user or everything in `sol/`, except the
graders, with a name that starts with one of the filters, that are texts in a known language without an
ambiguous line of checks; each with its language and its checks, once, in the order of the user or in
alphabetical order.  The path of the task has no special characters, the filters and the paths end with a
name. -/
theorem ioi_solutions_partial {w : World} {c : Config} {base : RPath} (hwf : w.fs.Wf) (hreal : RealNames w)
    (hplain : Plain base) (hf : ∀ f ∈ c.filters, GoodFilter f) (hp : ∀ p ∈ c.paths, Named p) :
    ∃ l, ioiSolutions w c base = some l ∧
      (∀ p, (∃ s ∈ l, s.path = p) ↔ Candidate w c base "sol".toList p ∧ p ∉ taskGraders w base ∧
        Selected c p ∧ ∃ lang content, Loadable w p lang content) ∧
      (∀ s ∈ l, ∃ content, Loadable w s.path s.language content ∧
        Solution.extract content = .ok (s.checks, s.invalid)) ∧
      (c.paths ≠ [] → (l.map (·.path)).Sublist c.paths ∧
        ∀ s ∈ l, (l.map (·.path)).count s.path = c.paths.count s.path) ∧
      (c.paths = [] → (l.map (·.path)).Pairwise NameBefore) :=
  solutions_exact (taskGraders w base) hwf hreal hplain (by decide) (by decide) hf hp

/-- **C104** The solutions of a Terry task: the same, in `solutions/` and without graders. -/
theorem terry_solutions_partial {w : World} {c : Config} {base : RPath} (hwf : w.fs.Wf) (hreal : RealNames w)
    (hplain : Plain base) (hf : ∀ f ∈ c.filters, GoodFilter f) (hp : ∀ p ∈ c.paths, Named p) :
    ∃ l, terrySolutions w c base = some l ∧
      (∀ p, (∃ s ∈ l, s.path = p) ↔ Candidate w c base "solutions".toList p ∧
        Selected c p ∧ ∃ lang content, Loadable w p lang content) ∧
      (∀ s ∈ l, ∃ content, Loadable w s.path s.language content ∧
        Solution.extract content = .ok (s.checks, s.invalid)) ∧
      (c.paths ≠ [] → (l.map (·.path)).Sublist c.paths ∧
        ∀ s ∈ l, (l.map (·.path)).count s.path = c.paths.count s.path) ∧
      (c.paths = [] → (l.map (·.path)).Pairwise NameBefore) := by
  have := solutions_exact (dir := "solutions".toList) [] hwf hreal hplain (by decide) (by decide) hf hp
  simpa [terrySolutions, terryPattern] using this

theorem taskGraders_mem {w : World} {base p : RPath} : p ∈ taskGraders w base ↔
    ∃ n, p = inDir base "sol".toList n ∧ n ∈ (Sanity.taskGraders (w.entries (w.resolve base ++ ["sol".toList]))).values := by
  unfold taskGraders
  have : w.resolve (base.push "sol".toList) = w.resolve base ++ ["sol".toList] :=
    resolve_append w base ["sol".toList] (by decide)
  rw [this, List.mem_map]
  constructor
  · rintro ⟨n, hn, rfl⟩
    exact ⟨n, by simp [RPath.push, inDir], hn⟩
  · rintro ⟨n, rfl, hn⟩
    exact ⟨n, hn, by simp [RPath.push, inDir]⟩

theorem graderMap_fold (gs : List Name) : ∀ (m : AMap String Name),
    m.Wf → (∀ k v, m.get? k = some v → ∃ l, Sanity.detectLanguage v = some l ∧ k = l.name) →
    let r := gs.foldl (fun m g => match Sanity.detectLanguage g with
      | none => m
      | some l => m.insert l.name g) m
    r.Wf ∧ ∀ k v, r.get? k = some v → ∃ l, Sanity.detectLanguage v = some l ∧ k = l.name := by
  induction gs with
  | nil => intro m h1 h2; exact ⟨h1, h2⟩
  | cons g gs ih =>
    intro m h1 h2
    rw [List.foldl_cons]
    cases hg : Sanity.detectLanguage g with
    | none => exact ih m h1 h2
    | some l =>
      refine ih _ (wf_insert h1 _ _) ?_
      intro k v hv
      rw [get?_insert] at hv
      by_cases hk : k = l.name
      · rw [if_pos hk] at hv
        cases hv
        exact ⟨l, hg, hk⟩
      · rw [if_neg hk] at hv
        exact h2 k v hv

theorem graders_values {files : List Name} {n : Name} : n ∈ (Sanity.taskGraders files).values ↔
    ∃ l ∈ Sanity.knownLanguages, (Sanity.taskGraders files).get? l.name = some n := by
  obtain ⟨hwf, hget⟩ := graderMap_fold (files.filter (Ui.wildMatch "grader.*".toList) ++
    files.filter (Ui.wildMatch "stub.*".toList)) [] wf_nil (by intro k v h; cases h)
  unfold AMap.values
  rw [List.mem_map]
  constructor
  · rintro ⟨⟨k, v⟩, hm, rfl⟩
    have hk := get?_of_mem hwf hm
    obtain ⟨l, l1, l2⟩ := hget k v hk
    refine ⟨l, ((Sanity.language_exact v l).1 l1).1, ?_⟩
    rw [← l2]
    exact hk
  · rintro ⟨l, hl, h⟩
    exact ⟨(l.name, n), mem_of_get? h, rfl⟩

/-- **C104** What is left out as a grader is a file of `sol/` called `grader` or `stub`, in a known language;
it is left out if it is the only one of its language. -/
theorem graders_left_out_partial {w : World} {base : RPath} :
    (∀ p ∈ taskGraders w base, ∃ n lang, p = inDir base "sol".toList n ∧ HasEntry w base "sol".toList n ∧
      Sanity.GraderIn lang n) ∧
    ∀ n lang, HasEntry w base "sol".toList n → Sanity.GraderIn lang n →
      (∀ m, HasEntry w base "sol".toList m → Sanity.GraderIn lang m → m = n) →
      inDir base "sol".toList n ∈ taskGraders w base := by
  have hent : ∀ n, HasEntry w base "sol".toList n ↔ n ∈ w.entries (w.resolve base ++ ["sol".toList]) := by
    intro n
    unfold HasEntry
    rw [mem_entries]
    simp
  have hget := fun l hl => Sanity.graderMap_get
    ((w.entries (w.resolve base ++ ["sol".toList])).filter (Ui.wildMatch "grader.*".toList) ++
      (w.entries (w.resolve base ++ ["sol".toList])).filter (Ui.wildMatch "stub.*".toList)) l hl
  constructor
  · intro p hp
    obtain ⟨n, rfl, hn⟩ := taskGraders_mem.1 hp
    obtain ⟨l, hl, h⟩ := graders_values.1 hn
    unfold Sanity.taskGraders at h
    rw [hget l hl] at h
    have hm := List.mem_of_getLast? h
    rw [List.mem_filter, Sanity.mem_graders, decide_eq_true_eq] at hm
    exact ⟨n, l, rfl, (hent n).2 hm.1.1, (Sanity.language_exact n l).1 hm.2, hm.1.2⟩
  · intro n l hn hg huniq
    rw [taskGraders_mem]
    refine ⟨n, rfl, graders_values.2 ⟨l, hg.1.1, ?_⟩⟩
    unfold Sanity.taskGraders
    rw [hget l hg.1.1]
    cases hlast : (List.filter (fun g => decide (Sanity.detectLanguage g = some l))
      ((w.entries (w.resolve base ++ ["sol".toList])).filter (Ui.wildMatch "grader.*".toList) ++
      (w.entries (w.resolve base ++ ["sol".toList])).filter (Ui.wildMatch "stub.*".toList))).getLast? with
    | none =>
      rw [List.getLast?_eq_none_iff] at hlast
      have : n ∈ List.filter (fun g => decide (Sanity.detectLanguage g = some l))
        ((w.entries (w.resolve base ++ ["sol".toList])).filter (Ui.wildMatch "grader.*".toList) ++
        (w.entries (w.resolve base ++ ["sol".toList])).filter (Ui.wildMatch "stub.*".toList)) := by
        rw [List.mem_filter, Sanity.mem_graders]
        exact ⟨⟨(hent n).1 hn, hg.2⟩, by simpa using (Sanity.language_exact n l).2 hg.1⟩
      rw [hlast] at this
      cases this
    | some m =>
      have hm := List.mem_of_getLast? hlast
      rw [List.mem_filter, Sanity.mem_graders, decide_eq_true_eq] at hm
      rw [huniq m ((hent m).2 hm.1.1) ⟨(Sanity.language_exact m l).1 hm.2, hm.1.2⟩]

/-! ## Concrete cases -/

/-- A task with two solutions, a grader, a text and a solution that is not in UTF-8. -/
def solWorld : World :=
  ⟨[['t']],
   [([['t'], "sol".toList, "slow.py".toList], .file (some "# @check-zero: a".toList)),
    ([['t'], "sol".toList, "fast.cpp".toList], .file (some [])),
    ([['t'], "sol".toList, "grader.cpp".toList], .file (some [])),
    ([['t'], "sol".toList, "notes.txt".toList], .file (some [])),
    ([['t'], "sol".toList, "latin.cpp".toList], .file none),
    ([['t'], "sol".toList, "two.cpp".toList], .file (some "// @check-accepted: a @check-zero: b".toList)),
    ([['t'], "sol".toList], .dir), ([['t']], .dir), ([], .dir)]⟩

def taskPath : RPath := ⟨true, [['t']]⟩

def names (l : Option (List Found)) : Option (List String) :=
  l.map (·.map (fun s => "/".intercalate (s.path.comps.map String.ofList)))

/-- Non-vacuity: the hypotheses hold and the solutions are found, without the grader; the filters select by
the beginning of the name, also when they are written as paths, and also among the given paths. -/
example : solWorld.fs.Wf ∧ RealNames solWorld ∧ Plain taskPath ∧
    names (ioiSolutions solWorld ⟨[], []⟩ taskPath) = some ["t/sol/fast.cpp", "t/sol/slow.py"] ∧
    names (ioiSolutions solWorld ⟨["sl".toList], []⟩ taskPath) = some ["t/sol/slow.py"] ∧
    names (ioiSolutions solWorld ⟨["sol/fa".toList, "x".toList], []⟩ taskPath) = some ["t/sol/fast.cpp"] ∧
    names (ioiSolutions solWorld ⟨[], [⟨false, ["sol".toList, "slow.py".toList]⟩, ⟨false, [['z']]⟩]⟩ taskPath) =
      some ["sol/slow.py"] ∧
    names (ioiSolutions solWorld ⟨["fast".toList], [⟨false, ["sol".toList, "slow.py".toList]⟩]⟩ taskPath) =
      some [] := by
  refine ⟨by unfold AMap.Wf; decide +kernel, ?_, ?_, by decide +kernel, by decide +kernel, by decide +kernel, by decide +kernel, by decide +kernel⟩
  · unfold RealNames; decide +kernel
  · unfold Plain; decide +kernel

/-- A solution in C++ that is in `sol/` and is selected is not evaluated, and nothing is said: its checks
cannot be read because it is not UTF-8, or because two checks are on the same line. -/
theorem solution_dropped : ∃ (w : World) (base : RPath) (n m : Name),
    HasEntry w base "sol".toList n ∧ HasEntry w base "sol".toList m ∧
    (Sanity.detectLanguage n).map (·.name) = some "C++" ∧ (Sanity.detectLanguage m).map (·.name) = some "C++" ∧
    (ioiSolutions w ⟨[], []⟩ base).map (fun l => l.filter (fun s => s.path.fileName = some n ∨ s.path.fileName = some m) |>.length) =
      some 0 ∧
    (ioiSolutions w ⟨[], []⟩ base).map (fun l => l.map (·.invalid)) = some [[], []] := by
  refine ⟨solWorld, taskPath, "latin.cpp".toList, "two.cpp".toList, ?_⟩
  unfold HasEntry
  decide +kernel

/-- With two graders of a language, one is evaluated as a solution; a grader given with another path is, too. -/
theorem grader_evaluated : ∃ (w : World) (base : RPath),
    names (ioiSolutions w ⟨[], []⟩ base) = some ["t/sol/grader.cc", "t/sol/sol.cpp"] ∧
    names (ioiSolutions w ⟨[], [⟨false, ["sol".toList, "grader.cpp".toList]⟩]⟩ base) = some ["sol/grader.cpp"] := by
  refine ⟨⟨[['t']], [([['t'], "sol".toList, "grader.cc".toList], .file (some [])),
    ([['t'], "sol".toList, "grader.cpp".toList], .file (some [])),
    ([['t'], "sol".toList, "sol.cpp".toList], .file (some []))]⟩, taskPath, ?_⟩
  decide +kernel

/-- A filter without a name, such as `..` or the empty one, makes the program panic. -/
theorem bad_filter_panics : ioiSolutions solWorld ⟨["..".toList], []⟩ taskPath = none ∧
    ioiSolutions solWorld ⟨[[]], []⟩ taskPath = none := by
  unfold ioiSolutions findSolutions
  constructor <;>
  · have : solutionFilters ["..".toList] = none ∧ solutionFilters [[]] = none := by decide +kernel
    simp only [this.1, this.2]
    split <;> rfl

end TM.Find
