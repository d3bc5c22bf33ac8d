import Verif.Parse.Terry
import Verif.Parse.PropsTask

/-!
# C131: loading a Terry task
-/
namespace TM.Parse.Terry
open TM AMap TM.Find TM.Parse

section
variable {env : Env} {w w' : World} {base : RPath} {exe : Name} {manager : String}

/-! ## Lemmas -/

/-- The names of the managers are ordinary. -/
theorem names_plain : ∀ m ∈ managerNames, PlainName m.toList ∧ '.' ∉ m.toList := by
  unfold PlainName managerNames; decide +kernel

theorem managerOf_unique {s s' : Src} (h : ManagerOf w base exe manager s) (h' : ManagerOf w base exe manager s') :
    s = s' := by
  obtain ⟨p, l, h1, rfl⟩ := h
  obtain ⟨q, l', h2, rfl⟩ := h'
  obtain ⟨rfl, rfl⟩ := onlyPart_unique h1 h2
  rfl

/-- The search of a manager. -/
theorem getManager_spec (hreal : RealNames w) (hplain : Plain base) (hwf : w.fs.Wf) (hm : manager ∈ managerNames) :
    (getManager w base exe manager = .ok none ↔ Zero w base manager) ∧
    (∀ s, getManager w base exe manager = .ok (some s) ↔ ManagerOf w base exe manager s) ∧
    (∀ e, getManager w base exe manager = .error e ↔ e = .multiple manager ∧ Two w base manager) := by
  obtain ⟨hm1, hm2⟩ := names_plain _ hm
  have hd : PlainName "managers".toList ∧ "managers".toList ≠ dot ∧ "managers".toList ≠ dotdot := by
    unfold PlainName; decide +kernel
  obtain ⟨L, h1, h2, h3, h4⟩ := findSource_spec hreal hplain hwf (place manager) []
    (by intro e he
        simp only [place, List.mem_singleton] at he
        subst he
        exact ⟨hd.1, hm1, hd.2.1, hd.2.2, hm2⟩) (by simp) (by simp [place]) false
    (.path ⟨false, ["managers".toList, manager.toList ++ '.' :: exe]⟩)
  simp only [place, List.map_cons, List.map_nil, List.append_nil] at h1
  obtain ⟨a, b, c⟩ := only_spec (er := .multipleManagers) (by simp) h2 h3 h4
  have hj : base.join ⟨false, ["managers".toList, manager.toList ++ '.' :: exe]⟩ =
      inDir base "managers".toList (manager.toList ++ '.' :: exe) := join_two hd.2.1
  unfold getManager
  rw [h1]
  have made : ∀ s, Part w base (place manager) s.path s.language →
      toSrc w base false (.path ⟨false, ["managers".toList, manager.toList ++ '.' :: exe]⟩) s.path = some s →
      s.shipped = ({ path := s.path, language := s.language, graders := false, copyExe := true, linkStatic := true,
                     writeBin := some (inDir base "managers".toList (manager.toList ++ '.' :: exe)) } : Src) := by
    intro s _ hs
    have := toSrc_eq hs
    dsimp only [binOf] at this
    rw [hj] at this
    rw [this]
    rfl
  cases ho : only Parse.Err.multipleManagers (some L) with
  | error e =>
    have he := (c e).1 ho
    obtain ⟨rfl, h5⟩ := he
    refine ⟨⟨fun h => (by cases h), fun h => ?_⟩, fun s => ⟨fun h => (by cases h), fun h => ?_⟩, fun e => ?_⟩
    · rw [a.2 h] at ho; cases ho
    · obtain ⟨p, l, h6, -⟩ := h
      obtain ⟨p1, l1, p2, l2, q1, q2, q3⟩ := h5
      exact absurd ((h6.2 _ _ q1).trans (h6.2 _ _ q2).symm) q3
    · constructor
      · intro h; cases h; exact ⟨rfl, h5⟩
      · rintro ⟨rfl, _⟩; rfl
  | ok o =>
    cases o with
    | none =>
      have h5 := a.1 ho
      refine ⟨⟨fun _ => h5, fun _ => rfl⟩, fun s => ⟨fun h => (by cases h), fun h => ?_⟩, fun e => ⟨fun h => (by cases h), fun h => ?_⟩⟩
      · obtain ⟨p, l, h6, -⟩ := h
        exact absurd h6.1 (h5 _ _)
      · obtain ⟨-, p1, l1, p2, l2, q1, q2, q3⟩ := h
        exact absurd q1 (h5 _ _)
    | some s0 =>
      obtain ⟨h5, h6⟩ := (b s0).1 ho
      have h7 := made s0 h5.1 h6
      refine ⟨⟨fun h => (by cases h), fun h => absurd h5.1 (h _ _)⟩, fun s => ⟨fun h => ?_, fun h => ?_⟩,
        fun e => ⟨fun h => (by cases h), fun h => ?_⟩⟩
      · cases h
        exact ⟨_, _, h5, h7⟩
      · have : ManagerOf w base exe manager s0.shipped := ⟨_, _, h5, h7⟩
        rw [managerOf_unique h this]
        rfl
      · obtain ⟨-, p1, l1, p2, l2, q1, q2, q3⟩ := h
        exact absurd ((h5.2 _ _ q1).trans (h5.2 _ _ q2).symm) q3

theorem one_iff : One w base manager ↔ ∃ s, ManagerOf w base exe manager s :=
  ⟨fun ⟨p, l, h⟩ => ⟨_, p, l, h, rfl⟩, fun ⟨_, p, l, h, _⟩ => ⟨p, l, h⟩⟩

/-- There are none, one or two. -/
theorem one_not_two (h : One w base manager) : ¬ Two w base manager := by
  rintro ⟨p1, l1, p2, l2, q1, q2, q3⟩
  obtain ⟨p, l, h⟩ := h
  exact q3 ((h.2 _ _ q1).trans (h.2 _ _ q2).symm)

theorem zero_not_two (h : Zero w base manager) : ¬ Two w base manager := by
  rintro ⟨p1, l1, p2, l2, q1, q2, q3⟩
  exact h _ _ q1

theorem zero_not_one (h : Zero w base manager) : ¬ One w base manager := by
  rintro ⟨p, l, h1⟩
  exact h _ _ h1.1

/-- A manager that has to be there. -/
theorem needManager_spec (hreal : RealNames w) (hplain : Plain base) (hwf : w.fs.Wf) (hm : manager ∈ managerNames) :
    (∀ s, needManager w base exe manager = .ok s ↔ ManagerOf w base exe manager s) ∧
    (∀ e, needManager w base exe manager = .error e ↔
      (e = .multiple manager ∧ Two w base manager) ∨ (e = .missing manager ∧ Zero w base manager)) := by
  obtain ⟨a, b, c⟩ := getManager_spec (exe := exe) hreal hplain hwf hm
  unfold needManager
  cases hg : getManager w base exe manager with
  | error e =>
    have h1 := (c e).1 hg
    refine ⟨fun s => ⟨fun h => (by cases h), fun h => ?_⟩, fun e' => ?_⟩
    · rw [(b s).2 h] at hg; cases hg
    · rw [hg] at c
      constructor
      · intro h; cases h; exact .inl h1
      · rintro (h | ⟨-, h⟩)
        · rw [h.1, h1.1]
        · exact absurd h1.2 (zero_not_two h)
  | ok o =>
    cases o with
    | none =>
      have h1 := a.1 hg
      refine ⟨fun s => ⟨fun h => (by cases h), fun h => ?_⟩, fun e' => ?_⟩
      · rw [(b s).2 h] at hg; cases hg
      · constructor
        · intro h; cases h; exact .inr ⟨rfl, h1⟩
        · rintro (⟨-, h⟩ | ⟨rfl, h⟩)
          · exact absurd h (zero_not_two h1)
          · rfl
    | some s0 =>
      have h1 := (b s0).1 hg
      refine ⟨fun s => ⟨fun h => ?_, fun h => ?_⟩, fun e' => ⟨fun h => (by cases h), fun h => ?_⟩⟩
      · cases h; exact h1
      · rw [managerOf_unique h h1]
      · rcases h with ⟨-, h⟩ | ⟨-, h⟩
        · exact absurd h (one_not_two (one_iff.2 ⟨_, h1⟩))
        · exact absurd (one_iff.2 ⟨_, h1⟩) (zero_not_one h)

theorem getManager_may (hreal : RealNames w) (hplain : Plain base) (hwf : w.fs.Wf) (hm : manager ∈ managerNames)
    (o : Option Src) : getManager w base exe manager = .ok o ↔ MayManager w base exe manager o := by
  obtain ⟨a, b, c⟩ := getManager_spec (exe := exe) hreal hplain hwf hm
  cases o with
  | none =>
    rw [a]
    refine ⟨fun h => .inl ⟨h, rfl⟩, ?_⟩
    rintro (⟨h, -⟩ | ⟨s, -, h⟩)
    · exact h
    · cases h
  | some s =>
    rw [b]
    refine ⟨fun h => .inr ⟨s, h, rfl⟩, ?_⟩
    rintro (⟨-, h⟩ | ⟨s', h, h'⟩)
    · cases h
    · cases h'; exact h

theorem may_not_two {o : Option Src} (h : MayManager w base exe manager o) : ¬ Two w base manager := by
  rcases h with ⟨h, -⟩ | ⟨s, h, -⟩
  · exact zero_not_two h
  · exact one_not_two (one_iff.2 ⟨_, h⟩)

theorem readYaml_iff (d : Doc) (y : Yaml) : readYaml d = some y ↔
    Needs IsText d ["name"] y.name ∧ Needs IsText d ["description"] y.description ∧ Needs IsNum d ["max_score"] y.maxScore := by
  have n1 := fun a => required_iff asText_iff (d := d) ["name"] (a := a)
  have n2 := fun a => required_iff asText_iff (d := d) ["description"] (a := a)
  have n3 := fun a => required_iff asNum_iff (d := d) ["max_score"] (a := a)
  simp only [List.map_cons, List.map_nil] at n1 n2 n3
  unfold readYaml
  simp only [bind, Option.bind_eq_some_iff, Option.some.injEq, n1, n2, n3]
  constructor
  · rintro ⟨a1, h1, a2, h2, a3, h3, rfl⟩
    exact ⟨h1, h2, h3⟩
  · rintro ⟨h1, h2, h3⟩
    exact ⟨_, h1, _, h2, _, h3, rfl⟩

theorem readTaskYaml_spec :
    (∀ y, readTaskYaml env w base = .ok y ↔ YamlOf env w base y) ∧
    (∀ e, readTaskYaml env w base = .error e ↔ (e = .noYaml ∧ Missing w base ["task.yaml".toList]) ∨
      (e = .badYaml ∧ ¬ Missing w base ["task.yaml".toList] ∧ ∀ y, ¬ YamlOf env w base y)) := by
  have hy : ∀ n ∈ ["task.yaml".toList], n ≠ dot ∧ n ≠ dotdot := by decide +kernel
  have hYaml : ∀ y, ((w.read (base.push "task.yaml".toList)).bind env.yaml).bind readYaml = some y ↔ YamlOf env w base y := by
    intro y
    unfold RPath.push YamlOf
    simp only [Option.bind_eq_some_iff, read_file hy, readYaml_iff]
    constructor
    · rintro ⟨d, ⟨t, h1, h2⟩, h3⟩
      exact ⟨t, d, h1, h2, h3⟩
    · rintro ⟨t, d, h1, h2, h3⟩
      exact ⟨d, ⟨t, h1, h2⟩, h3⟩
  have hmiss : ∀ y, YamlOf env w base y → ¬ Missing w base ["task.yaml".toList] := by
    rintro y ⟨t, d, h1, -⟩
    exact not_missing h1
  unfold readTaskYaml
  cases he : w.exists (base.push "task.yaml".toList) with
  | true =>
    have hnm : ¬ Missing w base ["task.yaml".toList] := fun hm => by
      have := (exists_file hy).2 hm
      rw [RPath.push] at he
      rw [this] at he; cases he
    rw [if_pos rfl]
    cases hr : ((w.read (base.push "task.yaml".toList)).bind env.yaml).bind readYaml with
    | none =>
      have hno : ∀ y, ¬ YamlOf env w base y := fun y h => by
        rw [(hYaml y).2 h] at hr; cases hr
      refine ⟨fun y => ⟨fun h => (by cases h), fun h => absurd h (hno y)⟩, fun e => ⟨fun h => ?_, fun h => ?_⟩⟩
      · cases h; exact .inr ⟨rfl, hnm, hno⟩
      · rcases h with ⟨-, h⟩ | ⟨rfl, -⟩
        · exact absurd h hnm
        · rfl
    | some y0 =>
      have hy0 := (hYaml y0).1 hr
      refine ⟨fun y => ⟨fun h => ?_, fun h => ?_⟩, fun e => ⟨fun h => (by cases h), fun h => ?_⟩⟩
      · cases h; exact hy0
      · rw [(hYaml y).2 h] at hr; cases hr; rfl
      · rcases h with ⟨-, h⟩ | ⟨-, -, h⟩
        · exact absurd h hnm
        · exact absurd hy0 (h _)
  | false =>
    have hm : Missing w base ["task.yaml".toList] := (exists_file hy).1 he
    rw [if_neg (by simp)]
    refine ⟨fun y => ⟨fun h => (by cases h), fun h => absurd hm (hmiss y h)⟩, fun e => ⟨fun h => ?_, fun h => ?_⟩⟩
    · cases h; exact .inl ⟨rfl, hm⟩
    · rcases h with ⟨rfl, -⟩ | ⟨-, h, -⟩
      · rfl
      · exact absurd hm h

/-! ## The theorems -/

/-- **C131** The directory is a task exactly when it has a `task.yaml` with the three fields, exactly one generator and one
checker, and at most one validator and one official solution; and then it is that task. -/
theorem loaded_exact (hreal : RealNames w) (hplain : Plain base) (hwf : w.fs.Wf) (t : Task) :
    parseTask env w base exe = .ok t ↔ TaskOf env w base exe t := by
  have g := fun m hm => needManager_spec (exe := exe) hreal hplain hwf (manager := m) hm
  have v := fun m hm => getManager_may (exe := exe) hreal hplain hwf (manager := m) hm
  have y := (readTaskYaml_spec (env := env) (w := w) (base := base)).1
  unfold parseTask
  simp only [bind, Except.bind, pure, Except.pure]
  constructor
  · intro h
    split at h
    · cases h
    rename_i y1 h1
    split at h
    · cases h
    rename_i s1 h2
    split at h
    · cases h
    rename_i o1 h3
    split at h
    · cases h
    rename_i s2 h4
    split at h
    · cases h
    rename_i o2 h5
    cases h
    exact ⟨rfl, (y _).1 h1, ((g "generator" (by simp [managerNames])).1 _).1 h2,
      (v "validator" (by simp [managerNames]) _).1 h3, ((g "checker" (by simp [managerNames])).1 _).1 h4,
      (v "solution" (by simp [managerNames]) _).1 h5⟩
  · rintro ⟨h0, h1, h2, h3, h4, h5⟩
    rw [(y _).2 h1, ((g "generator" (by simp [managerNames])).1 _).2 h2, (v "validator" (by simp [managerNames]) _).2 h3,
      ((g "checker" (by simp [managerNames])).1 _).2 h4, (v "solution" (by simp [managerNames]) _).2 h5]
    subst h0
    rfl

/-- **C131** Otherwise it is refused, for the first thing that is wrong: no `task.yaml`, one that does not have the three
fields, then the managers in order: two of them, or a generator or a checker that is missing.  It never panics. -/
theorem refused_exact (hreal : RealNames w) (hplain : Plain base) (hwf : w.fs.Wf) (e : Err) :
    parseTask env w base exe = .error e ↔ Refused env w base e := by
  have g := fun m hm => needManager_spec (exe := exe) hreal hplain hwf (manager := m) hm
  have v := fun m hm => getManager_may (exe := exe) hreal hplain hwf (manager := m) hm
  have ve := fun m hm => (getManager_spec (exe := exe) hreal hplain hwf (manager := m) hm).2.2
  have y := readTaskYaml_spec (env := env) (w := w) (base := base)
  constructor
  · intro h
    unfold parseTask at h
    simp only [bind, Except.bind, pure, Except.pure] at h
    split at h
    · rename_i e1 h1
      cases h
      rcases (y.2 _).1 h1 with ⟨rfl, h2⟩ | ⟨rfl, h2, h3⟩
      · exact .noYaml h2
      · exact .badYaml h2 h3
    rename_i y1 h1
    have h1 := (y.1 _).1 h1
    split at h
    · rename_i e1 h2
      cases h
      rcases ((g "generator" (by simp [managerNames])).2 _).1 h2 with ⟨rfl, k⟩ | ⟨rfl, k⟩
      · exact .generators h1 k
      · exact .noGenerator h1 k
    rename_i s1 h2
    have h2 := one_iff.2 ⟨_, ((g "generator" (by simp [managerNames])).1 _).1 h2⟩
    split at h
    · rename_i e1 h3
      cases h
      obtain ⟨rfl, k⟩ := (ve "validator" (by simp [managerNames]) _).1 h3
      exact .validators h1 h2 k
    rename_i o1 h3
    have h3 := may_not_two ((v "validator" (by simp [managerNames]) _).1 h3)
    split at h
    · rename_i e1 h4
      cases h
      rcases ((g "checker" (by simp [managerNames])).2 _).1 h4 with ⟨rfl, k⟩ | ⟨rfl, k⟩
      · exact .checkers h1 h2 h3 k
      · exact .noChecker h1 h2 h3 k
    rename_i s2 h4
    have h4 := one_iff.2 ⟨_, ((g "checker" (by simp [managerNames])).1 _).1 h4⟩
    split at h
    · rename_i e1 h5
      cases h
      obtain ⟨rfl, k⟩ := (ve "solution" (by simp [managerNames]) _).1 h5
      exact .solutions h1 h2 h3 h4 k
    · cases h
  · intro h
    have okYaml : ∀ {y1}, YamlOf env w base y1 → readTaskYaml env w base = .ok y1 := fun h => (y.1 _).2 h
    have okNeed : ∀ {m}, m ∈ managerNames → One w base m → ∃ s, needManager w base exe m = .ok s := fun hm h => by
      obtain ⟨s, hs⟩ := one_iff.1 h
      exact ⟨s, ((g _ hm).1 s).2 hs⟩
    have okMay : ∀ {m}, m ∈ managerNames → ¬ Two w base m → ∃ o, getManager w base exe m = .ok o := fun {m} hm h => by
      cases hg : getManager w base exe m with
      | error e => exact absurd ((ve _ hm e).1 hg).2 h
      | ok o => exact ⟨o, rfl⟩
    unfold parseTask
    simp only [bind, Except.bind, pure, Except.pure]
    cases h with
    | noYaml h => rw [(y.2 _).2 (.inl ⟨rfl, h⟩)]
    | badYaml h h' => rw [(y.2 _).2 (.inr ⟨rfl, h, h'⟩)]
    | generators h1 h2 =>
      rw [okYaml h1, ((g "generator" (by simp [managerNames])).2 _).2 (.inl ⟨rfl, h2⟩)]
    | noGenerator h1 h2 =>
      rw [okYaml h1, ((g "generator" (by simp [managerNames])).2 _).2 (.inr ⟨rfl, h2⟩)]
    | validators h1 h2 h3 =>
      obtain ⟨s, hs⟩ := okNeed (m := "generator") (by simp [managerNames]) h2
      rw [okYaml h1, hs, (ve "validator" (by simp [managerNames]) _).2 ⟨rfl, h3⟩]
    | checkers h1 h2 h3 h4 =>
      obtain ⟨s, hs⟩ := okNeed (m := "generator") (by simp [managerNames]) h2
      obtain ⟨o, ho⟩ := okMay (m := "validator") (by simp [managerNames]) h3
      rw [okYaml h1, hs, ho, ((g "checker" (by simp [managerNames])).2 _).2 (.inl ⟨rfl, h4⟩)]
    | noChecker h1 h2 h3 h4 =>
      obtain ⟨s, hs⟩ := okNeed (m := "generator") (by simp [managerNames]) h2
      obtain ⟨o, ho⟩ := okMay (m := "validator") (by simp [managerNames]) h3
      rw [okYaml h1, hs, ho, ((g "checker" (by simp [managerNames])).2 _).2 (.inr ⟨rfl, h4⟩)]
    | solutions h1 h2 h3 h4 h5 =>
      obtain ⟨s, hs⟩ := okNeed (m := "generator") (by simp [managerNames]) h2
      obtain ⟨o, ho⟩ := okMay (m := "validator") (by simp [managerNames]) h3
      obtain ⟨s', hs'⟩ := okNeed (m := "checker") (by simp [managerNames]) h4
      rw [okYaml h1, hs, ho, hs', (ve "solution" (by simp [managerNames]) _).2 ⟨rfl, h5⟩]

theorem SameTask.part (h : SameTask w w' base) (p : RPath) (l : Sanity.Language) :
    Part w base (place manager) p l ↔ Part w' base (place manager) p l := by
  unfold Part place
  constructor
  · rintro ⟨d, st, ext, h1, h2, h3, h4⟩
    have := List.mem_singleton.1 h1
    cases this
    exact ⟨_, _, ext, h1, (h.2.2 _ l h4).1 h2, h3, h4⟩
  · rintro ⟨d, st, ext, h1, h2, h3, h4⟩
    have := List.mem_singleton.1 h1
    cases this
    exact ⟨_, _, ext, h1, (h.2.2 _ l h4).2 h2, h3, h4⟩

theorem SameTask.symm (h : SameTask w w' base) : SameTask w' w base :=
  ⟨h.1.symm, fun t => (h.2.1 t).symm, fun n l hs => (h.2.2 n l hs).symm⟩

theorem SameTask.taskOf (h : SameTask w w' base) {t : Task} (ht : TaskOf env w base exe t) : TaskOf env w' base exe t := by
  have e : ∀ m, Part w base (place m) = Part w' base (place m) := fun m => by
    funext p l; exact propext (h.part p l)
  obtain ⟨h0, h1, h2, h3, h4, h5⟩ := ht
  simp only [ManagerOf, MayManager, OnlyPart, NoPart, e] at h2 h3 h4 h5
  refine ⟨h0, ?_, h2, h3, h4, h5⟩
  obtain ⟨text, d, h6, h7⟩ := h1
  exact ⟨text, d, (h.2.1 _).1 h6, h7⟩

/-- **C131** Only `task.yaml` and the sources in `managers/` matter: with the same ones the same task is loaded, or the
directory is refused for the same reason.  Everything else, the executables and the other files in `managers/` too, is
ignored. -/
theorem only_sources (hreal : RealNames w) (hwf : w.fs.Wf) (hreal' : RealNames w') (hwf' : w'.fs.Wf) (hplain : Plain base)
    (h : SameTask w w' base) : parseTask env w base exe = parseTask env w' base exe := by
  cases ht : parseTask env w base exe with
  | ok t =>
    exact ((loaded_exact hreal' hplain hwf' t).2 (h.taskOf ((loaded_exact hreal hplain hwf t).1 ht))).symm
  | error e =>
    cases ht' : parseTask env w' base exe with
    | ok t =>
      rw [(loaded_exact hreal hplain hwf t).2 (h.symm.taskOf ((loaded_exact hreal' hplain hwf' t).1 ht'))] at ht
      cases ht
    | error e' =>
      congr 1
      have r := (refused_exact (exe := exe) hreal hplain hwf e).1 ht
      have : Refused env w' base e := by
        have ep : ∀ m, Part w base (place m) = Part w' base (place m) := fun m => by
          funext p l; exact propext (h.part p l)
        have ey : ∀ {y}, YamlOf env w base y ↔ YamlOf env w' base y := by
          intro y
          constructor
          · rintro ⟨t, d, h1, h2⟩; exact ⟨t, d, (h.2.1 _).1 h1, h2⟩
          · rintro ⟨t, d, h1, h2⟩; exact ⟨t, d, (h.2.1 _).2 h1, h2⟩
        have e1 : ∀ m, One w base m ↔ One w' base m := fun m => by simp only [One, OnlyPart, ep]
        have e2 : ∀ m, Two w base m ↔ Two w' base m := fun m => by simp only [Two, ManyParts, ep]
        have e0 : ∀ m, Zero w base m ↔ Zero w' base m := fun m => by simp only [Zero, NoPart, ep]
        cases r with
        | noYaml h1 => exact .noYaml (h.1.1 h1)
        | badYaml h1 h2 => exact .badYaml (fun h3 => h1 (h.1.2 h3)) (fun y hy => h2 y (ey.2 hy))
        | generators h1 h2 => exact .generators (ey.1 h1) ((e2 _).1 h2)
        | noGenerator h1 h2 => exact .noGenerator (ey.1 h1) ((e0 _).1 h2)
        | validators h1 h2 h3 => exact .validators (ey.1 h1) ((e1 _).1 h2) ((e2 _).1 h3)
        | checkers h1 h2 h3 h4 =>
          exact .checkers (ey.1 h1) ((e1 _).1 h2) (fun h5 => h3 ((e2 _).2 h5)) ((e2 _).1 h4)
        | noChecker h1 h2 h3 h4 =>
          exact .noChecker (ey.1 h1) ((e1 _).1 h2) (fun h5 => h3 ((e2 _).2 h5)) ((e0 _).1 h4)
        | solutions h1 h2 h3 h4 h5 =>
          exact .solutions (ey.1 h1) ((e1 _).1 h2) (fun h5 => h3 ((e2 _).2 h5)) ((e1 _).1 h4) ((e2 _).1 h5)
      have r' := (refused_exact (exe := exe) hreal' hplain hwf' e).2 this
      rw [ht'] at r'
      cases r'
      rfl

/-- The name of the platform is not the one of a source. -/
def NotSource (exe : Name) : Prop := ∀ m ∈ managerNames, ∀ l, ¬ Sanity.SourceIn l (m.toList ++ '.' :: exe)

/-- **C131** The executables that an evaluation leaves in `managers/` are never taken for managers and never overwrite
one: they have other names than the sources, and different managers have different executables. -/
theorem executables_apart (hexe : NotSource exe) {t : Task} (ht : TaskOf env w base exe t) :
    let ms := [some t.generator, t.validator, some t.checker, t.official].filterMap id
    (∀ s ∈ ms, ∃ bin, s.writeBin = some bin ∧ ∀ m ∈ managerNames, ∀ p l, Part w base (place m) p l → bin ≠ p) ∧
    (ms.map (·.writeBin)).Nodup := by
  obtain ⟨-, -, h2, h3, h4, h5⟩ := ht
  have bin : ∀ {m s}, ManagerOf w base exe m s → s.writeBin = some (inDir base "managers".toList (m.toList ++ '.' :: exe)) := by
    rintro m s ⟨p, l, -, rfl⟩; rfl
  have apart : ∀ m ∈ managerNames, ∀ m' ∈ managerNames, ∀ p l, Part w base (place m') p l →
      inDir base "managers".toList (m.toList ++ '.' :: exe) ≠ p := by
    rintro m hm m' hm' p l ⟨d, st, ext, h1, -, h6, h7⟩ h8
    have := List.mem_singleton.1 h1
    cases this
    rw [h6] at h8
    have h9 := (inDir_inj h8).2
    rw [← h9] at h7
    exact hexe m hm l h7
  have good : ∀ {m s}, m ∈ managerNames → ManagerOf w base exe m s → ∃ bin, s.writeBin = some bin ∧
      ∀ m ∈ managerNames, ∀ p l, Part w base (place m) p l → bin ≠ p := fun hm h =>
    ⟨_, bin h, apart _ hm⟩
  have inj : ∀ m m' : String, m ∈ managerNames → m' ∈ managerNames →
      some (inDir base "managers".toList (m.toList ++ '.' :: exe)) = some (inDir base "managers".toList (m'.toList ++ '.' :: exe)) → m = m' := by
    intro m m' hm hm' h
    have h1 := (inDir_inj (Option.some.inj h)).2
    have h2 := (stem_eq (names_plain m hm).2 (names_plain m' hm').2 h1).1
    exact String.toList_inj.1 h2
  intro ms
  constructor
  · intro s hs
    simp only [ms, List.mem_filterMap, List.mem_cons, List.not_mem_nil, or_false, id] at hs
    obtain ⟨o, ho, rfl⟩ := hs
    rcases ho with h | h | h | h
    · cases h; exact good (m := "generator") (by simp [managerNames]) h2
    · rcases h3 with ⟨-, h3⟩ | ⟨s', h3, h3'⟩
      · rw [h3] at h; cases h
      · rw [h3'] at h; cases h; exact good (m := "validator") (by simp [managerNames]) h3
    · cases h; exact good (m := "checker") (by simp [managerNames]) h4
    · rcases h5 with ⟨-, h5⟩ | ⟨s', h5, h5'⟩
      · rw [h5] at h; cases h
      · rw [h5'] at h; cases h; exact good (m := "solution") (by simp [managerNames]) h5
  · have hg := bin h2
    have hc := bin h4
    have ne : ∀ m m' : String, m ∈ managerNames → m' ∈ managerNames → m ≠ m' →
        some (inDir base "managers".toList (m.toList ++ '.' :: exe)) ≠ some (inDir base "managers".toList (m'.toList ++ '.' :: exe)) :=
      fun m m' hm hm' hne h => hne (inj m m' hm hm' h)
    have n1 := ne "generator" "validator" (by simp [managerNames]) (by simp [managerNames]) (by simp)
    have n2 := ne "generator" "checker" (by simp [managerNames]) (by simp [managerNames]) (by simp)
    have n3 := ne "generator" "solution" (by simp [managerNames]) (by simp [managerNames]) (by simp)
    have n4 := ne "validator" "checker" (by simp [managerNames]) (by simp [managerNames]) (by simp)
    have n5 := ne "validator" "solution" (by simp [managerNames]) (by simp [managerNames]) (by simp)
    have n6 := ne "checker" "solution" (by simp [managerNames]) (by simp [managerNames]) (by simp)
    rcases h3 with ⟨-, h3⟩ | ⟨s3, h3, h3'⟩ <;> rcases h5 with ⟨-, h5⟩ | ⟨s5, h5, h5'⟩
    · simp only [ms, h3, h5, hg, hc, n2, List.filterMap_cons, List.filterMap_nil, id, List.map_cons, List.map_nil, List.nodup_cons, List.mem_cons, List.not_mem_nil, or_false, not_or, List.nodup_nil, not_false_eq_true, and_self]
    · simp only [ms, h3, h5', hg, hc, bin h5, n2, n3, n6, List.filterMap_cons, List.filterMap_nil, id, List.map_cons, List.map_nil, List.nodup_cons, List.mem_cons, List.not_mem_nil, or_false, not_or, List.nodup_nil, not_false_eq_true, and_self]
    · simp only [ms, h3', h5, hg, hc, bin h3, n1, n2, n4, List.filterMap_cons, List.filterMap_nil, id, List.map_cons, List.map_nil, List.nodup_cons, List.mem_cons, List.not_mem_nil, or_false, not_or, List.nodup_nil, not_false_eq_true, and_self]
    · simp only [ms, h3', h5', hg, hc, bin h3, bin h5, n1, n2, n3, n4, n5, n6, List.filterMap_cons, List.filterMap_nil, id, List.map_cons, List.map_nil, List.nodup_cons, List.mem_cons, List.not_mem_nil, or_false, not_or, List.nodup_nil, not_false_eq_true, and_self]

/-- **C131** A directory that is loaded is one where the search of the task tries this format. -/
theorem loaded_is_valid {t : Task} (h : TaskOf env w base exe t) : isValid w .terry base = true := by
  obtain ⟨text, d, h1, -⟩ := h.yaml
  have hy : ∀ n ∈ ["task.yaml".toList], n ≠ dot ∧ n ≠ dotdot := by decide +kernel
  cases he : isValid w .terry base with
  | true => rfl
  | false => exact absurd ((exists_file hy).1 he) (not_missing h1)

end

/-! ## Concrete cases -/

/-- The platform. -/
def linux : Name := "linux.x86_64".toList

/-- **C131** So it is on the usual platforms. -/
theorem platforms : ∀ exe ∈ ["linux.x86_64", "linux.aarch64", "macos.x86_64", "macos.aarch64"], NotSource exe.toList := by
  intro exe he m hm l h
  have h1 := (Sanity.language_exact _ _).2 h
  have key : ∀ exe ∈ ["linux.x86_64", "linux.aarch64", "macos.x86_64", "macos.aarch64"], ∀ m ∈ managerNames,
      Sanity.detectLanguage (m.toList ++ '.' :: exe.toList) = none := by decide +kernel
  rw [key exe he m hm] at h1
  cases h1

def sampleDoc : Doc :=
  [("name".toList, .str "easy".toList), ("description".toList, .str "An easy task".toList), ("max_score".toList, .int 100)]

def sampleEnv : Env := { Parse.sampleEnv with yaml := fun t => if t = "yaml".toList then some sampleDoc else none }

/-- A task, after it has been evaluated. -/
def sampleFiles : List (String × String × String) :=
  [("", "task.yaml", "yaml"), ("managers", "generator.py", ""), ("managers", "checker.cpp", ""), ("managers", "solution.cpp", ""),
   ("managers", "checker.linux.x86_64", ""), ("managers", "solution.linux.x86_64", "")]

/-- Two generators, one of them an old version. -/
def backupFiles : List (String × String × String) :=
  sampleFiles ++ [("managers", "generator.old.py", "")]

theorem sample_ready : (sampleWorld sampleFiles).fs.Wf ∧ RealNames (sampleWorld sampleFiles) ∧ Plain samplePath := by
  exact ⟨by unfold AMap.Wf; decide +kernel, by unfold RealNames; decide +kernel, by unfold Plain; decide +kernel⟩

/-- Non-vacuity: the task is loaded, with the executables of the last evaluation in its directory. -/
theorem sample_loaded : ∃ t, parseTask sampleEnv (sampleWorld sampleFiles) samplePath linux = .ok t ∧
    TaskOf sampleEnv (sampleWorld sampleFiles) samplePath linux t ∧ t.validator = none ∧ t.maxScore = 100 ∧
    t.official.map (·.path) = some (inDir samplePath "managers".toList "solution.cpp".toList) ∧
    t.generator.writeBin = some (inDir samplePath "managers".toList "generator.linux.x86_64".toList) := by
  have key : (match parseTask sampleEnv (sampleWorld sampleFiles) samplePath linux with
    | .ok t => decide (t.validator = none ∧ t.maxScore = 100 ∧
        t.official.map (·.path) = some (inDir samplePath "managers".toList "solution.cpp".toList) ∧
        t.generator.writeBin = some (inDir samplePath "managers".toList "generator.linux.x86_64".toList))
    | .error _ => false) = true := by decide +kernel
  split at key
  · rename_i t ht
    exact ⟨t, ht, (loaded_exact sample_ready.2.1 sample_ready.2.2 sample_ready.1 t).1 ht, of_decide_eq_true key⟩
  · cases key

/-- An old version of the generator beside it makes the task impossible to load. -/
theorem backup_refused : parseTask sampleEnv (sampleWorld backupFiles) samplePath linux = .error (.multiple "generator") := by
  have key : (match parseTask sampleEnv (sampleWorld backupFiles) samplePath linux with
    | .ok _ => false
    | .error e => decide (e = .multiple "generator")) = true := by decide +kernel
  split at key
  · cases key
  · rename_i e he
    rw [he, of_decide_eq_true key]

/-- Non-vacuity of `only_sources`: without the executables the same task is loaded. -/
example : SameTask (sampleWorld sampleFiles) (sampleWorld (sampleFiles.take 4)) samplePath := by
  refine ⟨by unfold Missing; decide +kernel, fun t => ?_, fun n l h => ?_⟩
  · unfold HasFile
    have : (sampleWorld sampleFiles).fs.get? ((sampleWorld sampleFiles).resolve samplePath ++ ["task.yaml".toList]) =
      (sampleWorld (sampleFiles.take 4)).fs.get? ((sampleWorld (sampleFiles.take 4)).resolve samplePath ++ ["task.yaml".toList]) := by
      decide +kernel
    rw [this]
  · have e1 : (sampleWorld sampleFiles).resolve samplePath = [['t']] := by decide +kernel
    have e2 : (sampleWorld (sampleFiles.take 4)).resolve samplePath = [['t']] := by decide +kernel
    have no : ∀ m ∈ ["checker.linux.x86_64".toList, "solution.linux.x86_64".toList], n ≠ m := by
      rintro m hm rfl
      have h1 := (Sanity.language_exact _ _).2 h
      have key : ∀ m ∈ ["checker.linux.x86_64".toList, "solution.linux.x86_64".toList], Sanity.detectLanguage m = none := by
        decide +kernel
      rw [key _ hm] at h1
      cases h1
    have k1 : (sampleWorld sampleFiles).fs.keys = [[['t'], "task.yaml".toList], [['t'], "managers".toList, "generator.py".toList],
      [['t'], "managers".toList, "checker.cpp".toList], [['t'], "managers".toList, "solution.cpp".toList],
      [['t'], "managers".toList, "checker.linux.x86_64".toList], [['t'], "managers".toList, "solution.linux.x86_64".toList],
      [['t'], "managers".toList], [['t']], []] := by decide +kernel
    have k2 : (sampleWorld (sampleFiles.take 4)).fs.keys = [[['t'], "task.yaml".toList], [['t'], "managers".toList, "generator.py".toList],
      [['t'], "managers".toList, "checker.cpp".toList], [['t'], "managers".toList, "solution.cpp".toList],
      [['t'], "managers".toList], [['t']], []] := by decide +kernel
    have n1 := no _ (List.mem_cons_self ..)
    have n2 := no _ (List.mem_cons_of_mem _ (List.mem_cons_self ..))
    unfold HasEntry
    rw [e1, e2, k1, k2]
    generalize "checker.linux.x86_64".toList = a at *
    generalize "solution.linux.x86_64".toList = b at *
    simp only [List.mem_cons, List.cons_append, List.nil_append, List.cons.injEq, List.not_mem_nil, or_false, and_true,
      true_and, n1, n2, false_or, and_false]

end TM.Parse.Terry
