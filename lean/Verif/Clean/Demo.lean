import Verif.Clean.PropsLoad
import Verif.Clean.Terry

/-!
# Examples for the cleaning of a task, and the three cases in which it does too much or too little
-/
namespace TM.Clean
open TM AMap

/-- The path of a string. -/
def path (l : List String) : Path := l.map String.toList

/-- A file. -/
def f (l : List String) (c : String) : Path × Node := (path l, .file c.toList)
/-- A directory. -/
def d (l : List String) : Path × Node := (path l, .dir)

/-- A test of all the entries, that the kernel can evaluate. -/
def allEntries (fs : FS) (g : Path → Bool) : Bool := fs.keys.all g

/-- `Tree` as a test. -/
def treeTest (fs : FS) : Bool :=
  fs.keys.all (fun p => p.isEmpty || decide (fs.get? p.dropLast = some .dir))

theorem treeTest_ok {fs : FS} (h : treeTest fs = true) : Tree fs := by
  intro p n ⟨x, hx⟩
  have := List.all_eq_true.1 h (p ++ [n]) (mem_keys_iff.2 ⟨x, hx⟩)
  simpa using this

/-- A task with static files. -/
def sampleFs : FS :=
  [d [], d ["t"], f ["t", "task.yaml"] "name: t", d ["t", "sol"], f ["t", "sol", "a.cpp"] "int main",
   d ["t", "input"], f ["t", "input", "input0.txt"] "1 2", f ["t", "input", "notes.md"] "x",
   d ["t", "output"], f ["t", "output", "output0.txt"] "3"]

/-- The input and the output of the testcase are both files. -/
def sampleTask : Task :=
  ⟨path ["t"], [⟨some (path ["t", "input", "input0.txt"]), some (path ["t", "output", "output0.txt"])⟩],
    .batch false⟩

theorem sample_plain : Plain (path ["t"]) := by
  intro n hn
  simp only [path, List.map_cons, List.map_nil, List.mem_singleton] at hn
  subst hn; decide

/-- The output file of a testcase is needed and yet it is removed, when the input of that testcase is
a file too: the or-pattern at ioi/mod.rs:436-437 looks at the input only.  `clean` reports no error. -/
theorem clean_removes_needed_output :
    ∃ (t : Task) (fs : FS) (p : Path) (c : Text), Plain t.path ∧ Tree fs ∧ Needed t p ∧
      fs.get? p = some (.file c) ∧ (clean t .none fs).2 = true ∧ (clean t .none fs).1.get? p = none :=
  ⟨sampleTask, sampleFs, path ["t", "output", "output0.txt"], "3".toList, sample_plain,
    treeTest_ok (by decide +kernel), ⟨_, List.mem_cons_self .., Or.inr rfl⟩, by decide +kernel,
    by decide +kernel, by decide +kernel⟩

/-- A task whose directory is called `t*`, next to another task `tx`. -/
def starFs : FS :=
  [d [], d ["t*"], d ["t*", "input"], d ["tx"], d ["tx", "input"], f ["tx", "input", "a.txt"] "1"]

/-- The path of the task is used as a glob pattern: a file of another task is removed. -/
theorem clean_outside_the_task :
    ∃ (t : Task) (fs : FS) (p : Path) (c : Text), Tree fs ∧ (¬ ∃ r, p = t.path ++ r) ∧
      fs.get? p = some (.file c) ∧ (clean t .none fs).1.get? p = none := by
  refine ⟨⟨path ["t*"], [], .batch false⟩, starFs, path ["tx", "input", "a.txt"], "1".toList,
    treeTest_ok (by decide +kernel), ?_, by decide +kernel, by decide +kernel⟩
  rintro ⟨r, hr⟩
  simp [path] at hr

/-- A communication task after an evaluation. -/
def commFs : FS :=
  [d [], d ["t"], d ["t", "check"], f ["t", "check", "manager.cpp"] "int main",
   f ["t", "check", "manager"] "ELF"]

/-- The compiled manager, which is always written (italian_yaml/mod.rs:862), is never removed. -/
theorem clean_leaves_manager :
    ∃ (t : Task) (fs : FS) (p : Path) (n : Node), Plain t.path ∧ Tree fs ∧ Generated t fs p ∧
      (clean t .none fs).2 = true ∧ (clean t .none fs).1.get? p = some n :=
  ⟨⟨path ["t"], [], .communication⟩, commFs, _, .file "ELF".toList, sample_plain,
    treeTest_ok (by decide +kernel), .manager rfl, by decide +kernel, by decide +kernel⟩

/-- A terry task: a compiled manager, and a hidden file of the editor. -/
def terryFs : FS :=
  [d [], d ["t"], d ["t", "bin"], f ["t", "bin", "x"] "", d ["t", "managers"],
   f ["t", "managers", "checker.cpp"] "int main", f ["t", "managers", "checker.linux.x86_64"] "ELF",
   f ["t", "managers", "solution.linux.x86_64"] "ELF", f ["t", "managers", ".notes.txt"] "todo"]

/-- A hidden file is taken for a compiled manager of itself and removed, although no other file has
a name that goes with it. -/
theorem terry_removes_hidden :
    ∃ (root : Path) (fs : FS) (n : Name) (c : Text), Plain root ∧ Tree fs ∧
      (∀ base m, TwoExt base n → OneExt base m →
        fs.get? (root ++ ["managers".toList, m]) = none ∨ m = n) ∧
      fs.get? (root ++ ["managers".toList, n]) = some (.file c) ∧
      (terryClean root .none fs).1.get? (root ++ ["managers".toList, n]) = none := by
  refine ⟨path ["t"], terryFs, ".notes.txt".toList, "todo".toList, sample_plain,
    treeTest_ok (by decide +kernel), ?_, by decide +kernel, by decide +kernel⟩
  rintro base m ⟨y, z, he, hy, hz⟩ ⟨x, rfl, hx⟩
  by_cases hb : base = []
  · subst hb
    left
    -- the only names of the form `.X` would be hidden files without another dot
    cases hg : AMap.get? terryFs (path ["t"] ++ ["managers".toList, [] ++ '.' :: x]) with
    | none => rfl
    | some v =>
      exfalso
      have hk := mem_keys_iff.2 ⟨v, hg⟩
      simp [terryFs, AMap.keys, path, f, d] at hk
      rw [hk] at hx
      simp at hx
  · exfalso
    have h1 : fileStem ".notes.txt".toList = ".notes".toList := by decide
    have h2 : fileStem ".notes".toList = ".notes".toList := by decide
    rw [he, fileStem_ext (by simp) hz] at h1
    rw [← h1, fileStem_ext hb hy] at h2
    have := congrArg List.length h2
    simp at this

/-! ## The hypotheses of the theorems are met -/

/-- A batch task with a generated testcase and a static one, after an evaluation. -/
def batchTask : Task :=
  ⟨path ["t"], [⟨some (path ["t", "input", "input0.txt"]), none⟩,
    ⟨none, some (path ["t", "output", "output1.txt"])⟩, ⟨none, none⟩], .batch true⟩

/-- What the authors wrote. -/
def authors : FS :=
  [d [], d ["t"], f ["t", "task.yaml.orig"] "name: t", d ["t", "gen"],
   f ["t", "gen", "cases.gen"] ": SUBTASK", d ["t", "check"], f ["t", "check", "checker.cpp"] "int main",
   d ["t", "input"], f ["t", "input", "input0.txt"] "1 2",
   d ["t", "output"], f ["t", "output", "output1.txt"] "3"]

/-- The same with the generated files. -/
def evaluated : FS :=
  authors ++
  [f ["t", "task.yaml"] "# tm-allow-delete", f ["t", "gen", "GEN"] "# Generated\n# tm-allow-delete\n",
   f ["t", "input", "input1.txt"] "5", f ["t", "output", "output0.txt"] "8",
   d ["t", "bin"], d ["t", "bin", "x"], f ["t", "bin", "x", "a"] "ELF", f ["t", "check", "checker"] "ELF"]

example : Tree authors ∧ Tree evaluated ∧ (clean batchTask .none evaluated).2 = true ∧
    (clean batchTask .none evaluated).1 = authors ∧
    (∀ tc ∈ batchTask.testcases, tc.input = none ∨ tc.output = none) :=
  ⟨treeTest_ok (by decide +kernel), treeTest_ok (by decide +kernel), by decide +kernel,
    by decide +kernel, by decide⟩

/-- All the hypotheses of `clean_restores_partial` hold of this task. -/
example : ∀ p, (clean batchTask .none evaluated).1.get? p = authors.get? p := by
  have hio : ∀ p, IoDir batchTask.path p ↔ p = path ["t", "input"] ∨ p = path ["t", "output"] :=
    fun p => Iff.rfl
  have new : ∀ q ∈ [path ["t", "task.yaml"], path ["t", "gen", "GEN"], path ["t", "input", "input1.txt"],
      path ["t", "output", "output0.txt"], path ["t", "bin"], path ["t", "bin", "x"],
      path ["t", "bin", "x", "a"], path ["t", "check", "checker"]],
      Generated batchTask evaluated q := by
    have nn : ∀ q, q ≠ path ["t", "input", "input0.txt"] → q ≠ path ["t", "output", "output1.txt"] →
        ¬ Needed batchTask q := by
      rintro q h1 h2 ⟨tc, htc, h⟩
      simp only [batchTask, List.mem_cons, List.not_mem_nil, or_false] at htc
      rcases htc with rfl | rfl | rfl <;> simp only [reduceCtorEq, Option.some.injEq, or_false,
        false_or] at h
      · exact h1 h.symm
      · exact h2 h.symm
    intro q hq
    simp only [List.mem_cons, List.not_mem_nil, or_false] at hq
    rcases hq with rfl | rfl | rfl | rfl | rfl | rfl | rfl | rfl
    · exact .yaml "# tm-allow-delete".toList ⟨.file "name: t".toList, by decide +kernel⟩
        (by decide +kernel) (allows_iff.1 (by decide +kernel))
    · exact .gen "# Generated\n# tm-allow-delete\n".toList ⟨.file ": SUBTASK".toList, by decide +kernel⟩
        (by decide +kernel) (allows_iff.1 (by decide +kernel))
    · exact .io "input" _ (Or.inl rfl) ⟨"input1".toList, by decide⟩ (nn _ (by decide) (by decide))
    · exact .io "output" _ (Or.inr rfl) ⟨"output0".toList, by decide⟩ (nn _ (by decide) (by decide))
    · exact .bin []
    · exact .bin (path ["x"])
    · exact .bin (path ["x", "a"])
    · exact .checker rfl
  have old : ∀ p, Generated batchTask evaluated p → ¬ IoDir batchTask.path p → authors.get? p = none := by
    intro p hg hni
    cases hx : AMap.get? authors p with
    | none => rfl
    | some x =>
      exfalso
      have hk := mem_keys_iff.2 ⟨x, hx⟩
      obtain ⟨q, hq, hc⟩ := hg.shape
      have hk' : p ∈ [path [], path ["t"], path ["t", "task.yaml.orig"], path ["t", "gen"],
        path ["t", "gen", "cases.gen"], path ["t", "check"], path ["t", "check", "checker.cpp"],
        path ["t", "input"], path ["t", "input", "input0.txt"], path ["t", "output"],
        path ["t", "output", "output1.txt"]] := hk
      simp only [List.mem_cons, List.not_mem_nil, or_false] at hk'
      have bt : batchTask.path = ["t".toList] := rfl
      rw [bt] at hq
      rcases hk' with rfl | rfl | rfl | rfl | rfl | rfl | rfl | rfl | rfl | rfl | rfl
      case inr.inr.inr.inr.inr.inr.inr.inr.inl =>
        rcases hc with hc | hc
        · exact hc.2 ⟨_, List.mem_cons_self .., Or.inl rfl⟩
        · simp [path] at hq; subst hq; simp at hc
      case inr.inr.inr.inr.inr.inr.inr.inr.inr.inr =>
        rcases hc with hc | hc
        · exact hc.2 ⟨_, List.mem_cons_of_mem _ (List.mem_cons_self ..), Or.inr rfl⟩
        · simp [path] at hq; subst hq; simp at hc
      case inr.inr.inr.inr.inr.inr.inr.inl => exact hni (Or.inl rfl)
      case inr.inr.inr.inr.inr.inr.inr.inr.inr.inl => exact hni (Or.inr rfl)
      all_goals (simp [path] at hq; try (subst hq; simp at hc))
  have same : ∀ p, ¬ Generated batchTask evaluated p → evaluated.get? p = authors.get? p := by
    intro p hg
    have e : ∀ l : FS, AMap.get? (authors ++ l) p = (AMap.get? authors p).or (AMap.get? l p) := by
      intro l
      generalize authors = a
      induction a with
      | nil => simp
      | cons x a ih =>
        obtain ⟨k, v⟩ := x
        rw [List.cons_append, AMap.get?_cons, AMap.get?_cons]
        split
        · rfl
        · exact ih
    unfold evaluated
    rw [e]
    cases hx : AMap.get? authors p with
    | some x => rfl
    | none =>
      rw [Option.none_or]
      apply get?_eq_none_iff.2
      intro hk
      exact hg (new p hk)
  refine clean_restores_partial batchTask .none authors evaluated sample_plain (by decide) (by decide)
    (treeTest_ok (by decide +kernel)) (treeTest_ok (by decide +kernel)) ?_ same old ?_
    (by decide +kernel)
  · intro p hp _
    rcases hp with rfl | rfl
    · exact ⟨"input0.txt".toList, [], by decide +kernel⟩
    · exact ⟨"output1.txt".toList, [], by decide +kernel⟩
  · intro p hp _
    rcases hp with rfl | rfl
    · decide +kernel
    · decide +kernel

/-- A `clean` that fails half way. -/
example : (clean batchTask { Faults.none with denied := fun p => p == path ["t", "bin", "x", "a"] }
      evaluated).2 = false ∧
    (clean batchTask { Faults.none with denied := fun p => p == path ["t", "bin", "x", "a"] }
      evaluated).1.get? (path ["t", "input", "input1.txt"]) = none ∧
    (clean batchTask { Faults.none with denied := fun p => p == path ["t", "bin", "x", "a"] }
      evaluated).1.get? (path ["t", "gen", "GEN"]) ≠ none := by decide +kernel

/-- Loading writes the two files, cleaning removes them. -/
example : (load .none (path ["t"]) false "1 2\n".toList "name: t".toList true authors).2 = true ∧
    ((load .none (path ["t"]) false "1 2\n".toList "name: t".toList true authors).1.get?
      (path ["t", "gen", "GEN"])).isSome = true ∧
    (clean batchTask .none
      (load .none (path ["t"]) false "1 2\n".toList "name: t".toList true authors).1).1.get?
      (path ["t", "gen", "GEN"]) = none := by decide +kernel

/-- A `gen/GEN` of the authors. -/
example : AMap.get? ((path ["t", "gen", "GEN"], Node.file "1 2".toList) :: authors)
      (path ["t"] ++ ["gen".toList, "GEN".toList]) = some (.file "1 2".toList) ∧
    ¬ AllowsDelete "1 2".toList := by
  refine ⟨by decide +kernel, fun h => ?_⟩
  have := allows_iff.2 h
  revert this; decide +kernel

example : (terryClean (path ["t"]) .none terryFs).2 = true ∧
    (terryClean (path ["t"]) .none terryFs).1.get? (path ["t", "managers", "checker.linux.x86_64"]) =
      none ∧
    (terryClean (path ["t"]) .none terryFs).1.get? (path ["t", "managers", "solution.linux.x86_64"]) ≠
      none := by decide +kernel

end TM.Clean
