import Verif.Clean.Lemmas

/-!
# Cleaning a task

* `clean_removes_only_generated_partial`: whatever fails, only generated files are removed and no
  other file is touched.  It does not hold of the output file of a testcase when the input of that
  testcase is a file too: `clean_removes_needed_output` shows it is removed.  When the path of the task
  contains a wildcard, files of other tasks are removed: `clean_outside_the_task`.
* `clean_keeps_inputs`, `clean_keeps_outputs_partial`: the files the testcases are read from.
* `clean_keeps_tree`: no file is left without its directory.
* `clean_removes_all_generated_partial`: if it works nothing generated is left, but for the compiled
  manager of a communication task (`clean_leaves_manager`).
* `clean_restores_partial`: cleaning gives back the directory of the authors.
-/
namespace TM.Clean
open TM AMap

theorem not_static {t : Task} {p : Path} (h : t.testcases.any (isStatic p) = false)
    (hn : Needed t p) : ∃ tc ∈ t.testcases, (∃ i, tc.input = some i) ∧ tc.output = some p := by
  obtain ⟨tc, htc, ho⟩ := hn
  have hf := List.any_eq_false.1 h tc htc
  unfold isStatic at hf
  refine ⟨tc, htc, ?_⟩
  cases hi : tc.input with
  | some i =>
    simp only [hi] at hf
    rcases ho with ho | ho
    · rw [hi] at ho; cases ho; simp at hf
    · exact ⟨⟨i, rfl⟩, ho⟩
  | none =>
    rcases ho with ho | ho
    · rw [hi] at ho; cases ho
    · simp [hi, ho] at hf

theorem plain_sub {t : Task} (h : Plain t.path) {d : Name}
    (hd : ∀ c ∈ d, c ≠ '*' ∧ c ≠ '?' ∧ c ≠ '[') : Plain (t.path ++ [d]) := by
  intro n hn
  rcases List.mem_append.1 hn with hn | hn
  · exact h n hn
  · rw [List.mem_singleton] at hn; subst hn; exact hd

theorem plain_input {t : Task} (h : Plain t.path) : Plain (t.path ++ ["input".toList]) :=
  plain_sub h (by decide)
theorem plain_output {t : Task} (h : Plain t.path) : Plain (t.path ++ ["output".toList]) :=
  plain_sub h (by decide)

/-- What `clean` may remove: generated files, and output files of testcases with both files. -/
def MayGo (t : Task) (fs : FS) (p : Path) : Prop :=
  Generated t fs p ∨ ∃ tc ∈ t.testcases, (∃ i, tc.input = some i) ∧ tc.output = some p

theorem inDir_mayGo {t : Task} {fs : FS} {d : String} (hd : d = "input" ∨ d = "output") {p : Path}
    (h : InDir t d.toList p) : MayGo t fs p := by
  rcases h with rfl | ⟨n, rfl, hn, hs⟩
  · exact Or.inl (.ioDir d hd)
  · by_cases hu : Needed t (t.path ++ [d.toList, n])
    · exact Or.inr (not_static hs hu)
    · exact Or.inl (.io d n hd hn hu)

/-- Only generated files are removed, the other files are what they were; also when `clean` fails.
Missing from the full statement: the second disjunct of what may be lost, see
`clean_removes_needed_output`. -/
theorem clean_removes_only_generated_partial (t : Task) (fl : Faults) (fs : FS)
    (hp : Plain t.path) (p : Path) :
    (clean t fl fs).1.get? p = fs.get? p ∨
      ((clean t fl fs).1.get? p = none ∧
        (Generated t fs p ∨ ∃ tc ∈ t.testcases, (∃ i, tc.input = some i) ∧ tc.output = some p)) := by
  suffices h : Shrinks (MayGo t fs) fs (clean t fl fs).1 from h p
  unfold clean
  have rel : ∀ {fs' : FS}, Shrinks (MayGo t fs) fs fs' → ∀ q n, fs'.get? q = some n →
    fs.get? q = some n := fun h q n => h.some
  refine seq_shrinks ((cleanDir_shrinks (plain_input hp)).mono
    (fun q hq => inDir_mayGo (Or.inl rfl) hq)) ?_
  intro f1 s1
  refine (seq_shrinks (D := fun q => MayGo t fs q) ((cleanDir_shrinks (plain_output hp)).mono
    (fun q hq => inDir_mayGo (Or.inr rfl) hq)) ?_)
  intro f2 s2'
  have s2 := s1.trans s2'
  refine seq_shrinks ((cleanBin_shrinks t.path fl f2).mono ?_) ?_
  · rintro q ⟨r, rfl⟩; exact Or.inl (.bin r)
  intro f3 s3'
  have s3 := s2.trans s3'
  refine seq_shrinks ((cleanCheckers_shrinks t fl f3).mono ?_) ?_
  · rintro q ⟨hk, rfl | rfl⟩
    · exact Or.inl (.checker hk)
    · exact Or.inl (.correttore hk)
  intro f4 s4'
  have s4 := s3.trans s4'
  refine seq_shrinks ((cleanMade_shrinks fl _ _ f4).mono ?_) ?_
  · rintro q ⟨rfl, ⟨n, hn⟩, c, hc, ha⟩
    exact Or.inl (.gen c ⟨n, rel s4 _ _ hn⟩ (rel s4 _ _ hc) ha)
  intro f5 s5'
  have s5 := s4.trans s5'
  refine (cleanMade_shrinks fl _ _ f5).mono ?_
  rintro q ⟨rfl, ⟨n, hn⟩, c, hc, ha⟩
  exact Or.inl (.yaml c ⟨n, rel s5 _ _ hn⟩ (rel s5 _ _ hc) ha)

/-- Every generated place has one of these forms below the task. -/
theorem Generated.shape {t : Task} {fs : FS} {p : Path} (h : Generated t fs p) :
    ∃ q, p = t.path ++ q ∧
      (((∃ n, q = ["input".toList, n] ∨ q = ["output".toList, n]) ∧ ¬ Needed t p) ∨
        q = ["input".toList] ∨ q = ["output".toList] ∨ (∃ r, q = "bin".toList :: r) ∨
        q = ["check".toList, "checker".toList] ∨ q = ["cor".toList, "correttore".toList] ∨
        q = ["check".toList, "manager".toList] ∨ q = ["cor".toList, "manager".toList] ∨
        q = ["gen".toList, "GEN".toList] ∨ q = ["task.yaml".toList]) := by
  cases h with
  | io d n hd hn hu =>
    refine ⟨_, rfl, Or.inl ⟨⟨n, ?_⟩, hu⟩⟩
    rcases hd with rfl | rfl
    · exact Or.inl rfl
    · exact Or.inr rfl
  | ioDir d hd =>
    refine ⟨_, rfl, ?_⟩
    rcases hd with rfl | rfl <;> simp
  | bin q => exact ⟨_, rfl, by right; right; right; left; exact ⟨q, rfl⟩⟩
  | checker h => exact ⟨_, rfl, by simp⟩
  | correttore h => exact ⟨_, rfl, by simp⟩
  | manager h => exact ⟨_, rfl, by simp⟩
  | corManager h => exact ⟨_, rfl, by simp⟩
  | gen c hs hc ha => exact ⟨_, rfl, by simp⟩
  | yaml c hs hc ha => exact ⟨_, rfl, by simp⟩

/-- The input of a testcase that is copied from `input/` stays. -/
theorem clean_keeps_inputs (t : Task) (fl : Faults) (fs : FS) (hp : Plain t.path)
    (tc : Testcase) (htc : tc ∈ t.testcases) (d : String) (hd : d = "input" ∨ d = "output")
    (n : Name) (hi : tc.input = some (t.path ++ [d.toList, n])) :
    (clean t fl fs).1.get? (t.path ++ [d.toList, n]) = fs.get? (t.path ++ [d.toList, n]) := by
  have key : ∀ e : String, (e = "input" ∨ e = "output") →
      ¬ InDir t e.toList (t.path ++ [d.toList, n]) := by
    rintro e he (h | ⟨m, _, _, hs⟩)
    · have := List.append_cancel_left h
      simp at this
    · have := List.any_eq_false.1 hs tc htc
      simp [isStatic, hi] at this
  suffices h : Shrinks (· ≠ t.path ++ [d.toList, n]) fs (clean t fl fs).1 from
    h.keep (fun h => h rfl)
  have hne : ∀ q : Path, (∀ m, q ≠ ["input".toList, m] ∧ q ≠ ["output".toList, m]) →
      t.path ++ q ≠ t.path ++ [d.toList, n] := by
    intro q hq h
    have := List.append_cancel_left h
    rcases hd with rfl | rfl
    · exact (hq n).1 this
    · exact (hq n).2 this
  unfold clean
  refine seq_shrinks ((cleanDir_shrinks (plain_input hp)).mono ?_) (fun f1 _ =>
    seq_shrinks ((cleanDir_shrinks (plain_output hp)).mono ?_) (fun f2 _ =>
    seq_shrinks ((cleanBin_shrinks t.path fl f2).mono ?_) (fun f3 _ =>
    seq_shrinks ((cleanCheckers_shrinks t fl f3).mono ?_) (fun f4 _ =>
    seq_shrinks ((cleanMade_shrinks fl _ _ f4).mono ?_) (fun f5 _ =>
    (cleanMade_shrinks fl _ _ f5).mono ?_)))))
  · rintro q hq rfl; exact key "input" (Or.inl rfl) hq
  · rintro q hq rfl; exact key "output" (Or.inr rfl) hq
  · rintro q ⟨r, rfl⟩; exact hne _ (by intro m; simp)
  · rintro q ⟨_, rfl | rfl⟩ <;> exact hne _ (by intro m; simp)
  · rintro q ⟨rfl, _⟩; exact hne _ (by intro m; simp)
  · rintro q ⟨rfl, _⟩; exact hne _ (by intro m; simp)

/-- The output of a testcase that is copied from `output/` stays if the input of the testcase is made
by a generator and no testcase has both files.  Missing: the testcases with both files. -/
theorem clean_keeps_outputs_partial (t : Task) (fl : Faults) (fs : FS) (hp : Plain t.path)
    (hb : ∀ tc ∈ t.testcases, tc.input = none ∨ tc.output = none)
    (tc : Testcase) (htc : tc ∈ t.testcases) (d : String) (hd : d = "input" ∨ d = "output")
    (n : Name) (ho : tc.output = some (t.path ++ [d.toList, n])) :
    (clean t fl fs).1.get? (t.path ++ [d.toList, n]) = fs.get? (t.path ++ [d.toList, n]) := by
  rcases clean_removes_only_generated_partial t fl fs hp (t.path ++ [d.toList, n]) with h | h
  · exact h
  · rcases h.2 with hg | ⟨tc', htc', ⟨i, hi⟩, ho'⟩
    · exfalso
      have hN : Needed t (t.path ++ [d.toList, n]) := ⟨tc, htc, Or.inr ho⟩
      obtain ⟨q, hq, hc⟩ := hg.shape
      have := List.append_cancel_left hq
      subst this
      rcases hc with hc | hc
      · exact hc.2 hN
      · rcases hd with rfl | rfl <;> simp at hc
    · rcases hb tc' htc' with h | h
      · rw [hi] at h; cases h
      · rw [ho'] at h; cases h

/-- No file is left without its directory. -/
theorem clean_keeps_tree (t : Task) (fl : Faults) (fs : FS) (h : Tree fs) :
    Tree (clean t fl fs).1 :=
  seq_tree (cleanDir_tree h) fun _ h => seq_tree (cleanDir_tree h) fun _ h =>
    seq_tree (cleanBin_tree h) fun _ h => seq_tree (cleanCheckers_tree h) fun _ h =>
    seq_tree (cleanMade_tree h) fun _ h => cleanMade_tree h

/-! ## When it works -/

/-- The steps of a `clean` that works. -/
theorem clean_steps {t : Task} {fl : Faults} {fs : FS} (h : (clean t fl fs).2 = true) :
    ∃ f1 f2 f3 f4 f5 : FS,
      (cleanDir t fl "input".toList fs).2 = true ∧ f1 = (cleanDir t fl "input".toList fs).1 ∧
      (cleanDir t fl "output".toList f1).2 = true ∧ f2 = (cleanDir t fl "output".toList f1).1 ∧
      (cleanBin t.path fl f2).2 = true ∧ f3 = (cleanBin t.path fl f2).1 ∧
      (cleanCheckers t fl f3).2 = true ∧ f4 = (cleanCheckers t fl f3).1 ∧
      (cleanMade fl (casesGen t.path) (genGen t.path) f4).2 = true ∧
      f5 = (cleanMade fl (casesGen t.path) (genGen t.path) f4).1 ∧
      (cleanMade fl (taskYamlOrig t.path) (taskYaml t.path) f5).2 = true ∧
      (clean t fl fs).1 = (cleanMade fl (taskYamlOrig t.path) (taskYaml t.path) f5).1 := by
  unfold clean at h ⊢
  obtain ⟨a1, b1, e1⟩ := seq_ok h
  obtain ⟨a2, b2, e2⟩ := seq_ok b1
  obtain ⟨a3, b3, e3⟩ := seq_ok b2
  obtain ⟨a4, b4, e4⟩ := seq_ok b3
  obtain ⟨a5, b5, e5⟩ := seq_ok b4
  exact ⟨_, _, _, _, _, a1, rfl, a2, rfl, a3, rfl, a4, rfl, a5, rfl, b5,
    by rw [e1, e2, e3, e4, e5]⟩

/-- The directory of the inputs (outputs) is left only if something is in it. -/
theorem cleanDir_dir {t : Task} {fl : Faults} {d : Name} {fs : FS} (ht : Plain (t.path ++ [d]))
    (h : (cleanDir t fl d fs).2 = true) :
    (cleanDir t fl d fs).1.get? (t.path ++ [d]) = none ∨
      ∃ n r, ∃ x, (cleanDir t fl d fs).1.get? (t.path ++ d :: n :: r) = some x := by
  unfold cleanDir at h ⊢
  simp only [] at h ⊢
  split at h
  · rename_i he
    simp only [he, if_true]
    left; exact pathExists_false.1 (by simpa using he)
  · rename_i he
    simp only [he]
    obtain ⟨l, hl, hm⟩ := glob_one (fs := fs) ht tokens_txt
    simp only [hl] at h ⊢
    cases hr : removeFiles t fl l fs with
    | mk fs' ok =>
      simp only [hr] at h ⊢
      cases ok
      · cases h
      · simp only [] at h ⊢
        unfold removeDir at h ⊢
        cases hg : fs'.get? (t.path ++ [d]) with
        | none => simp [hg] at h
        | some x =>
          cases x with
          | file c => simp [hg] at h
          | dir =>
            simp only [hg] at h ⊢
            by_cases hde : fl.denied (t.path ++ [d]) = true
            · simp [hde] at h
            · simp only [hde] at h ⊢
              by_cases hh : hasEntries fs' (t.path ++ [d]) = true
              · right
                simp only [hh, if_true]
                unfold hasEntries at hh
                obtain ⟨q, hq, hb⟩ := List.any_eq_true.1 hh
                rw [Bool.and_eq_true] at hb
                obtain ⟨r, rfl⟩ := List.isPrefixOf_iff_prefix.1 hb.1
                obtain ⟨x, hx⟩ := mem_keys_iff.1 hq
                cases r with
                | nil => simp at hb
                | cons n r => exact ⟨n, r, x, by simpa using hx⟩
              · left
                simp [hh]

/-- After a `clean` that works nothing generated is left: the inputs, the outputs and their
directories if nothing else is in them, `bin/`, the compiled checker, `gen/GEN` and `task.yaml`.
Missing: the compiled manager of a communication task, see `clean_leaves_manager`. -/
theorem clean_removes_all_generated_partial (t : Task) (fl : Faults) (fs : FS)
    (hp : Plain t.path) (htree : Tree fs) (hok : (clean t fl fs).2 = true)
    (hk : t.kind ≠ .communication) (p : Path) (hg : Generated t fs p) :
    (clean t fl fs).1.get? p = none ∨
      (IoDir t.path p ∧ ∃ n r x, (clean t fl fs).1.get? (p ++ n :: r) = some x) := by
  obtain ⟨f1, f2, f3, f4, f5, o1, rfl, o2, rfl, o3, rfl, o4, rfl, o5, rfl, o6, e⟩ :=
    clean_steps hok
  rw [e]
  have s1 := cleanDir_shrinks (t := t) (fl := fl) (fs := fs) (plain_input hp)
  have t1 : Tree (cleanDir t fl "input".toList fs).1 := cleanDir_tree htree
  have d1 := cleanDir_dir (plain_input hp) o1
  have g1 := cleanDir_ok (plain_input hp) htree o1
  generalize (cleanDir t fl "input".toList fs).1 = f1 at *
  have s2 := cleanDir_shrinks (t := t) (fl := fl) (fs := f1) (plain_output hp)
  have t2 : Tree (cleanDir t fl "output".toList f1).1 := cleanDir_tree t1
  have d2 := cleanDir_dir (plain_output hp) o2
  have g2 := cleanDir_ok (plain_output hp) t1 o2
  generalize (cleanDir t fl "output".toList f1).1 = f2 at *
  have s3 := cleanBin_shrinks t.path fl f2
  have g3 := cleanBin_ok t2 o3
  generalize (cleanBin t.path fl f2).1 = f3 at *
  have s4 := cleanCheckers_shrinks t fl f3
  have g4 := fun h => cleanCheckers_ok (t := t) (fl := fl) (fs := f3) h o4
  generalize (cleanCheckers t fl f3).1 = f4 at *
  have s5 := cleanMade_shrinks fl (casesGen t.path) (genGen t.path) f4
  have g5 := cleanMade_ok o5
  generalize (cleanMade fl (casesGen t.path) (genGen t.path) f4).1 = f5 at *
  have s6 := cleanMade_shrinks fl (taskYamlOrig t.path) (taskYaml t.path) f5
  have g6 := cleanMade_ok o6
  generalize (cleanMade fl (taskYamlOrig t.path) (taskYaml t.path) f5).1 = f6 at *
  -- what the last steps leave alone
  have k3 : ∀ q : Path, q.head? ≠ some "bin".toList → f3.get? (t.path ++ q) = f2.get? (t.path ++ q) := by
    intro q hq
    refine s3.keep ?_
    rintro ⟨r, hr⟩
    have := List.append_cancel_left hr
    subst this; exact hq rfl
  have k4 : ∀ q : Path, q ≠ ["check".toList, "checker".toList] → q ≠ ["cor".toList, "correttore".toList] →
      f4.get? (t.path ++ q) = f3.get? (t.path ++ q) := by
    intro q h1 h2
    refine s4.keep ?_
    rintro ⟨_, h | h⟩
    · exact h1 (List.append_cancel_left h)
    · exact h2 (List.append_cancel_left h)
  have k5 : ∀ q : Path, q ≠ ["gen".toList, "GEN".toList] →
      f5.get? (t.path ++ q) = f4.get? (t.path ++ q) := by
    intro q h1
    refine s5.keep ?_
    rintro ⟨h, _⟩
    exact h1 (List.append_cancel_left h)
  have k6 : ∀ q : Path, q ≠ ["task.yaml".toList] →
      f6.get? (t.path ++ q) = f5.get? (t.path ++ q) := by
    intro q h1
    refine s6.keep ?_
    rintro ⟨h, _⟩
    exact h1 (List.append_cancel_left h)
  have k1 : ∀ q : Path, q.head? ≠ some "input".toList → f1.get? (t.path ++ q) = fs.get? (t.path ++ q) := by
    intro q hq
    refine s1.keep ?_
    rintro (h | ⟨n, h, _⟩)
    · have := List.append_cancel_left h; subst this; exact hq rfl
    · have := List.append_cancel_left h; subst this; exact hq rfl
  have k2 : ∀ q : Path, q.head? ≠ some "output".toList → f2.get? (t.path ++ q) = f1.get? (t.path ++ q) := by
    intro q hq
    refine s2.keep ?_
    rintro (h | ⟨n, h, _⟩)
    · have := List.append_cancel_left h; subst this; exact hq rfl
    · have := List.append_cancel_left h; subst this; exact hq rfl
  -- something below `input/` or `output/` after the first two steps is there at the end
  have below : ∀ (d : String) (r : Path), (d = "input" ∨ d = "output") →
      f6.get? (t.path ++ d.toList :: r) = f2.get? (t.path ++ d.toList :: r) := by
    intro d r hd
    rw [k6 _ (by rcases hd with rfl | rfl <;> simp), k5 _ (by rcases hd with rfl | rfl <;> simp),
      k4 _ (by rcases hd with rfl | rfl <;> simp) (by rcases hd with rfl | rfl <;> simp),
      k3 _ (by rcases hd with rfl | rfl <;> simp)]
  cases hg with
  | io d n hd hn hu =>
    left
    have hs : t.testcases.any (isStatic (t.path ++ [d.toList, n])) = false := by
      rw [List.any_eq_false]
      intro tc htc hs
      apply hu
      refine ⟨tc, htc, ?_⟩
      unfold isStatic at hs
      cases hi : tc.input with
      | some i => simp only [hi, decide_eq_true_eq] at hs; left; rw [hs]
      | none =>
        cases ho : tc.output with
        | some o => simp only [hi, ho, decide_eq_true_eq] at hs; right; rw [hs]
        | none => simp [hi, ho] at hs
    rw [below d [n] hd]
    rcases hd with rfl | rfl
    · rw [k2 _ (by simp)]; exact g1 n hn hs
    · exact g2 n hn hs
  | ioDir d hd =>
    rw [below d [] hd]
    rcases hd with rfl | rfl
    · rcases d1 with d1 | ⟨n, r, x, hx⟩
      · left; rw [k2 _ (by simp)]; exact d1
      · right
        refine ⟨Or.inl rfl, n, r, x, ?_⟩
        have := below "input" (n :: r) (Or.inl rfl)
        rw [List.append_assoc]
        exact this.trans ((k2 _ (by simp)).trans hx)
    · rcases d2 with d2 | ⟨n, r, x, hx⟩
      · left; exact d2
      · right
        refine ⟨Or.inr rfl, n, r, x, ?_⟩
        have := below "output" (n :: r) (Or.inr rfl)
        rw [List.append_assoc]
        exact this.trans hx
  | bin q =>
    left
    rw [k6 _ (by simp), k5 _ (by simp), k4 _ (by simp) (by simp)]
    exact g3 q
  | checker h =>
    left
    rw [k6 _ (by simp), k5 _ (by simp)]
    exact (g4 h).1
  | correttore h =>
    left
    rw [k6 _ (by simp), k5 _ (by simp)]
    exact (g4 h).2
  | manager h => exact absurd h hk
  | corManager h => exact absurd h hk
  | gen c hs hc ha =>
    left
    rw [k6 _ (by simp)]
    have r : ∀ q : Path, q.head? = some "gen".toList → f4.get? (t.path ++ q) = fs.get? (t.path ++ q) := by
      intro q hq
      cases q with
      | nil => cases hq
      | cons a q =>
        simp only [List.head?_cons, Option.some.injEq] at hq
        subst hq
        rw [k4 _ (by simp) (by simp), k3 _ (by simp), k2 _ (by simp), k1 _ (by simp)]
    exact g5 (by obtain ⟨n, hn⟩ := hs; exact ⟨n, (r _ rfl).trans hn⟩) ⟨c, (r _ rfl).trans hc, ha⟩
  | yaml c hs hc ha =>
    left
    have r : ∀ q : Path, (q = ["task.yaml".toList] ∨ q = ["task.yaml.orig".toList]) →
        f5.get? (t.path ++ q) = fs.get? (t.path ++ q) := by
      rintro q (rfl | rfl)
      · rw [k5 _ (by simp), k4 _ (by simp) (by simp), k3 _ (by simp), k2 _ (by simp), k1 _ (by simp)]
      · rw [k5 _ (by simp), k4 _ (by simp) (by simp), k3 _ (by simp), k2 _ (by simp), k1 _ (by simp)]
    exact g6 (by obtain ⟨n, hn⟩ := hs; exact ⟨n, (r _ (Or.inr rfl)).trans hn⟩)
      ⟨c, (r _ (Or.inl rfl)).trans hc, ha⟩

/-- Cleaning gives back the directory of the authors: if `fs` is what the authors wrote, `fs₀`, with
something more or different in generated places only, then cleaning it gives `fs₀` back.  `fs₀` has
no empty `input/` and `output/` (as after a `git clone`).  Missing: communication tasks, and the tasks
with testcases whose files are both given. -/
theorem clean_restores_partial (t : Task) (fl : Faults) (fs₀ fs : FS) (hp : Plain t.path)
    (hk : t.kind ≠ .communication)
    (hb : ∀ tc ∈ t.testcases, tc.input = none ∨ tc.output = none)
    (h0 : Tree fs₀) (h1 : Tree fs)
    (hempty : ∀ p, IoDir t.path p → fs₀.get? p ≠ none → ∃ n r, fs₀.get? (p ++ n :: r) ≠ none)
    (hsame : ∀ p, ¬ Generated t fs p → fs.get? p = fs₀.get? p)
    (hnew : ∀ p, Generated t fs p → ¬ IoDir t.path p → fs₀.get? p = none)
    (hdir : ∀ p, IoDir t.path p → fs₀.get? p ≠ none → fs.get? p = fs₀.get? p)
    (hok : (clean t fl fs).2 = true) (p : Path) :
    (clean t fl fs).1.get? p = fs₀.get? p := by
  have noBoth : ∀ q, ¬ ∃ tc ∈ t.testcases, (∃ i, tc.input = some i) ∧ tc.output = some q := by
    rintro q ⟨tc, htc, ⟨i, hi⟩, ho⟩
    rcases hb tc htc with h | h
    · rw [hi] at h; cases h
    · rw [ho] at h; cases h
  -- the paths that are not directories of inputs and outputs
  have main : ∀ q, ¬ IoDir t.path q → (clean t fl fs).1.get? q = fs₀.get? q := by
    intro q hio
    by_cases hg : Generated t fs q
    · rw [hnew q hg hio]
      rcases clean_removes_all_generated_partial t fl fs hp h1 hok hk q hg with h | h
      · exact h
      · exact absurd h.1 hio
    · rcases clean_removes_only_generated_partial t fl fs hp q with h | ⟨_, h | h⟩
      · rw [h]; exact hsame q hg
      · exact absurd h hg
      · exact absurd h (noBoth q)
  by_cases hio : IoDir t.path p
  · have hnio : ∀ n r, ¬ IoDir t.path (p ++ n :: r) := by
      intro n r
      rcases hio with rfl | rfl
      · rintro (h | h)
        · rw [List.append_assoc] at h; have := List.append_cancel_left h; simp at this
        · rw [List.append_assoc] at h; have := List.append_cancel_left h; simp at this
      · rintro (h | h)
        · rw [List.append_assoc] at h; have := List.append_cancel_left h; simp at this
        · rw [List.append_assoc] at h; have := List.append_cancel_left h; simp at this
    have t' := clean_keeps_tree t fl fs h1
    by_cases he : fs₀.get? p = none
    · rw [he]
      have hg : Generated t fs p := by
        rcases hio with rfl | rfl
        · exact .ioDir "input" (Or.inl rfl)
        · exact .ioDir "output" (Or.inr rfl)
      rcases clean_removes_all_generated_partial t fl fs hp h1 hok hk p hg with h | ⟨_, n, r, x, hx⟩
      · exact h
      · rw [main _ (hnio n r), h0.above p (n :: r) he] at hx
        cases hx
    · obtain ⟨n, r, hx⟩ := hempty p hio he
      rcases clean_removes_only_generated_partial t fl fs hp p with h | h
      · rw [h]; exact hdir p hio he
      · have := t'.above p (n :: r) h.1
        rw [main _ (hnio n r)] at this
        exact absurd this hx
  · exact main p hio

end TM.Clean
