import Verif.Clean.Props

/-!
# Loading and cleaning, any number of times

* `dry_load`: loading a task for a dry run writes nothing.
* `load_writes_only_made`: otherwise it may only write `gen/GEN` and `task.yaml`, each next to its
  source.
* `history_keeps_sources`, `history_keeps_unmarked`: after any number of loads and cleans, in any
  order and with any failures, the files of the authors are what they were: the ones out of the
  generated places, and a `gen/GEN` or `task.yaml` that does not contain `tm-allow-delete`.
* `load_marks`: what a load writes may be removed by a clean.
* `load_then_clean_partial`: loading and then cleaning gives back the directory of the authors.
-/
namespace TM.Clean
open TM AMap

/-- The second file system differs from the first one in `D` at most, where there is a file. -/
def Changes (D : Path → Prop) (fs fs' : FS) : Prop :=
  ∀ p, fs'.get? p = fs.get? p ∨ (D p ∧ ∃ c, fs'.get? p = some (.file c))

theorem writeFile_changes (fl : Faults) (p : Path) (c : Text) (fs : FS) :
    Changes (· = p) fs (writeFile fl p c fs).1 := by
  intro q
  unfold writeFile
  split
  · left; rfl
  · by_cases hq : q = p
    · subst hq
      right
      split
      · exact ⟨rfl, _, by simp; rfl⟩
      · exact ⟨rfl, _, by simp; rfl⟩
    · left
      split
      · exact AMap.get?_insert_ne _ _ hq
      · exact AMap.get?_insert_ne _ _ hq

theorem writeFile_tree {fl : Faults} {p : Path} {c : Text} {fs : FS} (h : Tree fs) :
    Tree (writeFile fl p c fs).1 := by
  unfold writeFile
  split
  · exact h
  · rename_i hc
    simp only [Bool.or_eq_true, decide_eq_true_eq, not_or, ne_eq] at hc
    obtain ⟨⟨_, hnd⟩, hpar⟩ := hc
    have hpar : fs.get? p.dropLast = some .dir := Classical.not_not.1 hpar
    have key : ∀ x, Tree (fs.insert p (.file x)) := by
      intro x q n ⟨y, hy⟩
      have hqp : q ≠ p := by
        rintro rfl
        rw [AMap.get?_insert_ne _ _ (by intro e; simpa using congrArg List.length e)] at hy
        exact hnd (h _ _ ⟨y, hy⟩)
      rw [AMap.get?_insert_ne _ _ hqp]
      by_cases he : q ++ [n] = p
      · rw [← he, List.dropLast_concat] at hpar; exact hpar
      · rw [AMap.get?_insert_ne _ _ he] at hy
        exact h _ _ ⟨y, hy⟩
    split
    · exact key _
    · exact key _

theorem writeFile_ok {fl : Faults} {p : Path} {c : Text} {fs : FS}
    (h : (writeFile fl p c fs).2 = true) : (writeFile fl p c fs).1.get? p = some (.file c) := by
  unfold writeFile at h ⊢
  split at h
  · cases h
  · rename_i hc
    simp only [hc]
    split at h
    · cases h
    · simp

theorem writeMade_changes (fl : Faults) (p : Path) (b : Text) (fs : FS) :
    Changes (fun q => q = p ∧ ∀ c, fs.get? p = some (.file c) → AllowsDelete c) fs
      (writeMade fl p b fs).1 := by
  unfold writeMade
  split
  · split
    · exact fun q => Or.inl rfl
    · rename_i hd
      obtain ⟨c, hc, ha, _⟩ := deletable_true hd
      intro q
      rcases writeFile_changes fl p (header ++ b) fs q with h | ⟨rfl, h⟩
      · exact Or.inl h
      · refine Or.inr ⟨⟨rfl, fun c' hc' => ?_⟩, h⟩
        rw [hc] at hc'; cases hc'; exact ha
    · exact fun q => Or.inl rfl
  · rename_i he
    intro q
    rcases writeFile_changes fl p (header ++ b) fs q with h | ⟨rfl, h⟩
    · exact Or.inl h
    · refine Or.inr ⟨⟨rfl, fun c' hc' => ?_⟩, h⟩
      exact absurd (pathExists_iff.2 ⟨_, hc'⟩) he

theorem writeMade_tree {fl : Faults} {p : Path} {c : Text} {fs : FS} (h : Tree fs) :
    Tree (writeMade fl p c fs).1 := by
  unfold writeMade
  split
  · split
    · exact h
    · exact writeFile_tree h
    · exact h
  · exact writeFile_tree h

theorem writeMade_ok {fl : Faults} {p : Path} {b : Text} {fs : FS}
    (h : (writeMade fl p b fs).2 = true) :
    ∃ c, (writeMade fl p b fs).1.get? p = some (.file c) ∧
      (AllowsDelete c ∨ fs.get? p = some (.file c)) := by
  unfold writeMade at h ⊢
  split at h
  · rename_i he
    simp only [he, if_true]
    split at h
    · cases h
    · exact ⟨_, writeFile_ok h, Or.inl (header_allows b)⟩
    · rename_i hd
      obtain ⟨c, hc, _⟩ := deletable_false hd
      exact ⟨c, hc, Or.inr hc⟩
  · rename_i he
    simp only [he]
    exact ⟨_, writeFile_ok h, Or.inl (header_allows b)⟩

/-- Loading a task for a dry run writes nothing. -/
theorem dry_load (fl : Faults) (root : Path) (gen yaml : Text) (parse : Bool) (fs : FS) :
    (load fl root true gen yaml parse fs).1 = fs := by
  unfold load seq
  cases parse <;> simp <;> split <;> rfl

/-- The places a load may write to. -/
theorem load_changes (fl : Faults) (root : Path) (dry : Bool) (gen yaml : Text) (parse : Bool)
    (fs : FS) :
    Changes (fun q =>
      (q = genGen root ∧ (∃ n, fs.get? (casesGen root) = some n) ∧
        ∀ c, fs.get? (genGen root) = some (.file c) → AllowsDelete c) ∨
      (q = taskYaml root ∧ (∃ n, fs.get? (taskYamlOrig root) = some n) ∧
        ∀ c, fs.get? (taskYaml root) = some (.file c) → AllowsDelete c)) fs
      (load fl root dry gen yaml parse fs).1 := by
  have ne : ∀ {a b : Path}, a ≠ b → root ++ a ≠ root ++ b := fun h e =>
    h (List.append_cancel_left e)
  have h1 : ∀ fs : FS, Changes (fun q => q = genGen root ∧
      (∃ n, fs.get? (casesGen root) = some n) ∧
      ∀ c, fs.get? (genGen root) = some (.file c) → AllowsDelete c) fs
      (if pathExists fs (casesGen root) && !dry then writeMade fl (genGen root) gen fs
        else (fs, true)).1 := by
    intro fs
    split
    · rename_i hc
      rw [Bool.and_eq_true] at hc
      intro q
      rcases writeMade_changes fl (genGen root) gen fs q with h | ⟨⟨rfl, h⟩, hf⟩
      · exact Or.inl h
      · exact Or.inr ⟨⟨rfl, pathExists_iff.1 hc.1, h⟩, hf⟩
    · exact fun q => Or.inl rfl
  unfold load
  generalize hf1 : (if pathExists fs (casesGen root) && !dry then writeMade fl (genGen root) gen fs
        else (fs, true)) = r at *
  have h1 := h1 fs
  rw [hf1] at h1
  unfold seq
  simp only [hf1]
  obtain ⟨f1, ok⟩ := r
  cases ok
  · intro q
    rcases h1 q with h | h
    · exact Or.inl h
    · exact Or.inr ⟨Or.inl h.1, h.2⟩
  · cases parse
    · intro q
      rcases h1 q with h | h
      · exact Or.inl h
      · exact Or.inr ⟨Or.inl h.1, h.2⟩
    · simp only []
      have hy : f1.get? (taskYaml root) = fs.get? (taskYaml root) := by
        rcases h1 (taskYaml root) with h | ⟨⟨h, _⟩, _⟩
        · exact h
        · exact absurd h (ne (by simp))
      have ho : f1.get? (taskYamlOrig root) = fs.get? (taskYamlOrig root) := by
        rcases h1 (taskYamlOrig root) with h | ⟨⟨h, _⟩, _⟩
        · exact h
        · exact absurd h (ne (by simp))
      have triv : Changes (fun q =>
        (q = genGen root ∧ (∃ n, fs.get? (casesGen root) = some n) ∧
          ∀ c, fs.get? (genGen root) = some (.file c) → AllowsDelete c) ∨
        (q = taskYaml root ∧ (∃ n, fs.get? (taskYamlOrig root) = some n) ∧
          ∀ c, fs.get? (taskYaml root) = some (.file c) → AllowsDelete c)) fs f1 := by
        intro q
        rcases h1 q with h | h
        · exact Or.inl h
        · exact Or.inr ⟨Or.inl h.1, h.2⟩
      split
      · rename_i he
        split
        · exact triv
        · intro q
          rcases writeMade_changes fl (taskYaml root) yaml f1 q with h | ⟨⟨rfl, h⟩, hf⟩
          · rw [h]; exact triv q
          · refine Or.inr ⟨Or.inr ⟨rfl, ?_, ?_⟩, hf⟩
            · rw [← ho]; exact pathExists_iff.1 he
            · rw [← hy]; exact h
      · exact triv

/-- Loading a task only writes `gen/GEN`, if there is `gen/cases.gen`, and `task.yaml`, if there is
`task.yaml.orig`; also when it fails. -/
theorem load_writes_only_made (fl : Faults) (root : Path) (dry : Bool) (gen yaml : Text)
    (parse : Bool) (fs : FS) (p : Path) :
    (load fl root dry gen yaml parse fs).1.get? p = fs.get? p ∨
    (p = root ++ ["gen".toList, "GEN".toList] ∧
      ∃ n, fs.get? (root ++ ["gen".toList, "cases.gen".toList]) = some n) ∨
    (p = root ++ ["task.yaml".toList] ∧
      ∃ n, fs.get? (root ++ ["task.yaml.orig".toList]) = some n) := by
  rcases load_changes fl root dry gen yaml parse fs p with h | ⟨⟨rfl, h, _⟩ | ⟨rfl, h, _⟩, _⟩
  · exact Or.inl h
  · exact Or.inr (Or.inl ⟨rfl, h⟩)
  · exact Or.inr (Or.inr ⟨rfl, h⟩)

theorem load_tree {fl : Faults} {root : Path} {dry : Bool} {gen yaml : Text}
    {parse : Bool} {fs : FS} (h : Tree fs) : Tree (load fl root dry gen yaml parse fs).1 := by
  unfold load
  refine seq_tree ?_ (fun f1 h1 => seq_tree h1 (fun f2 h2 => ?_))
  · split
    · exact writeMade_tree h
    · exact h
  · split
    · split
      · exact h2
      · exact writeMade_tree h2
    · exact h2

/-- What a load that works leaves: a `gen/GEN` that a clean may remove, or the one of the authors;
the same for `task.yaml`. -/
theorem load_marks (fl : Faults) (root : Path) (gen yaml : Text) (parse : Bool) (fs : FS)
    (hok : (load fl root false gen yaml parse fs).2 = true) :
    ((∃ n, fs.get? (root ++ ["gen".toList, "cases.gen".toList]) = some n) →
      ∃ c, (load fl root false gen yaml parse fs).1.get? (root ++ ["gen".toList, "GEN".toList]) =
        some (.file c) ∧
        (AllowsDelete c ∨ fs.get? (root ++ ["gen".toList, "GEN".toList]) = some (.file c))) ∧
    ((∃ n, fs.get? (root ++ ["task.yaml.orig".toList]) = some n) →
      ∃ c, (load fl root false gen yaml parse fs).1.get? (root ++ ["task.yaml".toList]) =
        some (.file c) ∧
        (AllowsDelete c ∨ fs.get? (root ++ ["task.yaml".toList]) = some (.file c))) := by
  have ne : ∀ {a b : Path}, a ≠ b → root ++ a ≠ root ++ b := fun h e =>
    h (List.append_cancel_left e)
  unfold load at hok ⊢
  obtain ⟨o1, o2, e1⟩ := seq_ok hok
  obtain ⟨_, o3, e2⟩ := seq_ok o2
  rw [e1, e2]
  simp only [Bool.not_false, Bool.and_true] at o1 o2 o3 ⊢
  generalize hr : (if pathExists fs (casesGen root) then writeMade fl (genGen root) gen fs
        else (fs, true)) = r at *
  have hg : (∃ n, fs.get? (casesGen root) = some n) →
      ∃ c, r.1.get? (genGen root) = some (.file c) ∧
        (AllowsDelete c ∨ fs.get? (genGen root) = some (.file c)) := by
    intro h
    rw [if_pos (pathExists_iff.2 h)] at hr
    subst hr
    exact writeMade_ok o1
  have keep : ∀ q, q ≠ genGen root → r.1.get? q = fs.get? q := by
    intro q hq
    split at hr
    · subst hr
      rcases writeMade_changes fl (genGen root) gen fs q with h | ⟨⟨h, _⟩, _⟩
      · exact h
      · exact absurd h hq
    · subst hr; rfl
  constructor
  · intro h
    obtain ⟨c, hc, ha⟩ := hg h
    refine ⟨c, ?_, ha⟩
    split
    · rcases writeMade_changes fl (taskYaml root) yaml r.1 (genGen root) with h | ⟨⟨h, _⟩, _⟩
      · simp only [Bool.false_eq_true, if_false]; exact h.trans hc
      · exact absurd h (ne (by simp))
    · exact hc
  · intro h
    have h' : pathExists r.1 (taskYamlOrig root) = true := by
      obtain ⟨n, hn⟩ := h
      exact pathExists_iff.2 ⟨n, (keep _ (ne (by simp))).trans hn⟩
    rw [if_pos h'] at o3 ⊢
    simp only [Bool.false_eq_true, if_false] at o3 ⊢
    obtain ⟨c, hc, ha⟩ := writeMade_ok o3
    refine ⟨c, hc, ?_⟩
    rcases ha with ha | ha
    · exact Or.inl ha
    · exact Or.inr ((keep _ (ne (by simp))).symm.trans ha)

/-! ## Histories -/

/-- A load or a clean of the task in a directory; what the task looks like may change. -/
inductive Op where
  | load (fl : Faults) (dry : Bool) (gen yaml : Text) (parse : Bool)
  | clean (fl : Faults) (testcases : List Testcase) (kind : Kind)

/-- The file system after the operation, whether it worked or not. -/
def Op.run (root : Path) (fs : FS) : Op → FS
  | .load fl dry gen yaml parse => (TM.Clean.load fl root dry gen yaml parse fs).1
  | .clean fl tcs kind => (TM.Clean.clean ⟨root, tcs, kind⟩ fl fs).1

theorem clean_territory (t : Task) (fl : Faults) (fs : FS) (hp : Plain t.path) :
    Shrinks (fun p => Territory t.path p ∧
      (p = genGen t.path ∨ p = taskYaml t.path → ∃ c, fs.get? p = some (.file c) ∧ AllowsDelete c))
      fs (clean t fl fs).1 := by
  have ne : ∀ {a b : Path}, a ≠ b → t.path ++ a ≠ t.path ++ b := fun h e =>
    h (List.append_cancel_left e)
  have key : Shrinks (fun p => InDir t "input".toList p ∨ InDir t "output".toList p ∨
      (∃ r, p = t.path ++ "bin".toList :: r) ∨
      p = t.path ++ ["check".toList, "checker".toList] ∨
      p = t.path ++ ["cor".toList, "correttore".toList] ∨
      (p = genGen t.path ∧ ∃ c, fs.get? p = some (.file c) ∧ AllowsDelete c) ∨
      (p = taskYaml t.path ∧ ∃ c, fs.get? p = some (.file c) ∧ AllowsDelete c))
      fs (clean t fl fs).1 := by
    unfold clean
    refine seq_shrinks ((cleanDir_shrinks (plain_input hp)).mono fun q hq => Or.inl hq) ?_
    intro f1 s1
    refine seq_shrinks ((cleanDir_shrinks (plain_output hp)).mono fun q hq => Or.inr (Or.inl hq)) ?_
    intro f2 s2
    refine seq_shrinks ((cleanBin_shrinks t.path fl f2).mono
      fun q hq => Or.inr (Or.inr (Or.inl hq))) ?_
    intro f3 s3
    refine seq_shrinks ((cleanCheckers_shrinks t fl f3).mono ?_) ?_
    · rintro q ⟨_, rfl | rfl⟩
      · exact Or.inr (Or.inr (Or.inr (Or.inl rfl)))
      · exact Or.inr (Or.inr (Or.inr (Or.inr (Or.inl rfl))))
    intro f4 s4
    have r4 := ((s1.trans s2).trans s3).trans s4
    refine seq_shrinks ((cleanMade_shrinks fl _ _ f4).mono ?_) ?_
    · rintro q ⟨rfl, _, c, hc, ha⟩
      exact Or.inr (Or.inr (Or.inr (Or.inr (Or.inr (Or.inl ⟨rfl, c, r4.some hc, ha⟩)))))
    intro f5 s5
    refine (cleanMade_shrinks fl _ _ f5).mono ?_
    rintro q ⟨rfl, _, c, hc, ha⟩
    exact Or.inr (Or.inr (Or.inr (Or.inr (Or.inr (Or.inr ⟨rfl, c, (r4.trans s5).some hc, ha⟩)))))
  intro p
  rcases key p with h | ⟨h, hD⟩
  · exact Or.inl h
  · refine Or.inr ⟨h, ?_⟩
    rcases hD with h | h | ⟨r, h⟩ | h | h | h | h
    · rcases h with rfl | ⟨n, rfl, hn, _⟩
      · refine ⟨Or.inl (Or.inl rfl), ?_⟩
        rintro (h | h)
        · exact absurd h (ne (by simp))
        · exact absurd h (ne (by simp))
      · refine ⟨Or.inr (Or.inl ⟨n, hn, Or.inl rfl⟩), ?_⟩
        rintro (h | h)
        · exact absurd h (ne (by simp))
        · exact absurd h (ne (by simp))
    · rcases h with rfl | ⟨n, rfl, hn, _⟩
      · refine ⟨Or.inl (Or.inr rfl), ?_⟩
        rintro (h | h)
        · exact absurd h (ne (by simp))
        · exact absurd h (ne (by simp))
      · refine ⟨Or.inr (Or.inl ⟨n, hn, Or.inr rfl⟩), ?_⟩
        rintro (h | h)
        · exact absurd h (ne (by simp))
        · exact absurd h (ne (by simp))
    · subst h
      refine ⟨Or.inr (Or.inr (Or.inl ⟨r, rfl⟩)), ?_⟩
      rintro (h | h)
      · exact absurd h (ne (by simp))
      · exact absurd h (ne (by simp))
    · subst h
      refine ⟨Or.inr (Or.inr (Or.inr (Or.inl rfl))), ?_⟩
      rintro (h | h)
      · exact absurd h (ne (by simp))
      · exact absurd h (ne (by simp))
    · subst h
      refine ⟨Or.inr (Or.inr (Or.inr (Or.inr (Or.inl rfl)))), ?_⟩
      rintro (h | h)
      · exact absurd h (ne (by simp))
      · exact absurd h (ne (by simp))
    · exact ⟨by rw [h.1]; exact Or.inr (Or.inr (Or.inr (Or.inr (Or.inr (Or.inl rfl))))), fun _ => h.2⟩
    · exact ⟨by rw [h.1]; exact Or.inr (Or.inr (Or.inr (Or.inr (Or.inr (Or.inr rfl))))), fun _ => h.2⟩

/-- What lies out of the generated places is never changed, created or removed, whatever the task is
loaded as, whatever fails, how many times soever. -/
theorem history_keeps_sources (root : Path) (hp : Plain root) (ops : List Op) (fs : FS) (p : Path)
    (h : ¬ Territory root p) : (ops.foldl (Op.run root) fs).get? p = fs.get? p := by
  induction ops generalizing fs with
  | nil => rfl
  | cons op ops ih =>
    rw [List.foldl_cons, ih]
    cases op with
    | load fl dry gen yaml parse =>
      rcases load_writes_only_made fl root dry gen yaml parse fs p with e | ⟨rfl, _⟩ | ⟨rfl, _⟩
      · exact e
      · exact absurd (Or.inr (Or.inr (Or.inr (Or.inr (Or.inr (Or.inl rfl)))))) h
      · exact absurd (Or.inr (Or.inr (Or.inr (Or.inr (Or.inr (Or.inr rfl)))))) h
    | clean fl tcs kind => exact (clean_territory ⟨root, tcs, kind⟩ fl fs hp).keep (fun hD => h hD.1)

/-- A `gen/GEN` or a `task.yaml` without the words `tm-allow-delete` is never changed nor removed. -/
theorem history_keeps_unmarked (root : Path) (hp : Plain root) (ops : List Op) (fs : FS) (p : Path)
    (h : p = root ++ ["gen".toList, "GEN".toList] ∨ p = root ++ ["task.yaml".toList]) (c : Text)
    (hc : fs.get? p = some (.file c)) (hm : ¬ AllowsDelete c) :
    (ops.foldl (Op.run root) fs).get? p = some (.file c) := by
  induction ops generalizing fs with
  | nil => exact hc
  | cons op ops ih =>
    rw [List.foldl_cons]
    apply ih
    cases op with
    | load fl dry gen yaml parse =>
      rcases load_changes fl root dry gen yaml parse fs p with e | ⟨⟨rfl, _, e⟩ | ⟨rfl, _, e⟩, _⟩
      · exact e.trans hc
      · exact absurd (e c hc) hm
      · exact absurd (e c hc) hm
    | clean fl tcs kind =>
      refine ((clean_territory ⟨root, tcs, kind⟩ fl fs hp).keep ?_).trans hc
      rintro ⟨_, hD⟩
      obtain ⟨c', hc', ha⟩ := hD h
      rw [hc] at hc'; cases hc'; exact hm ha

/-- Loading and then cleaning a freshly cloned task gives it back.  Missing: the same as in
`clean_restores_partial`. -/
theorem load_then_clean_partial (t : Task) (fl fl' : Faults) (gen yaml : Text) (fs : FS)
    (hp : Plain t.path) (hk : t.kind ≠ .communication)
    (hb : ∀ tc ∈ t.testcases, tc.input = none ∨ tc.output = none) (htree : Tree fs)
    (hempty : ∀ p, IoDir t.path p → fs.get? p ≠ none → ∃ n r, fs.get? (p ++ n :: r) ≠ none)
    (hnew : ∀ p, (∃ fs' : FS, Generated t fs' p) → ¬ IoDir t.path p → fs.get? p = none)
    (hload : (load fl t.path false gen yaml true fs).2 = true)
    (hclean : (clean t fl' (load fl t.path false gen yaml true fs).1).2 = true) (p : Path) :
    (clean t fl' (load fl t.path false gen yaml true fs).1).1.get? p = fs.get? p := by
  have ne : ∀ {a b : Path}, a ≠ b → t.path ++ a ≠ t.path ++ b := fun h e =>
    h (List.append_cancel_left e)
  have hm := load_marks fl t.path gen yaml true fs hload
  have hw := load_writes_only_made fl t.path false gen yaml true fs
  refine clean_restores_partial t fl' fs _ hp hk hb htree (load_tree htree) hempty ?_
    (fun p hg hio => hnew p ⟨_, hg⟩ hio) ?_ hclean p
  · intro q hq
    rcases hw q with h | ⟨rfl, h⟩ | ⟨rfl, h⟩
    · exact h
    · obtain ⟨c, hc, ha | ha⟩ := hm.1 h
      · exfalso
        apply hq
        refine .gen c ?_ hc ha
        obtain ⟨n, hn⟩ := h
        rcases hw (t.path ++ ["gen".toList, "cases.gen".toList]) with e | ⟨e, _⟩ | ⟨e, _⟩
        · exact ⟨n, e.trans hn⟩
        · exact absurd e (ne (by simp))
        · exact absurd e (ne (by simp))
      · exact hc.trans ha.symm
    · obtain ⟨c, hc, ha | ha⟩ := hm.2 h
      · exfalso
        apply hq
        refine .yaml c ?_ hc ha
        obtain ⟨n, hn⟩ := h
        rcases hw (t.path ++ ["task.yaml.orig".toList]) with e | ⟨e, _⟩ | ⟨e, _⟩
        · exact ⟨n, e.trans hn⟩
        · exact absurd e (ne (by simp))
        · exact absurd e (ne (by simp))
      · exact hc.trans ha.symm
  · intro q hq _
    rcases hw q with h | ⟨rfl, _⟩ | ⟨rfl, _⟩
    · exact h
    · rcases hq with e | e
      · exact absurd e (ne (by simp))
      · exact absurd e (ne (by simp))
    · rcases hq with e | e
      · exact absurd e (ne (by simp))
      · exact absurd e (ne (by simp))

end TM.Clean
