import Verif.Find.TaskLemmas

/-!
# C105: which task is found
-/
namespace TM.Find
open TM AMap

theorem start_eq (w : World) (ps : Parsers) (base : Option RPath) (m : Nat)
    (hb : ∀ b, base = some b → ∀ n ∈ b.comps.tail, n ≠ dot) :
    findTask w ps base m = searchLoop w ps m (startDir w base) [] := by
  unfold findTask startDir
  cases base with
  | none => rfl
  | some b =>
    by_cases hab : b.abs = true
    · simp only [hab, if_true]
    · have hf : b.abs = false := by simpa using hab
      simp only [hab, if_false, RPath.join, hf, Bool.false_eq_true, Bool.true_eq_false, and_false]
      have hfil : ∀ l : List Name, (∀ n ∈ l, n ≠ dot) → l.filter (· ≠ dot) = l := by
        intro l hl
        rw [List.filter_eq_self]
        intro n hn
        simpa using hl n hn
      have htail := hfil _ (hb b rfl)
      congr 3
      cases hc : b.comps with
      | nil => rfl
      | cons x xs =>
        rw [hc, List.tail_cons] at htail
        by_cases hx : x = dot
        · subst hx
          simpa [dot] using htail.symm
        · rw [if_neg (by simpa using hx), List.filter_cons, if_pos (by simpa using hx), htail]

/-- **C105** The task that is evaluated is the one of the first directory that has exactly one task that can
be loaded, among the directory where the search starts and the ones above, at most `max_depth` in all; the
search ends with an error if two formats are possible in the first directory where at least one is, and if
there is no task; in the last case the tasks that cannot be loaded are reported.  (A path is a list of components, where `.`
is only the first one: `Path::components`.) -/
theorem find_task_exact (w : World) (ps : Parsers) (base : Option RPath) (m : Nat)
    (hb : ∀ b, base = some b → ∀ n ∈ b.comps.tail, n ≠ dot) :
    let start := startDir w base
    (∀ f d, findTask w ps base m = .found f d ↔
      ∃ k, k < m ∧ k ≤ start.comps.length ∧ d = start.up k ∧ IsTask w ps f d ∧
        (∀ g, g ≠ f → ¬ IsTask w ps g d) ∧ ∀ j < k, ∀ g, ¬ IsTask w ps g (start.up j)) ∧
    (∀ d, findTask w ps base m = .ambiguous d ↔
      ∃ k, k < m ∧ k ≤ start.comps.length ∧ d = start.up k ∧ (∀ g, IsTask w ps g d) ∧
        ∀ j < k, ∀ g, ¬ IsTask w ps g (start.up j)) ∧
    ((∃ fails, findTask w ps base m = .missing fails) ↔
      ∀ k, k < m → k ≤ start.comps.length → ∀ g, ¬ IsTask w ps g (start.up k)) ∧
    (∀ fails, findTask w ps base m = .missing fails →
      ∀ g d, (g, d) ∈ fails ↔ ∃ k, k < m ∧ k ≤ start.comps.length ∧ d = start.up k ∧ IsBroken w ps g d) := by
  rw [start_eq w ps base m hb]
  obtain ⟨h1, h2, h3⟩ := search_spec w ps m (startDir w base) []
  refine ⟨h1, h2, ⟨?_, ?_⟩, ?_⟩
  · rintro ⟨fails, hf⟩
    exact (h3 fails hf).1
  · intro h
    cases hs : searchLoop w ps m (startDir w base) [] with
    | found f d =>
      obtain ⟨k, k1, k2, rfl, k4, -, -⟩ := (h1 f d).1 hs
      exact absurd k4 (h k k1 k2 f)
    | ambiguous d =>
      obtain ⟨k, k1, k2, rfl, k4, -⟩ := (h2 d).1 hs
      exact absurd (k4 .ioi) (h k k1 k2 .ioi)
    | missing l => exact ⟨l, rfl⟩
  · intro fails hf g d
    have := (h3 fails hf).2 g d
    simpa using this

theorem resolve_plain (w : World) (l : List Name) (h : ∀ n ∈ l, n ≠ dot ∧ n ≠ dotdot) (acc : Place) :
    l.foldl step acc = acc ++ l := by
  induction l generalizing acc with
  | nil => simp
  | cons a l ih =>
    have ha := h a (by simp)
    rw [List.foldl_cons, ih (fun n hn => h n (by simp [hn]))]
    simp [step, ha.1, ha.2]

/-- **C105** Without `..` in the path that was given, the directories of the search are the directory where it
starts and the ones that contain it. -/
theorem search_goes_up_partial (w : World) (base : Option RPath)
    (hw : ∀ n ∈ w.cwd, n ≠ dot ∧ n ≠ dotdot)
    (hb : ∀ b, base = some b → (∀ n ∈ b.comps.tail, n ≠ dot) ∧ (b.abs = true → ∀ n ∈ b.comps, n ≠ dot) ∧
      ∀ n ∈ b.comps, n ≠ dotdot) (k : Nat) :
    w.resolve ((startDir w base).up k) =
      (w.resolve (startDir w base)).take ((w.resolve (startDir w base)).length - k) ∧
    (∀ b, base = some b → w.resolve (startDir w base) = w.resolve b) := by
  have hgood : ∀ n ∈ (startDir w base).comps, n ≠ dot ∧ n ≠ dotdot := by
    unfold startDir
    cases base with
    | none => exact hw
    | some b =>
      obtain ⟨b1, b2, b3⟩ := hb b rfl
      by_cases hab : b.abs = true
      · simp only [hab, if_true]
        exact fun n hn => ⟨b2 hab n hn, b3 n hn⟩
      · simp only [hab]
        intro n hn
        simp only [Bool.false_eq_true, if_false, List.mem_append, List.mem_filter, decide_eq_true_eq, ne_eq] at hn
        rcases hn with h | h
        · exact hw n h
        · exact ⟨h.2, b3 n h.1⟩
  have habs : (startDir w base).abs = true := by
    unfold startDir
    cases base with
    | none => rfl
    | some b => by_cases hab : b.abs = true <;> simp [hab]
  constructor
  · have e1 : w.resolve (startDir w base) = (startDir w base).comps := by
      unfold World.resolve
      rw [resolve_plain w _ hgood, habs]
      simp
    have e2 : w.resolve ((startDir w base).up k) =
        (startDir w base).comps.take ((startDir w base).comps.length - k) := by
      unfold World.resolve RPath.up
      simp only [habs, if_true]
      rw [resolve_plain w _ (fun n hn => hgood n (List.mem_of_mem_take hn))]
      simp
    rw [e1, e2]
  · rintro b rfl
    unfold startDir
    by_cases hab : b.abs = true
    · simp [hab]
    · have hf : b.abs = false := by simpa using hab
      simp only [hf, Bool.false_eq_true, if_false, World.resolve, if_true, List.foldl_append]
      rw [resolve_plain w w.cwd hw]
      have : ∀ (l : List Name) (acc : Place), (l.filter (· ≠ dot)).foldl step acc = l.foldl step acc := by
        intro l
        induction l with
        | nil => intro acc; rfl
        | cons a l ih =>
          intro acc
          by_cases ha : a = dot
          · subst ha
            simpa [step, dot, dotdot] using ih acc
          · simp [ha, List.foldl_cons] at ih ⊢
            exact ih _
      simp only [List.nil_append]
      exact this _ _

/-! ## Concrete cases -/

abbrev yamlName : Name := "task.yaml".toList

/-- A contest with the task `a`, and a directory `sol` in it; `/c/b` is not a task. -/
def demoWorld : World :=
  ⟨[['c'], ['a'], ['s']],
   [([], .dir), ([['c']], .dir), ([['c'], ['a']], .dir), ([['c'], ['a'], ['s']], .dir),
    ([['c'], ['a'], yamlName], .file (some [])), ([['c'], ['b']], .dir), ([yamlName], .file none)]⟩

/-- The tasks that can be loaded. -/
def demoParsers (ok : List Place) : Parsers := ⟨fun f d => f == .ioi && decide (d.comps ∈ ok)⟩

/-- Non-vacuity: from `/c/a/s` the task `/c/a` is found; with `max_depth` 1 it is not; from `/c/b` nothing is,
and the file in the root, that cannot be loaded, is reported for both formats. -/
example :
    findTask demoWorld (demoParsers [[['c'], ['a']]]) none 3 = .found .ioi ⟨true, [['c'], ['a']]⟩ ∧
    findTask demoWorld (demoParsers [[['c'], ['a']]]) none 1 = .missing [] ∧
    findTask demoWorld (demoParsers [[['c'], ['a']]]) (some ⟨true, [['c'], ['b']]⟩) 3 =
      .missing [(.ioi, ⟨true, []⟩), (.terry, ⟨true, []⟩)] ∧
    findTask demoWorld (demoParsers [[['c'], ['a']]]) (some ⟨false, [dot]⟩) 3 = .found .ioi ⟨true, [['c'], ['a']]⟩ ∧
    findTask demoWorld ⟨fun _ _ => true⟩ none 9 = .ambiguous ⟨true, [['c'], ['a']]⟩ := by
  decide +kernel

/-- A task that cannot be loaded does not stop the search: another task, in a directory that contains it, is
evaluated and the error is not shown. -/
theorem broken_task_skipped : ∃ (w : World) (ps : Parsers) (here above : RPath),
    IsBroken w ps .ioi here ∧ (∃ k, 0 < k ∧ above = here.up k) ∧
    findTask w ps (some here) 3 = .found .ioi above := by
  refine ⟨demoWorld, demoParsers [[]], ⟨true, [['c'], ['a']]⟩, ⟨true, []⟩, ⟨?_, ?_⟩, ⟨2, by decide, by decide⟩, ?_⟩
  · exact .inl (by decide +kernel)
  · decide +kernel
  · decide +kernel

/-- The parent of a path is found on the text of the path: from the directory of a task, the directory `..` that was
asked for is not a task, and the search goes back to the directory of the task, that is not above `..`. -/
theorem dotdot_goes_down : ∃ (w : World) (ps : Parsers) (d : RPath),
    findTask w ps (some ⟨false, [dotdot]⟩) 3 = .found .ioi d ∧
    w.resolve ⟨false, [dotdot]⟩ = [['c']] ∧ w.resolve d = [['c'], ['a']] := by
  refine ⟨{ demoWorld with cwd := [['c'], ['a']] }, demoParsers [[['c'], ['a']]], ⟨true, [['c'], ['a']]⟩, ?_⟩
  decide +kernel

end TM.Find
