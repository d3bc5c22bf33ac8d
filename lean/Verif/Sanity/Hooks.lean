import Verif.Ui.Checks
import Verif.Base.Sort
/-!
# How the sanity checks are run, and the checks about names and scores (C82)

`sanity_checks.rs`, `ioi/sanity_checks/mod.rs` and the checks `MissingSubtaskNames`, `InvalidSubtaskName`,
`SolutionsWithNoChecks` and `TaskMaxScore`.

A hook is what it shows and how it ends: the executions a check adds to the DAG are not modelled here.  Showing a
diagnostic does not fail (the UI is there).
-/
namespace TM.Sanity
open TM TM.Build TM.Ui

/-- A check: its name, its category and its hook, which may fail after it has shown something. -/
structure SanityCheck (D : Type) where
  name : String
  category : String
  hook : List D × Option String

/-- `get_sanity_check_list`, ioi/sanity_checks/mod.rs:31-37 and terry/sanity_checks/mod.rs:15-22: the checks that
are enabled. -/
def enabledChecks {D : Type} (all : List (SanityCheck D)) (skip : List String) : List (SanityCheck D) :=
  all.filter (fun s => !skip.contains s.name && !skip.contains s.category)

/-- `SanityChecks::pre_hook` and `post_hook`, sanity_checks.rs:147-159 and 163-175; `failed` makes the warning about
the check with that name. -/
def runHooks {D : Type} (failed : String → String → D) : List (SanityCheck D) → List D → List D
  | [], shown => shown
  | check :: rest, shown =>
    let shown := shown ++ check.hook.1
    match check.hook.2 with
    | some e => runHooks failed rest (shown ++ [failed check.name e])
    | none => runHooks failed rest shown

/-- What the checks look at in a subtask. -/
structure SubtaskNames where
  id : Nat
  name : Option String
  isDefault : Bool
  maxScore : Rat
  deriving DecidableEq, Repr

/-- `MissingSubtaskNames::pre_hook`, subtasks.rs:30-65: the subtasks in the warning; no warning if there are none. -/
def missingNames (subtasks : List SubtaskNames) : List Nat :=
  if subtasks.all (fun st => st.isDefault) then []
  else ((isort (fun a b => decide (a.id ≤ b.id)) subtasks).filter (fun st => st.name.isNone)).map (·.id)

/-- `InvalidSubtaskName::pre_hook`, subtasks.rs:84-107: an error for each solution and check. -/
def invalidNames (task : Task) (nfkc : List Char → List Char) (sols : List (String × List SolCheck)) :
    List (String × SolCheck) :=
  sols.flatMap (fun s => (s.2.filter (fun c => (subtasksByPattern task nfkc c.pattern).isEmpty)).map (fun c => (s.1, c)))

/-- A solution: its path, if it is a link, its checks. -/
structure SolInfo where
  path : String
  isLink : Bool
  checks : List SolCheck
  deriving DecidableEq, Repr

/-- `SolutionsWithNoChecks::pre_hook`, sol.rs:83-119: the solutions in the warning. -/
def noChecks (subtasks : List SubtaskNames) (sols : List SolInfo) : List String :=
  if subtasks.any (fun st => st.name.isNone) then []
  else sols.filterMap (fun s => if !s.checks.isEmpty then none else if s.isLink then none else some s.path)

/-- `TaskMaxScore::pre_hook`, task.rs:33-42: the score in the error, if it is shown.  The sum is exact, in the code
it is a sum of floats in the order of the map. -/
def taskMaxScore (subtasks : List SubtaskNames) : Option Rat :=
  let score := (subtasks.map (·.maxScore)).sum
  if (if score ≤ 100 then 100 - score else score - 100) ≤ (1 / 2 ^ 52 : Rat) then none else some score

/-! ## Properties -/

theorem runHooks_eq {D : Type} (failed : String → String → D) (checks : List (SanityCheck D)) (shown : List D) :
    runHooks failed checks shown = shown ++ checks.flatMap (fun c => c.hook.1 ++ (c.hook.2.map (failed c.name)).toList) := by
  induction checks generalizing shown with
  | nil => simp [runHooks]
  | cons c cs ih =>
    rw [runHooks]
    cases hc : c.hook.2 with
    | none => simp only; rw [ih]; simp [hc]
    | some e => simp only; rw [ih]; simp [hc]

/-- **C82** What is shown is what each enabled check shows, and a warning for each that fails: no check stops the
others, and a disabled one shows nothing. -/
theorem checks_all_run {D : Type} (failed : String → String → D) (all : List (SanityCheck D)) (skip : List String)
    (d : D) : d ∈ runHooks failed (enabledChecks all skip) [] ↔
      ∃ c ∈ all, c.name ∉ skip ∧ c.category ∉ skip ∧
        (d ∈ c.hook.1 ∨ ∃ e, c.hook.2 = some e ∧ d = failed c.name e) := by
  rw [runHooks_eq, List.nil_append, List.mem_flatMap]
  constructor
  · rintro ⟨c, hc, hd⟩
    unfold enabledChecks at hc
    obtain ⟨h1, h2⟩ := List.mem_filter.1 hc
    simp at h2
    refine ⟨c, h1, h2.1, h2.2, ?_⟩
    rcases List.mem_append.1 hd with h | h
    · exact .inl h
    · rw [Option.mem_toList, Option.map_eq_some_iff] at h
      obtain ⟨e, he, rfl⟩ := h
      exact .inr ⟨e, he, rfl⟩
  · rintro ⟨c, hc, h1, h2, h⟩
    refine ⟨c, List.mem_filter.2 ⟨hc, by simp [h1, h2]⟩, ?_⟩
    rw [List.mem_append]
    rcases h with h | ⟨e, he, rfl⟩
    · exact .inl h
    · exact .inr (by simp [he])

/-- **C82** Disabling one more check or category removes what it shows from what is shown, in the same order. -/
theorem checks_skip_more {D : Type} (failed : String → String → D) (all : List (SanityCheck D)) (skip : List String)
    (x : String) :
    runHooks failed (enabledChecks all (x :: skip)) [] =
      runHooks failed ((enabledChecks all skip).filter (fun c => decide (c.name ≠ x ∧ c.category ≠ x))) [] := by
  congr 1
  unfold enabledChecks
  rw [List.filter_filter]
  apply List.filter_congr
  intro c _
  rw [Bool.eq_iff_iff]
  simp
  grind

/-- **C82** The subtasks in the warning about the names are the ones without a name, each once and by id; there are
none if all the subtasks were made by default. -/
theorem missing_names_exact {subtasks : List SubtaskNames} (hd : (subtasks.map (·.id)).Nodup) :
    (∀ n, n ∈ missingNames subtasks ↔
      (∃ st ∈ subtasks, st.id = n ∧ st.name = none) ∧ ∃ st ∈ subtasks, st.isDefault = false) ∧
    (missingNames subtasks).Pairwise (· < ·) := by
  have hp := isort_perm (fun a b : SubtaskNames => decide (a.id ≤ b.id)) subtasks
  have hs := isort_sorted' (le := fun a b : SubtaskNames => decide (a.id ≤ b.id))
    (fun a b => by simp; omega) (fun a b c => by simp; omega) subtasks
  have hnd : ((isort (fun a b : SubtaskNames => decide (a.id ≤ b.id)) subtasks).map (·.id)).Nodup :=
    (hp.map _).nodup_iff.2 hd
  unfold missingNames
  constructor
  · intro n
    by_cases h : (subtasks.all fun st => st.isDefault) = true
    · rw [if_pos h]
      simp only [List.not_mem_nil, false_iff]
      rintro ⟨-, st, h1, h2⟩
      rw [List.all_eq_true.1 h st h1] at h2
      cases h2
    · rw [if_neg h]
      have hex : ∃ st ∈ subtasks, st.isDefault = false := by
        apply Classical.byContradiction
        intro hn
        apply h
        rw [List.all_eq_true]
        intro st hst
        cases hb : st.isDefault with
        | true => rfl
        | false => exact absurd ⟨st, hst, hb⟩ hn
      simp only [List.mem_map, List.mem_filter, hp.mem_iff, Option.isNone_iff_eq_none, hex, and_true]
      grind
  · split
    · exact .nil
    · have hlt : (isort (fun a b : SubtaskNames => decide (a.id ≤ b.id)) subtasks).Pairwise (fun a b => a.id < b.id) := by
        have hnd' := List.pairwise_map.1 hnd
        refine (hs.and hnd').imp ?_
        rintro a b ⟨h1, h2⟩
        simp at h1
        exact Nat.lt_of_le_of_ne h1 h2
      exact List.pairwise_map.2 (hlt.filter _)

/-- **C82** There is an error about a check of a solution if and only if its pattern is of no subtask. -/
theorem invalid_names_exact (task : Task) (nfkc : List Char → List Char) (sols : List (String × List SolCheck))
    (path : String) (c : SolCheck) : (path, c) ∈ invalidNames task nfkc sols ↔
      ∃ checks, (path, checks) ∈ sols ∧ c ∈ checks ∧
        ∀ st ∈ task.subtasks.values, ∀ name, st.name = some name → ¬ Glob (nfkc c.pattern) name.toList := by
  have hemp : (subtasksByPattern task nfkc c.pattern).isEmpty = true ↔
      ∀ st ∈ task.subtasks.values, ∀ name, st.name = some name → ¬ Glob (nfkc c.pattern) name.toList := by
    unfold subtasksByPattern
    rw [List.isEmpty_iff, List.filter_eq_nil_iff]
    constructor
    · intro h st hst name hn hg
      have := h st hst
      rw [hn] at this
      exact this ((wildMatch_iff _ _).2 hg)
    · intro h st hst hm
      cases hn : st.name with
      | none => rw [hn] at hm; cases hm
      | some name =>
        rw [hn] at hm
        exact h st hst name hn ((wildMatch_iff _ _).1 hm)
  unfold invalidNames
  rw [List.mem_flatMap]
  constructor
  · rintro ⟨⟨p, checks⟩, hs, h⟩
    obtain ⟨c', hc', heq⟩ := List.mem_map.1 h
    cases heq
    obtain ⟨h1, h2⟩ := List.mem_filter.1 hc'
    exact ⟨checks, hs, h1, hemp.1 h2⟩
  · rintro ⟨checks, hs, h1, h2⟩
    exact ⟨(path, checks), hs, List.mem_map.2 ⟨c, List.mem_filter.2 ⟨h1, hemp.2 h2⟩, rfl⟩⟩

/-- **C82** The solutions in the warning about the checks are the ones with no checks that are not links, if all the
subtasks have a name. -/
theorem no_checks_exact (subtasks : List SubtaskNames) (sols : List SolInfo) (path : String) :
    path ∈ noChecks subtasks sols ↔ (∀ st ∈ subtasks, ∃ name, st.name = some name) ∧
      ∃ s ∈ sols, s.path = path ∧ s.isLink = false ∧ s.checks = [] := by
  have hall : ¬ ((subtasks.any fun st => st.name.isNone) = true) ↔ ∀ st ∈ subtasks, ∃ name, st.name = some name := by
    simp only [List.any_eq_true, not_exists, not_and]
    constructor
    · intro h st hst
      cases hn : st.name with
      | none => exact absurd (by simp [hn]) (h st hst)
      | some n => exact ⟨n, rfl⟩
    · intro h st hst hn
      obtain ⟨n, h⟩ := h st hst
      rw [h] at hn
      cases hn
  unfold noChecks
  by_cases h : (subtasks.any fun st => st.name.isNone) = true
  · rw [if_pos h]
    simp only [List.not_mem_nil, false_iff]
    rintro ⟨h2, -⟩
    exact (hall.2 h2) h
  · rw [if_neg h]
    refine ⟨fun hm => ⟨hall.1 h, ?_⟩, ?_⟩
    · obtain ⟨s, hs, he⟩ := List.mem_filterMap.1 hm
      refine ⟨s, hs, ?_⟩
      split at he
      · cases he
      · next h1 =>
        split at he
        · cases he
        · next h2 =>
          cases he
          refine ⟨rfl, by simpa using h2, ?_⟩
          simpa using h1
    · rintro ⟨-, s, hs, rfl, h1, h2⟩
      exact List.mem_filterMap.2 ⟨s, hs, by simp [h1, h2]⟩

/-- **C82** The error about the score of the task is shown if and only if the sum of the scores of the subtasks is
not 100, up to the precision of the comparison. -/
theorem max_score_exact (subtasks : List SubtaskNames) (x : Rat) : taskMaxScore subtasks = some x ↔
    x = (subtasks.map (·.maxScore)).sum ∧ (x - 100 > (1 / 2 ^ 52 : Rat) ∨ 100 - x > (1 / 2 ^ 52 : Rat)) := by
  unfold taskMaxScore
  generalize (subtasks.map (·.maxScore)).sum = y
  have h0 : (0 : Rat) ≤ 1 / 2 ^ 52 := by decide +kernel
  generalize (1 / 2 ^ 52 : Rat) = ε at *
  simp only
  by_cases hy : y ≤ 100
  · rw [if_pos hy]
    by_cases hc : 100 - y ≤ ε
    · rw [if_pos hc]
      refine ⟨(fun h => nomatch h), ?_⟩
      rintro ⟨rfl, h⟩
      grind
    · rw [if_neg hc, Option.some.injEq]
      refine ⟨fun h => ⟨h.symm, ?_⟩, fun h => h.1.symm⟩
      grind
  · rw [if_neg hy]
    by_cases hc : y - 100 ≤ ε
    · rw [if_pos hc]
      refine ⟨(fun h => nomatch h), ?_⟩
      rintro ⟨rfl, h⟩
      grind
    · rw [if_neg hc, Option.some.injEq]
      refine ⟨fun h => ⟨h.symm, ?_⟩, fun h => h.1.symm⟩
      grind

/-! ## Examples -/

/-- Three checks, one of them fails. -/
def demoChecks : List (SanityCheck String) :=
  [⟨"A", "Io", ["a1"], none⟩, ⟨"B", "Io", ["b1"], some "no file"⟩, ⟨"C", "Task", ["c1", "c2"], none⟩]

example : runHooks (fun n e => "Sanity check " ++ n ++ " failed: " ++ e) (enabledChecks demoChecks []) [] =
    ["a1", "b1", "Sanity check B failed: no file", "c1", "c2"] := by decide +kernel
example : runHooks (fun n e => "Sanity check " ++ n ++ " failed: " ++ e) (enabledChecks demoChecks ["Io"]) [] =
    ["c1", "c2"] := by decide +kernel

def demoNames : List SubtaskNames := [⟨2, none, false, 60⟩, ⟨0, some "samples", false, 0⟩, ⟨1, none, false, 30⟩]

example : (demoNames.map (·.id)).Nodup ∧ missingNames demoNames = [1, 2] ∧ taskMaxScore demoNames = some 90 ∧
    noChecks demoNames [⟨"sol/a.cpp", false, []⟩] = [] ∧
    noChecks [⟨0, some "samples", false, 100⟩] [⟨"sol/a.cpp", false, []⟩, ⟨"sol/b.cpp", true, []⟩,
      ⟨"sol/c.cpp", false, [⟨.accepted, "*".toList⟩]⟩] = ["sol/a.cpp"] := by decide +kernel

end TM.Sanity
