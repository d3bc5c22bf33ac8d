import Verif.Base.Sort
import Verif.Text.Lines

/-!
# What the readers of the testcases of a task produce

Types of `task-maker-format/src/ioi/mod.rs` lines 157-199 and
`task-maker-format/src/ioi/format/italian_yaml/mod.rs` lines 464-472.
-/
namespace TM.Format

abbrev Text := TM.Text.Text

/-- `SourceFile`: only the path it was built from matters here. -/
abbrev Source := Text

/-- `InputValidator` (ioi/dag/input_validator.rs): trust the input, or run a validator with some
arguments. -/
inductive Validator where
  | assumeValid
  | custom (source : Source) (args : List Text)
  deriving DecidableEq, Repr

/-- `InputGenerator` (ioi/dag/input_generator.rs): copy a file, or run a generator with some
arguments. -/
inductive InputGen where
  | staticFile (path : Text)
  | custom (source : Source) (args : List Text)
  deriving DecidableEq, Repr

/-- `OutputGenerator` (ioi/dag/output_generator.rs): the argument lists are left out. -/
inductive OutputGen where
  | staticFile (path : Text)
  | custom (source : Source)
  | notAvailable
  deriving DecidableEq, Repr

/-- `SubtaskInfo` (ioi/mod.rs:157-181).  The score is an exact decimal instead of an `f64` and the
span is left out (spans are the subject of `Verif.Text.Span`). -/
structure Subtask where
  id : Nat
  name : Option Text := none
  description : Option Text := none
  maxScore : Rat := 0
  testcases : List Nat := []
  owned : List Nat := []
  validator : Validator := .assumeValid
  isDefault : Bool := false
  dependencies : List Nat := []
  deriving DecidableEq

/-- `TestcaseInfo` (ioi/mod.rs:188-199) without the file identifiers that are set by the DAG. -/
structure Testcase where
  id : Nat
  input : InputGen
  output : OutputGen
  deriving DecidableEq

/-- `TaskInputEntry` (italian_yaml/mod.rs:466-472). -/
inductive Entry where
  | subtask (s : Subtask)
  | testcase (t : Testcase)
  deriving DecidableEq

/-- `Vec::sort_unstable` / `Vec::sort` on integers. -/
def sortNat (l : List Nat) : List Nat := isort (fun a b => decide (a ≤ b)) l

/-- `Vec::dedup`: drops an element equal to the one before it. -/
def dedup : List Nat → List Nat
  | [] => []
  | [a] => [a]
  | a :: b :: rest => if a = b then dedup (b :: rest) else a :: dedup (b :: rest)

theorem mem_dedup {l : List Nat} {x : Nat} : x ∈ dedup l ↔ x ∈ l := by
  induction l using dedup.induct with
  | case1 => simp [dedup]
  | case2 a => simp [dedup]
  | case3 a rest ih => simp only [dedup, if_true, ih]; simp
  | case4 a b rest hne ih => simp only [dedup, if_neg hne, List.mem_cons, ih]

theorem dedup_sorted {l : List Nat} (h : l.Pairwise (· ≤ ·)) : (dedup l).Pairwise (· < ·) := by
  induction l using dedup.induct with
  | case1 => simp [dedup]
  | case2 a => simp [dedup]
  | case3 a rest ih => simp only [dedup, if_true]; exact ih (List.pairwise_cons.1 h).2
  | case4 a b rest hne ih =>
    simp only [dedup, if_neg hne]
    rw [List.pairwise_cons] at h ⊢
    refine ⟨?_, ih h.2⟩
    intro x hx
    rw [mem_dedup] at hx
    have hab := h.1 b (by simp)
    rcases List.mem_cons.1 hx with rfl | hx'
    · omega
    · have := (List.pairwise_cons.1 h.2).1 x hx'
      omega

theorem sortNat_sorted (l : List Nat) : (sortNat l).Pairwise (· ≤ ·) := by
  have := isort_sorted' (le := fun a b : Nat => decide (a ≤ b)) (by intro a b; simp; omega)
    (by intro a b c; simp; omega) l
  simpa [sortNat] using this

theorem mem_sortNat {l : List Nat} {x : Nat} : x ∈ sortNat l ↔ x ∈ l := (isort_perm _ l).mem_iff

/-- Sort and deduplicate: a strictly increasing list with the same members. -/
theorem norm_sorted (l : List Nat) : (dedup (sortNat l)).Pairwise (· < ·) :=
  dedup_sorted (sortNat_sorted l)

theorem mem_norm {l : List Nat} {x : Nat} : x ∈ dedup (sortNat l) ↔ x ∈ l := by
  rw [mem_dedup, mem_sortNat]

/-- A strictly increasing list is determined by its members. -/
theorem strict_ext {l₁ l₂ : List Nat} (h₁ : l₁.Pairwise (· < ·)) (h₂ : l₂.Pairwise (· < ·))
    (h : ∀ x, x ∈ l₁ ↔ x ∈ l₂) : l₁ = l₂ := by
  induction l₁ generalizing l₂ with
  | nil =>
    cases l₂ with
    | nil => rfl
    | cons b l₂ => exact absurd ((h b).2 (by simp)) (by simp)
  | cons a l₁ ih =>
    cases l₂ with
    | nil => exact absurd ((h a).1 (by simp)) (by simp)
    | cons b l₂ =>
      rw [List.pairwise_cons] at h₁ h₂
      have hab : a = b := by
        have ha := (h a).1 (by simp)
        have hb := (h b).2 (by simp)
        rcases List.mem_cons.1 ha with e | ha
        · exact e
        · rcases List.mem_cons.1 hb with e | hb
          · exact e.symm
          · have := h₁.1 b hb
            have := h₂.1 a ha
            omega
      subst hab
      congr 1
      refine ih h₁.2 h₂.2 fun x => ⟨fun hx => ?_, fun hx => ?_⟩
      · rcases List.mem_cons.1 ((h x).1 (List.mem_cons_of_mem _ hx)) with e | hx'
        · subst e; exact absurd (h₁.1 _ hx) (by omega)
        · exact hx'
      · rcases List.mem_cons.1 ((h x).2 (List.mem_cons_of_mem _ hx)) with e | hx'
        · subst e; exact absurd (h₂.1 _ hx) (by omega)
        · exact hx'

theorem strict_nodup {l : List Nat} (h : l.Pairwise (· < ·)) : l.Nodup :=
  h.imp (by intro a b; omega)

end TM.Format
