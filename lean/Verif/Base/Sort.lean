/-!
# Sorting

`isort le l` models `sorted()` / `sort()` / `sort_unstable()` of the Rust code (every sorting
algorithm returns the same list when the order is total and antisymmetric, which
`isort_eq_iff_perm` makes precise).
-/

namespace TM

variable {α : Type}

/-- Insertion in a sorted list. -/
def insertSorted (le : α → α → Bool) (a : α) : List α → List α
  | [] => [a]
  | b :: l => if le a b then a :: b :: l else b :: insertSorted le a l

/-- Insertion sort. -/
def isort (le : α → α → Bool) : List α → List α
  | [] => []
  | a :: l => insertSorted le a (isort le l)

theorem insertSorted_perm (le : α → α → Bool) (a : α) (l : List α) :
    (insertSorted le a l).Perm (a :: l) := by
  induction l with
  | nil => exact .refl _
  | cons b l ih =>
    unfold insertSorted
    split
    · exact .refl _
    · exact (ih.cons b).trans (.swap a b l)

theorem isort_perm (le : α → α → Bool) (l : List α) : (isort le l).Perm l := by
  induction l with
  | nil => exact .refl _
  | cons a l ih => exact (insertSorted_perm le a _).trans (ih.cons a)

/-- A total order given by a boolean test. -/
structure TotalLe (le : α → α → Bool) : Prop where
  total : ∀ a b, le a b = true ∨ le b a = true
  trans : ∀ a b c, le a b = true → le b c = true → le a c = true
  antisymm : ∀ a b, le a b = true → le b a = true → a = b

theorem insertSorted_sorted' {le : α → α → Bool}
    (total : ∀ a b, le a b = true ∨ le b a = true)
    (trans : ∀ a b c, le a b = true → le b c = true → le a c = true) (a : α) {l : List α}
    (hl : l.Pairwise (fun x y => le x y = true)) :
    (insertSorted le a l).Pairwise (fun x y => le x y = true) := by
  induction l with
  | nil => simp [insertSorted]
  | cons b l ih =>
    unfold insertSorted
    rw [List.pairwise_cons] at hl
    split
    · next hab =>
      refine List.pairwise_cons.2 ⟨?_, List.pairwise_cons.2 hl⟩
      intro c hc
      rcases List.mem_cons.1 hc with rfl | hc
      · exact hab
      · exact trans _ _ _ hab (hl.1 c hc)
    · next hab =>
      refine List.pairwise_cons.2 ⟨?_, ih hl.2⟩
      intro c hc
      rcases List.mem_cons.1 ((insertSorted_perm le a l).mem_iff.1 hc) with rfl | hc
      · rcases total c b with h' | h'
        · exact absurd h' hab
        · exact h'
      · exact hl.1 c hc

theorem isort_sorted' {le : α → α → Bool}
    (total : ∀ a b, le a b = true ∨ le b a = true)
    (trans : ∀ a b c, le a b = true → le b c = true → le a c = true) (l : List α) :
    (isort le l).Pairwise (fun x y => le x y = true) := by
  induction l with
  | nil => simp [isort]
  | cons a l ih => exact insertSorted_sorted' total trans a ih

theorem isort_sorted {le : α → α → Bool} (h : TotalLe le) (l : List α) :
    (isort le l).Pairwise (fun x y => le x y = true) := isort_sorted' h.total h.trans l

theorem isort_eq_iff_perm {le : α → α → Bool} (h : TotalLe le) {l₁ l₂ : List α} :
    isort le l₁ = isort le l₂ ↔ l₁.Perm l₂ := by
  constructor
  · intro e
    exact (isort_perm le l₁).symm.trans (e ▸ isort_perm le l₂)
  · intro p
    refine List.Perm.eq_of_pairwise ?_ (isort_sorted h l₁) (isort_sorted h l₂)
      ((isort_perm le l₁).trans (p.trans (isort_perm le l₂).symm))
    intro a b _ _ hab hba
    exact h.antisymm a b hab hba

/-- Lexicographic comparison of pairs. -/
def lexLe {β : Type} [DecidableEq α] (le₁ : α → α → Bool) (le₂ : β → β → Bool) (a b : α × β) : Bool :=
  if a.1 = b.1 then le₂ a.2 b.2 else le₁ a.1 b.1

theorem TotalLe.lex {β : Type} [DecidableEq α] {le₁ : α → α → Bool} {le₂ : β → β → Bool}
    (h₁ : TotalLe le₁) (h₂ : TotalLe le₂) : TotalLe (lexLe le₁ le₂) := by
  refine ⟨?_, ?_, ?_⟩
  · intro a b
    unfold lexLe
    by_cases e : a.1 = b.1
    · simp only [e, if_true]; exact h₂.total _ _
    · simp only [e, Ne.symm e, if_false]; exact h₁.total _ _
  · intro a b c
    unfold lexLe
    intro hab hbc
    by_cases e : a.1 = b.1
    · by_cases e' : b.1 = c.1
      · simp only [e, e', if_true] at *; exact h₂.trans _ _ _ hab hbc
      · simp only [e, e', if_false, if_true] at *; exact hbc
    · by_cases e' : b.1 = c.1
      · rw [if_neg e] at hab; rw [if_neg (e' ▸ e)]; exact e' ▸ hab
      · rw [if_neg e] at hab; rw [if_neg e'] at hbc
        by_cases e'' : a.1 = c.1
        · exact absurd (h₁.antisymm _ _ hab (e'' ▸ hbc)) e
        · rw [if_neg e'']; exact h₁.trans _ _ _ hab hbc
  · intro a b
    unfold lexLe
    intro hab hba
    by_cases e : a.1 = b.1
    · rw [if_pos e] at hab; rw [if_pos e.symm] at hba
      exact Prod.ext e (h₂.antisymm _ _ hab hba)
    · rw [if_neg e] at hab; rw [if_neg (Ne.symm e)] at hba
      exact absurd (h₁.antisymm _ _ hab hba) e

/-- Comparison of strings (by code points, as `Ord for str`). -/
def strLe (a b : String) : Bool := decide (a ≤ b)

theorem strLe_total : TotalLe strLe := by
  refine ⟨?_, ?_, ?_⟩ <;> simp only [strLe, decide_eq_true_eq]
  · exact String.le_total
  · exact fun _ _ _ => String.le_trans
  · exact fun _ _ => String.le_antisymm

/-- Comparison of booleans, `false < true`. -/
def boolLe (a b : Bool) : Bool := !a || b

theorem boolLe_total : TotalLe boolLe := by
  refine ⟨?_, ?_, ?_⟩ <;> simp [boolLe] <;> grind

end TM
