import Verif.Disk.Model
/-!
# A disk given by the list of its nodes, for the examples
-/
namespace TM.Disk

def listed (nodes : List (Path × Node)) : Disk := ⟨fun p => nodes.lookup p, 40⟩

/-- All the paths are short, the links are to files, nothing is inside a file. -/
def tidy (nodes : List (Path × Node)) : Bool :=
  nodes.all (fun x => decide (x.1.length ≤ 8) &&
    match x.2 with
    | .link t => decide (walk (listed nodes).node 8 [] t = some t) &&
      match nodes.lookup t with
      | some (.file _) => true
      | _ => false
    | .file _ => nodes.all (fun y => decide (y.1 = [] ∨ y.1.dropLast ≠ x.1))
    | .dir => true)

theorem listed_mem {α β : Type} [BEq α] [LawfulBEq α] {a : α} {b : β} : ∀ {l : List (α × β)}, l.lookup a = some b → (a, b) ∈ l
  | [], h => by cases h
  | (x, y) :: l, h => by
    rw [List.lookup_cons] at h
    split at h
    · cases h
      rw [show x = a from (eq_of_beq ‹_›).symm]
      exact List.mem_cons_self
    · exact List.mem_cons_of_mem _ (listed_mem h)

theorem listed_roomy {nodes : List (Path × Node)} (h : tidy nodes = true) : Roomy (listed nodes) := by
  have key : ∀ p n, (listed nodes).node p = some n → _ := fun p n hp => List.all_eq_true.1 h (p, n) (listed_mem hp)
  refine roomy_files (k := 8) ?_ ?_ ?_ (show 8 + 8 ≤ 40 by decide)
  · intro p n hp
    have := key p n hp
    simp only [Bool.and_eq_true, decide_eq_true_eq] at this
    exact this.1
  · intro p t hp
    have := key p _ hp
    simp only [Bool.and_eq_true, decide_eq_true_eq] at this
    refine ⟨this.2.1, ?_⟩
    have h2 := this.2.2
    split at h2
    · exact ⟨_, ‹_›⟩
    · cases h2
  · intro p c content hp
    have := key p _ hp
    simp only [Bool.and_eq_true, decide_eq_true_eq, List.all_eq_true] at this
    cases hc : (listed nodes).node (p ++ [c]) with
    | none => rfl
    | some n =>
      rcases this.2 _ (listed_mem hc) with h1 | h1
      · simp at h1
      · exact absurd List.dropLast_concat h1

end TM.Disk
