import Verif.Ui.Checks
import Verif.Base.Sort
/-!
# The order of difficulty of the subtasks (`ioi/sanity_checks/task.rs`)

`SubtaskDependencies::pre_hook`, which compares the subtasks by what the checks of the solutions say.
-/
namespace TM.Sanity
open TM TM.Build TM.Ui

/-- The least and the most a solution gets on a subtask (as a fraction), task.rs:169-173; the numbers are 0
and 1 only. -/
def scoreRange : Solution.Check → Nat × Nat
  | .accepted => (1, 1)
  | .partialScore => (0, 1)
  | _ => (0, 0)

/-- The map of a solution, task.rs:164-178. -/
def scoreRanges (task : Task) (nfkc : List Char → List Char) (checks : List SolCheck) : AMap Nat (Nat × Nat) :=
  checks.foldl (fun m c => (subtasksByPattern task nfkc c.pattern).foldl
    (fun m st => m.insert st.id (scoreRange c.result)) m) []

/-- The ordered pairs of different subtasks, task.rs:152-159. -/
def allPairs (sts : List Nat) : List (Nat × Nat) :=
  sts.flatMap (fun a => (sts.filter (fun b => a ≠ b)).map (fun b => (a, b)))

/-- The solution shows that `p.1` does not imply `p.2`, task.rs:180-188. -/
def refuted (m : AMap Nat (Nat × Nat)) (p : Nat × Nat) : Bool :=
  match m.get? p.1, m.get? p.2 with
  | some v1, some v2 => decide (v2.1 < v1.2)
  | _, _ => false

/-- The pairs that are left, task.rs:161-189: the loops on the subtasks remove the refuted pairs. -/
def implied (task : Task) (nfkc : List Char → List Char) (sts : List Nat) (sols : List (List SolCheck)) :
    List (Nat × Nat) :=
  sols.foldl (fun d checks =>
    let m := scoreRanges task nfkc checks
    (sts.flatMap (fun a => sts.map (fun b => (a, b)))).foldl
      (fun d p => if refuted m p then d.filter (fun q => q ≠ p) else d) d) (allPairs sts)

/-- The inner loop on `st2`, task.rs:197-206; nothing for `continue 'outer`. -/
def groupLoop (deps : List (Nat × Nat)) (st1 : Nat) : List Nat → List Nat → Option (List Nat)
  | sts, [] => some sts
  | sts, st2 :: rest =>
    if (st1, st2) ∈ deps ∧ (st2, st1) ∈ deps then
      if st1 < st2 then groupLoop deps st1 (sts ++ [st2]) rest else none
    else groupLoop deps st1 sts rest

/-- The two kinds of warnings. -/
structure DepWarnings where
  /-- "Subtasks .. are solved by the same set of solutions", one for each list -/
  same : List (List Nat) := []
  /-- The pairs of the note of "Subtasks are not in order of difficulty" -/
  swapped : List (Nat × Nat) := []
  deriving DecidableEq, Repr

/-- `SubtaskDependencies::pre_hook`, task.rs:144-264: `keys` are the ids of the subtasks in the order of the
hash map, `mx` the maximum scores. -/
def subtaskDependencies (task : Task) (nfkc : List Char → List Char) (mx : Nat → Rat) (keys : List Nat)
    (sols : List (List SolCheck)) : DepWarnings :=
  -- lines 145-150
  let sts := keys.filter (fun k => 0 < mx k)
  let deps := implied task nfkc sts sols
  -- lines 191-193
  if sols.all List.isEmpty then {}
  else {
    -- lines 195-226
    same := sts.filterMap (fun st1 => match groupLoop deps st1 [st1] sts with
      | none => none
      | some g => if 1 < g.length then some (isort (fun a b => decide (a ≤ b)) g) else none)
    -- lines 228-239
    swapped := sts.flatMap (fun st1 => (sts.filter (fun st2 =>
      st1 < st2 && decide ((st1, st2) ∈ deps) && !decide ((st2, st1) ∈ deps))).map (fun st2 => (st1, st2))) }

/-! ## Specification -/

/-- The check is about the subtask. -/
def About (task : Task) (nfkc : List Char → List Char) (c : SolCheck) (st : Nat) : Prop :=
  ∃ s ∈ task.subtasks.values, s.id = st ∧ ∃ name, s.name = some name ∧ Glob (nfkc c.pattern) name.toList

/-- What is expected of a solution on a subtask: what the last of its checks about the subtask says. -/
def Expects (task : Task) (nfkc : List Char → List Char) (checks : List SolCheck) (st : Nat)
    (r : Solution.Check) : Prop :=
  ∃ a c b, checks = a ++ c :: b ∧ About task nfkc c st ∧ (∀ c' ∈ b, ¬ About task nfkc c' st) ∧ r = c.result

/-- Whatever solution gets something on `a` gets everything on `b`, as far as the checks say. -/
def Implies (task : Task) (nfkc : List Char → List Char) (sols : List (List SolCheck)) (a b : Nat) : Prop :=
  ∀ checks ∈ sols, ∀ ra rb, Expects task nfkc checks a ra → Expects task nfkc checks b rb →
    (ra ≠ .accepted ∧ ra ≠ .partialScore) ∨ rb = .accepted

/-- No solution tells the subtasks apart. -/
def Alike (task : Task) (nfkc : List Char → List Char) (sols : List (List SolCheck)) (a b : Nat) : Prop :=
  Implies task nfkc sols a b ∧ Implies task nfkc sols b a

end TM.Sanity
