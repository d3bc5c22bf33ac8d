import Verif.Sanity.DepsLemmas
import Verif.Build.Sample
/-!
# The warnings about the order of difficulty of the subtasks (C78)
-/
namespace TM.Sanity
open TM TM.Build TM.Ui

variable {task : Task} {nfkc : List Char → List Char} {mx : Nat → Rat} {keys : List Nat}
  {sols : List (List SolCheck)}

/-- The subtask is one of those of the task, and is worth some points. -/
def Valuable (mx : Nat → Rat) (keys : List Nat) (st : Nat) : Prop := st ∈ keys ∧ 0 < mx st

theorem mem_valuable {st : Nat} : st ∈ keys.filter (fun k => 0 < mx k) ↔ Valuable mx keys st := by
  simp [Valuable, List.mem_filter]

theorem expects_nonempty {checks : List SolCheck} {st : Nat} {r : Solution.Check}
    (h : Expects task nfkc checks st r) : checks ≠ [] := by
  rintro rfl
  obtain ⟨a, c, b, h, -⟩ := h
  cases a <;> cases h

theorem no_checks_alike (h : sols.all List.isEmpty = true) (a b : Nat) : Implies task nfkc sols a b := by
  intro checks hc ra rb ha _
  have := List.all_eq_true.1 h checks hc
  rw [List.isEmpty_iff] at this
  exact absurd this (expects_nonempty ha)

theorem some_checks : sols.all List.isEmpty = false ↔ ∃ checks ∈ sols, checks ≠ [] := by
  rw [List.all_eq_false]
  simp [List.isEmpty_iff]

/-- **C78** The pairs of subtasks in the warning about the order of difficulty are those, among the subtasks
worth some points, where the first one comes before the second one and is harder: whoever gets something
on the first gets everything on the second, but not the other way round. -/
theorem order_warning_exact (a b : Nat) :
    (a, b) ∈ (subtaskDependencies task nfkc mx keys sols).swapped ↔
      Valuable mx keys a ∧ Valuable mx keys b ∧ a < b ∧
        Implies task nfkc sols a b ∧ ¬ Implies task nfkc sols b a := by
  unfold subtaskDependencies
  simp only
  by_cases he : sols.all List.isEmpty = true
  · rw [if_pos he]
    constructor
    · intro h; cases h
    · rintro ⟨-, -, -, -, h⟩
      exact absurd (no_checks_alike he b a) h
  · rw [if_neg he]
    simp only [List.mem_flatMap, List.mem_map, List.mem_filter, Bool.and_eq_true, decide_eq_true_eq,
      Bool.not_eq_true', decide_eq_false_iff_not, mem_implied, Prod.mk.injEq]
    constructor
    · rintro ⟨x, ⟨h1, h2⟩, y, ⟨⟨h3, h4⟩, ⟨h5, h6⟩, h7⟩, rfl, rfl⟩
      refine ⟨⟨h1, h2⟩, ⟨h3, h4⟩, h5, h6.2.2.2, fun hi => h7 ⟨⟨h3, h4⟩, ⟨h1, h2⟩, by omega, hi⟩⟩
    · rintro ⟨⟨h1, h2⟩, ⟨h3, h4⟩, h5, h6, h7⟩
      exact ⟨a, ⟨h1, h2⟩, b, ⟨⟨h3, h4⟩, ⟨h5, ⟨h1, h2⟩, ⟨h3, h4⟩, by omega, h6⟩, fun hi => h7 hi.2.2.2⟩, rfl, rfl⟩

theorem natLe_total : TotalLe (fun a b : Nat => decide (a ≤ b)) where
  total a b := by simp only [decide_eq_true_eq]; omega
  trans a b c h1 h2 := by simp only [decide_eq_true_eq] at *; omega
  antisymm a b h1 h2 := by simp only [decide_eq_true_eq] at *; omega

theorem strict_sorted {l : List Nat} (hn : l.Nodup) (h : l.Pairwise (fun a b => decide (a ≤ b) = true)) :
    l.Pairwise (· < ·) := by
  refine (h.and hn).imp ?_
  rintro a b ⟨h1, h2⟩
  have : a ≤ b := of_decide_eq_true h1
  omega

/-- **C78** The warnings about the subtasks solved by the same solutions: there is one for each subtask that
no solution tells apart from a later one, if none before it is alike; it lists the subtask and the later
ones which are like it, in order. -/
theorem same_warnings_exact (hk : keys.Nodup) (g : List Nat) :
    g ∈ (subtaskDependencies task nfkc mx keys sols).same ↔
      (∃ checks ∈ sols, checks ≠ []) ∧ ∃ a, Valuable mx keys a ∧
        (∀ b, Valuable mx keys b → b < a → ¬ Alike task nfkc sols a b) ∧
        (∃ b, Valuable mx keys b ∧ a < b ∧ Alike task nfkc sols a b) ∧
        g.Pairwise (· < ·) ∧ ∀ x, x ∈ g ↔ x = a ∨ (Valuable mx keys x ∧ a < x ∧ Alike task nfkc sols a x) := by
  unfold subtaskDependencies
  simp only
  by_cases he : sols.all List.isEmpty = true
  · rw [if_pos he]
    constructor
    · intro h; cases h
    · rintro ⟨h, -⟩
      rw [some_checks.2 h] at he; cases he
  · rw [if_neg he]
    have hc := some_checks.1 (by simpa using he)
    generalize hsts : keys.filter (fun k => decide (0 < mx k)) = sts
    have hv : ∀ x, x ∈ sts ↔ Valuable mx keys x := by intro x; rw [← hsts]; exact mem_valuable
    have hnd : sts.Nodup := by rw [← hsts]; exact hk.filter _
    generalize hd : implied task nfkc sts sols = deps
    have hboth : ∀ a x, ((a, x) ∈ deps ∧ (x, a) ∈ deps) ↔
        Valuable mx keys a ∧ Valuable mx keys x ∧ a ≠ x ∧ Alike task nfkc sols a x := by
      intro a x
      rw [← hd, mem_implied, mem_implied, hv, hv]
      constructor
      · rintro ⟨⟨h1, h2, h3, h4⟩, -, -, -, h5⟩; exact ⟨h1, h2, h3, h4, h5⟩
      · rintro ⟨h1, h2, h3, h4, h5⟩; exact ⟨⟨h1, h2, h3, h4⟩, h2, h1, Ne.symm h3, h5⟩
    -- the group of a subtask
    have hgroup : ∀ a, Valuable mx keys a → ∀ l : List Nat,
        groupLoop deps a [a] sts = some l ↔
        ((∀ b, Valuable mx keys b → b < a → ¬ Alike task nfkc sols a b) ∧
          l = a :: sts.filter (fun x => decide ((a, x) ∈ deps ∧ (x, a) ∈ deps))) := by
      intro a ha l
      rw [groupLoop_eq]
      by_cases hex : ∃ x ∈ sts, ((a, x) ∈ deps ∧ (x, a) ∈ deps) ∧ x ≤ a
      · rw [if_pos hex]
        obtain ⟨x, -, h2, h3⟩ := hex
        rw [hboth] at h2
        constructor
        · intro h; cases h
        · rintro ⟨h, -⟩
          exact absurd h2.2.2.2 (h x h2.2.1 (by have := h2.2.2.1; omega))
      · rw [if_neg hex]
        constructor
        · intro h
          cases h
          refine ⟨fun b hb hlt hal => hex ⟨b, (hv b).2 hb, (hboth a b).2 ⟨ha, hb, by omega, hal⟩, by omega⟩, rfl⟩
        · rintro ⟨-, rfl⟩; rfl
    have hmem : ∀ a, (∀ b, Valuable mx keys b → b < a → ¬ Alike task nfkc sols a b) → Valuable mx keys a →
        ∀ x, x ∈ a :: sts.filter (fun x => decide ((a, x) ∈ deps ∧ (x, a) ∈ deps)) ↔
          x = a ∨ (Valuable mx keys x ∧ a < x ∧ Alike task nfkc sols a x) := by
      intro a hmin ha x
      rw [List.mem_cons, List.mem_filter, decide_eq_true_eq, hboth, hv]
      constructor
      · rintro (h | ⟨h1, -, -, h3, h4⟩)
        · exact .inl h
        · refine .inr ⟨h1, ?_, h4⟩
          rcases Nat.lt_or_ge a x with h | h
          · exact h
          · exact absurd h4 (hmin x h1 (by omega))
      · rintro (h | ⟨h1, h2, h3⟩)
        · exact .inl h
        · exact .inr ⟨h1, ha, h1, by omega, h3⟩
    have hnodup : ∀ a, (a :: sts.filter (fun x => decide ((a, x) ∈ deps ∧ (x, a) ∈ deps))).Nodup := by
      intro a
      rw [List.nodup_cons]
      refine ⟨?_, hnd.filter _⟩
      intro h
      obtain ⟨-, h⟩ := List.mem_filter.1 h
      rw [decide_eq_true_eq, hboth] at h
      exact h.2.2.1 rfl
    simp only [List.mem_filterMap]
    constructor
    · rintro ⟨a, ha, h⟩
      have ha := (hv a).1 ha
      refine ⟨hc, a, ha, ?_⟩
      split at h
      · cases h
      · next l hl =>
        obtain ⟨hmin, rfl⟩ := (hgroup a ha _).1 hl
        split at h
        · next hlen =>
          cases h
          have hp := isort_perm (fun a b : Nat => decide (a ≤ b))
            (a :: sts.filter (fun x => decide ((a, x) ∈ deps ∧ (x, a) ∈ deps)))
          refine ⟨hmin, ?_, ?_, ?_⟩
          · cases hf : sts.filter (fun x => decide ((a, x) ∈ deps ∧ (x, a) ∈ deps)) with
            | nil => rw [hf] at hlen; simp at hlen
            | cons b r =>
              have hb := (hmem a hmin ha b).1 (by rw [hf]; simp)
              rcases hb with rfl | hb
              · have := hnodup b
                rw [hf] at this
                simp at this
              · exact ⟨b, hb⟩
          · exact strict_sorted (hp.nodup_iff.2 (hnodup a)) (isort_sorted natLe_total _)
          · intro x
            rw [hp.mem_iff]
            exact hmem a hmin ha x
        · cases h
    · rintro ⟨-, a, ha, hmin, ⟨b, hb, hlt, hab⟩, hsort, hx⟩
      refine ⟨a, (hv a).2 ha, ?_⟩
      rw [(hgroup a ha _).2 ⟨hmin, rfl⟩]
      simp only
      have hbm := (hmem a hmin ha b).2 (.inr ⟨hb, hlt, hab⟩)
      rw [if_pos]
      · congr 1
        have hp := isort_perm (fun a b : Nat => decide (a ≤ b))
          (a :: sts.filter (fun x => decide ((a, x) ∈ deps ∧ (x, a) ∈ deps)))
        have hp2 : (a :: sts.filter (fun x => decide ((a, x) ∈ deps ∧ (x, a) ∈ deps))).Perm g := by
          refine (List.perm_ext_iff_of_nodup (hnodup a) (hsort.imp (fun h => Nat.ne_of_lt h))).2 ?_
          intro x
          rw [hmem a hmin ha x, hx x]
        have hq := hp.trans hp2
        exact hq.eq_of_pairwise (le := (· ≤ ·)) (fun a b _ _ => Nat.le_antisymm)
          ((isort_sorted natLe_total _).imp (fun h => of_decide_eq_true h)) (hsort.imp (fun h => Nat.le_of_lt h))
      · rcases List.mem_cons.1 hbm with h | h
        · omega
        · have := List.length_pos_of_mem h
          simp only [List.length_cons]; omega

theorem least {P : Nat → Prop} : ∀ n, P n → ∃ m, P m ∧ ∀ k < m, ¬ P k := by
  intro n
  induction n using Nat.strongRecOn with
  | ind n ih =>
    intro h
    by_cases hk : ∃ k, k < n ∧ P k
    · obtain ⟨k, h1, h2⟩ := hk
      exact ih k h1 h2
    · exact ⟨n, h, fun k hlt hp => hk ⟨k, hlt, hp⟩⟩

theorem alike_symm {a b : Nat} (h : Alike task nfkc sols a b) : Alike task nfkc sols b a := ⟨h.2, h.1⟩

/-- The checks of a solution, if it has some, are about all the subtasks worth some points. -/
def Complete (task : Task) (nfkc : List Char → List Char) (mx : Nat → Rat) (keys : List Nat)
    (sols : List (List SolCheck)) : Prop :=
  ∀ checks ∈ sols, checks ≠ [] → ∀ st, Valuable mx keys st → ∃ r, Expects task nfkc checks st r

theorem alike_trans (hc : Complete task nfkc mx keys sols) {a b c : Nat} (hb : Valuable mx keys b)
    (h1 : Alike task nfkc sols a b) (h2 : Alike task nfkc sols b c) : Alike task nfkc sols a c := by
  have : ∀ {a c}, Implies task nfkc sols a b → Implies task nfkc sols b c → Implies task nfkc sols a c := by
    intro a c h1 h2 checks hm ra rc ha hc'
    obtain ⟨rb, hrb⟩ := hc checks hm (expects_nonempty ha) b hb
    rcases h1 checks hm ra rb ha hrb with h | h
    · exact .inl h
    · rcases h2 checks hm rb rc hrb hc' with h' | h'
      · exact absurd h h'.1
      · exact .inr h'
  exact ⟨this h1.1 h2.1, this h2.2 h1.2⟩

/-- **C78** Two subtasks are in the same warning if and only if no solution tells them apart.  Missing: the
case of checks that are not about all the subtasks, where this is false, see `alike_not_warned` and
`unlike_warned`. -/
theorem alike_warned_partial (hk : keys.Nodup) (hc : Complete task nfkc mx keys sols)
    (hs : ∃ checks ∈ sols, checks ≠ []) {a b : Nat} (ha : Valuable mx keys a) (hb : Valuable mx keys b)
    (hab : a ≠ b) :
    (∃ g ∈ (subtaskDependencies task nfkc mx keys sols).same, a ∈ g ∧ b ∈ g) ↔ Alike task nfkc sols a b := by
  constructor
  · rintro ⟨g, hg, h1, h2⟩
    obtain ⟨-, l, hl, -, -, -, hx⟩ := (same_warnings_exact hk g).1 hg
    rcases (hx a).1 h1 with rfl | ⟨-, -, h3⟩
    · rcases (hx b).1 h2 with rfl | ⟨-, -, h4⟩
      · exact absurd rfl hab
      · exact h4
    · rcases (hx b).1 h2 with rfl | ⟨-, -, h4⟩
      · exact alike_symm h3
      · exact alike_trans hc hl (alike_symm h3) h4
  · intro h
    obtain ⟨l, ⟨hl1, hl2⟩, hmin⟩ := least
      (P := fun x => Valuable mx keys x ∧ (x = a ∨ Alike task nfkc sols x a)) a ⟨ha, .inl rfl⟩
    have all : ∀ x, Valuable mx keys x → (x = a ∨ Alike task nfkc sols a x) →
        x = l ∨ (Valuable mx keys x ∧ l < x ∧ Alike task nfkc sols l x) := by
      intro x hx h2
      by_cases hxl : x = l
      · exact .inl hxl
      refine .inr ⟨hx, ?_, ?_⟩
      · have hx' := hmin x
        rcases Nat.lt_or_ge x l with h3 | h3
        · refine absurd ⟨hx, ?_⟩ (hx' h3)
          rcases h2 with h2 | h2
          · exact .inl h2
          · exact .inr (alike_symm h2)
        · omega
      · rcases hl2 with rfl | hl2
        · rcases h2 with rfl | h2
          · exact absurd rfl hxl
          · exact h2
        · rcases h2 with rfl | h2
          · exact hl2
          · exact alike_trans hc ha hl2 h2
    have hma := all a ha (.inl rfl)
    have hmb := all b hb (.inr h)
    have hlmin : ∀ x, Valuable mx keys x → x < l → ¬ Alike task nfkc sols l x := by
      intro x hx hlt hal
      refine hmin x hlt ⟨hx, ?_⟩
      rcases hl2 with rfl | hl2
      · exact .inr (alike_symm hal)
      · exact .inr (alike_trans hc hl1 (alike_symm hal) hl2)
    have hother : ∃ x, Valuable mx keys x ∧ l < x ∧ Alike task nfkc sols l x := by
      rcases hma with h1 | h1
      · rcases hmb with h2 | h2
        · exact absurd (h1.trans h2.symm) hab
        · exact ⟨b, h2⟩
      · exact ⟨a, h1⟩
    -- the group
    have hsorted : ∃ g : List Nat, g.Pairwise (· < ·) ∧
        ∀ x, x ∈ g ↔ x = l ∨ (Valuable mx keys x ∧ l < x ∧ Alike task nfkc sols l x) := by
      have hclass : ∀ x, Decidable (x = l ∨ (Valuable mx keys x ∧ l < x ∧ Alike task nfkc sols l x)) :=
        fun x => Classical.propDecidable _
      refine ⟨isort (fun a b : Nat => decide (a ≤ b))
        (keys.filter (fun x => decide (x = l ∨ (Valuable mx keys x ∧ l < x ∧ Alike task nfkc sols l x)))), ?_, ?_⟩
      · exact strict_sorted ((isort_perm _ _).nodup_iff.2 (hk.filter _)) (isort_sorted natLe_total _)
      · intro x
        rw [(isort_perm _ _).mem_iff, List.mem_filter, decide_eq_true_eq]
        refine ⟨fun h => h.2, fun h => ⟨?_, h⟩⟩
        rcases h with rfl | h
        · exact hl1.1
        · exact h.1.1
    obtain ⟨g, hg1, hg2⟩ := hsorted
    refine ⟨g, (same_warnings_exact hk g).2 ⟨hs, l, hl1, hlmin, hother, hg1, hg2⟩, (hg2 a).2 hma, (hg2 b).2 hmb⟩

/-- **C78** ... in any case, if there are two such subtasks there is a warning. -/
theorem alike_some_warning (hk : keys.Nodup) (hs : ∃ checks ∈ sols, checks ≠ []) {a b : Nat}
    (ha : Valuable mx keys a) (hb : Valuable mx keys b) (hab : a ≠ b) (h : Alike task nfkc sols a b) :
    (subtaskDependencies task nfkc mx keys sols).same ≠ [] := by
  obtain ⟨l, ⟨hl1, x, hx1, hx2, hx3⟩, hmin⟩ := least
    (P := fun x => Valuable mx keys x ∧ ∃ y, Valuable mx keys y ∧ x ≠ y ∧ Alike task nfkc sols x y) a
    ⟨ha, b, hb, hab, h⟩
  have hlmin : ∀ y, Valuable mx keys y → y < l → ¬ Alike task nfkc sols l y := fun y hy hlt hal =>
    hmin y hlt ⟨hy, l, hl1, by omega, alike_symm hal⟩
  have hclass : ∀ x, Decidable (x = l ∨ (Valuable mx keys x ∧ l < x ∧ Alike task nfkc sols l x)) :=
    fun x => Classical.propDecidable _
  have := (same_warnings_exact (task := task) (nfkc := nfkc) (mx := mx) (sols := sols) hk
    (isort (fun a b : Nat => decide (a ≤ b))
        (keys.filter (fun x => decide (x = l ∨ (Valuable mx keys x ∧ l < x ∧ Alike task nfkc sols l x)))))).2
    ⟨hs, l, hl1, hlmin, ⟨x, hx1, by
        rcases Nat.lt_or_ge l x with h1 | h1
        · exact h1
        · exact absurd hx3 (hlmin x hx1 (by omega)), hx3⟩,
      strict_sorted ((isort_perm _ _).nodup_iff.2 (hk.filter _)) (isort_sorted natLe_total _), by
        intro x
        rw [(isort_perm _ _).mem_iff, List.mem_filter, decide_eq_true_eq]
        refine ⟨fun h => h.2, fun h => ⟨?_, h⟩⟩
        rcases h with rfl | h
        · exact hl1.1
        · exact h.1.1⟩
  intro hn
  rw [hn] at this
  cases this

/-! ## Where it fails, and examples -/

namespace DepSample

/-- Three subtasks with a name. -/
def abc : Task :=
  { Build.Sample.batch with
    subtasks := [(0, { id := 0, name := some "a", testcases := [0], owned := [0], validator := .assumeValid }),
      (1, { id := 1, name := some "b", testcases := [1], owned := [1], validator := .assumeValid }),
      (2, { id := 2, name := some "c", testcases := [1], owned := [], validator := .assumeValid })] }

/-- Worth some points, all of them. -/
def ten : Nat → Rat := fun _ => 10

/-- `@check-accepted: b`, `@check-zero: c`. -/
def sol (good bad : String) : List SolCheck := [⟨.accepted, good.toList⟩, ⟨.zero, bad.toList⟩]

theorem valuable (st : Nat) (h : st < 3) : Valuable ten [0, 1, 2] st := by
  refine ⟨?_, (show (0 : Rat) < 10 by decide)⟩
  simp only [List.mem_cons, List.not_mem_nil, or_false]
  omega

end DepSample

open DepSample in
/-- **C78** ... two subtasks that no solution tells apart may be in no common warning: if the first is like
the second and the second like the third, but the first is not like the third. -/
theorem alike_not_warned : ∃ (task : Task) (mx : Nat → Rat) (keys : List Nat) (sols : List (List SolCheck)),
    keys.Nodup ∧ ∃ a b, Valuable mx keys a ∧ Valuable mx keys b ∧ a ≠ b ∧ (∃ checks ∈ sols, checks ≠ []) ∧
      Alike task id sols a b ∧ ∀ g ∈ (subtaskDependencies task id mx keys sols).same, ¬ (a ∈ g ∧ b ∈ g) := by
  refine ⟨abc, ten, [0, 1, 2], [sol "a" "c"], by decide, 1, 2, valuable 1 (by omega), valuable 2 (by omega),
    by decide, ⟨_, List.mem_singleton.2 rfl, by decide⟩, ?_, ?_⟩
  · have h1 : (1, 2) ∈ implied abc id [0, 1, 2] [sol "a" "c"] := by decide +kernel
    have h2 : (2, 1) ∈ implied abc id [0, 1, 2] [sol "a" "c"] := by decide +kernel
    exact ⟨(mem_implied.1 h1).2.2.2, (mem_implied.1 h2).2.2.2⟩
  · have : (subtaskDependencies abc id ten [0, 1, 2] [sol "a" "c"]).same = [[0, 1]] := by decide +kernel
    rw [this]
    decide

open DepSample in
/-- **C78** ... and a warning may list two subtasks that a solution tells apart. -/
theorem unlike_warned : ∃ (task : Task) (mx : Nat → Rat) (keys : List Nat) (sols : List (List SolCheck)),
    keys.Nodup ∧ ∃ a b, a ≠ b ∧ ¬ Alike task id sols a b ∧
      ∃ g ∈ (subtaskDependencies task id mx keys sols).same, a ∈ g ∧ b ∈ g := by
  refine ⟨abc, ten, [0, 1, 2], [sol "b" "c"], by decide, 1, 2, by decide, ?_, [0, 1, 2], ?_, by decide⟩
  · have h1 : (1, 2) ∉ implied abc id [0, 1, 2] [sol "b" "c"] := by decide +kernel
    intro h
    exact h1 (mem_implied.2 ⟨by decide, by decide, by decide, h.1⟩)
  · decide +kernel

open DepSample in
/-- The hypotheses of the theorem: the subtasks `a` and `b` are alike, `c` is easier than both and comes
after them. -/
example :
    let sols : List (List SolCheck) := [[⟨.zero, "*".toList⟩, ⟨.accepted, "c".toList⟩], [⟨.accepted, "*".toList⟩], []]
    Complete abc id ten [2, 0, 1] sols ∧ (∃ checks ∈ sols, checks ≠ []) ∧
    subtaskDependencies abc id ten [2, 0, 1] sols = ⟨[[0, 1]], [(0, 2), (1, 2)]⟩ := by
  refine ⟨?_, ⟨_, List.mem_cons_self .., by decide⟩, by decide +kernel⟩
  intro checks hc hne st hst
  have h0 : ∀ st ∈ [2, 0, 1], ∀ checks ∈ [[⟨.zero, "*".toList⟩, ⟨.accepted, "c".toList⟩],
      [⟨Solution.Check.accepted, "*".toList⟩]], ((scoreRanges abc id checks).get? st).isSome := by decide +kernel
  have : checks ∈ [[⟨.zero, "*".toList⟩, ⟨.accepted, "c".toList⟩], [⟨Solution.Check.accepted, "*".toList⟩]] := by
    simp only [List.mem_cons, List.not_mem_nil, or_false] at hc ⊢
    rcases hc with h | h | h
    · exact .inl h
    · exact .inr h
    · exact absurd h hne
  obtain ⟨v, hv⟩ := Option.isSome_iff_exists.1 (h0 st hst.1 checks this)
  obtain ⟨r, hr, -⟩ := (scoreRanges_iff checks st v).1 hv
  exact ⟨r, hr⟩

end TM.Sanity
