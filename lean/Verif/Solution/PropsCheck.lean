import Verif.Solution.Check
/-!
# Properties of the checks of the solutions (C34, C35)
-/
namespace TM.Solution

/-! ## Specification -/

/-- The outcomes that are worth zero. -/
def Outcome.Failing (o : Outcome) : Prop := o ≠ .accepted ∧ o ≠ .partialScore

/-- `accepted > partial > every failure`; failures are not comparable. -/
inductive Worse : Outcome → Outcome → Prop where
  | partialScore : Worse .partialScore .accepted
  | failingAccepted {o : Outcome} : o.Failing → Worse o .accepted
  | failingPartial {o : Outcome} : o.Failing → Worse o .partialScore

/-- An outcome of the list with no worse one in it. -/
def Minimal (outcomes : List Outcome) (o : Outcome) : Prop :=
  o ∈ outcomes ∧ ∀ o' ∈ outcomes, ¬ Worse o' o

/-- What the documentation of `SolutionCheckResult` says that each check requires. -/
def Requires : Check → List Outcome → Prop
  | .accepted, l => ∀ o ∈ l, o = .accepted
  | .partialScore, l => .partialScore ∈ l ∧ ∀ o ∈ l, o = .accepted ∨ o = .partialScore
  | .wrongAnswer, l => .wrongAnswer ∈ l
  | .timeLimit, l => .timeLimit ∈ l
  | .wallTimeLimit, l => .wallTimeLimit ∈ l
  | .memoryLimit, l => .memoryLimit ∈ l
  | .runtimeError, l => .runtimeError ∈ l
  | .zero, l => ∃ o ∈ l, o.Failing

/-! ## Lemmas -/

theorem failing_iff (o : Outcome) : o.Failing ↔ o.proj = 0 := by
  cases o <;> simp [Outcome.Failing, Outcome.proj]

theorem worse_iff (a b : Outcome) : Worse a b ↔ a.cmp b = some .lt := by
  constructor
  · intro h
    cases h with
    | partialScore => rfl
    | failingAccepted h => revert h; cases a <;> simp [Outcome.Failing, Outcome.cmp, Outcome.proj]
    | failingPartial h => revert h; cases a <;> simp [Outcome.Failing, Outcome.cmp, Outcome.proj]
  · cases a <;> cases b <;> first
      | (intro h; exact absurd h (by decide))
      | (intro _; first
          | exact .partialScore
          | exact .failingAccepted (by simp [Outcome.Failing])
          | exact .failingPartial (by simp [Outcome.Failing]))

theorem lt_iff (a b : Outcome) : a.lt b = true ↔ Worse a b := by
  rw [worse_iff]; simp [Outcome.lt]

theorem loop_iff (c : Check) (outcomes l : List Outcome) : c.loop outcomes l = true ↔
    ∃ o ∈ l, (∀ o' ∈ outcomes, ¬ Worse o' o) ∧ o ∈ c.minimals := by
  induction l with
  | nil => simp [Check.loop]
  | cons a l ih =>
    simp only [Check.loop]
    split
    · rename_i h
      rw [List.any_eq_true] at h
      obtain ⟨o', h1, h2⟩ := h
      rw [lt_iff] at h2
      rw [ih]
      constructor
      · rintro ⟨o, ho, h3⟩; exact ⟨o, by simp [ho], h3⟩
      · rintro ⟨o, ho, h3, h4⟩
        rcases List.mem_cons.1 ho with rfl | ho
        · exact absurd h2 (h3 o' h1)
        · exact ⟨o, ho, h3, h4⟩
    · rename_i h
      have hn : ∀ o' ∈ outcomes, ¬ Worse o' a := by
        intro o' ho' hw
        exact h (List.any_eq_true.2 ⟨o', ho', (lt_iff _ _).2 hw⟩)
      split
      · rename_i hc
        simp only [true_iff]
        exact ⟨a, by simp, hn, by simpa using hc⟩
      · rename_i hc
        rw [ih]
        constructor
        · rintro ⟨o, ho, h3⟩; exact ⟨o, by simp [ho], h3⟩
        · rintro ⟨o, ho, h3, h4⟩
          rcases List.mem_cons.1 ho with rfl | ho
          · exact absurd (by simpa using h4) hc
          · exact ⟨o, ho, h3, h4⟩

theorem minimal_accepted (l : List Outcome) :
    Minimal l .accepted ↔ l ≠ [] ∧ ∀ o ∈ l, o = .accepted := by
  constructor
  · rintro ⟨h1, h2⟩
    refine ⟨(by intro h; simp [h] at h1), ?_⟩
    intro o ho
    have := h2 o ho
    rw [worse_iff] at this
    revert this
    cases o <;> decide
  · rintro ⟨h1, h2⟩
    cases l with
    | nil => exact absurd rfl h1
    | cons a l =>
      have ha := h2 a (by simp)
      subst ha
      refine ⟨by simp, ?_⟩
      intro o ho
      rw [h2 o ho, worse_iff]
      decide

theorem minimal_partial (l : List Outcome) :
    Minimal l .partialScore ↔ .partialScore ∈ l ∧ ∀ o ∈ l, o = .accepted ∨ o = .partialScore := by
  constructor
  · rintro ⟨h1, h2⟩
    refine ⟨h1, ?_⟩
    intro o ho
    have := h2 o ho
    rw [worse_iff] at this
    revert this
    cases o <;> decide
  · rintro ⟨h1, h2⟩
    refine ⟨h1, ?_⟩
    intro o ho
    rw [worse_iff]
    rcases h2 o ho with rfl | rfl <;> decide

theorem minimal_failing {o : Outcome} (ho : o.Failing) (l : List Outcome) :
    Minimal l o ↔ o ∈ l := by
  constructor
  · exact fun h => h.1
  · intro h
    refine ⟨h, ?_⟩
    intro o' _ hw
    cases hw with
    | partialScore => exact ho.1 rfl
    | failingAccepted => exact ho.1 rfl
    | failingPartial => exact ho.2 rfl

/-! ## Properties (C34) -/

/-- A check holds when some minimal outcome of the subtask is one of those it allows; a subtask without
testcases counts as accepted. -/
theorem check_minimal (c : Check) (outcomes : List Outcome) : c.check outcomes = true ↔
    (∃ o, Minimal outcomes o ∧ o ∈ c.minimals) ∨ (outcomes = [] ∧ c = .accepted) := by
  have hl := loop_iff c outcomes outcomes
  have he : (∃ o ∈ outcomes, (∀ o' ∈ outcomes, ¬ Worse o' o) ∧ o ∈ c.minimals) ↔
      ∃ o, Minimal outcomes o ∧ o ∈ c.minimals :=
    ⟨fun ⟨o, a, b, d⟩ => ⟨o, ⟨a, b⟩, d⟩, fun ⟨o, ⟨a, b⟩, d⟩ => ⟨o, a, b, d⟩⟩
  rw [he] at hl
  have ha : c.minimals.contains .accepted = true ↔ c = .accepted := by
    cases c <;> decide
  unfold Check.check
  split
  · rename_i h; simp [hl.1 h]
  · rename_i h
    rw [hl] at h
    split
    · rename_i h2
      rw [Bool.and_eq_true, ha, List.isEmpty_iff] at h2
      simp [h2]
    · rename_i h2
      rw [Bool.and_eq_true, ha, List.isEmpty_iff] at h2
      simp [h, h2]

/-- Each check requires what its documentation says. -/
theorem check_requires (c : Check) (outcomes : List Outcome) :
    c.check outcomes = true ↔ Requires c outcomes := by
  rw [check_minimal]
  have hf : ∀ o : Outcome, o.Failing → (Minimal outcomes o ↔ o ∈ outcomes) :=
    fun o ho => minimal_failing ho outcomes
  cases c with
  | accepted =>
    simp only [Check.minimals, List.mem_singleton, Requires, and_true]
    constructor
    · rintro (⟨o, h, rfl⟩ | rfl)
      · exact ((minimal_accepted _).1 h).2
      · simp
    · intro h
      by_cases hn : outcomes = []
      · exact .inr hn
      · exact .inl ⟨_, (minimal_accepted _).2 ⟨hn, h⟩, rfl⟩
  | partialScore =>
    simp [Check.minimals, Requires, minimal_partial]
  | zero =>
    simp only [Requires, reduceCtorEq, and_false, or_false]
    constructor
    · rintro ⟨o, h1, h2⟩
      refine ⟨o, h1.1, ?_⟩
      revert h2
      cases o <;> simp [Check.minimals, Outcome.Failing]
    · rintro ⟨o, h1, h2⟩
      refine ⟨o, (hf o h2).2 h1, ?_⟩
      revert h2
      cases o <;> simp [Check.minimals, Outcome.Failing]
  | wrongAnswer => simp [Check.minimals, Requires, hf .wrongAnswer (by simp [Outcome.Failing])]
  | timeLimit => simp [Check.minimals, Requires, hf .timeLimit (by simp [Outcome.Failing])]
  | wallTimeLimit => simp [Check.minimals, Requires, hf .wallTimeLimit (by simp [Outcome.Failing])]
  | memoryLimit => simp [Check.minimals, Requires, hf .memoryLimit (by simp [Outcome.Failing])]
  | runtimeError => simp [Check.minimals, Requires, hf .runtimeError (by simp [Outcome.Failing])]

/-- The order on the outcomes. -/
theorem outcome_order (a b : Outcome) : (a.cmp b = some .lt ↔ Worse a b) ∧
    (a.cmp b = some .gt ↔ Worse b a) ∧ (a.cmp b = some .eq ↔ a = b) := by
  refine ⟨(worse_iff a b).symm, ?_, ?_⟩
  · rw [worse_iff]; cases a <;> cases b <;> decide
  · cases a <;> cases b <;> decide

/-- Only the set of the outcomes matters. -/
theorem check_set (c : Check) {l l' : List Outcome} (h : ∀ o, o ∈ l ↔ o ∈ l') :
    c.check l = c.check l' := by
  rw [Bool.eq_iff_iff, check_requires, check_requires]
  cases c <;> simp only [Requires, h]

/-- An outcome better than one already there never changes the verdict. -/
theorem better_outcome_irrelevant (c : Check) {l l' : List Outcome} {o b : Outcome} (ho : o ∈ l)
    (hw : Worse o b) (hl' : ∀ x, x ∈ l' ↔ x = b ∨ x ∈ l) : c.check l' = c.check l := by
  rw [Bool.eq_iff_iff, check_minimal, check_minimal]
  have hm : ∀ x, Minimal l' x ↔ Minimal l x := by
    intro x
    constructor
    · rintro ⟨h1, h2⟩
      rcases (hl' x).1 h1 with rfl | h1
      · exact absurd hw (h2 o ((hl' o).2 (.inr ho)))
      · exact ⟨h1, fun o' h => h2 o' ((hl' o').2 (.inr h))⟩
    · rintro ⟨h1, h2⟩
      refine ⟨(hl' x).2 (.inr h1), ?_⟩
      intro o' h
      rcases (hl' o').1 h with rfl | h
      · intro hw'
        apply h2 o ho
        rw [worse_iff] at hw hw' ⊢
        revert hw hw'
        cases o <;> cases o' <;> cases x <;> decide
      · exact h2 o' h
  have hn : l ≠ [] := by intro h; rw [h] at ho; cases ho
  have hn' : l' ≠ [] := by
    intro h; have := (hl' o).2 (.inr ho); rw [h] at this; cases this
  simp [hm, hn, hn']

/-- Exactly one of the checks "accepted", "partial-score" and "zero" holds. -/
theorem one_of_three (l : List Outcome) :
    (Check.check .accepted l = true ∧ Check.check .partialScore l = false ∧ Check.check .zero l = false) ∨
    (Check.check .accepted l = false ∧ Check.check .partialScore l = true ∧ Check.check .zero l = false) ∨
    (Check.check .accepted l = false ∧ Check.check .partialScore l = false ∧ Check.check .zero l = true) := by
  have b : ∀ c, Check.check c l = false ↔ ¬ Requires c l := by
    intro c; rw [← check_requires]; simp
  simp only [b, check_requires, Requires]
  by_cases hz : ∃ o ∈ l, o.Failing
  · right; right
    obtain ⟨o, h1, h2⟩ := hz
    refine ⟨fun h => h2.1 (h o h1), ?_, ⟨o, h1, h2⟩⟩
    rintro ⟨_, h⟩
    rcases h o h1 with h | h
    · exact h2.1 h
    · exact h2.2 h
  · have hall : ∀ o ∈ l, o = .accepted ∨ o = .partialScore := by
      intro o ho
      by_cases h1 : o = .accepted
      · exact .inl h1
      · by_cases h2 : o = .partialScore
        · exact .inr h2
        · exact absurd ⟨o, ho, h1, h2⟩ hz
    by_cases hp : Outcome.partialScore ∈ l
    · right; left
      exact ⟨fun h => by simpa using h _ hp, ⟨hp, hall⟩, hz⟩
    · left
      refine ⟨?_, fun h => hp h.1, hz⟩
      intro o ho
      rcases hall o ho with h | h
      · exact h
      · exact absurd (h ▸ ho) hp

/-- Non-vacuity. -/
example : Check.check .timeLimit [.accepted, .timeLimit, .partialScore, .memoryLimit] = true ∧
    Check.check .memoryLimit [.accepted, .timeLimit, .partialScore, .memoryLimit] = true ∧
    Check.check .partialScore [.accepted, .timeLimit, .partialScore, .memoryLimit] = false ∧
    Check.check .accepted [] = true ∧ Worse .timeLimit .partialScore := by
  refine ⟨by decide, by decide, by decide, by decide, .failingPartial (by simp [Outcome.Failing])⟩

/-! ## Properties (C35) -/

theorem mem_dedup {l : List Outcome} {o : Outcome} : o ∈ dedup l ↔ o ∈ l := by
  induction l using dedup.induct with
  | case1 => simp [dedup]
  | case2 a => simp [dedup]
  | case3 a rest ih => simp only [dedup, if_true, ih]; simp
  | case4 a b rest hne ih => simp only [dedup, if_neg hne, List.mem_cons, ih]

theorem mem_minimalResults {l : List Outcome} {o : Outcome} :
    o ∈ minimalResults l ↔ Minimal l o := by
  have hm : ∀ x, x ∈ dedup (isort (fun a b => decide (a.tag ≤ b.tag)) l) ↔ x ∈ l := by
    intro x; rw [mem_dedup, (isort_perm _ l).mem_iff]
  simp only [minimalResults, List.mem_filter, List.all_eq_true, hm, decide_eq_true_eq, Minimal]
  constructor
  · rintro ⟨h1, h2⟩; exact ⟨h1, fun o' ho' hw => h2 o' ho' ((worse_iff _ _).1 hw)⟩
  · rintro ⟨h1, h2⟩; exact ⟨h1, fun o' ho' hw => h2 o' ho' ((worse_iff _ _).2 hw)⟩

/-- The check chosen: the conditions under which each of them is. -/
theorem chosen_check (l : List Outcome) : ∃ c, chooseCheck l = some c ∧
    (∀ o, Minimal l o → o ∈ c.minimals) ∧
    ∀ d : Check, (∀ o, Minimal l o → o ∈ d.minimals) → c.tag ≤ d.tag ∧ c.minimals.length ≤ d.minimals.length := by
  have hall : ∀ d : Check, (minimalResults l).all (fun res => d.minimals.contains res) = true ↔
      ∀ o, Minimal l o → o ∈ d.minimals := by
    intro d
    simp only [List.all_eq_true, mem_minimalResults, List.contains_iff_mem]
  have hex : ∃ d : Check, ∀ o, Minimal l o → o ∈ d.minimals := by
    by_cases ha : Minimal l .accepted
    · refine ⟨.accepted, ?_⟩
      intro o ho
      have := ((minimal_accepted l).1 ha).2 o ho.1
      simp [this, Check.minimals]
    · by_cases hp : Minimal l .partialScore
      · refine ⟨.partialScore, ?_⟩
        intro o ho
        rcases ((minimal_partial l).1 hp).2 o ho.1 with rfl | rfl
        · exact absurd ho ha
        · simp [Check.minimals]
      · refine ⟨.zero, ?_⟩
        intro o ho
        cases o <;> first
          | exact absurd ho ha
          | exact absurd ho hp
          | simp [Check.minimals]
  cases hc : chooseCheck l with
  | none =>
    obtain ⟨d, hd⟩ := hex
    unfold chooseCheck at hc
    have hn := List.find?_eq_none.1 hc d (by cases d <;> decide)
    exact absurd ((hall d).2 hd) hn
  | some c =>
    refine ⟨c, rfl, (hall c).1 (by
      unfold chooseCheck at hc; have := List.find?_some hc; exact this), ?_⟩
    intro d hd
    unfold chooseCheck at hc
    obtain ⟨_, as, bs, heq, hnot⟩ := List.find?_eq_some_iff_append.1 hc
    have hdas : d ∉ as := by
      intro hm
      have := hnot d hm
      rw [(hall d).2 hd] at this
      simp at this
    have hdm : d = c ∨ d ∈ bs := by
      have : d ∈ as ++ c :: bs := by rw [← heq]; cases d <;> decide
      simp only [List.mem_append, List.mem_cons] at this
      rcases this with h | h | h
      · exact absurd h hdas
      · exact .inl h
      · exact .inr h
    have hsorted : Check.sortedAll.Pairwise
        (fun a b => a.tag ≤ b.tag ∧ a.minimals.length ≤ b.minimals.length) := by decide
    rw [heq, List.pairwise_append] at hsorted
    rcases hdm with rfl | hdm
    · exact ⟨Nat.le_refl _, Nat.le_refl _⟩
    · exact (List.pairwise_cons.1 hsorted.2.1).1 d hdm

/-- The check chosen for a subtask holds for its results. -/
theorem chosen_check_holds {l : List Outcome} {c : Check} (h : chooseCheck l = some c) :
    c.check l = true := by
  obtain ⟨c', h1, h2, h3⟩ := chosen_check l
  rw [h1] at h
  simp only [Option.some.injEq] at h
  subst h
  rw [check_minimal]
  by_cases hn : l = []
  · right
    refine ⟨hn, ?_⟩
    have := (h3 .accepted (by intro o ho; rw [hn] at ho; cases ho.1)).1
    revert this
    cases c' <;> decide
  · left
    have : ∃ o, Minimal l o := by
      by_cases ha : ∀ o ∈ l, o = .accepted
      · exact ⟨_, (minimal_accepted l).2 ⟨hn, ha⟩⟩
      · by_cases hp : ∀ o ∈ l, o = .accepted ∨ o = .partialScore
        · by_cases hm : Outcome.partialScore ∈ l
          · exact ⟨_, (minimal_partial l).2 ⟨hm, hp⟩⟩
          · exfalso; apply ha
            intro o ho
            rcases hp o ho with h | h
            · exact h
            · exact absurd (h ▸ ho) hm
        · obtain ⟨o, hp⟩ := Classical.not_forall.1 hp
          obtain ⟨ho, hno⟩ := Classical.not_imp.1 hp
          exact ⟨o, (minimal_failing ⟨fun h => hno (.inl h), fun h => hno (.inr h)⟩ l).2 ho⟩
    obtain ⟨o, ho⟩ := this
    exact ⟨o, ho, h2 o ho⟩

/-- When each check is chosen: "accepted" and "partial-score" when they hold, the name of a failure when
it is the only one among the results, "zero" when there are several. -/
theorem chosen_check_iff (l : List Outcome) (c : Check) : chooseCheck l = some c ↔
    match c with
    | .accepted => ∀ o ∈ l, o = .accepted
    | .partialScore => .partialScore ∈ l ∧ ∀ o ∈ l, o = .accepted ∨ o = .partialScore
    | .zero => ∃ a ∈ l, ∃ b ∈ l, a.Failing ∧ b.Failing ∧ a ≠ b
    | c => ∃ a ∈ l, c.minimals = [a] ∧ a.Failing ∧ ∀ b ∈ l, b.Failing → b = a := by
  -- the right hand sides exclude each other, so it is enough to prove one direction
  have dir : ∀ c, chooseCheck l = some c →
    (match c with
    | .accepted => ∀ o ∈ l, o = .accepted
    | .partialScore => .partialScore ∈ l ∧ ∀ o ∈ l, o = .accepted ∨ o = .partialScore
    | .zero => ∃ a ∈ l, ∃ b ∈ l, a.Failing ∧ b.Failing ∧ a ≠ b
    | c => ∃ a ∈ l, c.minimals = [a] ∧ a.Failing ∧ ∀ b ∈ l, b.Failing → b = a) := by
    intro c h
    have hh := (check_requires _ _).1 (chosen_check_holds h)
    obtain ⟨c', h1, h2, h3⟩ := chosen_check l
    rw [h1] at h
    simp only [Option.some.injEq] at h
    subst h
    have single : ∀ a, a ∈ l → c'.minimals = [a] → a.Failing →
        ∃ a ∈ l, c'.minimals = [a] ∧ a.Failing ∧ ∀ b ∈ l, b.Failing → b = a := by
      intro a ha hm hf
      refine ⟨a, ha, hm, hf, ?_⟩
      intro b hb hbf
      have := h2 b ((minimal_failing hbf l).2 hb)
      rw [hm] at this
      simpa using this
    cases c' with
    | accepted => exact hh
    | partialScore => exact hh
    | wrongAnswer => exact single .wrongAnswer hh rfl (by simp [Outcome.Failing])
    | timeLimit => exact single .timeLimit hh rfl (by simp [Outcome.Failing])
    | wallTimeLimit => exact single .wallTimeLimit hh rfl (by simp [Outcome.Failing])
    | memoryLimit => exact single .memoryLimit hh rfl (by simp [Outcome.Failing])
    | runtimeError => exact single .runtimeError hh rfl (by simp [Outcome.Failing])
    | zero =>
      obtain ⟨a, ha, haf⟩ := hh
      by_cases hb : ∃ b ∈ l, b.Failing ∧ a ≠ b
      · obtain ⟨b, hb, hbf, hne⟩ := hb
        exact ⟨a, ha, b, hb, haf, hbf, hne⟩
      · exfalso
        have hone : ∀ o, Minimal l o → o = a := by
          intro o ho
          by_cases hof : o.Failing
          · by_cases he : a = o
            · exact he.symm
            · exact absurd ⟨o, ho.1, hof, he⟩ hb
          · exfalso
            have := ho.2 a ha
            apply this
            by_cases h1 : o = .accepted
            · subst h1; exact .failingAccepted haf
            · by_cases h2 : o = .partialScore
              · subst h2; exact .failingPartial haf
              · exact absurd ⟨h1, h2⟩ hof
        have key : ∃ d : Check, a ∈ d.minimals ∧ d.tag < Check.zero.tag := by
          cases a
          · exact ⟨.accepted, by decide⟩
          · exact ⟨.partialScore, by decide⟩
          · exact ⟨.wrongAnswer, by decide⟩
          · exact ⟨.timeLimit, by decide⟩
          · exact ⟨.wallTimeLimit, by decide⟩
          · exact ⟨.memoryLimit, by decide⟩
          · exact ⟨.runtimeError, by decide⟩
        obtain ⟨d, hd1, hd2⟩ := key
        have := (h3 d (fun o ho => by rw [hone o ho]; exact hd1)).1
        omega
  constructor
  · exact dir c
  · intro hr
    obtain ⟨c', h1, -, -⟩ := chosen_check l
    have hr' := dir c' h1
    rw [h1]
    have acc : (∀ o ∈ l, o = Outcome.accepted) → ∀ o ∈ l, ¬ o.Failing :=
      fun h o ho hf => hf.1 (h o ho)
    have par : (∀ o ∈ l, o = Outcome.accepted ∨ o = .partialScore) → ∀ o ∈ l, ¬ o.Failing :=
      fun h o ho hf => (h o ho).elim hf.1 hf.2
    cases c <;> cases c' <;> simp only [Check.minimals, List.cons.injEq, and_true] at hr hr' ⊢ <;> grind

/-- Non-vacuity: two failures, one failure, no testcases. -/
example : chooseCheck [.timeLimit, .accepted, .memoryLimit, .timeLimit] = some .zero ∧
    chooseCheck [.timeLimit, .accepted, .partialScore, .timeLimit] = some .timeLimit ∧
    chooseCheck [.partialScore, .accepted] = some .partialScore ∧ chooseCheck [] = some .accepted := by
  decide

/-- The names of the checks are parsed back, and nothing else is. -/
theorem check_names (s : String) (c : Check) : Check.fromStr s = some c ↔ s = c.asStr := by
  constructor
  · unfold Check.fromStr
    intro h
    repeat' split at h
    all_goals try cases h
    all_goals first
      | (simp only [Option.some.injEq] at h; subst h; assumption)
      | assumption
  · rintro rfl
    cases c <;> decide

theorem mem_checksToWrite_aux {l : List (String × List Outcome)} {m m' : AMap Check (List String)}
    (hwf : m.Wf) (h : collectChecks l m = some m') : m'.Wf ∧
    ∀ c, (m'.get? c).getD [] = (m.get? c).getD [] ++
      (l.filter (fun p => decide (chooseCheck p.2 = some c))).map (·.1) ∧
      ((m'.get? c).isSome → (m.get? c).isSome ∨ ∃ p ∈ l, chooseCheck p.2 = some c) := by
  induction l generalizing m with
  | nil =>
    simp only [collectChecks, Option.some.injEq] at h
    subst h
    exact ⟨hwf, fun c => by simp⟩
  | cons p l ih =>
    obtain ⟨name, results⟩ := p
    simp only [collectChecks] at h
    cases hc : chooseCheck results with
    | none => rw [hc] at h; cases h
    | some c0 =>
      rw [hc] at h
      obtain ⟨h1, h2⟩ := ih (AMap.wf_insert hwf _ _) h
      refine ⟨h1, ?_⟩
      intro c
      obtain ⟨h3, h4⟩ := h2 c
      constructor
      · rw [h3, AMap.get?_insert]
        by_cases he : c = c0
        · subst he; simp [hc]
        · rw [if_neg he]; simp [hc, Ne.symm he]
      · intro hs
        rcases h4 hs with h5 | ⟨p, hp, hp2⟩
        · rw [AMap.get?_insert] at h5
          by_cases he : c = c0
          · exact .inr ⟨(name, results), by simp, by simp [hc, he]⟩
          · rw [if_neg he] at h5; exact .inl h5
        · exact .inr ⟨p, by simp [hp], hp2⟩

theorem collectChecks_some (l : List (String × List Outcome)) (m : AMap Check (List String)) :
    ∃ m', collectChecks l m = some m' := by
  induction l generalizing m with
  | nil => exact ⟨m, rfl⟩
  | cons p l ih =>
    obtain ⟨c, hc, -⟩ := chosen_check p.2
    simp only [collectChecks, hc]
    exact ih _

/-- The comments written for a solution: one for each check chosen for some subtask, in the order of
the checks, with the names of all the subtasks it was chosen for, in order. -/
theorem checks_to_write (subtasks : List (String × List Outcome)) :
    ∃ cs, checksToWrite subtasks = some cs ∧ cs.Pairwise (fun a b => a.1.tag < b.1.tag) ∧
      ∀ c names, (c, names) ∈ cs ↔ names ≠ [] ∧
        names = (subtasks.filter (fun p => decide (chooseCheck p.2 = some c))).map (·.1) := by
  obtain ⟨m, hm⟩ := collectChecks_some subtasks []
  obtain ⟨hwf, hget⟩ := mem_checksToWrite_aux AMap.wf_nil hm
  refine ⟨isort (fun a b => decide (a.1.tag ≤ b.1.tag)) m,
    by simp only [checksToWrite, hm, Option.map_some], ?_, ?_⟩
  · have hs := isort_sorted' (le := fun (a b : Check × List String) => decide (a.1.tag ≤ b.1.tag))
      (by intro a b; simp; omega) (by intro a b c; simp; omega) m
    have hnd : (isort (fun (a b : Check × List String) => decide (a.1.tag ≤ b.1.tag)) m).Pairwise
        (fun a b => a.1 ≠ b.1) := by
      have h1 : m.Pairwise (fun a b => a.1 ≠ b.1) := by
        have := hwf
        unfold AMap.Wf AMap.keys at this
        exact List.pairwise_map.1 this
      exact ((isort_perm _ m).pairwise_iff (by intro a b h; exact h.symm)).2 h1
    have hb := List.Pairwise.and hs hnd
    refine hb.imp ?_
    rintro a b ⟨h1, h2⟩
    have hinj : ∀ a b : Check, a.tag = b.tag → a = b := by
      intro a b; cases a <;> cases b <;> decide
    have h1' : a.1.tag ≤ b.1.tag := by simpa using h1
    rcases Nat.lt_or_eq_of_le h1' with h | h
    · exact h
    · exact absurd (hinj _ _ h) h2
  · intro c names
    rw [(isort_perm _ m).mem_iff]
    obtain ⟨h1, h2⟩ := hget c
    simp only [AMap.get?_nil, Option.getD_none, List.nil_append, Option.isSome_none, Bool.false_eq_true,
      false_or] at h1 h2
    constructor
    · intro hmem
      have hg := AMap.get?_of_mem hwf hmem
      rw [hg] at h1 h2
      simp only [Option.getD_some, Option.isSome_some, true_implies] at h1 h2
      refine ⟨?_, h1⟩
      obtain ⟨p, hp, hp2⟩ := h2
      rw [h1]
      intro hnil
      rw [List.map_eq_nil_iff, List.filter_eq_nil_iff] at hnil
      exact hnil p hp (by simpa using hp2)
    · rintro ⟨hne, heq⟩
      cases hg : m.get? c with
      | none => rw [hg] at h1; simp only [Option.getD_none] at h1; rw [← heq] at h1; exact absurd h1.symm hne
      | some v =>
        rw [hg] at h1
        simp only [Option.getD_some] at h1
        rw [heq, ← h1]
        exact AMap.mem_of_get? hg

/-- Non-vacuity. -/
example : checksToWrite [("easy", [.accepted, .accepted]), ("slow", [.accepted, .timeLimit]),
    ("all", [.timeLimit, .wrongAnswer]), ("small", [.accepted])] =
    some [(.accepted, ["easy", "small"]), (.timeLimit, ["slow"]), (.zero, ["all"])] := by decide

end TM.Solution
