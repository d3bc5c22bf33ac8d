import Verif.Sanity.Deps
/-!
# Lemmas on the order of difficulty of the subtasks
-/
namespace TM.Sanity
open TM TM.Build TM.Ui

variable {task : Task} {nfkc : List Char → List Char}

theorem about_iff (c : SolCheck) (st : Nat) :
    About task nfkc c st ↔ ∃ s ∈ subtasksByPattern task nfkc c.pattern, s.id = st := by
  unfold About subtasksByPattern
  constructor
  · rintro ⟨s, hs, hid, name, hn, hg⟩
    refine ⟨s, List.mem_filter.2 ⟨hs, ?_⟩, hid⟩
    simp only [hn]
    exact (wildMatch_iff _ _).2 hg
  · rintro ⟨s, hs, hid⟩
    obtain ⟨h1, h2⟩ := List.mem_filter.1 hs
    refine ⟨s, h1, hid, ?_⟩
    cases hn : s.name with
    | none => simp [hn] at h2
    | some name =>
      simp only [hn] at h2
      exact ⟨name, rfl, (wildMatch_iff _ _).1 h2⟩

theorem insertAll_get (l : List Subtask) (v : Nat × Nat) (st : Nat) : ∀ m : AMap Nat (Nat × Nat),
    (l.foldl (fun m s => m.insert s.id v) m).get? st =
      if (∃ s ∈ l, s.id = st) then some v else m.get? st := by
  induction l with
  | nil => intro m; simp
  | cons s l ih =>
    intro m
    rw [List.foldl_cons, ih]
    by_cases h : ∃ s ∈ l, s.id = st
    · rw [if_pos h, if_pos]
      obtain ⟨x, h1, h2⟩ := h
      exact ⟨x, by simp [h1], h2⟩
    · rw [if_neg h, AMap.get?_insert]
      by_cases hs : st = s.id
      · rw [if_pos hs, if_pos ⟨s, by simp, hs.symm⟩]
      · rw [if_neg hs, if_neg]
        rintro ⟨x, h1, h2⟩
        rcases List.mem_cons.1 h1 with rfl | h1
        · exact hs h2.symm
        · exact h ⟨x, h1, h2⟩

theorem scoreRanges_snoc (checks : List SolCheck) (c : SolCheck) (st : Nat) :
    (About task nfkc c st → (scoreRanges task nfkc (checks ++ [c])).get? st = some (scoreRange c.result)) ∧
    (¬ About task nfkc c st → (scoreRanges task nfkc (checks ++ [c])).get? st =
      (scoreRanges task nfkc checks).get? st) := by
  have : scoreRanges task nfkc (checks ++ [c]) = (subtasksByPattern task nfkc c.pattern).foldl
    (fun m st => m.insert st.id (scoreRange c.result)) (scoreRanges task nfkc checks) := by
    unfold scoreRanges
    rw [List.foldl_append]
    rfl
  rw [this, insertAll_get, about_iff]
  exact ⟨fun h => if_pos h, fun h => if_neg h⟩

theorem list_snoc_induction {α : Type} {P : List α → Prop} (h0 : P []) (h1 : ∀ l a, P l → P (l ++ [a])) :
    ∀ l, P l := by
  have : ∀ l : List α, P l.reverse := by
    intro l
    induction l with
    | nil => exact h0
    | cons a l ih => rw [List.reverse_cons]; exact h1 _ _ ih
  intro l
  have := this l.reverse
  rwa [List.reverse_reverse] at this

/-- The map says what is expected. -/
theorem scoreRanges_iff (checks : List SolCheck) (st : Nat) (v : Nat × Nat) :
    (scoreRanges task nfkc checks).get? st = some v ↔ ∃ r, Expects task nfkc checks st r ∧ v = scoreRange r := by
  induction checks using list_snoc_induction with
  | h0 =>
    constructor
    · intro h; cases h
    · rintro ⟨r, ⟨a, c, b, h, -⟩, -⟩
      cases a <;> cases h
  | h1 checks c ih =>
    obtain ⟨h1, h2⟩ := scoreRanges_snoc (task := task) (nfkc := nfkc) checks c st
    have split : ∀ {r}, Expects task nfkc (checks ++ [c]) st r →
        (About task nfkc c st ∧ r = c.result) ∨ (¬ About task nfkc c st ∧ Expects task nfkc checks st r) := by
      rintro r ⟨a, d, b, h, h3, h4, h5⟩
      rcases List.eq_nil_or_concat b with rfl | ⟨b', x, rfl⟩
      · obtain ⟨-, h7⟩ := List.append_inj' h rfl
        cases h7
        exact .inl ⟨h3, h5⟩
      · have h8 : checks ++ [c] = (a ++ d :: b') ++ [x] := by simpa using h
        obtain ⟨h9, h10⟩ := List.append_inj' h8 rfl
        cases h10
        exact .inr ⟨h4 c (by simp), a, d, b', h9, h3, (fun c' hc => h4 c' (by simp [hc])), h5⟩
    by_cases ha : About task nfkc c st
    · rw [h1 ha]
      constructor
      · intro h
        cases h
        exact ⟨c.result, ⟨checks, c, [], by simp, ha, by simp, rfl⟩, rfl⟩
      · rintro ⟨r, hr, rfl⟩
        rcases split hr with ⟨-, rfl⟩ | ⟨hn, -⟩
        · rfl
        · exact absurd ha hn
    · rw [h2 ha, ih]
      constructor
      · rintro ⟨r, ⟨a, d, b, h, h3, h4, h5⟩, hv⟩
        refine ⟨r, ⟨a, d, b ++ [c], by simp [h], h3, ?_, h5⟩, hv⟩
        intro c' hc
        rcases List.mem_append.1 hc with hc | hc
        · exact h4 c' hc
        · rw [List.mem_singleton] at hc; subst hc; exact ha
      · rintro ⟨r, hr, hv⟩
        rcases split hr with ⟨h, -⟩ | ⟨-, h⟩
        · exact absurd h ha
        · exact ⟨r, h, hv⟩

theorem mem_allPairs {sts : List Nat} {a b : Nat} :
    (a, b) ∈ allPairs sts ↔ a ∈ sts ∧ b ∈ sts ∧ a ≠ b := by
  unfold allPairs
  constructor
  · intro h
    obtain ⟨x, hx, h⟩ := List.mem_flatMap.1 h
    obtain ⟨y, hy, h⟩ := List.mem_map.1 h
    cases h
    obtain ⟨h1, h2⟩ := List.mem_filter.1 hy
    exact ⟨hx, h1, by simpa using h2⟩
  · rintro ⟨h1, h2, h3⟩
    exact List.mem_flatMap.2 ⟨a, h1, List.mem_map.2 ⟨b, List.mem_filter.2 ⟨h2, by simpa using h3⟩, rfl⟩⟩

theorem removal {m : AMap Nat (Nat × Nat)} {q : Nat × Nat} : ∀ (ps d : List (Nat × Nat)),
    q ∈ ps.foldl (fun d p => if refuted m p then d.filter (fun q => q ≠ p) else d) d ↔
      q ∈ d ∧ (q ∈ ps → refuted m q = false) := by
  intro ps
  induction ps with
  | nil => intro d; simp
  | cons p ps ih =>
    intro d
    rw [List.foldl_cons, ih]
    by_cases hp : refuted m p
    · rw [if_pos hp]
      simp only [List.mem_filter, ne_eq, decide_not, Bool.not_eq_true', decide_eq_false_iff_not, List.mem_cons]
      constructor
      · rintro ⟨⟨h1, h2⟩, h3⟩
        exact ⟨h1, fun h => h.elim (fun h => absurd h h2) h3⟩
      · rintro ⟨h1, h2⟩
        refine ⟨⟨h1, ?_⟩, fun h => h2 (.inr h)⟩
        rintro rfl
        rw [h2 (.inl rfl)] at hp
        cases hp
    · rw [if_neg hp]
      simp only [List.mem_cons]
      constructor
      · rintro ⟨h1, h2⟩
        refine ⟨h1, fun h => h.elim (fun h => ?_) h2⟩
        rw [h]
        simpa using hp
      · rintro ⟨h1, h2⟩
        exact ⟨h1, fun h => h2 (.inr h)⟩

theorem mem_implied {sts : List Nat} {sols : List (List SolCheck)} {a b : Nat} :
    (a, b) ∈ implied task nfkc sts sols ↔ a ∈ sts ∧ b ∈ sts ∧ a ≠ b ∧ Implies task nfkc sols a b := by
  have key : ∀ checks : List SolCheck, refuted (scoreRanges task nfkc checks) (a, b) = false ↔
      ∀ ra rb, Expects task nfkc checks a ra → Expects task nfkc checks b rb →
        (ra ≠ .accepted ∧ ra ≠ .partialScore) ∨ rb = .accepted := by
    intro checks
    have comp : ∀ ra rb : Solution.Check, (scoreRange rb).1 < (scoreRange ra).2 ↔
        ¬ ((ra ≠ .accepted ∧ ra ≠ .partialScore) ∨ rb = .accepted) := by
      intro ra rb; cases ra <;> cases rb <;> decide
    constructor
    · intro h ra rb ha hb
      have h1 := (scoreRanges_iff checks a _).2 ⟨ra, ha, rfl⟩
      have h2 := (scoreRanges_iff checks b _).2 ⟨rb, hb, rfl⟩
      unfold refuted at h
      rw [h1, h2] at h
      simp only [decide_eq_false_iff_not, comp, Decidable.not_not] at h
      exact h
    · intro h
      unfold refuted
      cases h1 : (scoreRanges task nfkc checks).get? a with
      | none => rfl
      | some v1 =>
        cases h2 : (scoreRanges task nfkc checks).get? b with
        | none => rfl
        | some v2 =>
          obtain ⟨ra, ha, rfl⟩ := (scoreRanges_iff checks a _).1 h1
          obtain ⟨rb, hb, rfl⟩ := (scoreRanges_iff checks b _).1 h2
          simp only [decide_eq_false_iff_not, comp, Decidable.not_not]
          exact h ra rb ha hb
  have fold : ∀ (sols : List (List SolCheck)) (d : List (Nat × Nat)), a ∈ sts → b ∈ sts →
      ((a, b) ∈ sols.foldl (fun d checks =>
        let m := scoreRanges task nfkc checks
        (sts.flatMap (fun a => sts.map (fun b => (a, b)))).foldl
          (fun d p => if refuted m p then d.filter (fun q => q ≠ p) else d) d) d ↔
        (a, b) ∈ d ∧ Implies task nfkc sols a b) := by
    intro sols
    induction sols with
    | nil => intro d _ _; simp [Implies]
    | cons checks sols ih =>
      intro d ha hb
      rw [List.foldl_cons, ih _ ha hb]
      simp only
      rw [removal]
      have hin : (a, b) ∈ sts.flatMap (fun a => sts.map (fun b => (a, b))) :=
        List.mem_flatMap.2 ⟨a, ha, List.mem_map.2 ⟨b, hb, rfl⟩⟩
      rw [show ((a, b) ∈ sts.flatMap (fun a => sts.map (fun b => (a, b))) →
        refuted (scoreRanges task nfkc checks) (a, b) = false) ↔
        refuted (scoreRanges task nfkc checks) (a, b) = false from ⟨fun h => h hin, fun h _ => h⟩, key]
      unfold Implies
      simp only [List.mem_cons, forall_eq_or_imp, and_assoc]
  unfold implied
  constructor
  · intro h
    have hp : (a, b) ∈ allPairs sts := by
      have mono : ∀ (sols : List (List SolCheck)) (d : List (Nat × Nat)),
          (a, b) ∈ sols.foldl (fun d checks =>
            let m := scoreRanges task nfkc checks
            (sts.flatMap (fun a => sts.map (fun b => (a, b)))).foldl
              (fun d p => if refuted m p then d.filter (fun q => q ≠ p) else d) d) d → (a, b) ∈ d := by
        intro sols
        induction sols with
        | nil => intro d h; exact h
        | cons checks sols ih =>
          intro d h
          rw [List.foldl_cons] at h
          exact ((removal _ _).1 (ih _ h)).1
      exact mono _ _ h
    obtain ⟨h1, h2, h3⟩ := mem_allPairs.1 hp
    exact ⟨h1, h2, h3, ((fold _ _ h1 h2).1 h).2⟩
  · rintro ⟨h1, h2, h3, h4⟩
    exact (fold _ _ h1 h2).2 ⟨mem_allPairs.2 ⟨h1, h2, h3⟩, h4⟩

theorem groupLoop_eq {deps : List (Nat × Nat)} {st1 : Nat} : ∀ (l acc : List Nat),
    groupLoop deps st1 acc l =
      if (∃ x ∈ l, ((st1, x) ∈ deps ∧ (x, st1) ∈ deps) ∧ x ≤ st1) then none
      else some (acc ++ l.filter (fun x => decide ((st1, x) ∈ deps ∧ (x, st1) ∈ deps))) := by
  intro l
  induction l with
  | nil => intro acc; simp [groupLoop]
  | cons b l ih =>
    intro acc
    unfold groupLoop
    by_cases hb : (st1, b) ∈ deps ∧ (b, st1) ∈ deps
    · rw [if_pos hb]
      by_cases hlt : st1 < b
      · rw [if_pos hlt, ih]
        by_cases he : ∃ x ∈ l, ((st1, x) ∈ deps ∧ (x, st1) ∈ deps) ∧ x ≤ st1
        · rw [if_pos he, if_pos]
          obtain ⟨x, h1, h2⟩ := he
          exact ⟨x, by simp [h1], h2⟩
        · rw [if_neg he, if_neg]
          · rw [List.filter_cons, if_pos (by simpa using hb)]
            simp
          · rintro ⟨x, h1, h2, h3⟩
            rcases List.mem_cons.1 h1 with rfl | h1
            · omega
            · exact he ⟨x, h1, h2, h3⟩
      · rw [if_neg hlt, if_pos ⟨b, by simp, hb, by omega⟩]
    · rw [if_neg hb, ih]
      by_cases he : ∃ x ∈ l, ((st1, x) ∈ deps ∧ (x, st1) ∈ deps) ∧ x ≤ st1
      · rw [if_pos he, if_pos]
        obtain ⟨x, h1, h2⟩ := he
        exact ⟨x, by simp [h1], h2⟩
      · rw [if_neg he, if_neg]
        · rw [List.filter_cons, if_neg (by simpa using hb)]
        · rintro ⟨x, h1, h2, h3⟩
          rcases List.mem_cons.1 h1 with rfl | h1
          · exact hb h2
          · exact he ⟨x, h1, h2, h3⟩

end TM.Sanity
