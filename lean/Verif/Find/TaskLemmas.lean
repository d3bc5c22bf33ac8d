import Verif.Find.Spec

/-!
# Which task: lemmas
-/
namespace TM.Find
open TM AMap

theorem exists_iff (w : World) (p : RPath) : w.exists p = true ↔ w.resolve p ∈ w.fs.keys := by
  unfold World.exists
  rw [contains_iff, mem_keys_iff]

theorem isValid_iff (w : World) (f : Fmt) (d : RPath) : isValid w f d = true ↔ LooksLike w f d := by
  cases f <;> simp [isValid, LooksLike, exists_iff, RPath.push]

theorem up_zero (d : RPath) : d.up 0 = d := by cases d; simp [RPath.up]

theorem parent_some {d d' : RPath} (h : d.parent = some d') : d.comps ≠ [] ∧ d' = d.up 1 := by
  unfold RPath.parent at h
  by_cases he : d.comps = []
  · rw [if_pos he] at h; cases h
  · rw [if_neg he] at h
    cases h
    exact ⟨he, by simp [RPath.up, List.dropLast_eq_take]⟩

theorem parent_none {d : RPath} (h : d.parent = none) : d.comps = [] := by
  unfold RPath.parent at h
  by_cases he : d.comps = []
  · exact he
  · rw [if_neg he] at h; cases h

theorem up_up {d : RPath} {k : Nat} : (d.up 1).up k = d.up (k + 1) := by
  simp only [RPath.up, List.length_take, List.take_take, RPath.mk.injEq, true_and]
  congr 1
  omega

theorem up_length {d : RPath} (h : d.comps ≠ []) : (d.up 1).comps.length + 1 = d.comps.length := by
  have := List.length_pos_iff.2 h
  simp only [RPath.up, List.length_take]
  omega

/-- What one directory says. -/
theorem lookAt_found {w : World} {ps : Parsers} {d : RPath} {f : Fmt} {d' : RPath} :
    lookAt w ps d = .inl (.found f d') ↔ d' = d ∧ IsTask w ps f d ∧ ∀ g, g ≠ f → ¬ IsTask w ps g d := by
  have h1 := isValid_iff w .ioi d
  have h2 := isValid_iff w .terry d
  unfold lookAt IsTask
  rw [← isValid_iff]
  constructor
  · intro h
    cases f <;> cases a : isValid w .ioi d <;> cases b : isValid w .terry d <;>
      cases a' : ps.parse .ioi d <;> cases b' : ps.parse .terry d <;> simp [a, b, a', b'] at h <;>
      (subst h; refine ⟨rfl, by simp [a, b, a', b'], ?_⟩; intro g hg; rw [← isValid_iff]; cases g <;> simp [a, b, a', b'] at hg ⊢)
  · rintro ⟨rfl, ⟨h3, h4⟩, h5⟩
    have h6 := h5 .ioi
    have h7 := h5 .terry
    rw [← isValid_iff] at h6 h7
    cases f
    · simp only [h3, h4, Bool.and_self]
      have := h7 (by decide)
      cases b : isValid w .terry d' <;> cases b' : ps.parse .terry d' <;> simp [b, b'] at this ⊢
    · simp only [h3, h4, if_true]
      have := h6 (by decide)
      cases b : isValid w .ioi d' <;> cases b' : ps.parse .ioi d' <;> simp [b, b'] at this ⊢

theorem lookAt_ambiguous {w : World} {ps : Parsers} {d : RPath} {d' : RPath} :
    lookAt w ps d = .inl (.ambiguous d') ↔ d' = d ∧ ∀ g, IsTask w ps g d := by
  unfold lookAt IsTask
  constructor
  · intro h
    cases a : isValid w .ioi d <;> cases b : isValid w .terry d <;>
      cases a' : ps.parse .ioi d <;> cases b' : ps.parse .terry d <;> simp [a, b, a', b'] at h
    subst h
    refine ⟨rfl, ?_⟩
    intro g
    rw [← isValid_iff]
    cases g <;> simp [a, b, a', b']
  · rintro ⟨rfl, h⟩
    have h6 := h .ioi
    have h7 := h .terry
    rw [← isValid_iff] at h6 h7
    simp [h6.1, h6.2, h7.1, h7.2]

theorem lookAt_missing {w : World} {ps : Parsers} {d : RPath} {fails : List (Fmt × RPath)} :
    lookAt w ps d ≠ .inl (.missing fails) := by
  unfold lookAt
  intro h
  cases a : isValid w .ioi d <;> cases b : isValid w .terry d <;>
      cases a' : ps.parse .ioi d <;> cases b' : ps.parse .terry d <;> simp [a, b, a', b'] at h

theorem lookAt_next {w : World} {ps : Parsers} {d : RPath} {more : List (Fmt × RPath)}
    (h : lookAt w ps d = .inr more) :
    (∀ g, ¬ IsTask w ps g d) ∧ ∀ g e, (g, e) ∈ more ↔ e = d ∧ IsBroken w ps g d := by
  unfold lookAt at h
  unfold IsTask IsBroken
  cases a : isValid w .ioi d <;> cases b : isValid w .terry d <;>
      cases a' : ps.parse .ioi d <;> cases b' : ps.parse .terry d <;> simp [a, b, a', b'] at h <;>
      (subst h; refine ⟨?_, ?_⟩ <;> (intro g; rw [← isValid_iff]; cases g <;> simp [*]))

/-- The loop. -/
theorem search_spec (w : World) (ps : Parsers) (m : Nat) (d : RPath) (fails : List (Fmt × RPath)) :
    (∀ f e, searchLoop w ps m d fails = .found f e ↔
      ∃ k, k < m ∧ k ≤ d.comps.length ∧ e = d.up k ∧ IsTask w ps f e ∧ (∀ g, g ≠ f → ¬ IsTask w ps g e) ∧
        ∀ j < k, ∀ g, ¬ IsTask w ps g (d.up j)) ∧
    (∀ e, searchLoop w ps m d fails = .ambiguous e ↔
      ∃ k, k < m ∧ k ≤ d.comps.length ∧ e = d.up k ∧ (∀ g, IsTask w ps g e) ∧
        ∀ j < k, ∀ g, ¬ IsTask w ps g (d.up j)) ∧
    (∀ l, searchLoop w ps m d fails = .missing l →
      (∀ k, k < m → k ≤ d.comps.length → ∀ g, ¬ IsTask w ps g (d.up k)) ∧
      ∀ g e, (g, e) ∈ l ↔ (g, e) ∈ fails ∨ ∃ k, k < m ∧ k ≤ d.comps.length ∧ e = d.up k ∧ IsBroken w ps g e) := by
  induction m generalizing d fails with
  | zero =>
    refine ⟨?_, ?_, ?_⟩
    · intro f e; simp [searchLoop]
    · intro e; simp [searchLoop]
    · intro l h
      simp only [searchLoop, Search.missing.injEq] at h
      subst h
      simp
  | succ m ih =>
    cases hl : lookAt w ps d with
    | inl r =>
      have hs : searchLoop w ps (m + 1) d fails = r := by simp only [searchLoop, hl]
      rw [hs]
      cases r with
      | found f' e' =>
        obtain ⟨rfl, h2, h3⟩ := lookAt_found.1 hl
        refine ⟨?_, ?_, ?_⟩
        · intro f e
          constructor
          · intro h
            cases h
            exact ⟨0, by omega, by omega, (up_zero _).symm, h2, h3, fun j hj => absurd hj (by omega)⟩
          · rintro ⟨k, k1, k2, rfl, k4, k5, k6⟩
            have hk : k = 0 := by
              rcases Nat.eq_zero_or_pos k with h | h
              · exact h
              · have := k6 0 h f'
                rw [up_zero] at this
                exact absurd h2 this
            subst hk
            rw [up_zero] at k4 k5 ⊢
            by_cases hf : f' = f
            · rw [hf]
            · exact absurd h2 (k5 f' hf)
        · intro e
          constructor
          · intro h; cases h
          · rintro ⟨k, k1, k2, rfl, k4, k6⟩
            exfalso
            have hk : k = 0 := by
              rcases Nat.eq_zero_or_pos k with h | h
              · exact h
              · have := k6 0 h f'
                rw [up_zero] at this
                exact absurd h2 this
            subst hk
            rw [up_zero] at k4
            cases f'
            · exact h3 .terry (by decide) (k4 _)
            · exact h3 .ioi (by decide) (k4 _)
        · intro l h; cases h
      | ambiguous e' =>
        obtain ⟨rfl, h2⟩ := lookAt_ambiguous.1 hl
        refine ⟨?_, ?_, ?_⟩
        · intro f e
          constructor
          · intro h; cases h
          · rintro ⟨k, k1, k2, rfl, k4, k5, k6⟩
            exfalso
            have hk : k = 0 := by
              rcases Nat.eq_zero_or_pos k with h | h
              · exact h
              · have := k6 0 h f
                rw [up_zero] at this
                exact absurd (h2 f) this
            subst hk
            rw [up_zero] at k5
            cases f
            · exact k5 .terry (by decide) (h2 _)
            · exact k5 .ioi (by decide) (h2 _)
        · intro e
          constructor
          · intro h
            cases h
            exact ⟨0, by omega, by omega, (up_zero _).symm, h2, fun j hj => absurd hj (by omega)⟩
          · rintro ⟨k, k1, k2, rfl, k4, k6⟩
            have hk : k = 0 := by
              rcases Nat.eq_zero_or_pos k with h | h
              · exact h
              · have := k6 0 h .ioi
                rw [up_zero] at this
                exact absurd (h2 .ioi) this
            subst hk
            rw [up_zero]
        · intro l h; cases h
      | missing l' => exact absurd hl lookAt_missing
    | inr more =>
      obtain ⟨n1, n2⟩ := lookAt_next hl
      cases hp : d.parent with
      | none =>
        have hs : searchLoop w ps (m + 1) d fails = .missing (fails ++ more) := by simp only [searchLoop, hl, hp]
        have hnil := parent_none hp
        rw [hs]
        have hz : ∀ k, k ≤ d.comps.length → d.up k = d := by
          intro k hk
          rw [hnil] at hk
          have : k = 0 := by simpa using hk
          subst this
          exact up_zero d
        refine ⟨?_, ?_, ?_⟩
        · intro f e
          constructor
          · intro h; cases h
          · rintro ⟨k, k1, k2, rfl, k4, k5, k6⟩
            rw [hz k k2] at k4
            exact absurd k4 (n1 f)
        · intro e
          constructor
          · intro h; cases h
          · rintro ⟨k, k1, k2, rfl, k4, k6⟩
            rw [hz k k2] at k4
            exact absurd (k4 .ioi) (n1 .ioi)
        · intro l h
          cases h
          refine ⟨?_, ?_⟩
          · intro k k1 k2 g
            rw [hz k k2]; exact n1 g
          · intro g e
            rw [List.mem_append, n2]
            constructor
            · rintro (h | ⟨rfl, h⟩)
              · exact .inl h
              · exact .inr ⟨0, by omega, by omega, (up_zero _).symm, h⟩
            · rintro (h | ⟨k, k1, k2, rfl, h⟩)
              · exact .inl h
              · right
                rw [hz k k2] at h ⊢
                exact ⟨rfl, h⟩
      | some d' =>
        have hs : searchLoop w ps (m + 1) d fails = searchLoop w ps m d' (fails ++ more) := by
          simp only [searchLoop, hl, hp]
        obtain ⟨hne, rfl⟩ := parent_some hp
        have hlen := up_length hne
        obtain ⟨i1, i2, i3⟩ := ih (d.up 1) (fails ++ more)
        rw [hs]
        refine ⟨?_, ?_, ?_⟩
        · intro f e
          rw [i1]
          constructor
          · rintro ⟨k, k1, k2, rfl, k4, k5, k6⟩
            refine ⟨k + 1, by omega, by omega, up_up, k4, k5, ?_⟩
            intro j hj g
            cases j with
            | zero => rw [up_zero]; exact n1 g
            | succ j => rw [← up_up]; exact k6 j (by omega) g
          · rintro ⟨k, k1, k2, rfl, k4, k5, k6⟩
            cases k with
            | zero => rw [up_zero] at k4; exact absurd k4 (n1 f)
            | succ k =>
              refine ⟨k, by omega, by omega, up_up.symm, k4, k5, ?_⟩
              intro j hj g
              rw [up_up]; exact k6 (j + 1) (by omega) g
        · intro e
          rw [i2]
          constructor
          · rintro ⟨k, k1, k2, rfl, k4, k6⟩
            refine ⟨k + 1, by omega, by omega, up_up, k4, ?_⟩
            intro j hj g
            cases j with
            | zero => rw [up_zero]; exact n1 g
            | succ j => rw [← up_up]; exact k6 j (by omega) g
          · rintro ⟨k, k1, k2, rfl, k4, k6⟩
            cases k with
            | zero => rw [up_zero] at k4; exact absurd (k4 .ioi) (n1 .ioi)
            | succ k =>
              refine ⟨k, by omega, by omega, up_up.symm, k4, ?_⟩
              intro j hj g
              rw [up_up]; exact k6 (j + 1) (by omega) g
        · intro l h
          obtain ⟨j1, j2⟩ := i3 l h
          refine ⟨?_, ?_⟩
          · intro k k1 k2 g
            cases k with
            | zero => rw [up_zero]; exact n1 g
            | succ k => rw [← up_up]; exact j1 k (by omega) (by omega) g
          · intro g e
            rw [j2, List.mem_append, n2]
            constructor
            · rintro ((h | ⟨rfl, h⟩) | ⟨k, k1, k2, rfl, h⟩)
              · exact .inl h
              · exact .inr ⟨0, by omega, by omega, (up_zero _).symm, h⟩
              · exact .inr ⟨k + 1, by omega, by omega, up_up, h⟩
            · rintro (h | ⟨k, k1, k2, rfl, h⟩)
              · exact .inl (.inl h)
              · cases k with
                | zero => rw [up_zero] at h ⊢; exact .inl (.inr ⟨rfl, h⟩)
                | succ k => exact .inr ⟨k, by omega, by omega, up_up.symm, h⟩

end TM.Find
