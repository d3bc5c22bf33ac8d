import Verif.Format.LoadLemmas

/-! # Lemmas about the grouping of the entries -/
namespace TM.Format
open TM AMap

/-- A subtask with some testcases added. -/
def addTcs (s : Subtask) (ids : List Nat) : Subtask :=
  { s with testcases := s.testcases ++ ids, owned := s.owned ++ ids }

theorem addTcs_nil (s : Subtask) : addTcs s [] = s := by simp [addTcs]

theorem addTcs_cons (s : Subtask) (i : Nat) (ids : List Nat) :
    addTcs { s with testcases := s.testcases ++ [i], owned := s.owned ++ [i] } ids =
      addTcs s (i :: ids) := by simp [addTcs]

def isTestcase : Entry → Bool
  | .testcase _ => true
  | .subtask _ => false

/-- Identifiers of the testcases of a list of entries. -/
def tcIds (es : List Entry) : List Nat :=
  es.filterMap fun e => match e with | .testcase t => some t.id | .subtask _ => none

/-- Identifiers of the subtasks of a list of entries. -/
def stIds (es : List Entry) : List Nat :=
  es.filterMap fun e => match e with | .subtask s => some s.id | .testcase _ => none

/-- The testcases that follow, up to the next subtask. -/
def block (es : List Entry) : List Entry := es.takeWhile isTestcase

theorem groupLoop_some (es : List Entry) : ∀ (subs : AMap Nat Subtask) (tcs : AMap Nat Testcase)
    (last : Subtask), ∃ l, groupLoop subs tcs (some last) es = .ok l ∧
      (∀ k, k ∉ last.id :: stIds es → l.subtasks.get? k = subs.get? k) ∧
      (last.id ∉ stIds es → l.subtasks.get? last.id = some (addTcs last (tcIds (block es)))) ∧
      (∀ pre s post, es = pre ++ .subtask s :: post → s.id ∉ stIds post →
        l.subtasks.get? s.id = some (addTcs s (tcIds (block post)))) ∧
      (∀ k, k ∉ tcIds es → l.testcases.get? k = tcs.get? k) ∧
      (∀ pre t post, es = pre ++ .testcase t :: post → t.id ∉ tcIds post →
        l.testcases.get? t.id = some t) := by
  induction es with
  | nil =>
    intro subs tcs last
    refine ⟨_, rfl, ?_, ?_, ?_, ?_, ?_⟩
    · intro k hk
      simp only [stIds, List.filterMap_nil, List.mem_singleton] at hk
      simp only [AMap.get?_insert, if_neg hk]
    · intro _
      simp [AMap.get?_insert, block, tcIds, addTcs_nil]
    · intro pre s post h; cases pre <;> simp at h
    · intro k _; rfl
    · intro pre s post h; cases pre <;> simp at h
  | cons e es ih =>
    intro subs tcs last
    cases e with
    | subtask s0 =>
      simp only [groupLoop]
      obtain ⟨l, hl, h1, h2, h3, h4, h5⟩ := ih (subs.insert last.id last) tcs s0
      refine ⟨l, hl, ?_, ?_, ?_, ?_, ?_⟩
      · intro k hk
        simp only [stIds, List.filterMap_cons, List.mem_cons, not_or] at hk
        rw [h1 k (by simp only [List.mem_cons, not_or]; exact ⟨hk.2.1, hk.2.2⟩),
          AMap.get?_insert, if_neg hk.1]
      · intro hk
        simp only [stIds, List.filterMap_cons, List.mem_cons, not_or] at hk
        rw [h1 last.id (by simp only [List.mem_cons, not_or]; exact ⟨hk.1, hk.2⟩), AMap.get?_insert,
          if_pos rfl]
        simp [block, tcIds, isTestcase, addTcs_nil]
      · intro pre s post h hs
        cases pre with
        | nil => simp only [List.nil_append, List.cons.injEq, Entry.subtask.injEq] at h
                 obtain ⟨rfl, rfl⟩ := h
                 exact h2 hs
        | cons p pre =>
          simp only [List.cons_append, List.cons.injEq] at h
          exact h3 pre s post h.2 hs
      · intro k hk; exact h4 k (by simpa [tcIds] using hk)
      · intro pre t post h ht
        cases pre with
        | nil => simp at h
        | cons p pre =>
          simp only [List.cons_append, List.cons.injEq] at h
          exact h5 pre t post h.2 ht
    | testcase t0 =>
      simp only [groupLoop]
      obtain ⟨l, hl, h1, h2, h3, h4, h5⟩ := ih subs (tcs.insert t0.id t0)
        { last with testcases := last.testcases ++ [t0.id], owned := last.owned ++ [t0.id] }
      have hst : stIds (.testcase t0 :: es) = stIds es := by simp [stIds]
      have htc : tcIds (.testcase t0 :: es) = t0.id :: tcIds es := by simp [tcIds]
      have hbl : tcIds (block (.testcase t0 :: es)) = t0.id :: tcIds (block es) := by
        simp [block, isTestcase, tcIds, List.takeWhile_cons]
      refine ⟨l, hl, ?_, ?_, ?_, ?_, ?_⟩
      · intro k hk; rw [hst] at hk; exact h1 k hk
      · intro hk; rw [hst] at hk
        rw [hbl, ← addTcs_cons]; exact h2 hk
      · intro pre s post h hs
        cases pre with
        | nil => simp at h
        | cons p pre =>
          simp only [List.cons_append, List.cons.injEq] at h
          exact h3 pre s post h.2 hs
      · intro k hk
        rw [htc, List.mem_cons, not_or] at hk
        rw [h4 k hk.2, AMap.get?_insert, if_neg hk.1]
      · intro pre t post h ht
        cases pre with
        | nil =>
          simp only [List.nil_append, List.cons.injEq, Entry.testcase.injEq] at h
          obtain ⟨rfl, rfl⟩ := h
          rw [h4 _ ht, AMap.get?_insert, if_pos rfl]
        | cons p pre =>
          simp only [List.cons_append, List.cons.injEq] at h
          exact h5 pre t post h.2 ht

theorem wf_groupLoop (es : List Entry) : ∀ (subs : AMap Nat Subtask) (tcs : AMap Nat Testcase)
    (last : Option Subtask), AMap.Wf subs → ∀ l, groupLoop subs tcs last es = .ok l →
      AMap.Wf l.subtasks := by
  induction es with
  | nil =>
    intro subs tcs last hw l h
    cases last with
    | none => simp only [groupLoop, Except.ok.injEq] at h; subst h; exact hw
    | some s => simp only [groupLoop, Except.ok.injEq] at h; subst h; exact AMap.wf_insert hw _ _
  | cons e es ih =>
    intro subs tcs last hw l h
    cases e with
    | subtask s =>
      cases last with
      | none => exact ih _ _ _ hw l h
      | some s' => exact ih _ _ _ (AMap.wf_insert hw _ _) l h
    | testcase t =>
      cases last with
      | none => simp [groupLoop] at h
      | some s' => exact ih _ _ _ hw l h

end TM.Format
