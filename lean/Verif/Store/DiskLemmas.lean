import Verif.Store.Inv
/-!
How each step changes the files, and where their content comes from.
-/

namespace TM.Store

open TM

theorem reach_inv {a b : Nat} {ops : List Op} {s : State} (h : Reach a b ops s) : Inv s := by
  induction h with
  | init => exact inv_init a b
  | step op _ hs ih => exact inv_step ih hs

/-- The index a flush starts from, if the step flushes. -/
inductive Flushes (s : State) : Op → Index → Prop
  | store {t now u key content hid c} (ht : s.threads.get? t = some (.storing key content hid .renamed))
      (hc : s.disk.get? key = some c) : Flushes s (.storeIndex t now u) (s.index.add key c.length now)
  | close {u v} : Flushes s (.close u v) s.index
  | crash {t now n u v key content hid c}
      (ht : s.threads.get? t = some (.storing key content hid .renamed))
      (hc : s.disk.get? key = some c) :
      Flushes s (.flushCrash t now n u v) (s.index.add key c.length now)

/-- `k` is removed from the disk by the step `op`. -/
def Removal (s : State) (op : Op) (k : Key) : Prop :=
  ∃ ix, Flushes s op ix ∧ ix.Ok ∧ ix.total ≥ s.maxSize ∧ k ∈ (ix.flush s.locked s.minSize).2

theorem maybeFlush_cases (s : State) (u : List Key) (k : Key) :
    (s.maybeFlush u).disk.get? k = s.disk.get? k ∨
    ((s.maybeFlush u).disk.get? k = none ∧ s.index.total ≥ s.maxSize ∧
      k ∈ (s.index.flush s.locked s.minSize).2) := by
  unfold State.maybeFlush
  split
  · next hn =>
    simp only [get?_removeFiles]
    split
    · exact Or.inl rfl
    · next h =>
      refine Or.inr ⟨rfl, by simpa [Index.needFlush] using hn, ?_⟩
      apply Decidable.byContradiction
      intro hk
      exact h (Or.inl hk)
  · exact Or.inl rfl

theorem step_disk {s s' : State} (h : Inv s) {op : Op} (hs : step s op = some s') (k : Key) :
    s'.disk.get? k = s.disk.get? k ∨
    (∃ t c hid, op = .storeRename t ∧ s.threads.get? t = some (.storing k c hid .writing) ∧
      s'.disk.get? k = some c) ∨
    (s'.disk.get? k = none ∧ Removal s op k) := by
  cases op with
  | storeBegin t hid key content =>
    simp only [step] at hs
    split at hs
    · cases hs; exact Or.inl rfl
    · cases hs
  | storeCheck t =>
    simp only [step] at hs
    split at hs
    · split at hs <;> (cases hs; exact Or.inl rfl)
    · cases hs
  | storeRename t =>
    simp only [step] at hs
    split at hs
    · next key content hid ht =>
      cases hs
      by_cases e : k = key
      · subst e
        exact Or.inr (Or.inl ⟨t, content, hid, rfl, ht, AMap.get?_insert_self _ _ _⟩)
      · exact Or.inl (AMap.get?_insert_ne _ _ e)
    · cases hs
  | storeIndex t now u =>
    simp only [step] at hs
    split at hs
    · next key content hid ht =>
      split at hs
      · next c hc =>
        cases hs
        rcases maybeFlush_cases { s with
          index := s.index.add key c.length now
          threads := s.threads.insert t (.storing key content hid .indexed) } u k with e | ⟨e, h1, h2⟩
        · exact Or.inl e
        · exact Or.inr (Or.inr ⟨e, _, .store ht hc, add_ok h.index _ _ _, h1, h2⟩)
      · cases hs
    · cases hs
  | storeSave t =>
    simp only [step] at hs
    split at hs
    · cases hs; exact Or.inl rfl
    · cases hs
  | storeFail t =>
    simp only [step] at hs
    split at hs
    · split at hs
      · simp only [State.dropHandle, Option.map_eq_some_iff] at hs
        obtain ⟨r, _, rfl⟩ := hs
        exact Or.inl rfl
      · cases hs
    · cases hs
  | getCheck t key =>
    simp only [step] at hs
    split at hs
    · cases hs; exact Or.inl rfl
    · cases hs
  | getTouch t now =>
    simp only [step] at hs
    split at hs
    · cases hs; exact Or.inl rfl
    · cases hs
  | getFinish t hid =>
    simp only [step] at hs
    split at hs
    · split at hs
      · cases hs; exact Or.inl rfl
      · cases hs
    · cases hs
  | clone hid hid' =>
    simp only [step] at hs
    split at hs
    · split at hs
      · cases hs; exact Or.inl rfl
      · cases hs
    · cases hs
  | dropHandle hid =>
    simp only [step] at hs
    split at hs
    · split at hs
      · cases hs
      · simp only [State.dropHandle, Option.map_eq_some_iff] at hs
        obtain ⟨r, _, rfl⟩ := hs
        exact Or.inl rfl
    · cases hs
  | close u v =>
    simp only [step, Option.some.injEq] at hs
    subst hs
    rcases maybeFlush_cases s u k with e | ⟨e, h1, h2⟩
    · exact Or.inl e
    · exact Or.inr (Or.inr ⟨e, _, .close, h.index, h1, h2⟩)
  | crash v =>
    simp only [step, Option.some.injEq] at hs
    subst hs
    exact Or.inl rfl
  | flushCrash t now n u v =>
    simp only [step] at hs
    split at hs
    · next key content hid ht =>
      split at hs
      · next c hc =>
        split at hs
        · next hn =>
          cases hs
          simp only [State.reopen, get?_removeFiles]
          split
          · exact Or.inl rfl
          · next hk =>
            refine Or.inr (Or.inr ⟨rfl, _, .crash ht hc, add_ok h.index _ _ _,
              by simpa [Index.needFlush] using hn, ?_⟩)
            apply Decidable.byContradiction
            intro hk'
            exact hk (Or.inl (fun hm => hk' (List.mem_of_mem_take hm)))
        · cases hs
      · cases hs
    · cases hs

theorem removal_unlocked {s : State} {op : Op} {k : Key} (h : Removal s op k) :
    s.locked k = false := by
  obtain ⟨ix, _, _, _, hk⟩ := h
  exact ((flushLoop_removed s.locked s.minSize ix.total _).1 k hk).1

/-- The contents of the running stores come from `storeBegin`. -/
theorem reach_threads {a b : Nat} {ops : List Op} {s : State} (h : Reach a b ops s) :
    ∀ t k c hid st, s.threads.get? t = some (.storing k c hid st) →
      Op.storeBegin t hid k c ∈ ops := by
  induction h with
  | init => intro t k c hid st e; cases e
  | @step ops s s' op hr hs ih =>
    have keep : ∀ t k c hid st, s.threads.get? t = some (.storing k c hid st) →
        Op.storeBegin t hid k c ∈ ops ++ [op] :=
      fun t k c hid st e => List.mem_append_left _ (ih t k c hid st e)
    have era : ∀ t0 t k c hid st, (s.threads.erase t0).get? t = some (.storing k c hid st) →
        Op.storeBegin t hid k c ∈ ops ++ [op] := by
      intro t0 t k c hid st e
      rw [AMap.get?_erase] at e
      split at e
      · cases e
      · exact keep _ _ _ _ _ e
    have ins : ∀ t0 k0 c0 hid0 st0 st0', s.threads.get? t0 = some (.storing k0 c0 hid0 st0) →
        ∀ t k c hid st,
        (s.threads.insert t0 (.storing k0 c0 hid0 st0')).get? t = some (.storing k c hid st) →
        Op.storeBegin t hid k c ∈ ops ++ [op] := by
      intro t0 k0 c0 hid0 st0 st0' h0 t k c hid st e
      rw [AMap.get?_insert] at e
      split at e
      · next et => subst et; cases e; exact keep _ _ _ _ _ h0
      · exact keep _ _ _ _ _ e
    have insg : ∀ t0 k0 b0 t k c hid st,
        (s.threads.insert t0 (.getting k0 b0)).get? t = some (.storing k c hid st) →
        Op.storeBegin t hid k c ∈ ops ++ [op] := by
      intro t0 k0 b0 t k c hid st e
      rw [AMap.get?_insert] at e
      split at e
      · cases e
      · exact keep _ _ _ _ _ e
    intro t k c hid st e
    cases op with
    | storeBegin t0 hid0 key content =>
      simp only [step] at hs
      split at hs
      · cases hs
        simp only [AMap.get?_insert] at e
        split at e
        · next et => subst et; cases e; simp
        · exact keep _ _ _ _ _ e
      · cases hs
    | storeCheck t0 =>
      simp only [step] at hs
      split at hs
      · next key content hid0 ht =>
        split at hs
        · cases hs; exact era _ _ _ _ _ _ e
        · cases hs; exact ins _ _ _ _ _ _ ht _ _ _ _ _ e
      · cases hs
    | storeRename t0 =>
      simp only [step] at hs
      split at hs
      · next ht => cases hs; exact ins _ _ _ _ _ _ ht _ _ _ _ _ e
      · cases hs
    | storeIndex t0 now u =>
      simp only [step] at hs
      split at hs
      · next ht =>
        split at hs
        · cases hs
          rw [(maybeFlush_frame _ _).2.2.1] at e
          exact ins _ _ _ _ _ _ ht _ _ _ _ _ e
        · cases hs
      · cases hs
    | storeSave t0 =>
      simp only [step] at hs
      split at hs
      · cases hs; exact era _ _ _ _ _ _ e
      · cases hs
    | storeFail t0 =>
      simp only [step] at hs
      split at hs
      · split at hs
        · simp only [State.dropHandle, Option.map_eq_some_iff] at hs
          obtain ⟨r, _, rfl⟩ := hs
          exact era _ _ _ _ _ _ e
        · cases hs
      · cases hs
    | getCheck t0 key =>
      simp only [step] at hs
      split at hs
      · cases hs; exact insg _ _ _ _ _ _ _ _ e
      · cases hs
    | getTouch t0 now =>
      simp only [step] at hs
      split at hs
      · cases hs; exact insg _ _ _ _ _ _ _ _ e
      · cases hs
    | getFinish t0 hid0 =>
      simp only [step] at hs
      split at hs
      · split at hs
        · cases hs; exact era _ _ _ _ _ _ e
        · cases hs
      · cases hs
    | clone hid0 hid' =>
      simp only [step] at hs
      split at hs
      · split at hs
        · cases hs; exact keep _ _ _ _ _ e
        · cases hs
      · cases hs
    | dropHandle hid0 =>
      simp only [step] at hs
      split at hs
      · split at hs
        · cases hs
        · simp only [State.dropHandle, Option.map_eq_some_iff] at hs
          obtain ⟨r, _, rfl⟩ := hs
          exact keep _ _ _ _ _ e
      · cases hs
    | close u v =>
      simp only [step, Option.some.injEq] at hs
      subst hs; cases e
    | crash v =>
      simp only [step, Option.some.injEq] at hs
      subst hs; cases e
    | flushCrash t0 now n u v =>
      simp only [step] at hs
      split at hs
      · split at hs
        · split at hs
          · cases hs; cases e
          · cases hs
        · cases hs
      · cases hs

/-- Every visible content was given, whole, to a call of `store` with that key. -/
theorem reach_content {a b : Nat} {ops : List Op} {s : State} (h : Reach a b ops s) :
    ∀ k c, s.disk.get? k = some c → ∃ t hid, Op.storeBegin t hid k c ∈ ops := by
  induction h with
  | init => intro k c e; cases e
  | @step ops s s' op hr hs ih =>
    intro k c e
    rcases step_disk (reach_inv hr) hs k with h1 | ⟨t, c', hid, rfl, ht, h1⟩ | ⟨h1, _⟩
    · rw [h1] at e
      obtain ⟨t, hid, hm⟩ := ih k c e
      exact ⟨t, hid, List.mem_append_left _ hm⟩
    · rw [h1] at e
      cases e
      exact ⟨t, hid, List.mem_append_left _ (reach_threads hr _ _ _ _ _ ht)⟩
    · rw [h1] at e; cases e

end TM.Store
