import Verif.Store.DiskLemmas
import Verif.Cache.KeyLemmas
/-!
The index describes the disk as long as nothing fails.
-/

namespace TM.Store

open TM

/-- The index describes the disk. -/
structure Acc (s : State) : Prop where
  disk : AMap.Wf s.disk
  indexed : ∀ k, Visible s k → (∃ it, s.index.known.get? k = some it) ∨
    ∃ t c hid, s.threads.get? t = some (.storing k c hid .renamed)
  there : ∀ k it, s.index.known.get? k = some it → Visible s k

theorem add_known (ix : Index) (k k' : Key) (n now : Nat) :
    (∃ it, (ix.add k n now).known.get? k' = some it) ↔
      k' = k ∨ ∃ it, ix.known.get? k' = some it := by
  unfold Index.add
  cases hg : ix.known.get? k with
  | some it =>
    simp only [AMap.get?_insert]
    by_cases e : k' = k
    · subst e; simp
    · simp [e]
  | none =>
    simp only [AMap.get?_insert]
    by_cases e : k' = k
    · subst e; simp
    · simp [e]

theorem touch_known (ix : Index) (k k' : Key) (now : Nat) :
    (∃ it, (ix.touch k now).known.get? k' = some it) ↔ ∃ it, ix.known.get? k' = some it := by
  unfold Index.touch
  cases hg : ix.known.get? k with
  | some it =>
    simp only [AMap.get?_insert]
    by_cases e : k' = k
    · subst e; simp [hg]
    · simp [e]
  | none => simp

theorem flush_get {ix : Index} (h : ix.Ok) (locked : Key → Bool) (target : Nat) (k : Key) :
    (ix.flush locked target).1.known.get? k =
      if k ∈ (ix.flush locked target).2 then none else ix.known.get? k := by
  have hok := flush_ok h locked target
  split
  · next hk =>
    rw [AMap.get?_eq_none_iff]
    intro hm
    obtain ⟨p, hp, rfl⟩ := List.mem_map.1 hm
    exact flushLoop_disjoint locked target ix.total _ (sorted_nodup h) p hp hk
  · next hk =>
    cases hg : ix.known.get? k with
    | none =>
      rw [AMap.get?_eq_none_iff] at hg ⊢
      intro hm
      obtain ⟨p, hp, rfl⟩ := List.mem_map.1 hm
      exact hg (List.mem_map.2 ⟨p, flush_known ix locked target p hp, rfl⟩)
    | some it =>
      refine AMap.get?_of_mem hok.wf ?_
      have hm := (isort_perm popBefore ix.known).mem_iff.2 (AMap.mem_of_get? hg)
      exact ((flushLoop_removed locked target ix.total _).2 _ hm).resolve_right hk

theorem wf_removeFiles {d : AMap Key Content} (h : AMap.Wf d) (r u : List Key) :
    AMap.Wf (removeFiles d r u) :=
  List.Nodup.sublist (List.Sublist.map _ List.filter_sublist) h

theorem acc_maybeFlush {s : State} (h : Acc s) (hx : s.index.Ok) : Acc (s.maybeFlush []) := by
  unfold State.maybeFlush
  split
  · refine ⟨wf_removeFiles h.disk _ _, ?_, ?_⟩
    · rintro k ⟨c, hc⟩
      simp only [get?_removeFiles, List.not_mem_nil, or_false] at hc
      split at hc
      · next hk =>
        simp only [flush_get hx, if_neg hk]
        exact h.indexed k ⟨c, hc⟩
      · cases hc
    · intro k it hk
      simp only [flush_get hx] at hk
      split at hk
      · cases hk
      · next hnk =>
        obtain ⟨c, hc⟩ := h.there k it hk
        refine ⟨c, ?_⟩
        simp only [get?_removeFiles, hnk, not_false_eq_true, true_or, if_true]
        exact hc
  · exact h

theorem acc_step {s s' : State} (hi : Inv s) (h : Acc s) {op : Op} (hsm : Smooth op)
    (hs : step s op = some s') : Acc s' := by
  have era : ∀ {t0 : Nat} {j : Job}, s.threads.get? t0 = some j →
      (∀ k c hid, j ≠ .storing k c hid .renamed) → ∀ k,
      (∃ t c hid, s.threads.get? t = some (.storing k c hid .renamed)) →
      ∃ t c hid, (s.threads.erase t0).get? t = some (.storing k c hid .renamed) := by
    rintro t0 j hj hne k ⟨t, c, hid, ht⟩
    refine ⟨t, c, hid, ?_⟩
    rw [AMap.get?_erase_ne _ ?_]
    · exact ht
    · rintro rfl
      rw [ht] at hj; cases hj; exact hne _ _ _ rfl
  have ins : ∀ {t0 : Nat} (j' : Job),
      (∀ k c hid, s.threads.get? t0 ≠ some (.storing k c hid .renamed)) → ∀ k,
      (∃ t c hid, s.threads.get? t = some (.storing k c hid .renamed)) →
      ∃ t c hid, (s.threads.insert t0 j').get? t = some (.storing k c hid .renamed) := by
    rintro t0 j' hne k ⟨t, c, hid, ht⟩
    refine ⟨t, c, hid, ?_⟩
    rw [AMap.get?_insert_ne _ _ ?_]
    · exact ht
    · rintro rfl
      exact hne _ _ _ ht
  cases op with
  | storeBegin t hid key content =>
    simp only [step] at hs
    split at hs
    · next hc =>
      cases hs
      refine ⟨h.disk, fun k hv => (h.indexed k hv).imp id (ins _ ?_ k), h.there⟩
      intro k c hid e
      have : s.threads.get? t = none := by simpa using hc.1
      rw [this] at e; cases e
    · cases hs
  | storeCheck t =>
    simp only [step] at hs
    split at hs
    · next ht =>
      split at hs
      · cases hs
        exact ⟨h.disk, fun k hv => (h.indexed k hv).imp id (era ht (by simp) k), h.there⟩
      · cases hs
        refine ⟨h.disk, fun k hv => (h.indexed k hv).imp id (ins _ ?_ k), h.there⟩
        intro k c hid e; rw [ht] at e; cases e
    · cases hs
  | storeRename t =>
    simp only [step] at hs
    split at hs
    · next key content hid ht =>
      cases hs
      refine ⟨AMap.wf_insert h.disk _ _, ?_, ?_⟩
      · rintro k ⟨c, hc⟩
        by_cases e : k = key
        · subst e
          exact Or.inr ⟨t, content, hid, AMap.get?_insert_self _ _ _⟩
        · simp only [AMap.get?_insert_ne _ _ e] at hc
          refine (h.indexed k ⟨c, hc⟩).imp id (ins _ ?_ k)
          intro k c hid e; rw [ht] at e; cases e
      · intro k it hk
        unfold Visible
        simp only [AMap.get?_insert]
        split
        · exact ⟨_, rfl⟩
        · exact h.there k it hk
    · cases hs
  | storeIndex t now u =>
    simp only [Smooth] at hsm
    subst hsm
    simp only [step] at hs
    split at hs
    · next key content hid ht =>
      split at hs
      · next c hc =>
        cases hs
        refine acc_maybeFlush ⟨h.disk, ?_, ?_⟩ (add_ok hi.index _ _ _)
        · intro k hv
          rw [add_known]
          by_cases e : k = key
          · exact Or.inl (Or.inl e)
          · rcases h.indexed k hv with h1 | ⟨t', c', hid', ht'⟩
            · exact Or.inl (Or.inr h1)
            · refine Or.inr ⟨t', c', hid', ?_⟩
              simp only
              rw [AMap.get?_insert_ne _ _ ?_]
              · exact ht'
              · rintro rfl
                rw [ht] at ht'; cases ht'; exact e rfl
        · intro k it hk
          rcases (add_known _ _ _ _ _).1 ⟨it, hk⟩ with e | ⟨it', hk'⟩
          · subst e; exact ⟨c, hc⟩
          · exact h.there k it' hk'
      · cases hs
    · cases hs
  | storeSave t =>
    simp only [step] at hs
    split at hs
    · next ht =>
      cases hs
      exact ⟨h.disk, fun k hv => (h.indexed k hv).imp id (era ht (by simp) k), h.there⟩
    · cases hs
  | storeFail t => cases hsm
  | getCheck t key =>
    simp only [step] at hs
    split at hs
    · next hc =>
      cases hs
      refine ⟨h.disk, fun k hv => (h.indexed k hv).imp id (ins _ ?_ k), h.there⟩
      intro k c hid e
      have : s.threads.get? t = none := by simpa using hc.1
      rw [this] at e; cases e
    · cases hs
  | getTouch t now =>
    simp only [step] at hs
    split at hs
    · next ht =>
      cases hs
      refine ⟨h.disk, fun k hv => ?_, ?_⟩
      · rw [touch_known]
        refine (h.indexed k hv).imp id (ins _ ?_ k)
        intro k c hid e; rw [ht] at e; cases e
      · intro k it hk
        obtain ⟨it', h'⟩ := (touch_known _ _ _ _).1 ⟨it, hk⟩
        exact h.there k it' h'
    · cases hs
  | getFinish t hid =>
    simp only [step] at hs
    split at hs
    · next ht =>
      split at hs
      · cases hs
        exact ⟨h.disk, fun k hv => (h.indexed k hv).imp id (era ht (by simp) k), h.there⟩
      · cases hs
    · cases hs
  | clone hid hid' =>
    simp only [step] at hs
    split at hs
    · split at hs
      · cases hs; exact ⟨h.disk, h.indexed, h.there⟩
      · cases hs
    · cases hs
  | dropHandle hid =>
    simp only [step] at hs
    split at hs
    · split at hs
      · cases hs
      · simp only [State.dropHandle, Option.map_eq_some_iff] at hs
        obtain ⟨r, _, rfl⟩ := hs
        exact ⟨h.disk, h.indexed, h.there⟩
    · cases hs
  | close u v => cases hsm
  | crash v => cases hsm
  | flushCrash t now n u v => cases hsm

theorem reach_acc {a b : Nat} {ops : List Op} {s : State} (h : Reach a b ops s)
    (hsm : ∀ op ∈ ops, Smooth op) : Acc s := by
  induction h with
  | init => exact ⟨AMap.wf_nil, (by rintro k ⟨c, hc⟩; cases hc), (by intro k it hk; cases hk)⟩
  | step op hr hs ih =>
    exact acc_step (reach_inv hr) (ih fun o ho => hsm o (List.mem_append_left _ ho))
      (hsm op (by simp)) hs

/-- The recorded size of a file is the length of a content stored under its key. -/
theorem reach_sizes {a b : Nat} {ops : List Op} {s : State} (h : Reach a b ops s) :
    (∀ k it, s.index.known.get? k = some it →
      ∃ t hid c, Op.storeBegin t hid k c ∈ ops ∧ it.size = c.length) ∧
    (∀ ix, s.saved = some ix → ∀ k it, ix.known.get? k = some it →
      ∃ t hid c, Op.storeBegin t hid k c ∈ ops ∧ it.size = c.length) := by
  induction h with
  | init => exact ⟨(by intro k it hk; cases hk), (by intro ix e; cases e)⟩
  | @step ops s s' op hr hs ih =>
    obtain ⟨ih1, ih2⟩ := ih
    have up : ∀ {k : Key} {it : Item},
        (∃ t hid c, Op.storeBegin t hid k c ∈ ops ∧ it.size = c.length) →
        ∃ t hid c, Op.storeBegin t hid k c ∈ ops ++ [op] ∧ it.size = c.length :=
      fun ⟨t, hid, c, h1, h2⟩ => ⟨t, hid, c, List.mem_append_left _ h1, h2⟩
    have g1 := fun k it hk => up (ih1 k it hk)
    have g2 := fun ix e k it hk => up (ih2 ix e k it hk)
    have gadd : ∀ key c now, s.disk.get? key = some c →
        ∀ k it, (s.index.add key c.length now).known.get? k = some it →
        ∃ t hid c, Op.storeBegin t hid k c ∈ ops ++ [op] ∧ it.size = c.length := by
      intro key c now hc k it hk
      unfold Index.add at hk
      cases hg : s.index.known.get? key with
      | some it0 =>
        simp only [hg, AMap.get?_insert] at hk
        split at hk
        · next e =>
          subst e; cases hk
          obtain ⟨t, hid, c', h1, h2⟩ := g1 k it0 hg
          exact ⟨t, hid, c', h1, h2⟩
        · exact g1 k it hk
      | none =>
        simp only [hg, AMap.get?_insert] at hk
        split at hk
        · next e =>
          subst e; cases hk
          obtain ⟨t, hid, hm⟩ := reach_content hr k c hc
          exact ⟨t, hid, c, List.mem_append_left _ hm, rfl⟩
        · exact g1 k it hk
    have gflush : ∀ (ix : Index), ix.Ok → (∀ k it, ix.known.get? k = some it →
        ∃ t hid c, Op.storeBegin t hid k c ∈ ops ++ [op] ∧ it.size = c.length) →
        ∀ locked target k it, (ix.flush locked target).1.known.get? k = some it →
        ∃ t hid c, Op.storeBegin t hid k c ∈ ops ++ [op] ∧ it.size = c.length := by
      intro ix hok hix locked target k it hk
      rw [flush_get hok] at hk
      split at hk
      · cases hk
      · exact hix k it hk
    have gre : ∀ (s1 : State) (v : Bool),
        (∀ ix, s1.saved = some ix → ∀ k it, ix.known.get? k = some it →
          ∃ t hid c, Op.storeBegin t hid k c ∈ ops ++ [op] ∧ it.size = c.length) →
        ∀ k it, (s1.reopen v).index.known.get? k = some it →
          ∃ t hid c, Op.storeBegin t hid k c ∈ ops ++ [op] ∧ it.size = c.length := by
      intro s1 v hs1 k it hk
      simp only [State.reopen] at hk
      split at hk
      · cases hsv : s1.saved with
        | none => rw [hsv] at hk; cases hk
        | some ix => rw [hsv] at hk; exact hs1 ix hsv k it hk
      · cases hk
    have hok := (reach_inv hr).index
    cases op with
    | storeBegin t hid key content =>
      simp only [step] at hs
      split at hs
      · cases hs; exact ⟨g1, g2⟩
      · cases hs
    | storeCheck t =>
      simp only [step] at hs
      split at hs
      · split at hs <;> (cases hs; exact ⟨g1, g2⟩)
      · cases hs
    | storeRename t =>
      simp only [step] at hs
      split at hs
      · cases hs; exact ⟨g1, g2⟩
      · cases hs
    | storeIndex t now u =>
      simp only [step] at hs
      split at hs
      · next key content hid ht =>
        split at hs
        · next c hc =>
          cases hs
          rw [(maybeFlush_frame _ _).2.2.2.1]
          refine ⟨?_, g2⟩
          unfold State.maybeFlush
          split
          · exact gflush _ (add_ok hok _ _ _) (gadd key c now hc) _ _
          · exact gadd key c now hc
        · cases hs
      · cases hs
    | storeSave t =>
      simp only [step] at hs
      split at hs
      · cases hs
        exact ⟨g1, fun ix e => by cases e; exact g1⟩
      · cases hs
    | storeFail t =>
      simp only [step] at hs
      split at hs
      · split at hs
        · simp only [State.dropHandle, Option.map_eq_some_iff] at hs
          obtain ⟨r, _, rfl⟩ := hs
          exact ⟨g1, g2⟩
        · cases hs
      · cases hs
    | getCheck t key =>
      simp only [step] at hs
      split at hs
      · cases hs; exact ⟨g1, g2⟩
      · cases hs
    | getTouch t now =>
      simp only [step] at hs
      split at hs
      · next key ht =>
        cases hs
        refine ⟨?_, g2⟩
        intro k it hk
        simp only [Index.touch] at hk
        split at hk
        · next it0 hg =>
          simp only [AMap.get?_insert] at hk
          split at hk
          · next e =>
            subst e; cases hk
            obtain ⟨t, hid, c', h1, h2⟩ := g1 k it0 hg
            exact ⟨t, hid, c', h1, h2⟩
          · exact g1 k it hk
        · exact g1 k it hk
      · cases hs
    | getFinish t hid =>
      simp only [step] at hs
      split at hs
      · split at hs
        · cases hs; exact ⟨g1, g2⟩
        · cases hs
      · cases hs
    | clone hid hid' =>
      simp only [step] at hs
      split at hs
      · split at hs
        · cases hs; exact ⟨g1, g2⟩
        · cases hs
      · cases hs
    | dropHandle hid =>
      simp only [step] at hs
      split at hs
      · split at hs
        · cases hs
        · simp only [State.dropHandle, Option.map_eq_some_iff] at hs
          obtain ⟨r, _, rfl⟩ := hs
          exact ⟨g1, g2⟩
      · cases hs
    | close u v =>
      simp only [step, Option.some.injEq] at hs
      subst hs
      have : ∀ ix, some (s.maybeFlush u).index = some ix → ∀ k it, ix.known.get? k = some it →
          ∃ t hid c, Op.storeBegin t hid k c ∈ ops ++ [.close u v] ∧ it.size = c.length := by
        intro ix e
        cases e
        unfold State.maybeFlush
        split
        · exact gflush _ hok g1 _ _
        · exact g1
      exact ⟨gre _ v this, this⟩
    | crash v =>
      simp only [step, Option.some.injEq] at hs
      subst hs
      exact ⟨gre _ v g2, g2⟩
    | flushCrash t now n u v =>
      simp only [step] at hs
      split at hs
      · split at hs
        · split at hs
          · cases hs
            exact ⟨gre _ v g2, g2⟩
          · cases hs
        · cases hs
      · cases hs

end TM.Store
