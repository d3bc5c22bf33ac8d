import Verif.Sched.PreserveTask
/-! Closed form of the initialization of a client. -/

namespace TM.Sched
open TM.DagSpec

theorem addInputs_missing (u : GroupUuid) (fs : List FileUuid) :
    ∀ (i : AMap FileUuid (List GroupUuid)) (m : List FileUuid) (f : FileUuid),
      (f ∈ (addInputs u fs i m).2 ↔ f ∈ m ∨ f ∈ fs) := by
  induction fs with
  | nil => intro i m f; simp [addInputs]
  | cons a fs ih =>
    intro i m f
    simp only [addInputs, ih, mem_setInsert, List.mem_cons]
    grind

theorem addInputs_inputOf (u : GroupUuid) (fs : List FileUuid) :
    ∀ (i : AMap FileUuid (List GroupUuid)) (m : List FileUuid) (f : FileUuid) (v : GroupUuid),
      ((∃ us, (addInputs u fs i m).1.get? f = some us ∧ v ∈ us) ↔
        (∃ us, i.get? f = some us ∧ v ∈ us) ∨ (v = u ∧ f ∈ fs)) := by
  induction fs with
  | nil => intro i m f v; simp [addInputs]
  | cons a fs ih =>
    intro i m f v
    simp only [addInputs, ih, List.mem_cons]
    by_cases ha : f = a
    · subst ha
      simp only [AMap.get?_insert_self, Option.some.injEq, true_or, and_true]
      constructor
      · rintro (⟨us, rfl, h⟩ | ⟨h, _⟩)
        · rw [mem_setInsert] at h
          rcases h with h | h
          · exact Or.inr h
          · cases hi : i.get? f with
            | none => simp [hi] at h
            | some us => simp [hi] at h; exact Or.inl ⟨us, rfl, h⟩
        · exact Or.inr h
      · rintro (⟨us, h1, h2⟩ | h)
        · exact Or.inl ⟨_, rfl, by simp [h1, h2]⟩
        · exact Or.inl ⟨_, rfl, by simp [h]⟩
    · simp [AMap.get?_insert_ne _ _ ha, ha]

theorem addInputs_isEmpty (u : GroupUuid) (fs : List FileUuid) (i : AMap FileUuid (List GroupUuid)) :
    (addInputs u fs i []).2.isEmpty = true ↔ fs = [] := by
  cases fs with
  | nil => simp [addInputs]
  | cons a fs =>
    simp only [reduceCtorEq, iff_false, Bool.not_eq_true, List.isEmpty_eq_false_iff]
    intro h
    have := (addInputs_missing u (a :: fs) i [] a).2 (by simp)
    rw [h] at this; cases this

/-- The client after one group. -/
def initOne (g : ExecutionGroup) (cl : Client) : Client :=
  let r := addInputs g.uuid g.deps cl.inputOf []
  if g.deps = [] then
    { cl with inputOf := r.1, readyGroups := setInsert cl.readyGroups g.uuid }
  else { cl with inputOf := r.1, missingDeps := cl.missingDeps.insert g.uuid r.2 }

/-- The queue entries of one group. -/
def initEntries (c : ClientUuid) (p : Priority) (g : ExecutionGroup) : List ReadyEntry :=
  if g.deps = [] then g.executions.map (fun e => ⟨p, e.priority, g.uuid, c⟩) else []

theorem initGroups_cons (c : ClientUuid) (k : GroupUuid) (g : ExecutionGroup)
    (gs : List (GroupUuid × ExecutionGroup)) (cl : Client) (ready : List ReadyEntry) :
    initGroups c ((k, g) :: gs) cl ready =
      initGroups c gs (initOne g cl) (initEntries c cl.dag.config.priority g ++ ready) := by
  simp only [initGroups, initOne, initEntries]
  by_cases hd : g.deps = []
  · have : (addInputs g.uuid g.deps cl.inputOf []).2.isEmpty = true :=
      (addInputs_isEmpty _ _ _).2 hd
    rw [if_pos hd, if_pos hd, if_pos this]
  · have : ¬ (addInputs g.uuid g.deps cl.inputOf []).2.isEmpty = true :=
      fun h => hd ((addInputs_isEmpty _ _ _).1 h)
    rw [if_neg hd, if_neg hd, if_neg this, List.nil_append]

theorem initOne_dag (g cl) : (initOne g cl).dag = cl.dag := by unfold initOne; simp only; split <;> rfl
theorem initOne_callbacks (g cl) : (initOne g cl).callbacks = cl.callbacks := by
  unfold initOne; simp only; split <;> rfl
theorem initOne_running (g cl) : (initOne g cl).runningGroups = cl.runningGroups := by
  unfold initOne; simp only; split <;> rfl
theorem initOne_handles (g cl) : (initOne g cl).fileHandles = cl.fileHandles := by
  unfold initOne; simp only; split <;> rfl
theorem initOne_inputOf (g cl) :
    (initOne g cl).inputOf = (addInputs g.uuid g.deps cl.inputOf []).1 := by
  unfold initOne; simp only; split <;> rfl

section
variable (c : ClientUuid)

theorem initGroups_same (gs : List (GroupUuid × ExecutionGroup)) :
    ∀ cl ready, (initGroups c gs cl ready).1.dag = cl.dag ∧
      (initGroups c gs cl ready).1.callbacks = cl.callbacks ∧
      (initGroups c gs cl ready).1.runningGroups = cl.runningGroups ∧
      (initGroups c gs cl ready).1.fileHandles = cl.fileHandles := by
  induction gs with
  | nil => intro cl ready; simp [initGroups]
  | cons p gs ih =>
    obtain ⟨k, g⟩ := p
    intro cl ready
    rw [initGroups_cons]
    have := ih (initOne g cl) (initEntries c cl.dag.config.priority g ++ ready)
    rw [initOne_dag, initOne_callbacks, initOne_running, initOne_handles] at this
    exact this

theorem initGroups_inputOf (gs : List (GroupUuid × ExecutionGroup)) :
    ∀ cl ready f u, (∃ us, (initGroups c gs cl ready).1.inputOf.get? f = some us ∧ u ∈ us) ↔
      (∃ us, cl.inputOf.get? f = some us ∧ u ∈ us) ∨
        ∃ p ∈ gs, p.2.uuid = u ∧ f ∈ p.2.deps := by
  induction gs with
  | nil => intro cl ready f u; simp [initGroups]
  | cons p gs ih =>
    obtain ⟨k, g⟩ := p
    intro cl ready f u
    rw [initGroups_cons, ih, initOne_inputOf, addInputs_inputOf]
    simp only [List.mem_cons, exists_eq_or_imp]
    grind

theorem initGroups_readyGroups (gs : List (GroupUuid × ExecutionGroup)) :
    ∀ cl ready u, u ∈ (initGroups c gs cl ready).1.readyGroups ↔
      u ∈ cl.readyGroups ∨ ∃ p ∈ gs, p.2.uuid = u ∧ p.2.deps = [] := by
  induction gs with
  | nil => intro cl ready u; simp [initGroups]
  | cons p gs ih =>
    obtain ⟨k, g⟩ := p
    intro cl ready u
    rw [initGroups_cons, ih]
    simp only [List.mem_cons, exists_eq_or_imp]
    unfold initOne
    by_cases hd : g.deps = []
    · simp only [hd, if_true, mem_setInsert]; grind
    · simp only [hd, if_false]; grind

theorem initGroups_missing_other (gs : List (GroupUuid × ExecutionGroup)) :
    ∀ cl ready u, (∀ p ∈ gs, p.2.uuid ≠ u) →
      (initGroups c gs cl ready).1.missingDeps.get? u = cl.missingDeps.get? u := by
  induction gs with
  | nil => intro cl ready u _; simp [initGroups]
  | cons p gs ih =>
    obtain ⟨k, g⟩ := p
    intro cl ready u hu
    rw [initGroups_cons, ih _ _ _ (fun p hp => hu p (by simp [hp]))]
    unfold initOne
    have : u ≠ g.uuid := (hu (k, g) (by simp)).symm
    by_cases hd : g.deps = []
    · simp only [hd, if_true]
    · simp only [hd, if_false]
      rw [AMap.get?_insert_ne _ _ this]

theorem initGroups_missing (gs : List (GroupUuid × ExecutionGroup)) :
    ∀ cl ready, (gs.map (·.2.uuid)).Nodup → ∀ p ∈ gs,
      cl.missingDeps.get? p.2.uuid = none →
      (p.2.deps = [] → (initGroups c gs cl ready).1.missingDeps.get? p.2.uuid = none) ∧
      (p.2.deps ≠ [] → ∃ fs, (initGroups c gs cl ready).1.missingDeps.get? p.2.uuid = some fs ∧
        ∀ f, f ∈ fs ↔ f ∈ p.2.deps) := by
  induction gs with
  | nil => intro cl ready _ p hp; cases hp
  | cons q gs ih =>
    obtain ⟨k, g⟩ := q
    intro cl ready hnd p hp hnone
    simp only [List.map_cons, List.nodup_cons] at hnd
    rw [initGroups_cons]
    rcases List.mem_cons.1 hp with rfl | hp'
    · have hother : ∀ p ∈ gs, p.2.uuid ≠ g.uuid := by
        intro p hp e; exact hnd.1 (List.mem_map.2 ⟨p, hp, e⟩)
      simp only at *
      rw [initGroups_missing_other c gs _ _ _ hother]
      unfold initOne
      by_cases hd : g.deps = []
      · simp [hd, hnone]
      · refine ⟨fun h => absurd h hd, fun _ => ?_⟩
        simp only [if_neg hd, AMap.get?_insert_self]
        refine ⟨_, rfl, fun f => ?_⟩
        rw [addInputs_missing]; simp
    · have hne : p.2.uuid ≠ g.uuid := fun e => hnd.1 (List.mem_map.2 ⟨p, hp', e⟩)
      refine ih _ _ hnd.2 p hp' ?_
      unfold initOne
      by_cases hd : g.deps = []
      · simp only [hd, if_true]; exact hnone
      · simp only [hd, if_false]
        rw [AMap.get?_insert_ne _ _ hne]; exact hnone

theorem initGroups_ready_mem (gs : List (GroupUuid × ExecutionGroup)) :
    ∀ cl ready e, e ∈ (initGroups c gs cl ready).2 →
      e ∈ ready ∨ (e.client = c ∧ ∃ p ∈ gs, e.group = p.2.uuid) := by
  induction gs with
  | nil => intro cl ready e he; exact Or.inl he
  | cons p gs ih =>
    obtain ⟨k, g⟩ := p
    intro cl ready e he
    rw [initGroups_cons] at he
    rcases ih _ _ e he with h | ⟨h1, p, hp, h2⟩
    · rcases List.mem_append.1 h with h | h
      · unfold initEntries at h
        split at h
        · obtain ⟨x, hx, rfl⟩ := List.mem_map.1 h
          exact Or.inr ⟨rfl, (k, g), by simp, rfl⟩
        · cases h
      · exact Or.inl h
    · exact Or.inr ⟨h1, p, by simp [hp], h2⟩

theorem readyCount_initEntries (p : Priority) (g : ExecutionGroup) (c' u) :
    readyCount (initEntries c p g) c' u =
      if c = c' ∧ g.uuid = u then (if g.deps = [] then g.executions.length else 0) else 0 := by
  unfold initEntries
  by_cases hd : g.deps = []
  · simp only [hd, if_true]
    induction g.executions with
    | nil => simp
    | cons a l ih =>
      rw [List.map_cons, readyCount_cons, ih, List.length_cons]
      split <;> rfl
  · simp [hd]

theorem initGroups_ready_other (gs : List (GroupUuid × ExecutionGroup)) :
    ∀ cl ready c' u, (c' = c → ∀ p ∈ gs, p.2.uuid ≠ u) →
      readyCount (initGroups c gs cl ready).2 c' u = readyCount ready c' u := by
  induction gs with
  | nil => intro cl ready c' u _; rfl
  | cons q gs ih =>
    obtain ⟨k, g⟩ := q
    intro cl ready c' u hu
    rw [initGroups_cons, ih _ _ _ _ (fun h p hp => hu h p (by simp [hp])), readyCount_append,
      readyCount_initEntries, if_neg]
    · simp
    · rintro ⟨rfl, h⟩; exact hu rfl (k, g) (by simp) h

theorem initGroups_ready (gs : List (GroupUuid × ExecutionGroup)) :
    ∀ cl ready, (gs.map (·.2.uuid)).Nodup → ∀ p ∈ gs,
      readyCount (initGroups c gs cl ready).2 c p.2.uuid = readyCount ready c p.2.uuid +
        if p.2.deps = [] then p.2.executions.length else 0 := by
  induction gs with
  | nil => intro cl ready _ p hp; cases hp
  | cons q gs ih =>
    obtain ⟨k, g⟩ := q
    intro cl ready hnd p hp
    simp only [List.map_cons, List.nodup_cons] at hnd
    rw [initGroups_cons]
    rcases List.mem_cons.1 hp with rfl | hp'
    · have hother : ∀ p ∈ gs, p.2.uuid ≠ g.uuid := by
        intro p hp e; exact hnd.1 (List.mem_map.2 ⟨p, hp, e⟩)
      simp only
      rw [initGroups_ready_other c gs _ _ _ _ (fun _ => hother), readyCount_append,
        readyCount_initEntries]
      simp [Nat.add_comm]
    · have hne : p.2.uuid ≠ g.uuid := fun e => hnd.1 (List.mem_map.2 ⟨p, hp', e⟩)
      rw [ih _ _ hnd.2 p hp', readyCount_append, readyCount_initEntries,
        if_neg (fun h => hne h.2.symm)]
      simp

end

end TM.Sched
