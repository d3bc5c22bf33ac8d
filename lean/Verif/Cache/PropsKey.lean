import Verif.Cache.KeyLemmas
/-!
# C16: what a cache key identifies

`SameGroup` (in `KeySpec.lean`) is the independent description of "the same request".
-/

namespace TM.Cache

open TM

/-- C16 (partial).  Two groups whose arguments do not contain one of the literals `tm_fifo_<n>`
have the same key exactly when they are the same request.  Missing: the case in which such a
literal occurs, where the claim is false (`key_collision`). -/
theorem key_eq_iff_partial {g₁ g₂ : ExecutionGroup} {fk₁ fk₂ : FileKeys} {k₁ k₂ : Key}
    (w₁ : GroupWf g₁) (w₂ : GroupWf g₂) (n₁ : NoFifoNameArg g₁) (n₂ : NoFifoNameArg g₂)
    (h₁ : cacheKey g₁ fk₁ = some k₁) (h₂ : cacheKey g₂ fk₂ = some k₂) :
    k₁ = k₂ ↔ SameGroup g₁ g₂ fk₁ fk₂ := by
  rw [cacheKey_some_iff] at h₁ h₂
  have hk : k₁ = k₂ ↔ k₁.items.map some = k₂.items.map some := by
    constructor
    · rintro rfl; rfl
    · intro h
      cases k₁; cases k₂
      exact congrArg _ ((List.map_inj_right (fun _ _ => Option.some.inj)).1 h)
  rw [hk, ← h₁, ← h₂, map_eq_iff_get]
  have item : ∀ {g : ExecutionGroup} {fk : FileKeys} {k : Key},
      g.executions.map (keyItem g fk) = k.items.map some → ∀ {e}, e ∈ g.executions →
      ∃ x, keyItem g fk e = some x := by
    intro g fk k h e he
    have := List.mem_map_of_mem (f := keyItem g fk) he
    rw [h, List.mem_map] at this
    obtain ⟨x, _, hx⟩ := this
    exact ⟨x, hx.symm⟩
  constructor
  · rintro ⟨hl, he⟩
    refine ⟨hl, fun i e₁ e₂ a b => ?_⟩
    have m₁ := List.mem_iff_getElem?.2 ⟨i, a⟩
    have m₂ := List.mem_iff_getElem?.2 ⟨i, b⟩
    obtain ⟨x₁, hx₁⟩ := item h₁ m₁
    obtain ⟨x₂, hx₂⟩ := item h₂ m₂
    have := he i e₁ e₂ a b
    rw [hx₁, hx₂, Option.some.injEq] at this
    exact (keyItem_eq_iff w₁.fifo w₂.fifo (w₁.inputs _ m₁) (w₂.inputs _ m₂) (w₁.env _ m₁)
      (w₂.env _ m₂) (n₁ _ m₁) (n₂ _ m₂) hx₁ hx₂).1 this
  · rintro ⟨hl, he⟩
    refine ⟨hl, fun i e₁ e₂ a b => ?_⟩
    have m₁ := List.mem_iff_getElem?.2 ⟨i, a⟩
    have m₂ := List.mem_iff_getElem?.2 ⟨i, b⟩
    obtain ⟨x₁, hx₁⟩ := item h₁ m₁
    obtain ⟨x₂, hx₂⟩ := item h₂ m₂
    rw [hx₁, hx₂, Option.some.injEq]
    exact (keyItem_eq_iff w₁.fifo w₂.fifo (w₁.inputs _ m₁) (w₂.inputs _ m₂) (w₁.env _ m₁)
      (w₂.env _ m₂) (n₁ _ m₁) (n₂ _ m₂) hx₁ hx₂).2 (he i e₁ e₂ a b)

/-- The computation of the key succeeds (does not panic) exactly when every file read by the group
has a known key. -/
theorem key_defined_iff {g : ExecutionGroup} {fk : FileKeys} :
    (∃ k, cacheKey g fk = some k) ↔ ∀ f ∈ g.deps, ∃ k, fk.get? f = some k := by
  have hi : ∀ e : Execution, (∃ x, keyItem g fk e = some x) ↔
      ∀ f ∈ e.dependencies, ∃ k, fk.get? f = some k := by
    intro e
    have hm : (∃ r, e.inputs.mapM (inputKey fk) = some r) ↔
        ∀ p ∈ e.inputs, ∃ k, fk.get? p.2.file = some k := by
      rw [mapM_isSome_iff]
      refine forall_congr' fun p => forall_congr' fun _ => ?_
      cases h : AMap.get? fk p.2.file <;> simp [inputKey, h]
    have hs : (∃ r, stdinKey fk e.stdin = some r) ↔
        ∀ f ∈ e.stdin.toList, ∃ k, fk.get? f = some k := by
      cases h : e.stdin with
      | none => simp [stdinKey]
      | some f => cases h' : AMap.get? fk f <;> simp [stdinKey, h']
    have : (∃ x, keyItem g fk e = some x) ↔
        (∃ r, stdinKey fk e.stdin = some r) ∧ (∃ r, e.inputs.mapM (inputKey fk) = some r) := by
      cases h1 : stdinKey fk e.stdin <;> cases h2 : e.inputs.mapM (inputKey fk) <;>
        simp [keyItem, h1, h2]
    rw [this, hm, hs]
    unfold Execution.dependencies
    constructor
    · rintro ⟨h1, h2⟩ f hf
      rcases List.mem_append.1 hf with hf | hf
      · exact h1 f hf
      · obtain ⟨p, hp, rfl⟩ := List.mem_map.1 hf
        exact h2 p hp
    · intro h
      exact ⟨fun f hf => h f (List.mem_append_left _ hf),
        fun p hp => h _ (List.mem_append_right _ (List.mem_map.2 ⟨p, hp, rfl⟩))⟩
  have : (∃ k, cacheKey g fk = some k) ↔ ∃ r, g.executions.mapM (keyItem g fk) = some r := by
    cases h : g.executions.mapM (keyItem g fk) <;> simp [cacheKey, h]
  rw [this, mapM_isSome_iff]
  unfold ExecutionGroup.deps
  constructor
  · intro h f hf
    obtain ⟨e, he, hf⟩ := List.mem_flatMap.1 hf
    exact (hi e).1 (h e he) f hf
  · intro h e he
    exact (hi e).2 (fun f hf => h f (List.mem_flatMap.2 ⟨e, he, hf⟩))

theorem mapM_perm {α β : Type} {f : α → Option β} {l l' : List α} (p : l.Perm l') {r : List β}
    (h : l.mapM f = some r) : ∃ r', l'.mapM f = some r' ∧ r.Perm r' := by
  obtain ⟨r', hr'⟩ := (mapM_isSome_iff (l := l')).2 (fun a ha =>
    (mapM_isSome_iff.1 ⟨r, h⟩) a (p.mem_iff.2 ha))
  refine ⟨r', hr', ?_⟩
  have e₁ := mapM_eq_some_iff.1 h
  have e₂ := mapM_eq_some_iff.1 hr'
  have := p.map f
  rw [e₁, e₂] at this
  have := this.filterMap id
  simpa using this

/-- C16, second half: the key does not depend on the order in which the hash maps with the inputs
and the environment of the executions are iterated. -/
theorem key_order_independent {g g' : ExecutionGroup} {fk : FileKeys} {k : Key}
    (hf : g'.fifo = g.fifo)
    (hl : g.executions.length = g'.executions.length)
    (he : ∀ (i : Nat) e e', g.executions[i]? = some e → g'.executions[i]? = some e' →
      ∃ inputs env, e.inputs.Perm inputs ∧ e.env.Perm env ∧
        e' = { e with inputs := inputs, env := env })
    (h : cacheKey g fk = some k) : cacheKey g' fk = some k := by
  rw [cacheKey_some_iff] at h ⊢
  rw [← h]
  refine Eq.symm (map_eq_iff_get.2 ⟨hl, fun i e e' a b => ?_⟩)
  obtain ⟨inputs, env, pi, pe, rfl⟩ := he i e e' a b
  have hm : fifoMap g' = fifoMap g := by unfold fifoMap; rw [hf]
  have hex : ∃ x, keyItem g fk e = some x := by
    have := List.mem_map_of_mem (f := keyItem g fk) (List.mem_iff_getElem?.2 ⟨i, a⟩)
    rw [h, List.mem_map] at this
    obtain ⟨x, _, hx⟩ := this
    exact ⟨x, hx.symm⟩
  obtain ⟨x, hx⟩ := hex
  rw [hx]
  simp only [keyItem, Option.bind_eq_bind, Option.bind_eq_some_iff, Option.pure_def,
    Option.some.injEq] at hx
  obtain ⟨s, hs, r, hr, rfl⟩ := hx
  obtain ⟨r', hr', pr⟩ := mapM_perm pi hr
  simp only [keyItem, hs, hr', hm, Option.bind_eq_bind, Option.bind_some, Option.pure_def]
  rw [(isort_eq_iff_perm inputLe_total).2 pr, (isort_eq_iff_perm envLe_total).2 pe]

/-- Two groups: in the first the program receives the path of a FIFO, in the second the literal
`tm_fifo_0` and there is no FIFO at all. -/
def fifoGroup : ExecutionGroup :=
  { uuid := 0, executions := [{ uuid := 1, args := [fifoPath 7] }], fifo := [7] }
def literalGroup : ExecutionGroup :=
  { uuid := 0, executions := [{ uuid := 1, args := [fifoName 0] }] }

/-- C16 fails in general: `fifoGroup` and `literalGroup` get the same key although they are not
the same request. -/
theorem key_collision :
    ∃ k, cacheKey fifoGroup [] = some k ∧ cacheKey literalGroup [] = some k ∧
      GroupWf fifoGroup ∧ GroupWf literalGroup ∧ ¬ SameGroup fifoGroup literalGroup [] [] := by
  have c1 : canonArg (fifoMap fifoGroup) (fifoPath 7) = fifoName 0 :=
    canonArg_fifo (by simp [fifoGroup]) ⟨7, rfl, rfl⟩
  have c2 : canonArg (fifoMap literalGroup) (fifoName 0) = fifoName 0 :=
    canonArg_lit (by simp [literalGroup]) (by rintro i ⟨f, hf, _⟩; simp [literalGroup] at hf)
  refine ⟨⟨[⟨.localCmd "foo", [fifoName 0], none, [], []⟩]⟩, ?_, ?_, ?_, ?_, ?_⟩
  · rw [cacheKey_some_iff]
    simp [fifoGroup, keyItem, stdinKey, isort] at c1 ⊢
    exact c1
  · rw [cacheKey_some_iff]
    simp [literalGroup, keyItem, stdinKey, isort] at c2 ⊢
    exact c2
  · constructor <;> simp [fifoGroup, AMap.Wf, AMap.keys]
  · constructor <;> simp [literalGroup, AMap.Wf, AMap.keys]
  · intro h
    have := (h.execs 0 _ _ rfl rfl).args 0 _ _ rfl rfl
    rcases this with ⟨i, _, f, hf, _⟩ | ⟨hn, _, _⟩
    · simp [literalGroup] at hf
    · exact hn 0 ⟨7, rfl, rfl⟩

/-- The hypotheses of `key_eq_iff_partial` are met by two groups using different FIFOs, file uuids
and map orders, which are the same request. -/
def exA : ExecutionGroup :=
  { uuid := 0, fifo := [7], executions := [{
      uuid := 1
      args := [fifoPath 7, "x"]
      stdin := some 5
      inputs := [("a", ⟨6, true⟩), ("b", ⟨5, false⟩)]
      env := [("P", "1"), ("Q", "2")] }] }
def exB : ExecutionGroup :=
  { uuid := 9, fifo := [8], executions := [{
      uuid := 2
      args := [fifoPath 8, "x"]
      stdin := some 50
      inputs := [("b", ⟨50, false⟩), ("a", ⟨60, true⟩)]
      env := [("Q", "2"), ("P", "1")]
      priority := 3 }] }
def exFkA : FileKeys := [(5, ⟨"h5"⟩), (6, ⟨"h6"⟩)]
def exFkB : FileKeys := [(60, ⟨"h6"⟩), (50, ⟨"h5"⟩)]

theorem x_ne_fifoName (i : Nat) : "x" ≠ fifoName i := by
  intro h
  have := congrArg String.toList h
  simp [fifoName] at this

example : ∃ k, cacheKey exA exFkA = some k ∧ cacheKey exB exFkB = some k ∧
    GroupWf exA ∧ GroupWf exB ∧ NoFifoNameArg exA ∧ NoFifoNameArg exB ∧
    SameGroup exA exB exFkA exFkB := by
  have wA : GroupWf exA := by constructor <;> simp [exA, AMap.Wf, AMap.keys]
  have wB : GroupWf exB := by constructor <;> simp [exB, AMap.Wf, AMap.keys]
  have nA : NoFifoNameArg exA := by
    intro e he a ha i
    simp [exA] at he
    subst he
    simp at ha
    rcases ha with rfl | rfl
    · exact fifoPath_ne_name _ _
    · exact x_ne_fifoName i
  have nB : NoFifoNameArg exB := by
    intro e he a ha i
    simp [exB] at he
    subst he
    simp at ha
    rcases ha with rfl | rfl
    · exact fifoPath_ne_name _ _
    · exact x_ne_fifoName i
  obtain ⟨kA, hA⟩ := (key_defined_iff (g := exA) (fk := exFkA)).2
    (by simp [ExecutionGroup.deps, Execution.dependencies, exA, exFkA, AMap.get?_cons])
  obtain ⟨kB, hB⟩ := (key_defined_iff (g := exB) (fk := exFkB)).2
    (by simp [ExecutionGroup.deps, Execution.dependencies, exB, exFkB, AMap.get?_cons])
  have same : SameGroup exA exB exFkA exFkB := by
    refine ⟨rfl, ?_⟩
    intro i e₁ e₂ h₁ h₂
    match i with
    | 0 =>
      simp [exA] at h₁; simp [exB] at h₂
      subst h₁ h₂
      refine ⟨rfl, rfl, ?_, rfl, ?_, ?_⟩
      · intro i a b ha hb
        match i with
        | 0 =>
          simp at ha hb; subst ha hb
          exact Or.inl ⟨0, ⟨7, rfl, rfl⟩, ⟨8, rfl, rfl⟩⟩
        | 1 =>
          simp at ha hb; subst ha hb
          have hx : ∀ f, "x" ≠ fifoPath f := by
            intro f h
            have := congrArg String.toList h
            simp [fifoPath] at this
          exact Or.inr ⟨fun _ ⟨f, _, h⟩ => hx f h, fun _ ⟨f, _, h⟩ => hx f h, rfl⟩
        | (n + 2) => simp at ha
      · intro n
        by_cases h1 : "P" = n
        · subst h1; decide +kernel
        · by_cases h2 : "Q" = n
          · subst h2; decide +kernel
          · simp [AMap.get?_cons, h1, h2]
      · intro n
        by_cases h1 : "a" = n
        · subst h1; decide +kernel
        · by_cases h2 : "b" = n
          · subst h2; decide +kernel
          · simp [inputAt, AMap.get?_cons, h1, h2]
    | (n + 1) => simp [exA] at h₁
  have := (key_eq_iff_partial wA wB nA nB hA hB).2 same
  subst this
  exact ⟨kA, hA, hB, wA, wB, nA, nB, same⟩

end TM.Cache
