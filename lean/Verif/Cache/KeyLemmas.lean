import Verif.Cache.KeySpec
import Std.Data.String.ToNat
/-!
Helper lemmas about the cache key (property C16).
-/

namespace TM

theorem mapM_eq_some_iff {α β : Type} {f : α → Option β} {l : List α} {r : List β} :
    l.mapM f = some r ↔ l.map f = r.map some := by
  induction l generalizing r with
  | nil => cases r <;> simp
  | cons a l ih =>
    rw [List.mapM_cons]
    cases hf : f a with
    | none => cases r <;> simp [hf]
    | some b =>
      cases hm : l.mapM f with
      | none =>
        cases r with
        | nil => simp
        | cons c r =>
          have := ih (r := r)
          rw [hm] at this
          simp [hf] at this ⊢
          grind
      | some bs =>
        have h0 := ih (r := bs)
        simp only [hm, true_iff] at h0
        cases r with
        | nil => simp
        | cons c r =>
          simp only [List.map_cons, hf, h0, List.cons.injEq, Option.some.injEq]
          have hinj : bs.map some = r.map some ↔ bs = r := by
            constructor
            · intro h
              exact (List.map_inj_right (fun _ _ => Option.some.inj)).1 h
            · rintro rfl; rfl
          rw [hinj]
          simp

theorem mapM_isSome_iff {α β : Type} {f : α → Option β} {l : List α} :
    (∃ r, l.mapM f = some r) ↔ ∀ a ∈ l, ∃ b, f a = some b := by
  induction l with
  | nil => simp
  | cons a l ih =>
    rw [List.mapM_cons]
    simp only [List.mem_cons, forall_eq_or_imp, ← ih]
    cases hf : f a <;> cases hm : l.mapM f <;> simp

theorem AMap.perm_iff {K V : Type} [DecidableEq K] {m₁ m₂ : AMap K V}
    (h₁ : AMap.Wf m₁) (h₂ : AMap.Wf m₂) : m₁.Perm m₂ ↔ ∀ k, m₁.get? k = m₂.get? k := by
  have nd : ∀ {m : AMap K V}, AMap.Wf m → m.Nodup := fun h => List.Pairwise.of_map _
    (fun a b hab hne => hab (congrArg _ hne)) h
  classical
  rw [List.perm_ext_iff_of_nodup (nd h₁) (nd h₂)]
  constructor
  · intro h k
    cases e : AMap.get? m₁ k with
    | some v => exact (AMap.get?_of_mem h₂ ((h _).1 (AMap.mem_of_get? e))).symm
    | none =>
      cases e' : AMap.get? m₂ k with
      | none => rfl
      | some v =>
        have := AMap.get?_of_mem h₁ ((h _).2 (AMap.mem_of_get? e'))
        rw [e] at this; cases this
  · intro h p
    obtain ⟨k, v⟩ := p
    constructor
    · intro hm
      exact AMap.mem_of_get? ((h k) ▸ AMap.get?_of_mem h₁ hm)
    · intro hm
      exact AMap.mem_of_get? ((h k).symm ▸ AMap.get?_of_mem h₂ hm)

namespace Cache

theorem fifoPath_inj {a b : FifoUuid} (h : fifoPath a = fifoPath b) : a = b :=
  Nat.repr_injective ((String.append_right_inj _).1 h)

theorem fifoName_inj {a b : Nat} (h : fifoName a = fifoName b) : a = b :=
  Nat.repr_injective ((String.append_right_inj _).1 h)

theorem fifoPath_ne_name (f : FifoUuid) (i : Nat) : fifoPath f ≠ fifoName i := by
  intro h
  have := congrArg String.toList h
  simp [fifoPath, fifoName] at this

theorem fold_get (l : List FifoUuid) (k : Nat) (m : AMap String String) (hn : l.Nodup)
    (a : String) :
    ((∀ (i : Nat) f, l[i]? = some f → a = fifoPath f →
      ((l.zipIdx k).foldl (fun m p => AMap.insert m (fifoPath p.1) (fifoName p.2)) m).get? a
        = some (fifoName (k + i)))) ∧
    ((∀ f ∈ l, a ≠ fifoPath f) →
      ((l.zipIdx k).foldl (fun m p => AMap.insert m (fifoPath p.1) (fifoName p.2)) m).get? a
        = m.get? a) := by
  induction l generalizing k m with
  | nil => simp
  | cons f l ih =>
    rw [List.nodup_cons] at hn
    obtain ⟨h1, h2⟩ := ih (k + 1) (AMap.insert m (fifoPath f) (fifoName k)) hn.2
    simp only [List.zipIdx_cons, List.foldl_cons]
    constructor
    · intro i f' hi ha
      cases i with
      | zero =>
        simp only [List.getElem?_cons_zero, Option.some.injEq] at hi
        subst hi
        rw [h2, ha, AMap.get?_insert_self]; rfl
        intro f'' hf'' e
        rw [ha] at e
        exact hn.1 (fifoPath_inj e ▸ hf'')
      | succ i =>
        simp only [List.getElem?_cons_succ] at hi
        rw [h1 i f' hi ha]
        congr 2; omega
    · intro hne
      rw [h2 (fun f' hf' => hne f' (List.mem_cons_of_mem _ hf'))]
      exact AMap.get?_insert_ne _ _ (hne f (List.mem_cons_self ..))

theorem canonArg_fifo {g : ExecutionGroup} (hn : g.fifo.Nodup) {i : Nat} {a : String}
    (h : IsFifoArg g i a) : canonArg (fifoMap g) a = fifoName i := by
  obtain ⟨f, hf, ha⟩ := h
  have := (fold_get g.fifo 0 [] hn a).1 i f hf ha
  simp only [canonArg, fifoMap, this, Nat.zero_add]

theorem canonArg_lit {g : ExecutionGroup} (hn : g.fifo.Nodup) {a : String}
    (h : ∀ i, ¬ IsFifoArg g i a) : canonArg (fifoMap g) a = a := by
  have := (fold_get g.fifo 0 [] hn a).2 (by
    intro f hf e
    obtain ⟨i, hi⟩ := List.mem_iff_getElem?.1 hf
    exact h i ⟨f, hi, e⟩)
  simp only [canonArg, fifoMap, this, AMap.get?_nil]

theorem canonArg_eq_iff {g₁ g₂ : ExecutionGroup} (h₁ : g₁.fifo.Nodup) (h₂ : g₂.fifo.Nodup)
    {a b : String} (ha : ∀ i, a ≠ fifoName i) (hb : ∀ i, b ≠ fifoName i) :
    canonArg (fifoMap g₁) a = canonArg (fifoMap g₂) b ↔ SameArg g₁ g₂ a b := by
  by_cases fa : ∃ i, IsFifoArg g₁ i a
  · obtain ⟨i, fa⟩ := fa
    by_cases fb : ∃ j, IsFifoArg g₂ j b
    · obtain ⟨j, fb⟩ := fb
      rw [canonArg_fifo h₁ fa, canonArg_fifo h₂ fb]
      constructor
      · intro e; have := fifoName_inj e; subst this; exact Or.inl ⟨i, fa, fb⟩
      · rintro (⟨k, ka, kb⟩ | ⟨hna, _, _⟩)
        · rw [← canonArg_fifo h₁ fa, ← canonArg_fifo h₂ fb, canonArg_fifo h₁ ka,
            canonArg_fifo h₂ kb]
        · exact absurd fa (hna i)
    · rw [canonArg_fifo h₁ fa, canonArg_lit h₂ (fun i hi => fb ⟨i, hi⟩)]
      constructor
      · intro e; exact absurd e.symm (hb i)
      · rintro (⟨k, _, kb⟩ | ⟨hna, _, _⟩)
        · exact absurd ⟨k, kb⟩ fb
        · exact absurd fa (hna i)
  · rw [canonArg_lit h₁ (fun i hi => fa ⟨i, hi⟩)]
    by_cases fb : ∃ j, IsFifoArg g₂ j b
    · obtain ⟨j, fb⟩ := fb
      rw [canonArg_fifo h₂ fb]
      constructor
      · intro e; exact absurd e (ha j)
      · rintro (⟨k, ka, _⟩ | ⟨_, hnb, _⟩)
        · exact absurd ⟨k, ka⟩ fa
        · exact absurd fb (hnb j)
    · rw [canonArg_lit h₂ (fun i hi => fb ⟨i, hi⟩)]
      constructor
      · intro e; exact Or.inr ⟨fun i hi => fa ⟨i, hi⟩, fun i hi => fb ⟨i, hi⟩, e⟩
      · rintro (⟨k, ka, _⟩ | ⟨_, _, e⟩)
        · exact absurd ⟨k, ka⟩ fa
        · exact e

theorem keyLe_total : TotalLe keyLe := by
  refine ⟨fun a b => strLe_total.total _ _, fun a b c => strLe_total.trans _ _ _, ?_⟩
  intro a b h h'
  cases a; cases b
  exact congrArg _ (strLe_total.antisymm _ _ h h')

theorem inputLe_total : TotalLe inputLe := strLe_total.lex (keyLe_total.lex boolLe_total)
theorem envLe_total : TotalLe envLe := strLe_total.lex strLe_total

/-- The keyed inputs are themselves a map from paths. -/
theorem inputs_keyed {fk : FileKeys} {m : AMap String ExecutionInput}
    {r : List (String × FileStoreKey × Bool)} (h : m.mapM (inputKey fk) = some r) :
    AMap.keys r = AMap.keys m ∧
    ∀ p, (AMap.get? r p) =
      (m.get? p).bind (fun i => (fk.get? i.file).map (fun k => (k, i.executable))) := by
  induction m generalizing r with
  | nil => simp at h; subst h; simp [AMap.keys]
  | cons q m ih =>
    obtain ⟨path, inp⟩ := q
    rw [List.mapM_cons] at h
    simp only [Option.bind_eq_bind, Option.bind_eq_some_iff] at h
    obtain ⟨x, hx, r', hr', hp⟩ := h
    simp only [Option.pure_def, Option.some.injEq] at hp
    subst hp
    obtain ⟨i1, i2⟩ := ih hr'
    simp only [inputKey, Option.map_eq_some_iff] at hx
    obtain ⟨k, hk, rfl⟩ := hx
    constructor
    · simp only [AMap.keys] at i1 ⊢; simp [i1]
    · intro p
      rw [AMap.get?_cons, AMap.get?_cons]
      by_cases e : path = p
      · simp [e, hk]
      · simp [e, i2]

theorem inputs_eq_iff {fk₁ fk₂ : FileKeys} {m₁ m₂ : AMap String ExecutionInput}
    (w₁ : AMap.Wf m₁) (w₂ : AMap.Wf m₂) {r₁ r₂ : List (String × FileStoreKey × Bool)}
    (h₁ : m₁.mapM (inputKey fk₁) = some r₁) (h₂ : m₂.mapM (inputKey fk₂) = some r₂) :
    isort inputLe r₁ = isort inputLe r₂ ↔
      ∀ p, (m₁.get? p).map (fun i => (fk₁.get? i.file, i.executable)) =
           (m₂.get? p).map (fun i => (fk₂.get? i.file, i.executable)) := by
  obtain ⟨k₁, g₁⟩ := inputs_keyed h₁
  obtain ⟨k₂, g₂⟩ := inputs_keyed h₂
  have wr₁ : AMap.Wf r₁ := by unfold AMap.Wf; rw [k₁]; exact w₁
  have wr₂ : AMap.Wf r₂ := by unfold AMap.Wf; rw [k₂]; exact w₂
  rw [isort_eq_iff_perm inputLe_total, AMap.perm_iff wr₁ wr₂]
  have key : ∀ {fk : FileKeys} {m : AMap String ExecutionInput} {r},
      m.mapM (inputKey fk) = some r → ∀ {p i}, m.get? p = some i → ∃ k, fk.get? i.file = some k := by
    intro fk m r hm p i hp
    obtain ⟨b, hb⟩ := mapM_isSome_iff.1 ⟨r, hm⟩ _ (AMap.mem_of_get? hp)
    simp only [inputKey, Option.map_eq_some_iff] at hb
    obtain ⟨k, hk, _⟩ := hb
    exact ⟨k, hk⟩
  constructor
  · intro h p
    have := h p
    rw [g₁, g₂] at this
    cases e₁ : AMap.get? m₁ p with
    | none =>
      cases e₂ : AMap.get? m₂ p with
      | none => rfl
      | some i =>
        obtain ⟨k, hk⟩ := key h₂ e₂
        simp [e₁, e₂, hk] at this
    | some i =>
      obtain ⟨k, hk⟩ := key h₁ e₁
      cases e₂ : AMap.get? m₂ p with
      | none => simp [e₁, e₂, hk] at this
      | some j =>
        obtain ⟨k', hk'⟩ := key h₂ e₂
        simp [e₁, e₂, hk, hk'] at this
        simp [hk, hk', this]
  · intro h p
    have := h p
    rw [g₁, g₂]
    cases e₁ : AMap.get? m₁ p with
    | none =>
      cases e₂ : AMap.get? m₂ p with
      | none => rfl
      | some i => simp [e₁, e₂] at this
    | some i =>
      obtain ⟨k, hk⟩ := key h₁ e₁
      cases e₂ : AMap.get? m₂ p with
      | none => simp [e₁, e₂] at this
      | some j =>
        obtain ⟨k', hk'⟩ := key h₂ e₂
        simp [e₁, e₂, hk, hk'] at this
        simp [hk, hk', this]

theorem map_eq_iff_get {α β γ : Type} {f : α → γ} {h : β → γ} {l₁ : List α} {l₂ : List β} :
    l₁.map f = l₂.map h ↔ l₁.length = l₂.length ∧
      ∀ (i : Nat) a b, l₁[i]? = some a → l₂[i]? = some b → f a = h b := by
  induction l₁ generalizing l₂ with
  | nil => cases l₂ <;> simp
  | cons a l₁ ih =>
    cases l₂ with
    | nil => simp
    | cons b l₂ =>
      simp only [List.map_cons, List.cons.injEq, ih, List.length_cons, Nat.add_right_cancel_iff]
      constructor
      · rintro ⟨h0, hl, hi⟩
        refine ⟨hl, ?_⟩
        intro i x y hx hy
        cases i with
        | zero => simp at hx hy; subst hx hy; exact h0
        | succ i => exact hi i x y (by simpa using hx) (by simpa using hy)
      · rintro ⟨hl, hi⟩
        exact ⟨hi 0 a b rfl rfl, hl, fun i x y hx hy => hi (i+1) x y (by simpa using hx) (by simpa using hy)⟩

theorem stdinKey_eq_iff {fk₁ fk₂ : FileKeys} {s₁ s₂ : Option FileUuid}
    {k₁ k₂ : Option FileStoreKey} (h₁ : stdinKey fk₁ s₁ = some k₁) (h₂ : stdinKey fk₂ s₂ = some k₂) :
    k₁ = k₂ ↔ s₁.map fk₁.get? = s₂.map fk₂.get? := by
  cases s₁ <;> cases s₂ <;> simp [stdinKey] at h₁ h₂ <;> grind

theorem keyItem_eq_iff {g₁ g₂ : ExecutionGroup} {fk₁ fk₂ : FileKeys} {e₁ e₂ : Execution}
    (f₁ : g₁.fifo.Nodup) (f₂ : g₂.fifo.Nodup)
    (i₁ : AMap.Wf e₁.inputs) (i₂ : AMap.Wf e₂.inputs) (v₁ : AMap.Wf e₁.env) (v₂ : AMap.Wf e₂.env)
    (n₁ : ∀ a ∈ e₁.args, ∀ i, a ≠ fifoName i) (n₂ : ∀ a ∈ e₂.args, ∀ i, a ≠ fifoName i)
    {k₁ k₂ : KeyItem} (h₁ : keyItem g₁ fk₁ e₁ = some k₁) (h₂ : keyItem g₂ fk₂ e₂ = some k₂) :
    k₁ = k₂ ↔ SameExec g₁ g₂ fk₁ fk₂ e₁ e₂ := by
  simp only [keyItem, Option.bind_eq_bind, Option.bind_eq_some_iff, Option.pure_def,
    Option.some.injEq] at h₁ h₂
  obtain ⟨s₁, hs₁, r₁, hr₁, rfl⟩ := h₁
  obtain ⟨s₂, hs₂, r₂, hr₂, rfl⟩ := h₂
  simp only [KeyItem.mk.injEq]
  rw [stdinKey_eq_iff hs₁ hs₂, inputs_eq_iff i₁ i₂ hr₁ hr₂, isort_eq_iff_perm envLe_total,
    AMap.perm_iff v₁ v₂, map_eq_iff_get]
  constructor
  · rintro ⟨hc, ⟨hl, ha⟩, hs, hi, hv⟩
    exact ⟨hc, hl, fun i a b ha' hb' => (canonArg_eq_iff f₁ f₂
      (n₁ a (List.mem_iff_getElem?.2 ⟨i, ha'⟩)) (n₂ b (List.mem_iff_getElem?.2 ⟨i, hb'⟩))).1
      (ha i a b ha' hb'), hs, hv, hi⟩
  · rintro ⟨hc, hl, ha, hs, hv, hi⟩
    exact ⟨hc, ⟨hl, fun i a b ha' hb' => (canonArg_eq_iff f₁ f₂
      (n₁ a (List.mem_iff_getElem?.2 ⟨i, ha'⟩)) (n₂ b (List.mem_iff_getElem?.2 ⟨i, hb'⟩))).2
      (ha i a b ha' hb')⟩, hs, hi, hv⟩

theorem cacheKey_some_iff {g : ExecutionGroup} {fk : FileKeys} {k : Key} :
    cacheKey g fk = some k ↔ g.executions.map (keyItem g fk) = k.items.map some := by
  simp only [cacheKey, Option.bind_eq_bind, Option.bind_eq_some_iff, Option.pure_def,
    Option.some.injEq, ← mapM_eq_some_iff]
  constructor
  · rintro ⟨items, h, rfl⟩; exact h
  · intro h; exact ⟨k.items, h, rfl⟩

end Cache
end TM
