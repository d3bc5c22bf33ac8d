import Verif.Cache.Lemmas
/-!
Helper lemmas for C19 and C20.
-/

namespace TM.Cache

open TM

/-- The limits of the executions that an insertion records. -/
def Op.limits (op : Op) : List ExecutionLimits :=
  (op.group.executions.zip op.results).map (fun p => p.1.limits)

theorem sameLimits_iff {a b : Entry} :
    sameLimits a b = true ↔ a.items.map (·.limits) = b.items.map (·.limits) := by
  cases a with | mk a =>
  cases b with | mk b =>
  unfold sameLimits
  simp only
  induction a generalizing b with
  | nil => cases b <;> simp
  | cons x a ih =>
    cases b with
    | nil => simp
    | cons y b =>
      have := ih b
      simp only [List.length_cons, ne_eq, Nat.add_right_cancel_iff, List.zip_cons_cons,
        List.all_cons, List.map_cons, List.cons.injEq] at this ⊢
      rw [← this]
      by_cases hl : a.length = b.length <;> simp [hl]

theorem cacheEntry_limits {op : Op} {en : Entry}
    (h : cacheEntry op.group op.fileKeys op.results = some en) :
    en.items.map (·.limits) = op.limits := by
  have := cacheEntry_items h
  unfold Op.limits
  generalize op.group.executions.zip op.results = l at this ⊢
  generalize en.items = its at this ⊢
  induction l generalizing its with
  | nil => cases its <;> simp at this ⊢
  | cons p l ih =>
    cases its with
    | nil => simp at this
    | cons it its =>
      simp only [List.map_cons, List.cons.injEq] at this ⊢
      exact ⟨(entryItem_some this.1).2.1, ih its this.2⟩

/-- Distinct entries have distinct limits. -/
def Distinct (l : List Entry) : Prop :=
  l.Pairwise (fun a b => a.items.map (·.limits) ≠ b.items.map (·.limits))

theorem mem_upsert_iff {en e : Entry} {l : List Entry} (hd : Distinct l) :
    e ∈ upsert en l ↔ e = en ∨ (e ∈ l ∧ e.items.map (·.limits) ≠ en.items.map (·.limits)) := by
  induction l with
  | nil => simp [upsert]
  | cons a l ih =>
    unfold Distinct at hd
    rw [List.pairwise_cons] at hd
    unfold upsert
    split
    · next hs =>
      rw [sameLimits_iff] at hs
      constructor
      · intro h
        rcases List.mem_cons.1 h with h | h
        · exact Or.inl h
        · exact Or.inr ⟨List.mem_cons_of_mem _ h, fun e' => hd.1 e h (hs.trans e'.symm)⟩
      · rintro (rfl | ⟨h, hn⟩)
        · simp
        · rcases List.mem_cons.1 h with rfl | h
          · exact absurd hs hn
          · exact List.mem_cons_of_mem _ h
    · next hs =>
      rw [sameLimits_iff] at hs
      rw [List.mem_cons, ih hd.2]
      constructor
      · rintro (rfl | rfl | ⟨h, hn⟩)
        · exact Or.inr ⟨List.mem_cons_self .., hs⟩
        · exact Or.inl rfl
        · exact Or.inr ⟨List.mem_cons_of_mem _ h, hn⟩
      · rintro (rfl | ⟨h, hn⟩)
        · exact Or.inr (Or.inl rfl)
        · rcases List.mem_cons.1 h with rfl | h
          · exact Or.inl rfl
          · exact Or.inr (Or.inr ⟨h, hn⟩)

theorem distinct_upsert {en : Entry} {l : List Entry} (hd : Distinct l) : Distinct (upsert en l) := by
  induction l with
  | nil => simp [upsert, Distinct]
  | cons a l ih =>
    have hd' := hd
    unfold Distinct at hd
    rw [List.pairwise_cons] at hd
    unfold upsert
    split
    · next hs =>
      rw [sameLimits_iff] at hs
      exact List.pairwise_cons.2 ⟨fun b hb => hs ▸ hd.1 b hb, hd.2⟩
    · next hs =>
      rw [sameLimits_iff] at hs
      refine List.pairwise_cons.2 ⟨fun b hb => ?_, ih hd.2⟩
      rcases (mem_upsert_iff hd.2).1 hb with rfl | ⟨hb, _⟩
      · exact hs
      · exact hd.1 b hb

theorem reach_distinct {ops : List Op} {s : State} (hr : Reach ops s) {key : Key}
    {ens : List Entry} (h : s.entries.get? key = some ens) : Distinct ens := by
  induction hr generalizing ens key with
  | empty d => simp at h
  | @insert ops s s' op _ hi ih =>
    obtain ⟨k, e, hk, hce, rfl⟩ := insert_some hi
    simp only [AMap.get?_insert] at h
    split at h
    · cases h
      apply distinct_upsert
      cases hg : s.entries.get? k with
      | none => simp [Distinct]
      | some l => exact ih hg
    · exact ih h

/-- `en` is stored under `key`. -/
def Stored (s : State) (key : Key) (en : Entry) : Prop :=
  ∃ ens, s.entries.get? key = some ens ∧ en ∈ ens

theorem stored_insert {ops : List Op} {s s' : State} (hr : Reach ops s) {op : Op}
    (hi : insert s op.group op.fileKeys op.results = some s') {key : Key} {en : Entry} :
    Stored s' key en ↔
      (cacheKey op.group op.fileKeys = some key ∧
        cacheEntry op.group op.fileKeys op.results = some en) ∨
      (Stored s key en ∧ ¬ (cacheKey op.group op.fileKeys = some key ∧
        en.items.map (·.limits) = op.limits)) := by
  obtain ⟨k, e, hk, hce, rfl⟩ := insert_some hi
  have hl := cacheEntry_limits hce
  unfold Stored
  simp only [AMap.get?_insert]
  by_cases hkk : key = k
  · subst hkk
    simp only [if_true, Option.some.injEq, exists_eq_left']
    have hd : Distinct ((s.entries.get? key).getD []) := by
      cases hg : s.entries.get? key with
      | none => simp [Distinct]
      | some l => exact reach_distinct hr hg
    rw [mem_upsert_iff hd, hl]
    have : en ∈ (s.entries.get? key).getD [] ↔ ∃ ens, s.entries.get? key = some ens ∧ en ∈ ens := by
      cases s.entries.get? key <;> simp
    rw [this, hce, hk]
    simp only [Option.some.injEq, true_and, eq_comm (a := e)]
  · simp only [if_neg hkk, hk, Option.some.injEq]
    have : ¬ k = key := fun h => hkk h.symm
    simp [this]

/-! ### outputs -/

/-- The declared outputs of an execution with the key recorded for each. -/
def decl (p : Execution × EntryItem) : List (FileUuid × Option FileStoreKey) :=
  (p.1.stdout.map (fun f => (f, p.2.stdout))).toList ++
  ((p.1.stderr.map (fun f => (f, p.2.stderr))).toList ++
   p.1.outputs.map (fun q => (q.2, p.2.outputs.get? q.1)))

/-- One step of `decl`. -/
def step (present : FileStoreKey → Bool) (outs : AMap FileUuid FileStoreKey)
    (q : FileUuid × Option FileStoreKey) : Option (AMap FileUuid FileStoreKey) :=
  tryGet present q.2 outs q.1

theorem outItem_eq (present : FileStoreKey → Bool) (outs : AMap FileUuid FileStoreKey)
    (p : Execution × EntryItem) : outItem present outs p = (decl p).foldlM (step present) outs := by
  obtain ⟨e, it⟩ := p
  have hm : ∀ outs, e.outputs.foldlM (fun outs q => tryGet present (it.outputs.get? q.1) outs q.2) outs
      = (e.outputs.map (fun q => (q.2, it.outputs.get? q.1))).foldlM (step present) outs := by
    intro outs
    rw [List.foldlM_map]
    rfl
  simp only [outItem, decl, List.foldlM_append, hm]
  cases h1 : e.stdout <;> cases h2 : e.stderr <;> simp [outStream, step]

theorem outputs_eq (en : Entry) (present : FileStoreKey → Bool) (g : ExecutionGroup) :
    outputs en present g = ((g.executions.zip en.items).flatMap decl).foldlM (step present) [] := by
  unfold outputs
  generalize g.executions.zip en.items = l
  generalize ([] : AMap FileUuid FileStoreKey) = acc
  induction l generalizing acc with
  | nil => rfl
  | cons p l ih =>
    rw [List.foldlM_cons, List.flatMap_cons, List.foldlM_append, outItem_eq]
    congr 1
    funext a
    exact ih a

theorem fold_step {present : FileStoreKey → Bool} {l : List (FileUuid × Option FileStoreKey)}
    {acc outs : AMap FileUuid FileStoreKey} (h : l.foldlM (step present) acc = some outs) :
    (∀ q ∈ l, ∃ k, q.2 = some k ∧ present k = true) ∧
    (∀ f, f ∉ l.map (·.1) → outs.get? f = acc.get? f) ∧
    (∀ f ∈ l.map (·.1), ∃ q ∈ l, q.1 = f ∧ outs.get? f = q.2) := by
  induction l generalizing acc with
  | nil => simp at h; subst h; simp
  | cons q l ih =>
    rw [List.foldlM_cons, Option.bind_eq_bind, Option.bind_eq_some_iff] at h
    obtain ⟨a, ha, h⟩ := h
    simp only [step, tryGet] at ha
    split at ha
    · cases ha
    · next k hk =>
      split at ha
      · next hp =>
        cases ha
        obtain ⟨i1, i2, i3⟩ := ih h
        refine ⟨?_, ?_, ?_⟩
        · intro q' hq'
          rcases List.mem_cons.1 hq' with rfl | hq'
          · exact ⟨k, hk, hp⟩
          · exact i1 q' hq'
        · intro f hf
          simp only [List.map_cons, List.mem_cons, not_or] at hf
          rw [i2 f hf.2, AMap.get?_insert_ne _ _ hf.1]
        · intro f hf
          by_cases hm : f ∈ l.map (·.1)
          · obtain ⟨q', hq', e⟩ := i3 f hm
            exact ⟨q', List.mem_cons_of_mem _ hq', e⟩
          · simp only [List.map_cons, List.mem_cons, hm, or_false] at hf
            subst hf
            exact ⟨q, List.mem_cons_self .., rfl, by rw [i2 _ hm, AMap.get?_insert_self, hk]⟩
      · cases ha

theorem fold_step_some {present : FileStoreKey → Bool} {l : List (FileUuid × Option FileStoreKey)}
    (acc : AMap FileUuid FileStoreKey) (h : ∀ q ∈ l, ∃ k, q.2 = some k ∧ present k = true) :
    ∃ outs, l.foldlM (step present) acc = some outs := by
  induction l generalizing acc with
  | nil => exact ⟨acc, rfl⟩
  | cons q l ih =>
    obtain ⟨k, hk, hp⟩ := h q (List.mem_cons_self ..)
    rw [List.foldlM_cons]
    simp only [step, tryGet, hk, hp, if_true, Option.bind_eq_bind, Option.bind_some]
    exact ih _ (fun q' hq' => h q' (List.mem_cons_of_mem _ hq'))

theorem decl_files (p : Execution × EntryItem) : (decl p).map (·.1) = p.1.outputFiles := by
  obtain ⟨e, it⟩ := p
  cases h1 : e.stdout <;> cases h2 : e.stderr <;>
    simp [decl, Execution.outputFiles, h1, h2, Function.comp_def]

theorem decls_files {execs : List Execution} {items : List EntryItem}
    (h : execs.length = items.length) :
    ((execs.zip items).flatMap decl).map (·.1) = execs.flatMap Execution.outputFiles := by
  induction execs generalizing items with
  | nil => simp
  | cons e execs ih =>
    cases items with
    | nil => simp at h
    | cons it items =>
      simp only [List.zip_cons_cons, List.flatMap_cons, List.map_append, decl_files]
      rw [ih (by simpa using h)]

theorem mem_unique_fst {l : List (FileUuid × Option FileStoreKey)} (hn : (l.map (·.1)).Nodup)
    {a b : FileUuid × Option FileStoreKey} (ha : a ∈ l) (hb : b ∈ l) (h : a.1 = b.1) : a = b := by
  induction l with
  | nil => cases ha
  | cons x l ih =>
    simp only [List.map_cons, List.nodup_cons] at hn
    rcases List.mem_cons.1 ha with rfl | ha' <;> rcases List.mem_cons.1 hb with rfl | hb'
    · rfl
    · exact absurd (List.mem_map.2 ⟨b, hb', h.symm⟩) hn.1
    · exact absurd (List.mem_map.2 ⟨a, ha', h⟩) hn.1
    · exact ih hn.2 ha' hb'

/-- What the recorded map of output files contains. -/
theorem outputs_recorded {fk : FileKeys} {m : AMap String FileUuid} {r : AMap String FileStoreKey}
    (h : m.mapM (outputKey fk) = some r) (path : String) :
    r.get? path = (m.get? path).bind fk.get? ∧
      ∀ f, m.get? path = some f → ∃ k, fk.get? f = some k := by
  induction m generalizing r with
  | nil => simp at h; subst h; simp
  | cons q m ih =>
    obtain ⟨p, f⟩ := q
    rw [List.mapM_cons] at h
    simp only [Option.bind_eq_bind, Option.bind_eq_some_iff] at h
    obtain ⟨x, hx, r', hr', hp⟩ := h
    simp only [Option.pure_def, Option.some.injEq] at hp
    subst hp
    simp only [outputKey, Option.map_eq_some_iff] at hx
    obtain ⟨k, hk, rfl⟩ := hx
    obtain ⟨i1, i2⟩ := ih hr'
    rw [AMap.get?_cons, AMap.get?_cons]
    by_cases e : p = path
    · simp only [e, if_true, Option.bind_some, hk, true_and]
      intro f' hf'; cases hf'; exact ⟨k, hk⟩
    · simp only [e, if_false]
      exact ⟨i1, i2⟩

end TM.Cache
