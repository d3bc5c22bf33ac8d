import Verif.Format.GroupLemmas

/-!
# C36: the testcases of a subtask are its own and those of its dependencies, transitively
-/
namespace TM.Format
open TM AMap

/-! ## Specification -/

/-- In the list of entries, testcase `x` comes after subtask `t` with no other subtask in between. -/
def OwnedBy (es : List Entry) (t x : Nat) : Prop :=
  ∃ pre s mid c post, es = pre ++ .subtask s :: (mid ++ .testcase c :: post) ∧ s.id = t ∧ c.id = x ∧
    ∀ e ∈ mid, ∃ c', e = .testcase c'

/-- Subtask `a` lists `d` as a dependency. -/
def DependsDirectly (es : List Entry) (a d : Nat) : Prop :=
  ∃ s, .subtask s ∈ es ∧ s.id = a ∧ d ∈ s.dependencies

/-- `b` is `a` or can be reached from `a` through the dependencies. -/
inductive DependsOn (es : List Entry) : Nat → Nat → Prop where
  | self (a : Nat) : DependsOn es a a
  | step {a d b : Nat} : DependsDirectly es a d → DependsOn es d b → DependsOn es a b

/-- What the readers of the testcases guarantee (proved for `gen/GEN` in `Verif.Format.PropsGenGen`,
for `gen/cases.gen` in `Verif.Format.PropsCases` and for the static inputs in
`Verif.Format.PropsStatic`): the first entry is a subtask, the subtasks have different numbers and no
testcases yet, their dependencies are subtasks of the file, and the testcases are numbered in
increasing order. -/
structure WellNumbered (es : List Entry) : Prop where
  first : ∀ t rest, es ≠ .testcase t :: rest
  subtasks : (stIds es).Nodup
  fresh : ∀ s, .subtask s ∈ es → s.testcases = [] ∧ s.owned = []
  deps : ∀ s, .subtask s ∈ es → ∀ d ∈ s.dependencies, d ∈ stIds es
  testcases : (tcIds es).Pairwise (· < ·)

/-- The iteration orders of the hash map of the subtasks: each round visits all of them. -/
def IterOrder (es : List Entry) (order : Nat → List Nat) : Prop :=
  ∀ i k, k ∈ order i ↔ k ∈ stIds es

/-! ## Auxiliary facts -/

theorem block_mem {post : List Entry} {x : Nat} : x ∈ tcIds (block post) ↔
    ∃ mid c post', post = mid ++ .testcase c :: post' ∧ c.id = x ∧ ∀ e ∈ mid, ∃ c', e = .testcase c' := by
  induction post with
  | nil =>
    simp only [block, List.takeWhile_nil, tcIds, List.filterMap_nil, List.not_mem_nil, false_iff]
    rintro ⟨mid, c, post', h, _⟩
    cases mid <;> simp at h
  | cons e post ih =>
    cases e with
    | subtask s =>
      simp only [block, List.takeWhile_cons, isTestcase, Bool.false_eq_true, if_false, tcIds,
        List.filterMap_nil, List.not_mem_nil, false_iff]
      rintro ⟨mid, c, post', h, _, hm⟩
      cases mid with
      | nil => simp at h
      | cons m mid =>
        simp only [List.cons_append, List.cons.injEq] at h
        obtain ⟨c', hc'⟩ := hm m (by simp)
        rw [hc'] at h
        cases h.1
    | testcase t =>
      have : tcIds (block (.testcase t :: post)) = t.id :: tcIds (block post) := by
        simp [block, isTestcase, tcIds, List.takeWhile_cons]
      rw [this, List.mem_cons, ih]
      constructor
      · rintro (rfl | ⟨mid, c, post', rfl, hc, hm⟩)
        · exact ⟨[], t, post, rfl, rfl, by simp⟩
        · exact ⟨.testcase t :: mid, c, post', rfl, hc, by
            intro e he
            rcases List.mem_cons.1 he with rfl | he
            · exact ⟨t, rfl⟩
            · exact hm e he⟩
      · rintro ⟨mid, c, post', h, hc, hm⟩
        cases mid with
        | nil =>
          simp only [List.nil_append, List.cons.injEq, Entry.testcase.injEq] at h
          exact .inl (by rw [h.1, hc])
        | cons m mid =>
          simp only [List.cons_append, List.cons.injEq] at h
          exact .inr ⟨mid, c, post', h.2, hc, fun e he => hm e (by simp [he])⟩

theorem mem_stIds {es : List Entry} {k : Nat} : k ∈ stIds es ↔ ∃ s, .subtask s ∈ es ∧ s.id = k := by
  simp only [stIds, List.mem_filterMap]
  constructor
  · rintro ⟨e, he, h⟩
    cases e with
    | subtask s => exact ⟨s, he, by simpa using h⟩
    | testcase t => simp at h
  · rintro ⟨s, hs, rfl⟩; exact ⟨_, hs, rfl⟩

theorem stIds_append (a b : List Entry) : stIds (a ++ b) = stIds a ++ stIds b := by simp [stIds]
theorem tcIds_append (a b : List Entry) : tcIds (a ++ b) = tcIds a ++ tcIds b := by simp [tcIds]

theorem stIds_split {pre : List Entry} {s : Subtask} {post : List Entry}
    (h : (stIds (pre ++ .subtask s :: post)).Nodup) : s.id ∉ stIds pre ∧ s.id ∉ stIds post := by
  rw [stIds_append] at h
  have e : stIds (.subtask s :: post) = s.id :: stIds post := by simp [stIds]
  rw [e, List.nodup_append] at h
  exact ⟨fun hm => h.2.2 _ hm _ (by simp) rfl, (List.nodup_cons.1 h.2.1).1⟩

/-- With different numbers, a subtask appears at one position only. -/
theorem split_unique {pre pre' post post' : List Entry} {s s' : Subtask}
    (hnd : (stIds (pre ++ .subtask s :: post)).Nodup)
    (h : pre ++ .subtask s :: post = pre' ++ .subtask s' :: post') (hid : s.id = s'.id) :
    pre = pre' ∧ s = s' ∧ post = post' := by
  induction pre generalizing pre' with
  | nil =>
    cases pre' with
    | nil => simp at h; exact ⟨rfl, h.1, h.2⟩
    | cons p pre' =>
      simp only [List.nil_append, List.cons_append, List.cons.injEq] at h
      have := (stIds_split (pre := []) (by simpa using hnd)).2
      exact absurd (mem_stIds.2 ⟨s', by rw [h.2]; simp, hid.symm⟩) this
  | cons p pre ih =>
    cases pre' with
    | nil =>
      simp only [List.nil_append, List.cons_append, List.cons.injEq] at h
      obtain ⟨rfl, _⟩ := h
      have := (stIds_split hnd).1
      exact absurd (mem_stIds.2 ⟨s', by simp, hid.symm⟩) this
    | cons p' pre' =>
      simp only [List.cons_append, List.cons.injEq] at h
      have hnd' : (stIds (pre ++ .subtask s :: post)).Nodup := by
        rw [List.cons_append, show p :: (pre ++ Entry.subtask s :: post) =
          [p] ++ (pre ++ Entry.subtask s :: post) from rfl, stIds_append] at hnd
        exact (List.nodup_append.1 hnd).2.1
      obtain ⟨h1, h2, h3⟩ := ih hnd' h.2
      exact ⟨by rw [h.1, h1], h2, h3⟩

theorem block_sorted {pre : List Entry} {s : Subtask} {post : List Entry}
    (h : (tcIds (pre ++ .subtask s :: post)).Pairwise (· < ·)) :
    (tcIds (block post)).Pairwise (· < ·) := by
  rw [tcIds_append] at h
  have e : tcIds (.subtask s :: post) = tcIds post := by simp [tcIds]
  rw [e] at h
  have h' := (List.pairwise_append.1 h).2.1
  have hp : block post ++ post.dropWhile isTestcase = post := by
    simp [block, List.takeWhile_append_dropWhile]
  rw [← hp, tcIds_append] at h'
  exact (List.pairwise_append.1 h').1

/-- What the grouping makes of well numbered entries. -/
theorem group_ok {es : List Entry} (hw : WellNumbered es) : ∃ l, group es = .ok l ∧
    AMap.Wf l.subtasks ∧
    (∀ k, k ∉ stIds es → l.subtasks.get? k = none) ∧
    (∀ pre s post, es = pre ++ .subtask s :: post →
      l.subtasks.get? s.id = some (addTcs s (tcIds (block post)))) ∧
    (∀ pre t post, es = pre ++ .testcase t :: post → l.testcases.get? t.id = some t) ∧
    (∀ k, k ∉ tcIds es → l.testcases.get? k = none) := by
  cases es with
  | nil =>
    refine ⟨⟨[], []⟩, rfl, AMap.wf_nil, fun _ _ => rfl, ?_, ?_, fun _ _ => rfl⟩
    · intro pre s post h; cases pre <;> simp at h
    · intro pre s post h; cases pre <;> simp at h
  | cons e es =>
    cases e with
    | testcase t => exact absurd rfl (hw.first t es)
    | subtask s0 =>
      obtain ⟨l, hl, h1, h2, h3, h4, h5⟩ := groupLoop_some es [] [] s0
      have e0 : stIds (.subtask s0 :: es) = s0.id :: stIds es := by simp [stIds]
      have e1 : tcIds (.subtask s0 :: es) = tcIds es := by simp [tcIds]
      have hnd := hw.subtasks
      rw [e0] at hnd
      refine ⟨l, hl, wf_groupLoop _ _ _ _ AMap.wf_nil l hl, ?_, ?_, ?_, ?_⟩
      · intro k hk; rw [e0] at hk; rw [h1 k hk]; rfl
      · intro pre s post h
        cases pre with
        | nil =>
          simp only [List.nil_append, List.cons.injEq, Entry.subtask.injEq] at h
          obtain ⟨rfl, rfl⟩ := h
          exact h2 (List.nodup_cons.1 hnd).1
        | cons p pre =>
          simp only [List.cons_append, List.cons.injEq] at h
          refine h3 pre s post h.2 ?_
          have hn := (List.nodup_cons.1 hnd).2
          rw [h.2] at hn
          exact (stIds_split hn).2
      · intro pre t post h
        cases pre with
        | nil => simp at h
        | cons p pre =>
          simp only [List.cons_append, List.cons.injEq] at h
          refine h5 pre t post h.2 ?_
          have hs := hw.testcases
          rw [e1, h.2, tcIds_append] at hs
          have e2 : tcIds (.testcase t :: post) = t.id :: tcIds post := by simp [tcIds]
          rw [e2] at hs
          have := List.pairwise_cons.1 (List.pairwise_append.1 hs).2.1
          exact fun hm => absurd (this.1 _ hm) (by omega)
      · intro k hk; rw [e1] at hk; rw [h4 k hk]; rfl

theorem mem_split {s : Subtask} {es : List Entry} (h : Entry.subtask s ∈ es) :
    ∃ pre post, es = pre ++ .subtask s :: post := List.append_of_mem h

/-- Reachability in the map is reachability in the entries. -/
theorem reach_iff {es : List Entry} {m0 : AMap Nat Subtask}
    (hnone : ∀ k, k ∉ stIds es → m0.get? k = none)
    (hsome : ∀ pre s post, es = pre ++ .subtask s :: post →
      m0.get? s.id = some (addTcs s (tcIds (block post)))) {a b : Nat} :
    Reach m0 a b ↔ DependsOn es a b := by
  constructor
  · intro h
    induction h with
    | refl s => exact .self s
    | @step s d t a ha hd _ ih =>
      have hk : s ∈ stIds es := by
        apply Classical.byContradiction
        intro hn; rw [hnone s hn] at ha; cases ha
      obtain ⟨s', hs', rfl⟩ := mem_stIds.1 hk
      obtain ⟨pre, post, e⟩ := mem_split hs'
      rw [hsome _ _ _ e] at ha
      cases ha
      exact .step ⟨s', hs', rfl, hd⟩ ih
  · intro h
    induction h with
    | self a => exact .refl a
    | step hd _ ih =>
      obtain ⟨s, hs, rfl, hd⟩ := hd
      obtain ⟨pre, post, e⟩ := mem_split hs
      exact .step (hsome _ _ _ e) hd ih

/-! ## The theorems -/

/-- **C36.**  Loading well numbered entries ends (within a number of rounds that depends on the
entries only), whatever the iteration order of the hash map; it never panics; and each subtask `s` of
the file is loaded with exactly the testcases written under it or under a subtask reachable from it
through the dependencies, in increasing order and without repetitions.  Nothing else of the subtask
changes, no other subtask and no other testcase is loaded. -/
theorem load_closure {es : List Entry} (hw : WellNumbered es) :
    ∃ bound, ∀ rounds, bound ≤ rounds → ∀ order, IterOrder es order →
      ∃ l, load true order rounds es = some (.ok l) ∧
        (∀ s, .subtask s ∈ es → ∃ st, l.subtasks.get? s.id = some st ∧
          st.testcases.Pairwise (· < ·) ∧
          (∀ x, x ∈ st.testcases ↔ ∃ t, DependsOn es s.id t ∧ OwnedBy es t x) ∧
          st.owned.Pairwise (· < ·) ∧
          (∀ x, x ∈ st.owned ↔ OwnedBy es s.id x) ∧
          st = { s with testcases := st.testcases, owned := st.owned }) ∧
        (∀ k, (∀ s, .subtask s ∈ es → s.id ≠ k) → l.subtasks.get? k = none) ∧
        (∀ t, .testcase t ∈ es → l.testcases.get? t.id = some t) ∧
        (∀ k, (∀ t, .testcase t ∈ es → t.id ≠ k) → l.testcases.get? k = none) := by
  obtain ⟨l0, hl0, hwf, hnone, hsome, htc, htcn⟩ := group_ok hw
  -- the testcases of the initial map
  have hget : ∀ k a, l0.subtasks.get? k = some a → ∃ pre s post, es = pre ++ .subtask s :: post ∧
      s.id = k ∧ a = addTcs s (tcIds (block post)) := by
    intro k a ha
    have hk : k ∈ stIds es := by
      apply Classical.byContradiction
      intro hn; rw [hnone k hn] at ha; cases ha
    obtain ⟨s', hs', rfl⟩ := mem_stIds.1 hk
    obtain ⟨pre, post, e⟩ := mem_split hs'
    rw [hsome _ _ _ e] at ha
    cases ha
    exact ⟨pre, s', post, e, rfl, rfl⟩
  have hfresh : ∀ pre s post, es = pre ++ Entry.subtask s :: post →
      addTcs s (tcIds (block post)) =
        { s with testcases := tcIds (block post), owned := tcIds (block post) } := by
    intro pre s post e
    obtain ⟨h1, h2⟩ := hw.fresh s (by rw [e]; simp)
    simp [addTcs, h1, h2]
  have howned : ∀ pre s post, es = pre ++ Entry.subtask s :: post → ∀ x,
      x ∈ tcIds (block post) ↔ OwnedBy es s.id x := by
    intro pre s post e x
    rw [block_mem]
    constructor
    · rintro ⟨mid, c, post', rfl, hc, hm⟩
      exact ⟨pre, s, mid, c, post', e, rfl, hc, hm⟩
    · rintro ⟨pre', s', mid, c, post', e', hid, hc, hm⟩
      have hnd := hw.subtasks
      rw [e] at hnd
      obtain ⟨_, _, hpost⟩ := split_unique hnd (e ▸ e') hid.symm
      exact ⟨mid, c, post', hpost, hc, hm⟩
  have hdeps : DepsOk l0.subtasks := by
    intro k a ha d hd
    obtain ⟨pre, s, post, e, rfl, rfl⟩ := hget k a ha
    have := hw.deps s (by rw [e]; simp) d hd
    obtain ⟨s', hs', rfl⟩ := mem_stIds.1 this
    obtain ⟨pre', post', e'⟩ := mem_split hs'
    exact ⟨_, hsome _ _ _ e'⟩
  have hkeys : ∀ k, k ∈ AMap.keys l0.subtasks ↔ k ∈ stIds es := by
    intro k
    rw [AMap.mem_keys_iff]
    constructor
    · rintro ⟨a, ha⟩
      obtain ⟨pre, s, post, e, rfl, _⟩ := hget k a ha
      exact mem_stIds.2 ⟨s, by rw [e]; simp, rfl⟩
    · intro hk
      obtain ⟨s', hs', rfl⟩ := mem_stIds.1 hk
      obtain ⟨pre, post, e⟩ := mem_split hs'
      exact ⟨_, hsome _ _ _ e⟩
  have hext : Ext l0.subtasks l0.subtasks := by
    refine ⟨fun _ h => h, fun s a ha => ?_⟩
    obtain ⟨pre, s', post, e, rfl, ea⟩ := hget s a ha
    refine ⟨a.testcases, ha, ?_⟩
    rw [ea, hfresh _ _ _ e]
    have ht := hw.testcases
    rw [e] at ht
    exact block_sorted ht
  refine ⟨(AMap.keys l0.subtasks).length * (universe' l0.subtasks).length + 1, ?_⟩
  intro rounds hr order hord
  obtain ⟨m', hm', he, hs, hg, hfix⟩ := closeLoop_ok hdeps
    (fun i k => (hord i k).trans (hkeys k).symm) rounds 0 l0.subtasks hext
    (fun s b x hb hx => ⟨s, b, .refl s, hb, hx⟩) (Grows.refl _) (by omega)
  refine ⟨⟨m', l0.testcases⟩, by simp only [load, hl0, hm']; rfl, ?_, ?_, ?_, ?_⟩
  · intro s hsm
    obtain ⟨pre, post, e⟩ := mem_split hsm
    have h0 := hsome _ _ _ e
    obtain ⟨ts, hts, hp⟩ := he.present s.id _ h0
    refine ⟨_, hts, hp, ?_, ?_, ?_, ?_⟩
    · intro x
      constructor
      · intro hx
        obtain ⟨t, a, hre, ha, hxa⟩ := hs _ _ x hts hx
        obtain ⟨pre', s', post', e', rfl, ea⟩ := hget t a ha
        rw [ea, hfresh _ _ _ e'] at hxa
        exact ⟨_, (reach_iff hnone hsome).1 hre, (howned _ _ _ e' x).1 hxa⟩
      · rintro ⟨t, hd, ho⟩
        -- every testcase of `t` is in every subtask that reaches it
        have key : ∀ a b, Reach l0.subtasks a b → ∀ x, OwnedBy es b x →
            x ∈ tcs m' a := by
          intro a b hr'
          induction hr' with
          | refl a =>
            intro x hx
            obtain ⟨pre', s', mid, c, post', e', rfl, _, _⟩ := id hx
            have h0' := hsome _ _ _ e'
            obtain ⟨b', hb', hsub⟩ := hg _ _ h0'
            simp only [tcs, hb']
            refine hsub x ?_
            rw [hfresh _ _ _ e']
            exact (howned _ _ _ e' x).2 hx
          | step ha hd' _ ih =>
            intro x hx
            exact hfix _ _ ha _ hd' x (ih x hx)
        have := key _ _ ((reach_iff hnone hsome).2 hd) x ho
        simpa only [tcs, hts] using this
    · rw [hfresh _ _ _ e]
      have ht := hw.testcases
      rw [e] at ht
      exact block_sorted ht
    · intro x
      rw [hfresh _ _ _ e]
      exact howned _ _ _ e x
    · rw [hfresh _ _ _ e]
  · intro k hk
    refine he.absent k (hnone k fun hm => ?_)
    obtain ⟨s, hs, e⟩ := mem_stIds.1 hm
    exact hk s hs e
  · intro t ht
    obtain ⟨pre, post, e⟩ := List.append_of_mem ht
    exact htc _ _ _ e
  · intro k hk
    refine htcn k fun hm => ?_
    simp only [tcIds, List.mem_filterMap] at hm
    obtain ⟨e, he', h⟩ := hm
    cases e with
    | subtask s => simp at h
    | testcase t => exact hk t he' (by simpa using h)

/-- **C36, order.**  The iteration order of the hash map and the number of rounds allowed do not
matter. -/
theorem load_order_independent {es : List Entry} (hw : WellNumbered es) {o₁ o₂ : Nat → List Nat}
    (h₁ : IterOrder es o₁) (h₂ : IterOrder es o₂) : ∃ bound, ∀ r₁ r₂, bound ≤ r₁ → bound ≤ r₂ →
      ∃ l₁ l₂, load true o₁ r₁ es = some (.ok l₁) ∧ load true o₂ r₂ es = some (.ok l₂) ∧
        (∀ k, l₁.subtasks.get? k = l₂.subtasks.get? k) ∧
        (∀ k, l₁.testcases.get? k = l₂.testcases.get? k) := by
  obtain ⟨bound, hb⟩ := load_closure hw
  refine ⟨bound, fun r₁ r₂ hr₁ hr₂ => ?_⟩
  obtain ⟨l₁, e₁, a₁, b₁, c₁, d₁⟩ := hb r₁ hr₁ o₁ h₁
  obtain ⟨l₂, e₂, a₂, b₂, c₂, d₂⟩ := hb r₂ hr₂ o₂ h₂
  refine ⟨l₁, l₂, e₁, e₂, fun k => ?_, fun k => ?_⟩
  · by_cases hk : ∃ s, .subtask s ∈ es ∧ s.id = k
    · obtain ⟨s, hs, rfl⟩ := hk
      obtain ⟨s₁, g₁, p₁, m₁, q₁, n₁, f₁⟩ := a₁ s hs
      obtain ⟨s₂, g₂, p₂, m₂, q₂, n₂, f₂⟩ := a₂ s hs
      have ht := strict_ext p₁ p₂ fun x => (m₁ x).trans (m₂ x).symm
      have ho := strict_ext q₁ q₂ fun x => (n₁ x).trans (n₂ x).symm
      rw [g₁, g₂, f₁, f₂, ht, ho]
    · rw [b₁ k fun s hs e => hk ⟨s, hs, e⟩, b₂ k fun s hs e => hk ⟨s, hs, e⟩]
  · by_cases hk : ∃ t, .testcase t ∈ es ∧ t.id = k
    · obtain ⟨t, ht, rfl⟩ := hk
      rw [c₁ t ht, c₂ t ht]
    · rw [d₁ k fun s hs e => hk ⟨s, hs, e⟩, d₂ k fun s hs e => hk ⟨s, hs, e⟩]

/-- **C36, entries.**  A file whose first entry is a testcase is rejected. -/
theorem load_testcase_first (orig : Bool) (order : Nat → List Nat) (rounds : Nat) (t : Testcase)
    (rest : List Entry) :
    load orig order rounds (.testcase t :: rest) = some (.error .testcaseBeforeSubtask) := rfl

/-- **C36, `task.yaml.orig`.**  Without a `task.yaml.orig` a task whose subtasks have dependencies is
rejected; without dependencies the two kinds of tasks are loaded in the same way. -/
theorem load_without_orig {es : List Entry} (hw : WellNumbered es) :
    ∃ bound, ∀ rounds, bound ≤ rounds → ∀ order, IterOrder es order →
      ((∃ a d, DependsDirectly es a d) → load false order rounds es = some (.error .needsOrig)) ∧
      ((¬∃ a d, DependsDirectly es a d) →
        load false order rounds es = load true order rounds es) := by
  obtain ⟨bound, hb⟩ := load_closure hw
  refine ⟨bound, fun rounds hr order hord => ?_⟩
  obtain ⟨l, hl, hs, hn, _, _⟩ := hb rounds hr order hord
  unfold load at hl ⊢
  cases hg : group es with
  | error e => rw [hg] at hl; simp at hl
  | ok l0 =>
    simp only [hg] at hl ⊢
    cases hc : closeLoop order rounds 0 l0.subtasks with
    | none => rw [hc] at hl; simp at hl
    | some r =>
      cases r with
      | error e => rw [hc] at hl; simp at hl
      | ok subs =>
        simp only [hc, Bool.not_true, Bool.false_and, Bool.false_eq_true, if_false,
          Option.some.injEq, Except.ok.injEq] at hl
        subst hl
        simp only [Bool.not_false, Bool.true_and, Bool.not_true, Bool.false_and,
          Bool.false_eq_true, if_false]
        constructor
        · rintro ⟨a, d, s, hsm, rfl, hd⟩
          obtain ⟨st, hst, _, _, _, _, hf⟩ := hs s hsm
          have : (AMap.values subs).any (fun s => !s.dependencies.isEmpty) = true := by
            rw [List.any_eq_true]
            refine ⟨st, List.mem_map.2 ⟨_, AMap.mem_of_get? hst, rfl⟩, ?_⟩
            rw [hf]
            cases hds : s.dependencies with
            | nil => rw [hds] at hd; cases hd
            | cons => rfl
          simp only [this, if_true]
        · intro hno
          have : (AMap.values subs).any (fun s => !s.dependencies.isEmpty) = false := by
            rw [List.any_eq_false]
            intro st hst
            obtain ⟨⟨k, st'⟩, hmem, rfl⟩ := List.mem_map.1 hst
            have hwf : AMap.Wf subs := wf_closeLoop _ _ _ _ _ (by
              obtain ⟨l', hl', hwf, _⟩ := group_ok hw
              rw [hg] at hl'; cases hl'; exact hwf) hc
            have hst := AMap.get?_of_mem hwf hmem
            have hk : ∃ s, .subtask s ∈ es ∧ s.id = k := by
              apply Classical.byContradiction
              intro hk
              rw [hn k fun s hs e => hk ⟨s, hs, e⟩] at hst; cases hst
            obtain ⟨s, hsm, rfl⟩ := hk
            obtain ⟨st2, hst2, _, _, _, _, hf⟩ := hs s hsm
            rw [hst2] at hst; cases hst
            rw [hf]
            cases hds : s.dependencies with
            | nil => simp
            | cons d ds => exact absurd ⟨s.id, d, s, hsm, rfl, by rw [hds]; simp⟩ hno
          simp only [this, Bool.false_eq_true, if_false]

/-! ## A concrete case: three subtasks, the second and the third depend on each other -/

def exampleEntries : List Entry :=
  [.subtask { id := 0, maxScore := 10 }, .testcase ⟨0, .staticFile [], .notAvailable⟩,
   .subtask { id := 1, maxScore := 30, dependencies := [0, 2] },
   .testcase ⟨1, .staticFile [], .notAvailable⟩, .testcase ⟨2, .staticFile [], .notAvailable⟩,
   .subtask { id := 2, maxScore := 60, dependencies := [1] }]

example : WellNumbered exampleEntries := by
  refine ⟨?_, by decide, ?_, ?_, by decide⟩
  · intro t rest h; simp [exampleEntries] at h
  · intro s hs
    simp only [exampleEntries, List.mem_cons, List.not_mem_nil, or_false, Entry.subtask.injEq,
      reduceCtorEq, false_or] at hs
    rcases hs with rfl | rfl | rfl <;> exact ⟨rfl, rfl⟩
  · intro s hs d hd
    simp only [exampleEntries, List.mem_cons, List.not_mem_nil, or_false, Entry.subtask.injEq,
      reduceCtorEq, false_or] at hs
    rcases hs with rfl | rfl | rfl
    · simp at hd
    · simp only [List.mem_cons, List.not_mem_nil, or_false] at hd
      rcases hd with rfl | rfl <;> decide
    · simp only [List.mem_cons, List.not_mem_nil, or_false] at hd
      rcases hd with rfl; decide

example : IterOrder exampleEntries (fun i => if i % 2 = 0 then [2, 1, 0] else [0, 1, 2]) := by
  intro i k
  simp only [exampleEntries, stIds, List.filterMap_cons, List.filterMap_nil]
  split <;> simp <;> omega

/-- In the example the testcases are `[0]`, `[0, 1, 2]` and `[0, 1, 2]`. -/
example : (match load true (fun _ => [2, 1, 0]) 10 exampleEntries with
    | some (.ok l) => [tcs l.subtasks 0, tcs l.subtasks 1, tcs l.subtasks 2]
    | _ => []) = [[0], [0, 1, 2], [0, 1, 2]] := by decide +kernel

example : DependsOn exampleEntries 2 0 ∧ OwnedBy exampleEntries 0 0 ∧
    DependsDirectly exampleEntries 2 1 := by
  have h1 : DependsDirectly exampleEntries 2 1 :=
    ⟨{ id := 2, maxScore := 60, dependencies := [1] }, by simp [exampleEntries], rfl, by simp⟩
  have h2 : DependsDirectly exampleEntries 1 0 :=
    ⟨{ id := 1, maxScore := 30, dependencies := [0, 2] }, by simp [exampleEntries], rfl, by simp⟩
  refine ⟨.step h1 (.step h2 (.self 0)), ?_, h1⟩
  exact ⟨[], _, [], _, _, rfl, rfl, rfl, by simp⟩

end TM.Format
