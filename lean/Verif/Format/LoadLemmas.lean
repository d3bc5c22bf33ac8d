import Verif.Format.Load

/-! # Lemmas about the loading of a task (`Verif.Format.Load`) -/
namespace TM.Format
open TM AMap

/-- Nothing but the testcases of the subtasks of `m0` may have changed. -/
structure Ext (m0 m : AMap Nat Subtask) : Prop where
  absent : ∀ s, m0.get? s = none → m.get? s = none
  present : ∀ s a, m0.get? s = some a → ∃ tcs, m.get? s = some { a with testcases := tcs } ∧
    tcs.Pairwise (· < ·)

/-- Reflexive and transitive closure of "has the dependency". -/
inductive Reach (m : AMap Nat Subtask) : Nat → Nat → Prop where
  | refl (s : Nat) : Reach m s s
  | step {s d t : Nat} {a : Subtask} : m.get? s = some a → d ∈ a.dependencies → Reach m d t →
      Reach m s t

/-- Only testcases of reachable subtasks. -/
def Sound (m0 m : AMap Nat Subtask) : Prop :=
  ∀ s b x, m.get? s = some b → x ∈ b.testcases → ∃ t a, Reach m0 s t ∧ m0.get? t = some a ∧
    x ∈ a.testcases

/-- Nothing is lost. -/
def Grows (m m' : AMap Nat Subtask) : Prop :=
  ∀ s a, m.get? s = some a → ∃ b, m'.get? s = some b ∧ ∀ x ∈ a.testcases, x ∈ b.testcases

/-- All the testcases of a subtask. -/
def tcs (m : AMap Nat Subtask) (s : Nat) : List Nat :=
  match m.get? s with | some a => a.testcases | none => []

/-- Total number of testcases of the subtasks in a list. -/
def total (m : AMap Nat Subtask) : List Nat → Nat
  | [] => 0
  | s :: ks => (tcs m s).length + total m ks

/-- Same content. -/
def Same (m m' : AMap Nat Subtask) : Prop := ∀ s, m.get? s = m'.get? s

theorem Grows.refl (m : AMap Nat Subtask) : Grows m m := fun _ a h => ⟨a, h, fun _ hx => hx⟩

theorem Grows.trans {m m' m'' : AMap Nat Subtask} (h : Grows m m') (h' : Grows m' m'') :
    Grows m m'' := by
  intro s a ha
  obtain ⟨b, hb, hs⟩ := h s a ha
  obtain ⟨c, hc, hs'⟩ := h' s b hb
  exact ⟨c, hc, fun x hx => hs' x (hs x hx)⟩

theorem Ext.get {m0 m : AMap Nat Subtask} (h : Ext m0 m) {s : Nat} {b : Subtask}
    (hb : m.get? s = some b) : ∃ a, m0.get? s = some a ∧ b = { a with testcases := b.testcases } ∧
      b.testcases.Pairwise (· < ·) := by
  cases ha : m0.get? s with
  | none => rw [h.absent s ha] at hb; cases hb
  | some a =>
    obtain ⟨t, ht, hp⟩ := h.present s a ha
    rw [hb] at ht; cases ht
    exact ⟨a, rfl, rfl, hp⟩

/-- Every dependency is a subtask. -/
def DepsOk (m : AMap Nat Subtask) : Prop :=
  ∀ s a, m.get? s = some a → ∀ d ∈ a.dependencies, ∃ b, m.get? d = some b

theorem Ext.dom {m0 m : AMap Nat Subtask} (h : Ext m0 m) {s : Nat} {a : Subtask}
    (ha : m0.get? s = some a) : ∃ b, m.get? s = some b :=
  let ⟨_, ht, _⟩ := h.present s a ha; ⟨_, ht⟩

theorem nodup_sub_eq {l₁ l₂ : List Nat} (h₁ : l₁.Nodup) (hs : ∀ x ∈ l₁, x ∈ l₂)
    (hl : l₂.length ≤ l₁.length) : ∀ x ∈ l₂, x ∈ l₁ := by
  intro x hx
  apply Classical.byContradiction
  intro hn
  have hnd : (x :: l₁).Nodup := List.nodup_cons.2 ⟨hn, h₁⟩
  have : (x :: l₁).length ≤ l₂.length := List.Nodup.length_le_of_subset hnd (by
    intro y hy
    rcases List.mem_cons.1 hy with e | hy
    · exact e ▸ hx
    · exact hs y hy)
  simp at this
  omega

theorem total_mono {m m' : AMap Nat Subtask} (ks : List Nat)
    (h : ∀ s, (tcs m s).length ≤ (tcs m' s).length) : total m ks ≤ total m' ks := by
  induction ks with
  | nil => exact Nat.le_refl _
  | cons s ks ih => have := h s; simp only [total]; omega

theorem total_lt {m m' : AMap Nat Subtask} {ks : List Nat} {s : Nat}
    (h : ∀ s, (tcs m s).length ≤ (tcs m' s).length) (hs : s ∈ ks)
    (hlt : (tcs m s).length < (tcs m' s).length) : total m ks < total m' ks := by
  induction ks with
  | nil => cases hs
  | cons t ks ih =>
    simp only [total]
    rcases List.mem_cons.1 hs with rfl | hs
    · have := total_mono ks h; omega
    · have := ih hs; have := h t; omega

/-- What one step of the fixpoint does. -/
structure StepOk (m0 m m' : AMap Nat Subtask) (u : Bool) : Prop where
  ext : Ext m0 m'
  sound : Sound m0 m'
  grows : Grows m m'
  len : ∀ s, (tcs m s).length ≤ (tcs m' s).length
  up : u = true → ∃ s b, m0.get? s = some b ∧ (tcs m s).length < (tcs m' s).length
  same : u = false → Same m m'

theorem StepOk.refl {m0 m : AMap Nat Subtask} (h : Ext m0 m) (hs : Sound m0 m) :
    StepOk m0 m m false :=
  ⟨h, hs, Grows.refl m, fun _ => Nat.le_refl _, by simp, fun _ _ => rfl⟩

theorem StepOk.trans {m0 m m' m'' : AMap Nat Subtask} {u u' : Bool} (h : StepOk m0 m m' u)
    (h' : StepOk m0 m' m'' u') : StepOk m0 m m'' (u || u') := by
  refine ⟨h'.ext, h'.sound, h.grows.trans h'.grows, fun s => Nat.le_trans (h.len s) (h'.len s), ?_, ?_⟩
  · intro hu
    cases hu1 : u with
    | true =>
      obtain ⟨s, b, hb, hlt⟩ := h.up hu1
      exact ⟨s, b, hb, Nat.lt_of_lt_of_le hlt (h'.len s)⟩
    | false =>
      rw [hu1] at hu
      obtain ⟨s, b, hb, hlt⟩ := h'.up (by simpa using hu)
      exact ⟨s, b, hb, Nat.lt_of_le_of_lt (h.len s) hlt⟩
  · intro hu
    have ⟨h1, h2⟩ : u = false ∧ u' = false := by cases u <;> cases u' <;> simp_all
    exact fun s => (h.same h1 s).trans (h'.same h2 s)

theorem absorb_ok {m0 m : AMap Nat Subtask} (he : Ext m0 m) (hs : Sound m0 m) {s1 s2 : Nat}
    {a1 a2 : Subtask} (h1 : m0.get? s1 = some a1) (hd : s2 ∈ a1.dependencies)
    (h2 : m0.get? s2 = some a2) :
    ∃ m' u, absorb m s1 s2 = .ok (m', u) ∧ StepOk m0 m m' u ∧
      (u = false → ∀ x ∈ tcs m s2, x ∈ tcs m s1) := by
  obtain ⟨t1, e1, p1⟩ := he.present s1 a1 h1
  obtain ⟨t2, e2, p2⟩ := he.present s2 a2 h2
  simp only [absorb, e1, e2]
  refine ⟨_, _, rfl, ?_, ?_⟩
  · have hlen : t1.length ≤ (dedup (sortNat (t1 ++ t2))).length :=
      List.Nodup.length_le_of_subset (strict_nodup p1) (by
        intro x hx; rw [mem_norm]; exact List.mem_append_left _ hx)
    have hget : ∀ s, (m.insert s1 { a1 with testcases := dedup (sortNat (t1 ++ t2)) }).get? s =
        if s = s1 then some { a1 with testcases := dedup (sortNat (t1 ++ t2)) } else m.get? s := by
      intro s; rw [AMap.get?_insert]
    have htc : ∀ s, tcs (m.insert s1 { a1 with testcases := dedup (sortNat (t1 ++ t2)) }) s =
        if s = s1 then dedup (sortNat (t1 ++ t2)) else tcs m s := by
      intro s; simp only [tcs, hget]; by_cases e : s = s1 <;> simp [e]
    have htc1 : tcs m s1 = t1 := by simp only [tcs, e1]
    refine ⟨⟨?_, ?_⟩, ?_, ?_, ?_, ?_, ?_⟩
    · intro s hn
      rw [hget, if_neg (by intro e; rw [e, h1] at hn; cases hn)]
      exact he.absent s hn
    · intro s a ha
      by_cases e : s = s1
      · subst e
        rw [h1] at ha; cases ha
        exact ⟨_, by rw [hget, if_pos rfl], norm_sorted _⟩
      · rw [hget, if_neg e]; exact he.present s a ha
    · intro s b x hb hx
      rw [hget] at hb
      by_cases e : s = s1
      · subst e
        rw [if_pos rfl] at hb; cases hb
        simp only [mem_norm, List.mem_append] at hx
        rcases hx with hx | hx
        · exact hs s _ x e1 hx
        · obtain ⟨t, a, hr, ht, hm⟩ := hs s2 _ x e2 hx
          exact ⟨t, a, .step h1 hd hr, ht, hm⟩
      · rw [if_neg e] at hb; exact hs s b x hb hx
    · intro s a ha
      by_cases e : s = s1
      · subst e
        rw [e1] at ha; cases ha
        exact ⟨_, by rw [hget, if_pos rfl], fun x hx => by
          simp only [mem_norm, List.mem_append]; exact .inl hx⟩
      · exact ⟨a, by rw [hget, if_neg e]; exact ha, fun x hx => hx⟩
    · intro s
      rw [htc]
      by_cases e : s = s1
      · subst e; rw [if_pos rfl, htc1]; exact hlen
      · rw [if_neg e]; exact Nat.le_refl _
    · intro hu
      refine ⟨s1, a1, h1, ?_⟩
      rw [htc, if_pos rfl, htc1]
      simp only [decide_eq_true_eq] at hu
      omega
    · intro hu s
      simp only [decide_eq_false_iff_not, Decidable.not_not] at hu
      rw [hget]
      by_cases e : s = s1
      · subst e
        rw [if_pos rfl, e1]
        have : t1 = dedup (sortNat (t1 ++ t2)) := by
          refine strict_ext p1 (norm_sorted _) fun x => ⟨fun hx => ?_, ?_⟩
          · rw [mem_norm]; exact List.mem_append_left _ hx
          · exact nodup_sub_eq (strict_nodup p1)
              (by intro y hy; rw [mem_norm]; exact List.mem_append_left _ hy) (by omega) x
        rw [← this]
      · rw [if_neg e]
  · intro hu x hx
    simp only [decide_eq_false_iff_not, Decidable.not_not] at hu
    simp only [tcs, e1, e2] at hx ⊢
    exact nodup_sub_eq (strict_nodup p1)
      (by intro y hy; rw [mem_norm]; exact List.mem_append_left _ hy) (Nat.le_of_eq hu.symm) x
      (by rw [mem_norm]; exact List.mem_append_right _ hx)

theorem tcs_same {m m' : AMap Nat Subtask} (h : Same m m') (s : Nat) : tcs m s = tcs m' s := by
  simp only [tcs, h s]

theorem absorbAll_ok {m0 : AMap Nat Subtask} {s1 : Nat} {a1 : Subtask} (h1 : m0.get? s1 = some a1)
    (hok : DepsOk m0) : ∀ (ds : List Nat), (∀ d ∈ ds, d ∈ a1.dependencies) → ∀ {m : AMap Nat Subtask},
    Ext m0 m → Sound m0 m →
    ∃ m' u, absorbAll m s1 ds = .ok (m', u) ∧ StepOk m0 m m' u ∧
      (u = false → ∀ d ∈ ds, ∀ x ∈ tcs m d, x ∈ tcs m s1) := by
  intro ds
  induction ds with
  | nil => intro _ m he hs; exact ⟨m, false, rfl, .refl he hs, by simp⟩
  | cons d ds ih =>
    intro hds m he hs
    obtain ⟨b, hb⟩ := hok s1 a1 h1 d (hds d (by simp))
    obtain ⟨m', u, ha, hst, hc⟩ := absorb_ok he hs h1 (hds d (by simp)) hb
    obtain ⟨m'', u', ha', hst', hc'⟩ := ih (fun x hx => hds x (by simp [hx])) hst.ext hst.sound
    refine ⟨m'', u || u', by simp only [absorbAll, ha, ha'], hst.trans hst', ?_⟩
    intro hu d' hd' x hx
    have ⟨hu1, hu2⟩ : u = false ∧ u' = false := by cases u <;> cases u' <;> simp_all
    rcases List.mem_cons.1 hd' with rfl | hd'
    · exact hc hu1 x hx
    · have := hc' hu2 d' hd' x
      rw [← tcs_same (hst.same hu1), ← tcs_same (hst.same hu1)] at this
      exact this hx

theorem closeRound_ok {m0 : AMap Nat Subtask} (hok : DepsOk m0) : ∀ (ks : List Nat),
    (∀ k ∈ ks, ∃ a, m0.get? k = some a) → ∀ {m : AMap Nat Subtask}, Ext m0 m → Sound m0 m →
    ∃ m' u, closeRound m ks = .ok (m', u) ∧ StepOk m0 m m' u ∧
      (u = false → ∀ k ∈ ks, ∀ a, m0.get? k = some a → ∀ d ∈ a.dependencies,
        ∀ x ∈ tcs m d, x ∈ tcs m k) := by
  intro ks
  induction ks with
  | nil => intro _ m he hs; exact ⟨m, false, rfl, .refl he hs, by simp⟩
  | cons k ks ih =>
    intro hks m he hs
    obtain ⟨a, ha⟩ := hks k (by simp)
    obtain ⟨t, et, _⟩ := he.present k a ha
    obtain ⟨m', u, h1, hst, hc⟩ := absorbAll_ok ha hok a.dependencies (fun _ h => h) he hs
    obtain ⟨m'', u', h2, hst', hc'⟩ := ih (fun x hx => hks x (by simp [hx])) hst.ext hst.sound
    refine ⟨m'', u || u', by simp only [closeRound, et, h1, h2], hst.trans hst', ?_⟩
    intro hu k' hk' b hb d hd x hx
    have ⟨hu1, hu2⟩ : u = false ∧ u' = false := by cases u <;> cases u' <;> simp_all
    rcases List.mem_cons.1 hk' with rfl | hk'
    · rw [ha] at hb; cases hb
      exact hc hu1 d hd x hx
    · have := hc' hu2 k' hk' b hb d hd x
      rw [← tcs_same (hst.same hu1), ← tcs_same (hst.same hu1)] at this
      exact this hx

/-- All the testcases of the subtasks of a map. -/
def universe' (m : AMap Nat Subtask) : List Nat := (AMap.keys m).flatMap (tcs m)

theorem total_le {m : AMap Nat Subtask} (U : Nat) (ks : List Nat) (h : ∀ s, (tcs m s).length ≤ U) :
    total m ks ≤ ks.length * U := by
  induction ks with
  | nil => simp [total]
  | cons s ks ih =>
    have := h s
    simp only [total, List.length_cons, Nat.succ_mul]
    omega

theorem tcs_le_universe {m0 m : AMap Nat Subtask} (he : Ext m0 m) (hs : Sound m0 m) (s : Nat) :
    (tcs m s).length ≤ (universe' m0).length := by
  unfold tcs
  cases hb : m.get? s with
  | none => simp
  | some b =>
    obtain ⟨a, _, _, hp⟩ := he.get hb
    refine List.Nodup.length_le_of_subset (strict_nodup hp) fun x hx => ?_
    obtain ⟨t, a', _, ht, hx'⟩ := hs s b x hb hx
    refine List.mem_flatMap.2 ⟨t, AMap.mem_keys_iff.2 ⟨a', ht⟩, ?_⟩
    simp only [tcs, ht]; exact hx'

/-- The loop ends within the bound and its result is a fixpoint. -/
theorem closeLoop_ok {m0 : AMap Nat Subtask} (hok : DepsOk m0) {order : Nat → List Nat}
    (hord : ∀ i k, k ∈ order i ↔ k ∈ AMap.keys m0) : ∀ (n i : Nat) (m : AMap Nat Subtask),
    Ext m0 m → Sound m0 m → Grows m0 m →
    (AMap.keys m0).length * (universe' m0).length + 1 ≤ n + total m (AMap.keys m0) →
    ∃ m', closeLoop order n i m = some (.ok m') ∧ Ext m0 m' ∧ Sound m0 m' ∧ Grows m0 m' ∧
      ∀ k a, m0.get? k = some a → ∀ d ∈ a.dependencies, ∀ x ∈ tcs m' d, x ∈ tcs m' k := by
  intro n
  induction n with
  | zero =>
    intro i m he hs _ hn
    have := total_le (m := m) (universe' m0).length (AMap.keys m0) (tcs_le_universe he hs)
    omega
  | succ n ih =>
    intro i m he hs hg hn
    obtain ⟨m', u, h1, hst, hc⟩ := closeRound_ok hok (order i)
      (fun k hk => AMap.mem_keys_iff.1 ((hord i k).1 hk)) he hs
    simp only [closeLoop, h1]
    cases hu : u with
    | true =>
      obtain ⟨s, b, hb, hlt⟩ := hst.up hu
      have := total_lt hst.len (AMap.mem_keys_iff.2 ⟨b, hb⟩) hlt
      simp only [if_true]
      exact ih (i + 1) m' hst.ext hst.sound (hg.trans hst.grows) (by omega)
    | false =>
      simp only [Bool.false_eq_true, if_false]
      refine ⟨m', rfl, hst.ext, hst.sound, hg.trans hst.grows, ?_⟩
      intro k a ha d hd x hx
      have := hc hu k ((hord i k).2 (AMap.mem_keys_iff.2 ⟨a, ha⟩)) a ha d hd x
      rw [← tcs_same (hst.same hu)] at hx ⊢
      exact this hx

theorem wf_absorb {m m' : AMap Nat Subtask} {a b : Nat} {u : Bool} (hw : AMap.Wf m)
    (h : absorb m a b = .ok (m', u)) : AMap.Wf m' := by
  unfold absorb at h
  split at h
  · cases h; exact AMap.wf_insert hw _ _
  · cases h

theorem wf_absorbAll (ds : List Nat) : ∀ {m m' : AMap Nat Subtask} {a : Nat} {u : Bool}, AMap.Wf m →
    absorbAll m a ds = .ok (m', u) → AMap.Wf m' := by
  induction ds with
  | nil => intro m m' a u hw h; cases h; exact hw
  | cons d ds ih =>
    intro m m' a u hw h
    simp only [absorbAll] at h
    cases h1 : absorb m a d with
    | error e => rw [h1] at h; cases h
    | ok p =>
      simp only [h1] at h
      cases h2 : absorbAll p.1 a ds with
      | error e => rw [h2] at h; cases h
      | ok q =>
        simp only [h2] at h
        cases h
        exact ih (wf_absorb hw h1) h2

theorem wf_closeRound (ks : List Nat) : ∀ {m m' : AMap Nat Subtask} {u : Bool}, AMap.Wf m →
    closeRound m ks = .ok (m', u) → AMap.Wf m' := by
  induction ks with
  | nil => intro m m' u hw h; cases h; exact hw
  | cons k ks ih =>
    intro m m' u hw h
    simp only [closeRound] at h
    cases h0 : m.get? k with
    | none => rw [h0] at h; cases h
    | some s =>
      simp only [h0] at h
      cases h1 : absorbAll m k s.dependencies with
      | error e => rw [h1] at h; cases h
      | ok p =>
        simp only [h1] at h
        cases h2 : closeRound p.1 ks with
        | error e => rw [h2] at h; cases h
        | ok q =>
          simp only [h2] at h
          cases h
          exact ih (wf_absorbAll _ hw h1) h2

theorem wf_closeLoop (order : Nat → List Nat) : ∀ (n i : Nat) (m m' : AMap Nat Subtask), AMap.Wf m →
    closeLoop order n i m = some (.ok m') → AMap.Wf m' := by
  intro n
  induction n with
  | zero => intro i m m' _ h; cases h
  | succ n ih =>
    intro i m m' hw h
    simp only [closeLoop] at h
    cases h1 : closeRound m (order i) with
    | error e => rw [h1] at h; cases h
    | ok p =>
      simp only [h1] at h
      split at h
      · exact ih _ _ _ (wf_closeRound _ hw h1) h
      · cases h; exact wf_closeRound _ hw h1

end TM.Format
