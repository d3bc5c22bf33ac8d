import Verif.Worker.Model
/-! Lemmas on the dependencies of a job. -/
namespace TM.Worker

/-- What is known after visiting the dependencies `done`. -/
structure Gathered (job : Job) (done : List FileUuid) (missing : AMap FileStoreKey (List FileUuid))
    (handles : AMap FileUuid FileStoreKey) : Prop where
  wf : AMap.Wf missing
  cover : ∀ f ∈ done, handles.get? f = job.depKeys.get? f ∨
    ∃ k us, job.depKeys.get? f = some k ∧ missing.get? k = some us ∧ f ∈ us
  handlesOk : ∀ f k, handles.get? f = some k → job.depKeys.get? f = some k
  missingOk : ∀ k us, missing.get? k = some us → ∀ f ∈ us, job.depKeys.get? f = some k

theorem visit_gathered {job : Job} {done : List FileUuid} {g : Gather}
    (h : Gathered job done g.missing g.handles) (ha : g.asked.Nodup)
    (hk : ∀ k, k ∈ g.asked ↔ k ∈ g.missing.keys)
    {present : Bool} {f : FileUuid} {g' : Gather} (hv : g.visit job present f = .ok g') :
    Gathered job (done ++ [f]) g'.missing g'.handles ∧ g'.asked.Nodup ∧
      (∀ k, k ∈ g'.asked ↔ k ∈ g'.missing.keys) ∧
      (∀ k, k ∈ g'.asked ↔ k ∈ g.asked ∨ (job.depKeys.get? f = some k ∧ present = false)) := by
  unfold Gather.visit at hv
  cases hd : job.depKeys.get? f with
  | none => rw [hd] at hv; cases hv
  | some key =>
    rw [hd] at hv
    simp only at hv
    cases present with
    | true =>
      simp only [if_true] at hv
      cases hv
      refine ⟨⟨h.wf, ?_, ?_, h.missingOk⟩, ha, hk, ?_⟩
      · intro f' hf'
        simp only
        rw [AMap.get?_insert]
        by_cases hff : f' = f
        · subst hff; rw [if_pos rfl, hd]; exact .inl rfl
        · rw [if_neg hff]
          rcases List.mem_append.1 hf' with h1 | h1
          · exact h.cover f' h1
          · exact absurd (List.mem_singleton.1 h1) hff
      · intro f' k hk'
        simp only at hk'
        rw [AMap.get?_insert] at hk'
        by_cases hff : f' = f
        · subst hff; rw [if_pos rfl] at hk'; rw [hd]; exact hk'
        · rw [if_neg hff] at hk'; exact h.handlesOk f' k hk'
      · intro k; simp
    | false =>
      simp only [Bool.false_eq_true, if_false] at hv
      cases hv
      refine ⟨⟨AMap.wf_insert h.wf _ _, ?_, h.handlesOk, ?_⟩, ?_, ?_, ?_⟩
      · intro f' hf'
        rcases List.mem_append.1 hf' with h1 | h1
        · rcases h.cover f' h1 with h2 | ⟨k, us, h2, h3, h4⟩
          · exact .inl h2
          · right
            simp only
            by_cases hkk : k = key
            · subst hkk
              exact ⟨k, us ++ [f], h2, by rw [AMap.get?_insert, if_pos rfl, h3]; rfl,
                List.mem_append_left _ h4⟩
            · exact ⟨k, us, h2, by rw [AMap.get?_insert, if_neg hkk, h3], h4⟩
        · have := List.mem_singleton.1 h1
          subst this
          right
          exact ⟨key, _, hd, by rw [AMap.get?_insert, if_pos rfl], by simp⟩
      · intro k us hus f' hf'
        simp only at hus
        rw [AMap.get?_insert] at hus
        by_cases hkk : k = key
        · subst hkk
          rw [if_pos rfl] at hus
          cases hus
          rcases List.mem_append.1 hf' with h1 | h1
          · cases hm : g.missing.get? k with
            | none => rw [hm] at h1; cases h1
            | some us => rw [hm] at h1; exact h.missingOk k us hm f' h1
          · have := List.mem_singleton.1 h1
            subst this; exact hd
        · rw [if_neg hkk] at hus
          exact h.missingOk k us hus f' hf'
      · simp only
        split
        · exact ha
        · next hc =>
          have : key ∉ g.asked := by
            rw [hk, AMap.mem_keys_iff, ← AMap.contains_iff]; exact hc
          exact List.nodup_append.2 ⟨ha, by simp, by
            intro a h1 b h2 hab
            have := List.mem_singleton.1 h2
            subst this; subst hab; contradiction⟩
      · intro k
        simp only
        rw [AMap.mem_keys_iff, AMap.get?_insert]
        by_cases hkk : k = key
        · subst hkk
          simp only [if_true]
          refine ⟨fun _ => ⟨_, rfl⟩, fun _ => ?_⟩
          split
          · next hc => rw [hk, AMap.mem_keys_iff, ← AMap.contains_iff]; exact hc
          · simp
        · rw [if_neg hkk, ← AMap.mem_keys_iff, ← hk]
          split <;> simp [hkk]
      · intro k
        simp only
        by_cases hkk : k = key
        · subst hkk
          simp only [and_self, or_true, iff_true]
          split
          · next hc => rw [hk, AMap.mem_keys_iff, ← AMap.contains_iff]; exact hc
          · simp
        · have : ¬ key = k := fun e => hkk e.symm
          split <;> simp [hkk, this]

theorem gather_spec {job : Job} {present : Nat → Bool} :
    ∀ (ds : List FileUuid) (i : Nat) (done : List FileUuid) (g g' : Gather),
      Gathered job done g.missing g.handles → g.asked.Nodup →
      (∀ k, k ∈ g.asked ↔ k ∈ g.missing.keys) →
      gather job present i ds g = .ok g' →
      Gathered job (done ++ ds) g'.missing g'.handles ∧ g'.asked.Nodup ∧
        (∀ k, k ∈ g'.asked ↔ k ∈ g'.missing.keys) ∧
        (∀ k, k ∈ g'.asked ↔ k ∈ g.asked ∨
          ∃ n f, ds[n]? = some f ∧ job.depKeys.get? f = some k ∧ present (i + n) = false) := by
  intro ds
  induction ds with
  | nil =>
    intro i done g g' h ha hk he
    cases he
    refine ⟨by simpa using h, ha, hk, ?_⟩
    intro k; simp
  | cons d ds ih =>
    intro i done g g' h ha hk he
    unfold gather at he
    cases hv : g.visit job (present i) d with
    | error e => rw [hv] at he; cases he
    | ok g1 =>
      rw [hv] at he
      simp only at he
      obtain ⟨h1, h2, h3, h4⟩ := visit_gathered h ha hk hv
      obtain ⟨k1, k2, k3, k4⟩ := ih (i + 1) _ g1 g' h1 h2 h3 he
      refine ⟨by simpa using k1, k2, k3, ?_⟩
      intro k
      rw [k4, h4]
      constructor
      · rintro ((h | ⟨h, hp⟩) | ⟨n, f, hn, hf, hp⟩)
        · exact .inl h
        · exact .inr ⟨0, d, rfl, h, hp⟩
        · exact .inr ⟨n + 1, f, by simpa using hn, hf, by rw [← hp]; congr 1; omega⟩
      · rintro (h | ⟨n, f, hn, hf, hp⟩)
        · exact .inl (.inl h)
        · cases n with
          | zero =>
            simp only [List.getElem?_cons_zero, Option.some.injEq] at hn
            subst hn
            exact .inl (.inr ⟨hf, hp⟩)
          | succ n =>
            exact .inr ⟨n, f, by simpa using hn, hf, by rw [← hp]; congr 1; omega⟩

theorem gather_total {job : Job} {present : Nat → Bool} :
    ∀ (ds : List FileUuid) (i : Nat) (g : Gather),
      (∀ f ∈ ds, ∃ k, job.depKeys.get? f = some k) → ∃ g', gather job present i ds g = .ok g' := by
  intro ds
  induction ds with
  | nil => intro i g _; exact ⟨g, rfl⟩
  | cons d ds ih =>
    intro i g h
    unfold gather
    obtain ⟨k, hk⟩ := h d (by simp)
    have : ∃ g', g.visit job (present i) d = .ok g' := by
      unfold Gather.visit; rw [hk]; simp only
      split <;> exact ⟨_, rfl⟩
    obtain ⟨g', hg'⟩ := this
    rw [hg']
    exact ih _ _ (fun f hf => h f (List.mem_cons_of_mem _ hf))

theorem insertAll_get? (key : FileStoreKey) : ∀ (us : List FileUuid)
    (m : AMap FileUuid FileStoreKey) (f : FileUuid),
    (insertAll key us m).get? f = if f ∈ us then some key else m.get? f := by
  intro us
  induction us with
  | nil => intro m f; simp [insertAll]
  | cons u us ih =>
    intro m f
    rw [insertAll, ih, AMap.get?_insert]
    by_cases h1 : f ∈ us
    · simp [h1]
    · by_cases h2 : f = u <;> simp [h1, h2]

/-- The job is waiting for the keys `ks`. -/
structure Waiting (c : Current) (job : Job) (ks : List FileStoreKey) : Prop where
  keys : ∀ k, k ∈ ks ↔ k ∈ c.missing.keys
  nodup : ks.Nodup
  gathered : ∃ handles, c.job = some (job, handles) ∧
    Gathered job job.group.deps c.missing handles

theorem onProvide_spec {c : Current} {job : Job} {ks : List FileStoreKey} (h : Waiting c job ks)
    {k : FileStoreKey} (hk : k ∈ ks) :
    ∃ c' st, c.onProvide k = .ok (c', st) ∧ c'.missing = c.missing.erase k ∧
      (ks.erase k ≠ [] → st = none ∧ Waiting c' job (ks.erase k) ∧ c'.sandboxes = c.sandboxes ∧
        c'.asks = c.asks) ∧
      (ks.erase k = [] → ∃ handles, st = some (job, handles) ∧ c'.job = some (job, handles) ∧
        c'.missing = [] ∧ c'.sandboxes = true ∧ c'.asks = true ∧
        ∀ f ∈ job.group.deps, handles.get? f = job.depKeys.get? f) := by
  obtain ⟨handles, hj, hg⟩ := h.gathered
  obtain ⟨us, hus⟩ := AMap.mem_keys_iff.1 ((h.keys k).1 hk)
  have hkeys : ∀ k', k' ∈ ks.erase k ↔ k' ∈ (c.missing.erase k).keys := by
    intro k'
    rw [AMap.mem_keys_iff, AMap.get?_erase, h.nodup.mem_erase_iff, h.keys, AMap.mem_keys_iff]
    by_cases hkk : k' = k <;> simp [hkk]
  have hnil : c.missing.erase k = [] ↔ ks.erase k = [] := by
    constructor
    · intro he
      cases hl : ks.erase k with
      | nil => rfl
      | cons a l =>
        have := (hkeys a).1 (by rw [hl]; simp)
        rw [he] at this; simp [AMap.keys] at this
    · intro he
      rw [AMap.eq_nil_iff]
      intro k'
      rw [AMap.get?_eq_none_iff, ← hkeys, he]
      simp
  have hG : Gathered job job.group.deps (c.missing.erase k) (insertAll k us handles) := by
    refine ⟨AMap.wf_erase hg.wf _, ?_, ?_, ?_⟩
    · intro f hf
      rw [insertAll_get?]
      rcases hg.cover f hf with h1 | ⟨k', us', h1, h2, h3⟩
      · by_cases hfu : f ∈ us
        · left; rw [if_pos hfu, hg.missingOk k us hus f hfu]
        · left; rw [if_neg hfu, h1]
      · by_cases hkk : k' = k
        · subst hkk
          rw [hus] at h2; cases h2
          left; rw [if_pos h3, h1]
        · right
          exact ⟨k', us', h1, by rw [AMap.get?_erase_ne _ hkk, h2], h3⟩
    · intro f k' hfk
      rw [insertAll_get?] at hfk
      by_cases hfu : f ∈ us
      · rw [if_pos hfu] at hfk; cases hfk; exact hg.missingOk k us hus f hfu
      · rw [if_neg hfu] at hfk; exact hg.handlesOk f k' hfk
    · intro k' us' h1 f hf
      rw [AMap.get?_erase] at h1
      by_cases hkk : k' = k
      · rw [if_pos hkk] at h1; cases h1
      · rw [if_neg hkk] at h1; exact hg.missingOk k' us' h1 f hf
  unfold Current.onProvide
  rw [hus]
  simp only [hj]
  by_cases he : c.missing.erase k = []
  · rw [if_pos he]
    refine ⟨_, _, rfl, rfl, fun h' => absurd (hnil.1 he) h', fun _ => ?_⟩
    refine ⟨insertAll k us handles, rfl, rfl, he, rfl, rfl, ?_⟩
    intro f hf
    rcases hG.cover f hf with h1 | ⟨k', us', _, h2, _⟩
    · exact h1
    · rw [he] at h2; cases h2
  · rw [if_neg he]
    refine ⟨_, _, rfl, rfl, fun _ => ?_, fun h' => absurd (hnil.2 h') he⟩
    exact ⟨rfl, ⟨hkeys, h.nodup.erase k, ⟨_, rfl, hG⟩⟩, rfl, rfl⟩

/-- All that `Work` does when every dependency has a key. -/
theorem onWork_spec (c : Current) (hc : c.job = none) (job : Job)
    (hkeys : ∀ f ∈ job.group.deps, ∃ k, job.depKeys.get? f = some k) (present : Nat → Bool) :
    ∃ c' asked st, c.onWork job present = .ok (c', asked, st) ∧ asked.Nodup ∧
      (∀ k, k ∈ asked ↔ ∃ n f, job.group.deps[n]? = some f ∧ job.depKeys.get? f = some k ∧
        present n = false) ∧
      (asked ≠ [] → st = none ∧ Waiting c' job asked ∧ c'.sandboxes = c.sandboxes ∧
        c'.asks = c.asks) ∧
      (asked = [] → ∃ handles, st = some (job, handles) ∧ c'.job = some (job, handles) ∧
        c'.missing = [] ∧ c'.sandboxes = true ∧ c'.asks = true ∧
        ∀ f ∈ job.group.deps, handles.get? f = job.depKeys.get? f) := by
  obtain ⟨g, hg⟩ := gather_total (present := present) job.group.deps 0 {} hkeys
  obtain ⟨h1, h2, h3, h4⟩ := gather_spec job.group.deps 0 [] {} g
    ⟨AMap.wf_nil, (by simp), (by intro f k h; cases h), (by intro k us h; cases h)⟩ (by simp)
    (by simp [AMap.keys]) hg
  have hnil : g.missing = [] ↔ g.asked = [] := by
    constructor
    · intro he
      cases hl : g.asked with
      | nil => rfl
      | cons a l =>
        have := (h3 a).1 (by rw [hl]; simp)
        rw [he] at this; simp [AMap.keys] at this
    · intro he
      rw [AMap.eq_nil_iff]
      intro k'
      rw [AMap.get?_eq_none_iff, ← h3, he]
      simp
  rw [List.nil_append] at h1
  unfold Current.onWork
  rw [hc, hg]
  simp only [Option.isSome_none, Bool.false_eq_true, if_false]
  have hasked : ∀ k, k ∈ g.asked ↔ ∃ n f, job.group.deps[n]? = some f ∧
      job.depKeys.get? f = some k ∧ present n = false := by
    intro k; rw [h4]; simp
  by_cases he : g.missing = []
  · rw [if_pos he]
    refine ⟨_, _, _, rfl, h2, hasked, fun h' => absurd (hnil.1 he) h', fun _ => ?_⟩
    refine ⟨g.handles, rfl, rfl, he, rfl, rfl, ?_⟩
    intro f hf
    rcases h1.cover f hf with h | ⟨k', us', _, h, _⟩
    · exact h
    · rw [he] at h; cases h
  · rw [if_neg he]
    refine ⟨_, _, _, rfl, h2, hasked, fun _ => ?_, fun h' => absurd (hnil.2 h') he⟩
    exact ⟨rfl, ⟨h3, h2, ⟨_, rfl, h1⟩⟩, rfl, rfl⟩

end TM.Worker
