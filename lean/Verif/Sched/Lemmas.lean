import Verif.Sched.PrioInv
/-! Lemmas for the properties of the scheduler. -/

namespace TM.Sched
open TM.DagSpec

/-- A file that exists has a recorded content. -/
theorem Hist.available_key {log : List Obs} (h : Hist log) {c f} (ha : Available log c f) :
    ∃ k, keyOf c f log = some k := by
  induction log with
  | nil => rcases ha with ⟨k, hk⟩ | ⟨g, ⟨_, _, _, hm, _⟩, _⟩ <;> simp at *
  | cons o log ih =>
    have lift : Available log c f → ∃ k, keyOf c f (o :: log) = some k := by
      intro h1
      obtain ⟨k, hk⟩ := ih h.2 h1
      cases o with
      | ev e => cases e <;> simp only [keyOf, hk] <;> first | exact ⟨_, rfl⟩ | (split <;> simp)
      | completed c' g rs os b =>
        simp only [keyOf, hk]
        split
        · cases os.get? f <;> simp
        · simp
      | _ => exact ⟨k, hk⟩
    rcases ha with ⟨k, hk⟩ | ⟨g, ⟨rs, os, b, hm, hs⟩, hf⟩
    · rcases List.mem_cons.1 hk with hk | hk
      · subst hk; exact ⟨k, by simp [keyOf]⟩
      · exact lift (Or.inl ⟨k, hk⟩)
    · rcases List.mem_cons.1 hm with hm | hm
      · subst hm
        have hr : ResultOk g rs os := h.1.2.2.1
        obtain ⟨k, hk⟩ := AMap.mem_keys_iff.1 ((hr.outs f).2 hf)
        exact ⟨k, by simp [keyOf, hk]⟩
      · exact lift (Or.inr ⟨g, ⟨rs, os, b, hm, hs⟩, hf⟩)

theorem Hist.succeeded_groupOf {log : List Obs} (h : Hist log) {c g} (hs : Succeeded log c g) :
    GroupOf log c g := by
  obtain ⟨_, _, _, hm, _⟩ := hs; exact h.completed_groupOf hm

/-- A group scheduled once does not both succeed and fail. -/
theorem Hist.not_succeeded_failed {log : List Obs} (h : Hist log) {c g} (hm : mult g = 1)
    (hs : Succeeded log c g) (hf : Failed log c g) : False := by
  obtain ⟨rs, os, b, h1, h2⟩ := hs
  obtain ⟨rs', os', b', h3, r, hr, h4⟩ := hf
  obtain ⟨rfl, _, _⟩ := h.completed_once hm h1 h3
  exact h4 (h2 r hr)

theorem Hist.not_succeeded_skipped {log : List Obs} (h : Hist log) {c g}
    (hs : Succeeded log c g) (hf : Skipped log c g) : False := by
  obtain ⟨rs, os, b, h1, h2⟩ := hs
  exact h.not_both h1 hf rfl

theorem Hist.completed_avail {log : List Obs} (h : Hist log) {c g rs os b}
    (hm : Obs.completed c g rs os b ∈ log) : ∀ f ∈ g.deps, Available log c f := by
  obtain ⟨post, pre, rfl, h1, _⟩ := h.mem hm
  intro f hf
  exact available_mono (by intro o ho; simp [ho]) (h1.2.2.2.1 f hf)

theorem Hist.job_avail {log : List Obs} (h : Hist log) {w c g k}
    (hm : Obs.out (.workerJob w c g k) ∈ log) : ∀ f ∈ g.deps, Available log c f := by
  obtain ⟨post, pre, rfl, h1, _⟩ := h.mem hm
  intro f hf
  exact available_mono (by intro o ho; simp [ho]) (h1.2.2.2.1 f hf)

theorem deps_ne_nil {g : ExecutionGroup} {f} (h : f ∈ g.deps) : mult g = 1 := by
  apply mult_le_one; left; intro e; rw [e] at h; cases h

theorem Hist.provided_key {log : List Obs} (h : Hist log) {c f dag cb} (ha : Asked log c dag cb)
    (hp : Provided log c f) : f ∈ dag.providedFiles.keys := by
  obtain ⟨k, hk⟩ := hp
  obtain ⟨post, pre, rfl, ⟨d', b', h3, h4⟩, _⟩ := h.mem hk
  have h3' : Asked (post ++ Obs.ev (Event.fileReady c f k) :: pre) c d' b' := by
    unfold Asked at *; simp [h3]
  have := (h.asked_unique ha h3').1
  subst this; exact h4

/-- The newest announcement is an entry; earlier entries end groups, so no later job. -/
theorem Hist.no_job_after {post pre : List Obs} {c g} (h : Hist (post ++ pre))
    (hm : mult g = 1) (ht : 0 < termCount pre c g.uuid) :
    ∀ w k, Obs.out (.workerJob w c g k) ∉ post := by
  intro w k hj
  obtain ⟨a, b, rfl⟩ := List.append_of_mem hj
  have h1 : HistOk (.out (.workerJob w c g k)) (b ++ pre) := by
    apply Hist.split (post := a)
    simpa using h
  have h2 := h1.2.2.2.2.2
  rw [hm, termCount_append] at h2
  omega

end TM.Sched
