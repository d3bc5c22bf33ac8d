import Verif.Sched.Demo
/-! Consequences of the history invariant. -/

namespace TM.Sched
open TM.DagSpec

theorem Hist.mem {log : List Obs} (h : Hist log) {o : Obs} (ho : o ∈ log) :
    ∃ post pre, log = post ++ o :: pre ∧ HistOk o pre ∧ Hist pre := by
  obtain ⟨post, pre, rfl⟩ := List.append_of_mem ho
  exact ⟨post, pre, rfl, h.split, (Hist.suffix (post := post ++ [o]) (by simpa using h))⟩

theorem Hist.asked_ok {log : List Obs} (h : Hist log) {c dag cb} (ha : Asked log c dag cb) :
    dag.Wf ∧ CheckDag.checkDag dag cb = .ok () := by
  obtain ⟨_, _, _, h1, _⟩ := h.mem ha
  exact ⟨h1.1, h1.2.1⟩

theorem Hist.wellFormed {log : List Obs} (h : Hist log) {c dag cb} (ha : Asked log c dag cb) :
    WellFormed dag cb :=
  (CheckDag.checkDag_ok_executable _ _ (h.asked_ok ha).1 (h.asked_ok ha).2).1

theorem Hist.asked_unique {log : List Obs} (h : Hist log) {c dag cb dag' cb'}
    (ha : Asked log c dag cb) (hb : Asked log c dag' cb') : dag' = dag ∧ cb' = cb := by
  induction log with
  | nil => cases ha
  | cons o log ih =>
    unfold Asked at ha hb
    rcases List.mem_cons.1 ha with ha1 | ha1 <;> rcases List.mem_cons.1 hb with hb1 | hb1
    · rw [← ha1] at hb1; cases hb1; exact ⟨rfl, rfl⟩
    · subst ha1; exact absurd ⟨_, _, hb1⟩ h.1.2.2
    · subst hb1; exact absurd ⟨_, _, ha1⟩ h.1.2.2
    · exact ih h.2 ha1 hb1

theorem Hist.group_unique {log : List Obs} (h : Hist log) {c g g'} (hg : GroupOf log c g)
    (hg' : GroupOf log c g') (hu : g.uuid = g'.uuid) : g = g' := by
  obtain ⟨d, b, h1, h2⟩ := hg
  obtain ⟨d', b', h3, h4⟩ := hg'
  have := (h.asked_unique h1 h3).1
  subst this
  rw [hu, h4] at h2
  exact (Option.some.inj h2).symm

theorem Hist.groupOf_dag {log : List Obs} (h : Hist log) {c g dag cb} (hg : GroupOf log c g)
    (ha : Asked log c dag cb) : dag.executionGroups.get? g.uuid = some g := by
  obtain ⟨d, b, h1, h2⟩ := hg
  have := (h.asked_unique h1 ha).1
  subst this; exact h2

theorem Hist.completed_groupOf {log : List Obs} (h : Hist log) {c g rs os b}
    (hm : Obs.completed c g rs os b ∈ log) : GroupOf log c g := by
  obtain ⟨post, pre, rfl, h1, _⟩ := h.mem hm
  exact groupOf_mono (by intro o ho; simp [ho]) h1.2.1

theorem Hist.skipped_groupOf {log : List Obs} (h : Hist log) {c g}
    (hm : Obs.skipped c g ∈ log) : GroupOf log c g := by
  obtain ⟨post, pre, rfl, h1, _⟩ := h.mem hm
  exact groupOf_mono (by intro o ho; simp [ho]) h1.2.1

theorem Hist.job_groupOf {log : List Obs} (h : Hist log) {w c g k}
    (hm : Obs.out (.workerJob w c g k) ∈ log) : GroupOf log c g := by
  obtain ⟨post, pre, rfl, h1, _⟩ := h.mem hm
  exact groupOf_mono (by intro o ho; simp [ho]) h1.2.2.1

/-- The producer of a file is unique and such a file is not provided. -/
theorem Hist.producer_unique {log : List Obs} (h : Hist log) {c g g' f} (hg : GroupOf log c g)
    (hg' : GroupOf log c g') (hf : f ∈ g.outs) (hf' : f ∈ g'.outs) : g = g' := by
  obtain ⟨d, b, h1, h2⟩ := hg
  obtain ⟨d', b', h3, h4⟩ := hg'
  have := (h.asked_unique h1 h3).1
  subst this
  have hw := (h.wellFormed h1).files
  have := outs_unique (List.nodup_append.1 hw).1 (AMap.mem_of_get? h2) (AMap.mem_of_get? h4) hf hf'
  exact congrArg (·.2) this

theorem Hist.not_provided {log : List Obs} (h : Hist log) {c g f} (hg : GroupOf log c g)
    (hf : f ∈ g.outs) : ¬ Provided log c f := by
  rintro ⟨k, hk⟩
  obtain ⟨post, pre, rfl, ⟨d', b', h3, h4⟩, _⟩ := h.mem hk
  obtain ⟨d, b, h1, h2⟩ := hg
  have h3' : Asked (post ++ Obs.ev (Event.fileReady c f k) :: pre) c d' b' := by
    unfold Asked at *; simp [h3]
  have := (h.asked_unique h1 h3').1
  subst this
  have hw := (h.wellFormed h1).files
  unfold allFiles at hw
  exact (List.nodup_append.1 hw).2.2 f
    (List.mem_flatMap.2 ⟨_, AMap.mem_of_get? h2, hf⟩) f h4 rfl

/-- A file with a producer exists only once the producer succeeded. -/
theorem Hist.available_succeeded {log : List Obs} (h : Hist log) {c g f} (hg : GroupOf log c g)
    (hf : f ∈ g.outs) (ha : Available log c f) : Succeeded log c g := by
  rcases ha with ha | ⟨g', hs, hf'⟩
  · exact absurd ha (h.not_provided hg hf)
  · have hs' := hs
    obtain ⟨rs, os, b, hm, _⟩ := hs'
    have := h.producer_unique hg (h.completed_groupOf hm) hf hf'
    subst this; exact hs

theorem mult_le_one {g : ExecutionGroup} (h : g.deps ≠ [] ∨ g.executions.length = 1) : mult g = 1 := by
  unfold mult
  split
  · next h0 => rcases h with h | h
               · exact absurd h0 h
               · exact h
  · rfl

theorem Hist.term_le {log : List Obs} (h : Hist log) {c g} (hg : GroupOf log c g) :
    termCount log c g.uuid ≤ mult g := by
  induction log with
  | nil => simp [termCount]
  | cons o log ih =>
    have hh := h.1
    have hpre : GroupOf log c g → termCount log c g.uuid ≤ mult g := fun h' => ih h.2 h'
    have hc : termCount (o :: log) c g.uuid = termCount log c g.uuid +
        if isTerm c g.uuid o = true then 1 else 0 := by simp [termCount, List.countP_cons]
    rw [hc]
    by_cases ht : isTerm c g.uuid o = true
    · rw [if_pos ht]
      cases o with
      | completed c' g' rs os b =>
        simp [isTerm] at ht
        obtain ⟨rfl, hu⟩ := ht
        obtain ⟨_, hg', _, _, hlt, _⟩ := hh
        have : g' = g := h.group_unique (groupOf_mono (fun x hx => List.mem_cons_of_mem _ hx) hg') hg hu
        subst this
        omega
      | skipped c' g' =>
        simp [isTerm] at ht
        obtain ⟨rfl, hu⟩ := ht
        obtain ⟨_, hg', _, h0, h1, _⟩ := hh
        have : g' = g := h.group_unique (groupOf_mono (fun x hx => List.mem_cons_of_mem _ hx) hg') hg hu
        subst this
        omega
      | _ => simp [isTerm] at ht
    · rw [if_neg ht]
      by_cases hgl : GroupOf log c g
      · have := hpre hgl; omega
      · have : termCount log c g.uuid = 0 := by
          apply Classical.byContradiction
          intro hne
          obtain ⟨x, hx, hxt⟩ := List.countP_pos_iff.1 (Nat.pos_of_ne_zero hne)
          have key : ∀ g', g'.uuid = g.uuid → GroupOf log c g' → False := by
            intro g' hu hg'
            have := h.group_unique (groupOf_mono (log' := o :: log) (by intro x hx; simp [hx]) hg') hg hu
            exact hgl (this ▸ hg')
          cases x with
          | completed c' g' rs os b =>
            simp [isTerm] at hxt
            obtain ⟨rfl, hu⟩ := hxt
            exact key g' hu (h.2.completed_groupOf hx)
          | skipped c' g' =>
            simp [isTerm] at hxt
            obtain ⟨rfl, hu⟩ := hxt
            exact key g' hu (h.2.skipped_groupOf hx)
          | _ => simp [isTerm] at hxt
        omega

theorem termCount_append (a b : List Obs) (c u) :
    termCount (a ++ b) c u = termCount a c u + termCount b c u := by simp [termCount]

theorem termCount_cons (o : Obs) (l : List Obs) (c u) :
    termCount (o :: l) c u = termCount l c u + if isTerm c u o = true then 1 else 0 := by
  simp [termCount, List.countP_cons]

theorem Hist.not_both {log : List Obs} (h : Hist log) {c g g' rs os b}
    (hc : Obs.completed c g rs os b ∈ log) (hs : Obs.skipped c g' ∈ log) : g.uuid ≠ g'.uuid := by
  intro hu
  have hgg : g = g' := h.group_unique (h.completed_groupOf hc) (h.skipped_groupOf hs) hu
  subst hgg
  obtain ⟨post, pre, he, hok, _⟩ := h.mem hs
  have hm1 : mult g = 1 := hok.2.2.2.2.1
  have hle := h.term_le (h.completed_groupOf hc)
  rw [hm1, he, termCount_append, termCount_cons] at hle
  have : isTerm c g.uuid (Obs.skipped c g) = true := by simp [isTerm]
  rw [if_pos this] at hle
  have hcm : Obs.completed c g rs os b ∈ post ∨ Obs.completed c g rs os b ∈ pre := by
    rw [he] at hc
    rcases List.mem_append.1 hc with h1 | h1
    · exact Or.inl h1
    · exact Or.inr (by simpa using h1)
  have hpos : 0 < termCount post c g.uuid ∨ 0 < termCount pre c g.uuid := by
    rcases hcm with h1 | h1
    · exact Or.inl (List.countP_pos_iff.2 ⟨_, h1, by simp [isTerm]⟩)
    · exact Or.inr (List.countP_pos_iff.2 ⟨_, h1, by simp [isTerm]⟩)
  omega

/-- Two completions of a group scheduled once are the same completion. -/
theorem Hist.completed_once {log : List Obs} (h : Hist log) {c g rs os b rs' os' b'}
    (hm : mult g = 1) (h1 : Obs.completed c g rs os b ∈ log)
    (h2 : Obs.completed c g rs' os' b' ∈ log) : rs = rs' ∧ os = os' ∧ b = b' := by
  apply Classical.byContradiction
  intro hne
  have hle := h.term_le (h.completed_groupOf h1)
  obtain ⟨post, pre, rfl⟩ := List.append_of_mem h1
  rw [hm, termCount_append, termCount_cons] at hle
  have : isTerm c g.uuid (Obs.completed c g rs os b) = true := by simp [isTerm]
  rw [if_pos this] at hle
  have hcm : Obs.completed c g rs' os' b' ∈ post ∨ Obs.completed c g rs' os' b' ∈ pre := by
    rcases List.mem_append.1 h2 with h1 | h1
    · exact Or.inl h1
    · rcases List.mem_cons.1 h1 with h1 | h1
      · cases h1; exact absurd ⟨rfl, rfl, rfl⟩ hne
      · exact Or.inr h1
  have hpos : 0 < termCount post c g.uuid ∨ 0 < termCount pre c g.uuid := by
    rcases hcm with h1 | h1
    · exact Or.inl (List.countP_pos_iff.2 ⟨_, h1, by simp [isTerm]⟩)
    · exact Or.inr (List.countP_pos_iff.2 ⟨_, h1, by simp [isTerm]⟩)
  omega

theorem Hist.term_cases {log : List Obs} (h : Hist log) {c g} (hg : GroupOf log c g)
    (hp : 0 < termCount log c g.uuid) :
    (∃ rs os b, Obs.completed c g rs os b ∈ log) ∨ Obs.skipped c g ∈ log := by
  obtain ⟨x, hx, hxt⟩ := List.countP_pos_iff.1 hp
  cases x with
  | completed c' g' rs os b =>
    simp [isTerm] at hxt
    obtain ⟨rfl, hu⟩ := hxt
    have := h.group_unique (h.completed_groupOf hx) hg hu
    subst this; exact Or.inl ⟨_, _, _, hx⟩
  | skipped c' g' =>
    simp [isTerm] at hxt
    obtain ⟨rfl, hu⟩ := hxt
    have := h.group_unique (h.skipped_groupOf hx) hg hu
    subst this; exact Or.inr hx
  | _ => simp [isTerm] at hxt

theorem connected_seen {c : ClientUuid} {log : List Obs} (h : Connected c log = true) :
    Seen log c := by
  induction log with
  | nil => cases h
  | cons o log ih =>
    have lift : Connected c log = true → Seen (o :: log) c :=
      fun h1 => seen_mono (by intro x hx; simp [hx]) (ih h1)
    cases o with
    | ev e =>
      cases e with
      | evaluateDag c' d b =>
        simp only [Connected, Bool.or_eq_true, decide_eq_true_eq] at h
        rcases h with rfl | h
        · exact ⟨d, b, by simp⟩
        · exact lift h
      | clientDisconnected c' =>
        simp only [Connected, Bool.and_eq_true] at h
        exact lift h.2
      | _ => exact lift h
    | _ => exact lift h

/-- Once gone, a client never comes back. -/
theorem Hist.gone {post pre : List Obs} {c : ClientUuid}
    (h : Hist (post ++ .ev (.clientDisconnected c) :: pre)) (hs : Seen pre c) :
    Connected c (post ++ .ev (.clientDisconnected c) :: pre) = false := by
  induction post with
  | nil => simp [Connected]
  | cons o post ih =>
    have ih := ih h.2
    cases o with
    | ev e =>
      cases e with
      | evaluateDag c' d b =>
        simp only [List.cons_append, Connected, ih, Bool.or_false, decide_eq_false_iff_not]
        rintro rfl
        exact h.1.2.2 (seen_mono (by intro x hx; simp [hx]) hs)
      | clientDisconnected c' => simp only [List.cons_append, Connected, ih, Bool.and_false]
      | _ => exact ih
    | _ => exact ih

end TM.Sched
