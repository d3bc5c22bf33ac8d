import Verif.Whole.Props
import Verif.Build.OrderSpec
import Verif.Sched.Blocks
/-!
# A server sends the notices in order (C71)
-/
namespace TM.Whole
open TM TM.Build TM.Sched TM.DagSpec Build.Spec

variable {st : St} {c : ClientUuid} {dag : DagData} {cb : WatchSet} {look : ExecutionResult → Outcome}

theorem mem_started {log : List Obs} {u : ExecutionUuid} :
    .started u ∈ noticesFor c look log ↔ ∃ w, Obs.out (.started c u w) ∈ log := by
  unfold noticesFor
  rw [List.mem_filterMap]
  constructor
  · rintro ⟨x, hx, he⟩
    have hx := List.mem_reverse.1 hx
    unfold noticeTo at he
    split at he
    · split at he
      · next hc => cases he; subst hc; exact ⟨_, hx⟩
      · cases he
    · split at he <;> cases he
    · split at he <;> cases he
    · cases he
  · rintro ⟨w, hr⟩
    exact ⟨_, List.mem_reverse.2 hr, by simp [noticeTo]⟩

theorem mem_skipped {log : List Obs} {u : ExecutionUuid} :
    .skipped u ∈ noticesFor c look log ↔ Obs.out (.skipped c u) ∈ log := by
  unfold noticesFor
  rw [List.mem_filterMap]
  constructor
  · rintro ⟨x, hx, he⟩
    have hx := List.mem_reverse.1 hx
    unfold noticeTo at he
    split at he
    · split at he <;> cases he
    · split at he <;> cases he
    · split at he
      · next hc => cases he; subst hc; exact hx
      · cases he
    · cases he
  · intro hr
    exact ⟨_, List.mem_reverse.2 hr, by simp [noticeTo]⟩

/-- The notices before one of them are those of the trace before its entry. -/
theorem notices_split {log : List Obs} {pre post : List Notice} {n : Notice}
    (h : noticesFor c look log = pre ++ n :: post) :
    ∃ newer o older, log = newer ++ o :: older ∧ noticeTo c look o = some n ∧
      noticesFor c look older = pre := by
  unfold noticesFor at h
  obtain ⟨l1, l2, hl, h1, h2⟩ := List.filterMap_eq_append_iff.1 h
  obtain ⟨l3, o, l4, hl2, h3, h4, h5⟩ := List.filterMap_eq_cons_iff.1 h2
  refine ⟨l4.reverse, o, (l1 ++ l3).reverse, ?_, h4, ?_⟩
  · have := congrArg List.reverse hl
    rw [List.reverse_reverse] at this
    rw [this, hl2]
    simp
  · unfold noticesFor
    rw [List.reverse_reverse, List.filterMap_append, h1]
    rw [List.filterMap_eq_nil_iff.2 h3, List.append_nil]

/-- What is done was completed. -/
theorem term_of_done {log : List Obs} (hh : Hist log) {e : ExecutionUuid} {r : ExecutionResult}
    (hd : Obs.out (.done c e r) ∈ log) {g : ExecutionGroup} (hg : GroupOf log c g)
    (he : e ∈ g.executions.map (·.uuid)) : 0 < termCount log c g.uuid := by
  obtain ⟨post, pre, hl, ⟨-, -, g', rs, os, b, x, h1, h2, h3⟩, -⟩ := hh.mem hd
  have hm : Obs.completed c g' rs os b ∈ log := by rw [hl]; simp [h1]
  obtain ⟨y, hy, hye⟩ := List.mem_map.1 he
  have := same_group hh (hh.completed_groupOf hm) hg (List.of_mem_zip h2).1 hy (h3.trans hye.symm)
  subst this
  exact List.countP_pos_iff.2 ⟨_, hm, by simp [isTerm]⟩

theorem term_of_skipped {log : List Obs} (hh : Hist log) {e : ExecutionUuid}
    (hd : Obs.out (.skipped c e) ∈ log) {g : ExecutionGroup} (hg : GroupOf log c g)
    (he : e ∈ g.executions.map (·.uuid)) : 0 < termCount log c g.uuid := by
  obtain ⟨post, pre, hl, ⟨-, -, g', hs, h2⟩, -⟩ := hh.mem hd
  have hm : Obs.skipped c g' ∈ log := by rw [hl]; simp [show Obs.skipped c g' ∈ pre from hs]
  obtain ⟨y, hy, hye⟩ := List.mem_map.1 he
  obtain ⟨x, hx, hxe⟩ := List.mem_map.1 h2
  have := same_group hh (hh.skipped_groupOf hm) hg hx hy (hxe.trans hye.symm)
  subst this
  exact List.countP_pos_iff.2 ⟨_, hm, by simp [isTerm]⟩

/-- The inputs of a group that are there were produced, and the client was told. -/
theorem fed_of_available {pre : List Obs} (h : Trace pre) (hl : Reading look) (ha : Asked pre c dag cb)
    (hw : ∀ e ∈ allExecs dag, e.uuid ∈ cb.executions)
    (honce : ∀ u g, dag.executionGroups.get? u = some g → RunsOnce g) {g : ExecutionGroup}
    (hg : GroupOf pre c g) {u : ExecutionUuid} (hu : u ∈ g.executions.map (·.uuid))
    (hav : ∀ f ∈ g.deps, Available pre c f) : Fed dag (noticesFor c look pre) u := by
  obtain ⟨st, hst, rfl⟩ := h
  have hh := (reachable_aux hst).hist
  have hwf := (hh.asked_ok ha).1
  have honce' : ∀ g, GroupOf st.log c g → RunsOnce g := fun g hg => honce _ _ (hh.groupOf_dag hg ha)
  intro e he heu p hp f hf hfo
  obtain ⟨v, ge, hge, hee⟩ := group_of_exec he hwf
  obtain ⟨hgo, -⟩ := groupOf_of_get? ha hwf hge
  obtain ⟨y, hy, hye⟩ := List.mem_map.1 hu
  have := same_group hh hg hgo hy hee (hye.trans heu.symm)
  subst this
  obtain ⟨v', gp, hgp, hpp⟩ := group_of_exec hp hwf
  obtain ⟨hgpo, -⟩ := groupOf_of_get? ha hwf hgp
  have hfd : f ∈ g.deps := List.mem_flatMap.2 ⟨e, hee, hf⟩
  obtain ⟨rs', os', b', hm', hs'⟩ :=
    hh.available_succeeded hgpo (List.mem_flatMap.2 ⟨p, hpp, hfo⟩) (hav f hfd)
  obtain ⟨r', hz, hd⟩ := done_of_completed hst ha hw honce' hm' hpp
  exact ⟨look r', mem_done.2 ⟨r', hd, rfl⟩, (hl r').trans (hs' _ (List.of_mem_zip hz).2)⟩

theorem Fed.mono {d : DagData} {a b : List Notice} {u : ExecutionUuid} (h : Fed d a u)
    (hs : ∀ x ∈ a, x ∈ b) : Fed d b u := by
  intro e he heu p hp f hf hfo
  obtain ⟨o, ho, h1⟩ := h e he heu p hp f hf hfo
  exact ⟨o, hs _ ho, h1⟩

theorem notices_mono {newer older : List Obs} : ∀ x ∈ noticesFor c look older,
    x ∈ noticesFor c look (newer ++ older) := by
  intro x hx
  obtain ⟨o, ho, h1⟩ := List.mem_filterMap.1 hx
  refine List.mem_filterMap.2 ⟨o, ?_, h1⟩
  have := List.mem_reverse.1 ho
  simp [this]

theorem asked_older {newer older : List Obs} (hh : Hist (newer ++ older)) (ha : Asked (newer ++ older) c dag cb)
    {g : ExecutionGroup} (hg : GroupOf older c g) : Asked older c dag cb := by
  obtain ⟨d, b, h1, -⟩ := hg
  have h2 : Asked (newer ++ older) c d b := by unfold Asked; exact List.mem_append.2 (.inr h1)
  obtain ⟨rfl, rfl⟩ := hh.asked_unique ha h2
  exact h1

/-- What a server says comes in order. -/
theorem ordered_of_server (h : Reachable st) (hl : Reading look) (ha : Asked st.log c dag cb)
    (hw : ∀ e ∈ allExecs dag, e.uuid ∈ cb.executions)
    (honce : ∀ u g, dag.executionGroups.get? u = some g → RunsOnce g) :
    Ordered dag (noticesFor c look st.log) := by
  have hh := (reachable_aux h).hist
  have hb := reachable_blocks h
  have one : ∀ {older : List Obs} {g : ExecutionGroup}, Hist older → Asked older c dag cb →
      GroupOf older c g → mult g = 1 := fun {older g} h1 h2 h3 =>
    mult_le_one (honce _ _ (h1.groupOf_dag h3 h2))
  refine ⟨?_, ?_, ?_⟩
  · intro pre u post hs
    obtain ⟨newer, o, older, hlog, ho, rfl⟩ := notices_split hs
    obtain ⟨w, rfl⟩ : ∃ w, o = .out (.started c u w) := by
      unfold noticeTo at ho
      split at ho
      · split at ho
        · next hc => cases ho; subst hc; exact ⟨_, rfl⟩
        · cases ho
      · split at ho <;> cases ho
      · split at ho <;> cases ho
      · cases ho
    rw [hlog] at hh hb ha
    obtain ⟨mid, g, keys, pre0, rfl, hmid, hu⟩ := hb.split
    have h0 : HistOk (.out (.workerJob w c g keys)) pre0 := by
      have : Hist ((newer ++ .out (.started c u w) :: mid) ++ .out (.workerJob w c g keys) :: pre0) := by
        simpa using hh
      exact this.split
    obtain ⟨-, -, hg, hav, -, hterm⟩ := h0
    have hh0 : Hist pre0 := by
      have : Hist ((newer ++ .out (.started c u w) :: mid ++ [.out (.workerJob w c g keys)]) ++ pre0) := by
        simpa using hh
      exact this.suffix
    have ha0 : Asked pre0 c dag cb := by
      refine asked_older (newer := newer ++ .out (.started c u w) :: mid ++ [.out (.workerJob w c g keys)])
        (by simpa using hh) (by simpa using ha) hg
    have htr : Trace pre0 := by
      have : Blocks ((newer ++ .out (.started c u w) :: mid) ++ .out (.workerJob w c g keys) :: pre0) := by
        simpa using hb
      exact this.split
    rw [one hh0 ha0 hg] at hterm
    refine ⟨?_, ?_, ?_⟩
    · intro o hd
      obtain ⟨r, hr, -⟩ := mem_done.1 hd
      rcases List.mem_append.1 hr with h1 | h1
      · obtain ⟨e', he'⟩ := hmid _ h1; cases he'
      · rcases List.mem_cons.1 h1 with h1 | h1
        · cases h1
        · have := term_of_done hh0 h1 hg hu; omega
    · intro hd
      have hr := mem_skipped.1 hd
      rcases List.mem_append.1 hr with h1 | h1
      · obtain ⟨e', he'⟩ := hmid _ h1; cases he'
      · rcases List.mem_cons.1 h1 with h1 | h1
        · cases h1
        · have := term_of_skipped hh0 h1 hg hu; omega
    · refine Fed.mono (fed_of_available htr hl ha0 hw honce hg hu hav) ?_
      intro x hx
      have := notices_mono (newer := mid ++ [.out (.workerJob w c g keys)]) x hx
      simpa using this
  · intro pre u o' post hs
    obtain ⟨newer, o, older, hlog, ho, rfl⟩ := notices_split hs
    obtain ⟨r, rfl⟩ : ∃ r, o = .out (.done c u r) := by
      unfold noticeTo at ho
      split at ho
      · split at ho <;> cases ho
      · split at ho
        · next hc => cases ho; subst hc; exact ⟨_, rfl⟩
        · cases ho
      · split at ho <;> cases ho
      · cases ho
    rw [hlog] at hh hb ha
    obtain ⟨mid, g, rs, os, b, pre0, y, rfl, hmid, hy, hye⟩ := hb.split
    have hu : u ∈ g.executions.map (·.uuid) := List.mem_map.2 ⟨y, (List.of_mem_zip hy).1, hye⟩
    have h0 : HistOk (.completed c g rs os b) pre0 := by
      have : Hist ((newer ++ .out (.done c u r) :: mid) ++ .completed c g rs os b :: pre0) := by
        simpa using hh
      exact this.split
    obtain ⟨-, hg, -, hav, hterm, -⟩ := h0
    have hh0 : Hist pre0 := by
      have : Hist ((newer ++ .out (.done c u r) :: mid ++ [.completed c g rs os b]) ++ pre0) := by
        simpa using hh
      exact this.suffix
    have ha0 : Asked pre0 c dag cb := by
      refine asked_older (newer := newer ++ .out (.done c u r) :: mid ++ [.completed c g rs os b])
        (by simpa using hh) (by simpa using ha) hg
    have htr : Trace pre0 := by
      have : Blocks ((newer ++ .out (.done c u r) :: mid) ++ .completed c g rs os b :: pre0) := by
        simpa using hb
      exact this.split
    rw [one hh0 ha0 hg] at hterm
    refine ⟨?_, ?_, ?_⟩
    · intro o hd
      obtain ⟨r', hr, -⟩ := mem_done.1 hd
      rcases List.mem_append.1 hr with h1 | h1
      · -- the same execution twice in the same group
        have hgf : GroupOf st.log c g := by
          obtain ⟨d, b', h2, h3⟩ := hg
          exact ⟨d, b', by rw [hlog]; unfold Asked at *; simp [h2], h3⟩
        have hcount := watched_execution_once h (by rw [hlog]; exact ha) hgf (List.of_mem_zip hy).1
          (hw y (by
            have := ((reachable_aux h).hist).groupOf_dag hgf (by rw [hlog]; exact ha)
            exact List.mem_flatMap.2 ⟨_, AMap.mem_of_get? this, (List.of_mem_zip hy).1⟩))
          (honce _ _ (((reachable_aux h).hist).groupOf_dag hgf (by rw [hlog]; exact ha)))
        have h2 : 2 ≤ st.log.countP (isDoneMsg c y.uuid) := by
          rw [hlog, List.countP_append, List.countP_cons, List.countP_append]
          have : 0 < mid.countP (isDoneMsg c y.uuid) :=
            List.countP_pos_iff.2 ⟨_, h1, by simp [isDoneMsg, hye]⟩
          have h3 : isDoneMsg c y.uuid (.out (.done c u r)) = true := by simp [isDoneMsg, hye]
          rw [h3]
          simp only [if_true]
          omega
        split at hcount <;> omega
      · rcases List.mem_cons.1 h1 with h1 | h1
        · cases h1
        · have := term_of_done hh0 h1 hg hu; omega
    · intro hd
      have hr := mem_skipped.1 hd
      rcases List.mem_append.1 hr with h1 | h1
      · obtain ⟨e', r', he'⟩ := hmid _ h1; cases he'
      · rcases List.mem_cons.1 h1 with h1 | h1
        · cases h1
        · have := term_of_skipped hh0 h1 hg hu; omega
    · refine Fed.mono (fed_of_available htr hl ha0 hw honce hg hu hav) ?_
      intro x hx
      have := notices_mono (newer := mid ++ [.completed c g rs os b]) x hx
      simpa using this
  · intro pre u post hs
    obtain ⟨newer, o, older, hlog, ho, rfl⟩ := notices_split hs
    obtain rfl : o = .out (.skipped c u) := by
      unfold noticeTo at ho
      split at ho
      · split at ho <;> cases ho
      · split at ho <;> cases ho
      · split at ho
        · next hc => cases ho; subst hc; rfl
        · cases ho
      · cases ho
    rw [hlog] at hh hb ha
    obtain ⟨mid, g, pre0, rfl, hmid, hu⟩ := hb.split
    have h0 : HistOk (.skipped c g) pre0 := by
      have : Hist ((newer ++ .out (.skipped c u) :: mid) ++ .skipped c g :: pre0) := by
        simpa using hh
      exact this.split
    obtain ⟨-, hg, -, hterm, -, hjob⟩ := h0
    have hh0 : Hist pre0 := by
      have : Hist ((newer ++ .out (.skipped c u) :: mid ++ [.skipped c g]) ++ pre0) := by
        simpa using hh
      exact this.suffix
    obtain ⟨y, hy, hye⟩ := List.mem_map.1 hu
    refine ⟨?_, ?_, ?_⟩
    · intro o hd
      obtain ⟨r', hr, -⟩ := mem_done.1 hd
      rcases List.mem_append.1 hr with h1 | h1
      · obtain ⟨e', he'⟩ := hmid _ h1; cases he'
      · rcases List.mem_cons.1 h1 with h1 | h1
        · cases h1
        · have := term_of_done hh0 h1 hg hu; omega
    · intro hd
      have hr := mem_skipped.1 hd
      rcases List.mem_append.1 hr with h1 | h1
      · have hgf : GroupOf st.log c g := by
          obtain ⟨d, b', h2, h3⟩ := hg
          exact ⟨d, b', by rw [hlog]; unfold Asked at *; simp [h2], h3⟩
        have hcount := watched_execution_once h (by rw [hlog]; exact ha) hgf hy
          (hw y (by
            have := ((reachable_aux h).hist).groupOf_dag hgf (by rw [hlog]; exact ha)
            exact List.mem_flatMap.2 ⟨_, AMap.mem_of_get? this, hy⟩))
          (honce _ _ (((reachable_aux h).hist).groupOf_dag hgf (by rw [hlog]; exact ha)))
        have h2 : 2 ≤ st.log.countP (isSkipMsg c y.uuid) := by
          rw [hlog, List.countP_append, List.countP_cons, List.countP_append]
          have : 0 < mid.countP (isSkipMsg c y.uuid) :=
            List.countP_pos_iff.2 ⟨_, h1, by simp [isSkipMsg, hye]⟩
          have h3 : isSkipMsg c y.uuid (.out (.skipped c u)) = true := by simp [isSkipMsg, hye]
          rw [h3]
          simp only [if_true]
          omega
        split at hcount <;> omega
      · rcases List.mem_cons.1 h1 with h1 | h1
        · cases h1
        · have := term_of_skipped hh0 h1 hg hu; omega
    · intro hd
      obtain ⟨w, hr⟩ := mem_started.1 hd
      rcases List.mem_append.1 hr with h1 | h1
      · obtain ⟨e', he'⟩ := hmid _ h1; cases he'
      · rcases List.mem_cons.1 h1 with h1 | h1
        · cases h1
        · obtain ⟨post', pre', hl', ⟨-, -, g', keys, hj, hx⟩, -⟩ := hh0.mem h1
          have hj' : Obs.out (.workerJob w c g' keys) ∈ pre0 := by rw [hl']; simp [hj]
          obtain ⟨x, hx, hxe⟩ := List.mem_map.1 hx
          have := same_group hh0 (hh0.job_groupOf hj') hg hx hy (hxe.trans hye.symm)
          subst this
          exact hjob w g' keys hj' rfl

end TM.Whole
