import Verif.Sched.InitGroups
/-! The invariant is preserved by the messages. -/

namespace TM.Sched
open TM.DagSpec

/-- A message that changes only the workers and starts harmless tasks. -/
theorem Inv.workersOnly {st st' : St} (h : Inv st) (hst : st.stack = [])
    (hc : st'.clients = st.clients) (hr : st'.ready = st.ready)
    (l : List Obs) (hlog : st'.log = l ++ st.log) (hq : ∀ o ∈ l, Quiet o)
    (hww : AMap.Wf st'.workers)
    (hwork : ∀ w c u, st'.workers.get? w = some (some (c, u)) →
      st.workers.get? w = some (some (c, u)))
    (hwc : ∀ c cl u, st.clients.get? c = some cl →
      workCount st'.workers c u = workCount st.workers c u)
    (hts : ∀ t ∈ st'.stack, t = .assignJobs ∨ ∃ c, t = .checkCompletion c) : Inv st' := by
  have hnl : ∀ t ∈ st'.stack, isCachedLoop t = false := by
    intro t ht; rcases hts t ht with rfl | ⟨c, rfl⟩ <;> rfl
  refine h.build l hlog (fun o ho => (hq o ho).add _) (by rw [hc]; exact h.clientsWf) hww
    ?_ ?_ ?_ ?_ ?_ [] st'.stack [] (by simp [hst]) (by simp) (Or.inl rfl) ?_ ?_ ?_
  · intro c cl' h1; exact ⟨cl', by rw [← hc]; exact h1, rfl⟩
  · intro c cl' h1; exact ⟨cl', by rw [hc]; exact h1, rfl⟩
  · intro c cl h1
    rw [hc] at h1
    refine (h.client c cl h1).frame' (by simp [hr]) (fun u => hwc c cl u h1) ?_ ?_ ?_
    · intro u
      rw [hst, stackCount_nil]
      have : ∀ s : List Task, (∀ t ∈ s, t = .assignJobs ∨ ∃ c, t = .checkCompletion c) →
          stackCount s c u = 0 := by
        intro s
        induction s with
        | nil => intro _; rfl
        | cons a s ih =>
          intro hs
          rw [stackCount_cons, ih (fun t ht => hs t (by simp [ht]))]
          rcases hs a (by simp) with rfl | ⟨c, rfl⟩ <;> rfl
      exact this _ hts
    · exact ⟨l, hlog, fun o ho => (hq o ho).plain c⟩
    · intro f u fs hm hf hp
      rw [hst] at hp; exact absurd hp (pending_nil _ _ _)
  · intro e he; rw [hr] at he; exact Or.inl he
  · intro w c u h1; exact Or.inl (hwork w c u h1)
  · intro t ht; rcases hts t ht with rfl | ⟨c, rfl⟩ <;> trivial
  · intro t ht; exact hnl t (List.mem_of_mem_tail ht)
  · intro todo hits r he
    have := hnl (.cachedLoop todo hits) (by rw [he]; simp)
    simp [isCachedLoop] at this

theorem CInv.fileReady {log ready workers c cl f key}
    (hC : CInv log ready workers [] c cl) :
    CInv (.ev (.fileReady c f key) :: log) ready workers [.fileSuccess c f, .checkCompletion c] c
      { cl with fileHandles := cl.fileHandles.insert f key } := by
  have hav : ∀ f', Available (.ev (.fileReady c f key) :: log) c f' →
      Available log c f' ∨ f' = f := by
    intro f' ha
    rcases ha with ⟨k, hk⟩ | ⟨g, ⟨rs, os, b, h1, h2⟩, h3⟩
    · rcases List.mem_cons.1 hk with hk | hk
      · cases hk; exact Or.inr rfl
      · exact Or.inl (Or.inl ⟨k, hk⟩)
    · refine Or.inl (Or.inr ⟨g, ⟨rs, os, b, ?_, h2⟩, h3⟩)
      simpa using h1
  have hff : ∀ f', FailedFile (.ev (.fileReady c f key) :: log) c f' → FailedFile log c f' := by
    rintro f' ⟨g, h1, h2⟩
    refine ⟨g, ?_, h2⟩
    simpa [Failed, Skipped] using h1
  have hsub : ∀ o ∈ log, o ∈ Obs.ev (.fileReady c f key) :: log := fun o ho => by simp [ho]
  have ht : ∀ u, termCount (.ev (.fileReady c f key) :: log) c u = termCount log c u := by
    intro u; simp [termCount, List.countP_cons, isTerm]
  exact {
    wf := hC.wf
    ok := hC.ok
    evald := hsub _ hC.evald
    inputOf := hC.inputOf
    miss := by
      intro u' fs' hm'
      obtain ⟨h1, g', h2, h3, h4⟩ := hC.miss u' fs' hm'
      exact ⟨h1, g', h2, h3, fun f' hf' hn => available_mono hsub (h4 f' hf' hn)⟩
    pend := by
      intro u' fs' f' hm' hf' hres
      have : Resolved log c f' ∨ f' = f := by
        rcases hres with hr | hr
        · exact (hav f' hr).imp_left Or.inl
        · exact Or.inl (Or.inr (hff f' hr))
      rcases this with hr | rfl
      · exact absurd (hC.pend u' fs' f' hm' hf' hr) (pending_nil _ _ _)
      · simp [Notifies]
    cons := by
      intro u' g' hg'
      rw [ht]
      have := hC.cons u' g' hg'
      simpa [taskCount, missCount] using this
    avail := by
      intro u' g' hg' hpos f' hf'
      refine available_mono hsub (hC.avail u' g' hg' ?_ f' hf')
      simpa [taskCount] using hpos
    handles := by
      intro f' hf'
      simp only [AMap.get?_insert]
      split
      · exact ⟨_, rfl⟩
      · next hne =>
        rcases hav f' hf' with h | h
        · exact hC.handles f' h
        · exact absurd h hne
    readyG := hC.readyG
    runG := hC.runG
    cover := by
      intro u' g' hg'
      rw [ht]
      have := hC.cover u' g' hg'
      simpa [taskCount, missCount] using this }

theorem CInv.result {log log' ready workers c cl w rs os} {g : ExecutionGroup}
    (hC : CInv log ready workers [] c cl) (hww : AMap.Wf workers)
    (hw : workers.get? w = some (some (c, g.uuid)))
    (hl : PlainExt c log log') :
    CInv log' ready (workers.erase w)
      [.execCompleted c g rs os false, .assignJobs, .checkCompletion c] c
      { cl with runningGroups := setErase cl.runningGroups g.uuid } := by
  have hwc : ∀ u', workCount workers c u' = workCount (workers.erase w) c u' +
      if g.uuid = u' then 1 else 0 := by
    intro u'; rw [workCount_erase hww hw c u']; simp
  have hs : ∀ u', stackCount [.execCompleted c g rs os false, .assignJobs, .checkCompletion c] c u' =
      if g.uuid = u' then 1 else 0 := by
    intro u'; simp [taskCount]
  exact {
    wf := hC.wf
    ok := hC.ok
    evald := hl.sub _ hC.evald
    inputOf := hC.inputOf
    miss := by
      intro u' fs' hm'
      obtain ⟨h1, g', h2, h3, h4⟩ := hC.miss u' fs' hm'
      exact ⟨h1, g', h2, h3, fun f' hf' hn => hl.available.2 (h4 f' hf' hn)⟩
    pend := by
      intro u' fs' f' hm' hf' hres
      exact absurd (hC.pend u' fs' f' hm' hf' (by
        unfold Resolved at *; rwa [hl.available, hl.failedFile] at hres)) (pending_nil _ _ _)
    cons := by
      intro u' g' hg'
      have := hC.cons u' g' hg'
      rw [hwc] at this
      rw [hs, hl.term]
      simp only [missCount, stackCount_nil] at this ⊢
      omega
    avail := by
      intro u' g' hg' hpos f' hf'
      rw [hs] at hpos
      refine hl.available.2 (hC.avail u' g' hg' ?_ f' hf')
      rw [hwc, stackCount_nil]
      omega
    handles := fun f' hf' => hC.handles f' (hl.available.1 hf')
    readyG := hC.readyG
    runG := by
      intro u' hu'
      simp only [mem_setErase] at hu'
      have := hC.runG u' hu'.1
      rw [hwc, if_neg (Ne.symm hu'.2)] at this
      exact this
    cover := by
      intro u' g' hg'
      rw [hs, hl.term]
      by_cases hu' : u' = g.uuid
      · subst hu'; right; right; right; left; simp
      · have := hC.cover u' g' hg'
        simp only [mem_setErase, missCount, stackCount_nil] at this ⊢
        rw [if_neg (Ne.symm hu')]
        simpa [hu'] using this }

theorem CInv.disconnect {log log' ready workers c cl w u} {p q : Priority}
    (hC : CInv log ready workers [] c cl) (hww : AMap.Wf workers)
    (hw : workers.get? w = some (some (c, u)))
    (hl : PlainExt c log log') :
    CInv log' (⟨p, q, u, c⟩ :: ready) (workers.erase w) [] c
      { cl with readyGroups := setInsert cl.readyGroups u
                runningGroups := setErase cl.runningGroups u } := by
  have hwc : ∀ u', workCount workers c u' = workCount (workers.erase w) c u' +
      if u = u' then 1 else 0 := by
    intro u'; rw [workCount_erase hww hw c u']; simp
  have hr : ∀ u', readyCount (⟨p, q, u, c⟩ :: ready) c u' = readyCount ready c u' +
      if u = u' then 1 else 0 := by
    intro u'; rw [readyCount_cons]; simp
  exact {
    wf := hC.wf
    ok := hC.ok
    evald := hl.sub _ hC.evald
    inputOf := hC.inputOf
    miss := by
      intro u' fs' hm'
      obtain ⟨h1, g', h2, h3, h4⟩ := hC.miss u' fs' hm'
      exact ⟨h1, g', h2, h3, fun f' hf' hn => hl.available.2 (h4 f' hf' hn)⟩
    pend := by
      intro u' fs' f' hm' hf' hres
      exact absurd (hC.pend u' fs' f' hm' hf' (by
        unfold Resolved at *; rwa [hl.available, hl.failedFile] at hres)) (pending_nil _ _ _)
    cons := by
      intro u' g' hg'
      have := hC.cons u' g' hg'
      rw [hwc] at this
      rw [hr, hl.term]
      simp only [missCount, stackCount_nil] at this ⊢
      omega
    avail := by
      intro u' g' hg' hpos f' hf'
      rw [hr] at hpos
      refine hl.available.2 (hC.avail u' g' hg' ?_ f' hf')
      rw [hwc]
      omega
    handles := fun f' hf' => hC.handles f' (hl.available.1 hf')
    readyG := by
      intro u' hu'
      rw [hr]
      simp only [mem_setInsert] at hu'
      rcases hu' with rfl | hu'
      · simp
      · have := hC.readyG u' hu'; omega
    runG := by
      intro u' hu'
      simp only [mem_setErase] at hu'
      have := hC.runG u' hu'.1
      rw [hwc, if_neg (Ne.symm hu'.2)] at this
      exact this
    cover := by
      intro u' g' hg'
      rw [hl.term]
      by_cases hu' : u' = u
      · subst hu'; left; simp
      · have := hC.cover u' g' hg'
        simpa [mem_setErase, mem_setInsert, missCount, hu'] using this }

theorem CInv.evaluate {log ready workers c dag cb}
    (hwf : dag.Wf) (hok : CheckDag.checkDag dag cb = .ok ())
    (hready : ∀ u, readyCount ready c u = 0) (hwork : ∀ u, workCount workers c u = 0)
    (hterm : ∀ u, termCount log c u = 0) (hprov : ∀ f, ¬ Provided log c f) :
    CInv (.ev (.evaluateDag c dag cb) :: log)
      (initGroups c dag.executionGroups { dag := dag, callbacks := cb } ready).2 workers
      [.checkCompletion c, .scheduleCached, .assignJobs] c
      (initGroups c dag.executionGroups { dag := dag, callbacks := cb } ready).1 := by
  obtain ⟨hd, hcb, hrun, hfh⟩ := initGroups_same c dag.executionGroups
    { dag := dag, callbacks := cb } ready
  have hin := initGroups_inputOf c dag.executionGroups { dag := dag, callbacks := cb } ready
  have hrg := initGroups_readyGroups c dag.executionGroups { dag := dag, callbacks := cb } ready
  have hmo := initGroups_missing_other c dag.executionGroups { dag := dag, callbacks := cb } ready
  have hmap : dag.executionGroups.map (·.2.uuid) = dag.executionGroups.keys := by
    unfold AMap.keys
    apply List.map_congr_left
    intro p hp
    exact hwf.keyed p.1 p.2 hp
  have hnd : (dag.executionGroups.map (·.2.uuid)).Nodup := by rw [hmap]; exact hwf.groups
  have hm := initGroups_missing c dag.executionGroups { dag := dag, callbacks := cb } ready hnd
  have hr := initGroups_ready c dag.executionGroups { dag := dag, callbacks := cb } ready hnd
  generalize initGroups c dag.executionGroups { dag := dag, callbacks := cb } ready = r at *
  obtain ⟨cl, ready'⟩ := r
  simp only at *
  have hget : ∀ u g, dag.executionGroups.get? u = some g ↔
      ∃ p ∈ dag.executionGroups, p.2.uuid = u ∧ p.2 = g := by
    intro u g
    constructor
    · intro h
      have := AMap.mem_of_get? h
      exact ⟨(u, g), this, hwf.keyed u g this, rfl⟩
    · rintro ⟨⟨k, g'⟩, hp, h1, h2⟩
      simp only at h1 h2
      subst h2
      have := hwf.keyed k g' hp
      rw [← h1, this]
      exact AMap.get?_of_mem hwf.groups hp
  have hnores : ∀ f, ¬ Resolved (.ev (.evaluateDag c dag cb) :: log) c f := by
    intro f hres
    have ht0 : ∀ o, o ∈ Obs.ev (.evaluateDag c dag cb) :: log → ∀ u, isTerm c u o = true → False := by
      intro o ho u hu
      rcases List.mem_cons.1 ho with rfl | ho
      · simp [isTerm] at hu
      · have := hterm u
        unfold termCount at this
        rw [List.countP_eq_zero] at this
        exact this o ho hu
    rcases hres with (⟨k, hk⟩ | ⟨g, ⟨rs, os, b, h1, _⟩, _⟩) | ⟨g, ⟨rs, os, b, h1, _⟩ | h1, _⟩
    · exact hprov f ⟨k, by simpa using hk⟩
    · exact ht0 _ h1 g.uuid (by simp [isTerm])
    · exact ht0 _ h1 g.uuid (by simp [isTerm])
    · exact ht0 _ h1 g.uuid (by simp [isTerm])
  have ht : ∀ u, termCount (.ev (.evaluateDag c dag cb) :: log) c u = 0 := by
    intro u
    have := hterm u
    unfold termCount at this ⊢
    rw [List.countP_cons, this]; simp [isTerm]
  have hs : ∀ u, stackCount [.checkCompletion c, .scheduleCached, .assignJobs] c u = 0 := by
    intro u; simp [taskCount]
  have hall : ∀ u g, dag.executionGroups.get? u = some g →
      missCount cl u + readyCount ready' c u = mult g ∧ (g.deps ≠ [] → readyCount ready' c u = 0) ∧
      (g.deps = [] → u ∈ cl.readyGroups) ∧ (g.deps ≠ [] → 0 < missCount cl u) := by
    intro u g hg
    obtain ⟨p, hp, rfl, rfl⟩ := (hget u g).1 hg
    have h1 := hm p hp rfl
    have h2 := hr p hp
    rw [hready] at h2
    unfold mult
    by_cases hdp : p.2.deps = []
    · simp only [hdp, if_true, missCount, h1.1 hdp] at h2 ⊢
      refine ⟨by omega, by simp, fun _ => (hrg p.2.uuid).2 (Or.inr ⟨p, hp, rfl, hdp⟩), by simp⟩
    · obtain ⟨fs, h3, _⟩ := h1.2 hdp
      simp only [if_neg hdp, missCount, h3] at h2 ⊢
      exact ⟨by omega, fun _ => h2, fun h => absurd h hdp, fun _ => by omega⟩
  subst hd
  subst hcb
  exact {
    wf := hwf
    ok := hok
    evald := by simp
    inputOf := by
      intro f u
      rw [hin]
      simp only [AMap.get?_nil, reduceCtorEq, false_and, exists_false, false_or]
      constructor
      · rintro ⟨p, hp, rfl, hf⟩
        exact ⟨p.2, (hget _ _).2 ⟨p, hp, rfl, rfl⟩, hf⟩
      · rintro ⟨g, hg, hf⟩
        obtain ⟨p, hp, h1, rfl⟩ := (hget _ _).1 hg
        exact ⟨p, hp, h1, hf⟩
    miss := by
      intro u fs hfs
      have hex : ∃ p ∈ cl.dag.executionGroups, p.2.uuid = u := by
        apply Classical.byContradiction
        intro hno
        have := hmo u (fun p hp e => hno ⟨p, hp, e⟩)
        rw [this] at hfs; cases hfs
      obtain ⟨p, hp, rfl⟩ := hex
      have h1 := hm p hp rfl
      have hdp : p.2.deps ≠ [] := by
        intro h0; rw [h1.1 h0] at hfs; cases hfs
      obtain ⟨fs', h3, h4⟩ := h1.2 hdp
      rw [h3] at hfs; cases hfs
      refine ⟨?_, p.2, (hget _ _).2 ⟨p, hp, rfl, rfl⟩, fun f hf => (h4 f).1 hf,
        fun f hf hn => absurd ((h4 f).2 hf) hn⟩
      intro h0
      apply hdp
      rw [List.eq_nil_iff_forall_not_mem]
      intro f hf
      have := (h4 f).2 hf
      rw [h0] at this; cases this
    pend := by
      intro u fs f _ _ hres
      exact absurd hres (hnores f)
    cons := by
      intro u g hg
      rw [ht, hs, hwork]
      have := (hall u g hg).1
      omega
    avail := by
      intro u g hg hpos f hf
      have hdp : g.deps ≠ [] := by intro h0; rw [h0] at hf; cases hf
      rw [hwork, hs, (hall u g hg).2.1 hdp] at hpos
      omega
    handles := fun f hf => absurd (Or.inl hf) (hnores f)
    readyG := by
      intro u hu
      have := (hrg u).1 hu
      simp only [List.not_mem_nil, false_or] at this
      obtain ⟨p, hp, rfl, hdp⟩ := this
      rw [hr p hp, if_pos hdp]
      have hne := ((CheckDag.checkDag_ok_executable _ _ hwf hok).1).nonempty p.1 p.2 hp
      have := List.length_pos_iff.2 hne
      omega
    runG := by
      intro u hu
      rw [hrun] at hu; cases hu
    cover := by
      intro u g hg
      by_cases hdp : g.deps = []
      · exact Or.inl ((hall u g hg).2.2.1 hdp)
      · exact Or.inr (Or.inr (Or.inl ((hall u g hg).2.2.2 hdp))) }

/-- The effect of the disconnection of a client. -/
theorem handleClientDisconnected_eq (st : St) (c : ClientUuid) :
    ∃ l, handleClientDisconnected st c = { st with
        clients := st.clients.erase c
        ready := st.ready.filter (fun e => (st.clients.erase c).contains e.client)
        log := l ++ st.log } ∧ ∀ o ∈ l, Quiet o ∧ ∃ x, o = .out x := by
  unfold handleClientDisconnected
  cases hc : st.clients.get? c with
  | none =>
    refine ⟨_, rfl, ?_⟩
    intro o ho
    refine ⟨quiet_outs _ o ho, ?_⟩
    simp at ho; obtain ⟨a, b, _, rfl⟩ := ho; exact ⟨_, rfl⟩
  | some cl =>
    simp only
    by_cases hd : cl.isDone = true
    · rw [if_pos hd]
      refine ⟨_, rfl, ?_⟩
      intro o ho
      refine ⟨quiet_outs _ o ho, ?_⟩
      simp at ho; obtain ⟨a, b, _, rfl⟩ := ho; exact ⟨_, rfl⟩
    · rw [if_neg hd]
      refine ⟨(((jobsOf c st.workers).map (fun p => Out.stopJob p.1 p.2)).map Obs.out).reverse ++
        [.out (.evaluationDone c)], ?_, ?_⟩
      · simp [St.emitAll, St.emit, St.obs]
      · intro o ho
        rcases List.mem_append.1 ho with ho | ho
        · refine ⟨quiet_outs _ o ho, ?_⟩
          simp at ho; obtain ⟨a, b, _, rfl⟩ := ho; exact ⟨_, rfl⟩
        · rw [List.mem_singleton] at ho; subst ho; exact ⟨trivial, _, rfl⟩

theorem inv_event {st st' : St} {e : Event} (h : Inv st) (hst : st.stack = [])
    (hok : EventOk st e) (hs : EventStep (st.obs (.ev e)) e st') : Inv st' := by
  cases hs with
  | evaluateDag c dag cb =>
    obtain ⟨hwf, hcheck, hfresh⟩ := hok
    have hns : ¬ Seen st.log c := by
      rintro ⟨d, b, hm⟩; exact hfresh d b hm
    have hnone : st.clients.get? c = none := by
      cases hc : st.clients.get? c with
      | none => rfl
      | some cl => exact absurd ⟨_, _, (h.client c cl hc).evald⟩ hns
    have hready0 : ∀ u, readyCount st.ready c u = 0 := by
      intro u
      apply Classical.byContradiction
      intro hne
      obtain ⟨e, he, rfl, _⟩ := readyCount_pos.1 (Nat.pos_of_ne_zero hne)
      obtain ⟨cl, h1, _⟩ := h.readyLive e he
      rw [hnone] at h1; cases h1
    have hwork0 : ∀ u, workCount st.workers c u = 0 := by
      intro u
      apply Classical.byContradiction
      intro hne
      obtain ⟨w, hw⟩ := workCount_pos.1 (Nat.pos_of_ne_zero hne)
      exact hns (h.seenWork w c u (AMap.get?_of_mem h.workersWf hw))
    have hterm0 : ∀ u, termCount st.log c u = 0 := by
      intro u
      apply Classical.byContradiction
      intro hne
      exact hns (h.seenTerm c u (Nat.pos_of_ne_zero hne))
    have hprov0 : ∀ f, ¬ Provided st.log c f := by
      intro f hp
      obtain ⟨d, b, hm, _⟩ := h.seenProv c f hp
      exact hns ⟨d, b, hm⟩
    have hself := CInv.evaluate hwf hcheck hready0 hwork0 hterm0 hprov0
    have hd := (initGroups_same c dag.executionGroups { dag := dag, callbacks := cb } st.ready).1
    have hcl : ∀ c1 cl1, (st.clients.insert c (initGroups c dag.executionGroups
        { dag := dag, callbacks := cb } st.ready).1).get? c1 = some cl1 →
        (c1 = c ∧ cl1 = (initGroups c dag.executionGroups
        { dag := dag, callbacks := cb } st.ready).1) ∨ (c1 ≠ c ∧ st.clients.get? c1 = some cl1) := by
      intro c1 cl1 h1
      rw [AMap.get?_insert] at h1
      split at h1
      · next he => cases h1; exact Or.inl ⟨he, rfl⟩
      · next hne => exact Or.inr ⟨hne, h1⟩
    exact {
      clientsWf := AMap.wf_insert h.clientsWf _ _
      workersWf := h.workersWf
      client := by
        intro c1 cl1 h1
        simp only [handleEvaluateDag, St.push, St.obs, hst, List.append_nil] at h1 ⊢
        rcases hcl c1 cl1 h1 with ⟨rfl, rfl⟩ | ⟨hne, h1⟩
        · exact hself
        · refine (h.client c1 cl1 h1).frame' ?_ (fun u => rfl) ?_ ?_ ?_
          · intro u
            exact initGroups_ready_other c _ _ _ _ _ (fun e => absurd e hne)
          · intro u; rw [hst]; simp [taskCount]
          · exact (PlainExt.refl _ _).cons _ trivial
          · intro f u fs _ _ hp; rw [hst] at hp; exact absurd hp (pending_nil _ _ _)
      readyLive := by
        intro e he
        simp only [handleEvaluateDag, St.push, St.obs] at he ⊢
        rcases initGroups_ready_mem c _ _ _ e he with he | ⟨h1, p, hp, h2⟩
        · obtain ⟨cl, h1, h2⟩ := h.readyLive e he
          have hne : e.client ≠ c := by rintro rfl; rw [hnone] at h1; cases h1
          exact ⟨cl, by rw [AMap.get?_insert_ne _ _ hne]; exact h1, h2⟩
        · refine ⟨_, by rw [h1, AMap.get?_insert_self], p.2, ?_⟩
          rw [hd, h2, hwf.keyed p.1 p.2 hp]
          exact AMap.get?_of_mem hwf.groups hp
      workLive := by
        intro w c1 u cl1 hw h1
        simp only [handleEvaluateDag, St.push, St.obs] at hw h1
        rcases hcl c1 cl1 h1 with ⟨rfl, rfl⟩ | ⟨hne, h1⟩
        · exact absurd (h.seenWork w _ u hw) hns
        · exact h.workLive w c1 u cl1 hw h1
      tasks := by
        intro t ht
        simp only [handleEvaluateDag, St.push, St.obs, hst, List.append_nil, List.mem_cons,
          List.not_mem_nil, or_false] at ht
        rcases ht with rfl | rfl | rfl <;> trivial
      loops := by
        intro t ht
        simp only [handleEvaluateDag, St.push, St.obs, hst, List.append_nil, List.mem_cons,
          List.tail_cons, List.not_mem_nil, or_false] at ht
        rcases ht with rfl | rfl <;> rfl
      cachedTop := by
        intro todo hits rest he
        simp [handleEvaluateDag, St.push, St.obs, hst] at he
      seenWork := by
        intro w c1 u hw
        exact seen_mono (fun o ho => by simp [handleEvaluateDag, St.push, St.obs, ho])
          (h.seenWork w c1 u hw)
      seenTerm := by
        intro c1 u hpos
        refine seen_mono (fun o ho => by simp [handleEvaluateDag, St.push, St.obs, ho])
          (h.seenTerm c1 u ?_)
        simpa [handleEvaluateDag, St.push, St.obs, termCount, List.countP_cons, isTerm] using hpos
      seenProv := by
        intro c1 f ⟨k, hk⟩
        obtain ⟨d, b, h1, h2⟩ := h.seenProv c1 f ⟨k, by
          simpa [handleEvaluateDag, St.push, St.obs] using hk⟩
        exact ⟨d, b, by simp [handleEvaluateDag, St.push, St.obs, h1], h2⟩
      evUniq := by
        intro c1 d b d' b' h1 h2
        simp only [handleEvaluateDag, St.push, St.obs, List.mem_cons, Obs.ev.injEq,
          Event.evaluateDag.injEq] at h1 h2
        rcases h1 with ⟨rfl, rfl, rfl⟩ | h1 <;> rcases h2 with ⟨h3, h4, h5⟩ | h2
        · exact ⟨h4, h5⟩
        · exact absurd ⟨_, _, h2⟩ hns
        · subst h3; exact absurd ⟨_, _, h1⟩ hns
        · exact h.evUniq c1 d b d' b' h1 h2 }
  | clientDisconnected c =>
    obtain ⟨l, hl, hq⟩ := handleClientDisconnected_eq (st.obs (.ev (.clientDisconnected c))) c
    rw [hl]
    have hsub : ∀ o ∈ st.log, o ∈ l ++ Obs.ev (.clientDisconnected c) :: st.log := by
      intro o ho; simp [ho]
    have hplain : ∀ c', PlainExt c' st.log (l ++ Obs.ev (.clientDisconnected c) :: st.log) := by
      intro c'
      refine ⟨l ++ [Obs.ev (.clientDisconnected c)], by simp, ?_⟩
      intro o ho
      rcases List.mem_append.1 ho with ho | ho
      · exact (hq o ho).1.plain _
      · rw [List.mem_singleton] at ho; subst ho; trivial
    have hev : ∀ c1 d b, Obs.ev (.evaluateDag c1 d b) ∈ l ++ Obs.ev (.clientDisconnected c) :: st.log →
        Obs.ev (.evaluateDag c1 d b) ∈ st.log := by
      intro c1 d b hm
      rcases List.mem_append.1 hm with hm | hm
      · exact (hq _ hm).1.elim
      · simpa using hm
    have hcl : ∀ c1 cl1, (st.clients.erase c).get? c1 = some cl1 →
        c1 ≠ c ∧ st.clients.get? c1 = some cl1 := by
      intro c1 cl1 h1
      rw [AMap.get?_erase] at h1
      split at h1
      · cases h1
      · next hne => exact ⟨hne, h1⟩
    exact {
      clientsWf := AMap.wf_erase h.clientsWf _
      workersWf := h.workersWf
      client := by
        intro c1 cl1 h1
        obtain ⟨hne, h1⟩ := hcl c1 cl1 h1
        refine (h.client c1 cl1 h1).frame' ?_ (fun u => rfl) (fun u => rfl) (hplain c1)
          (fun _ _ _ _ _ hp => hp)
        intro u
        simp only [St.obs, readyCount, List.countP_filter]
        apply List.countP_congr
        intro e he
        simp only [Bool.and_eq_true, decide_eq_true_eq, and_iff_left_iff_imp]
        rintro ⟨h2, _⟩
        rw [h2, AMap.contains_iff]
        exact ⟨cl1, by rw [AMap.get?_erase_ne _ hne]; exact h1⟩
      readyLive := by
        intro e he
        simp only [St.obs, List.mem_filter] at he ⊢
        obtain ⟨cl1, h1, h2⟩ := h.readyLive e he.1
        obtain ⟨cl2, h3⟩ := AMap.contains_iff.1 he.2
        have h4 := (hcl _ _ h3).2
        rw [h1] at h4; cases h4
        exact ⟨cl1, h3, h2⟩
      workLive := by
        intro w c1 u cl1 hw h1
        exact h.workLive w c1 u cl1 hw (hcl c1 cl1 h1).2
      tasks := by intro t ht; simp only [St.obs, hst] at ht; cases ht
      loops := by intro t ht; simp only [St.obs, hst] at ht; cases ht
      cachedTop := by intro todo hits rest he; simp only [St.obs, hst] at he; cases he
      seenWork := fun w c1 u hw => seen_mono hsub (h.seenWork w c1 u hw)
      seenTerm := by
        intro c1 u hpos
        refine seen_mono hsub (h.seenTerm c1 u ?_)
        rw [← (hplain c1).term u]; exact hpos
      seenProv := by
        intro c1 f hp
        obtain ⟨d, b, h1, h2⟩ := h.seenProv c1 f ((hplain c1).provided.1 hp)
        exact ⟨d, b, hsub _ h1, h2⟩
      evUniq := fun c1 d b d' b' h1 h2 => h.evUniq c1 d b d' b' (hev _ _ _ h1) (hev _ _ _ h2) }
  | fileReadyGone c f key hc =>
    refine h.build [.ev (.fileReady c f key)] rfl ?_ h.clientsWf h.workersWf
      (fun c cl' h1 => ⟨cl', h1, rfl⟩) (fun c cl' h1 => ⟨cl', h1, rfl⟩) ?_
      (fun e he => Or.inl he) (fun w c u hw => Or.inl hw) [] [] [] (by simp [hst])
      (by simp [St.obs, hst]) (Or.inl rfl) (by simp) (by simp) (by simp)
    · intro o ho
      rw [List.mem_singleton] at ho; subst ho
      exact hok
    · intro c' cl' h1
      have hne : c' ≠ c := by rintro rfl; exact absurd (hc.symm.trans h1) (by simp)
      exact (h.client c' cl' h1).frame' (fun u => rfl) (fun u => rfl) (fun u => rfl)
        ((PlainExt.refl _ _).cons _ (Ne.symm hne)) (fun _ _ _ _ _ hp => hp)
  | fileReady c f key cl hc =>
    have hC := h.client c cl hc
    rw [hst] at hC
    refine h.one (c := c) (cl := cl) hc rfl rfl [.ev (.fileReady c f key)] rfl ?_ ?_ h.workersWf
      (fun e he => Or.inl he) (fun _ _ _ => rfl) (fun w c u hw => Or.inl hw) (fun _ _ _ => rfl)
      [] [.fileSuccess c f, .checkCompletion c] [] (by simp [hst]) (by simp [St.push, St.setClient, St.obs, hst]) (Or.inl rfl)
      ?_ ?_ ?_ ?_ ?_ ?_
    · intro o ho
      rw [List.mem_singleton] at ho; subst ho
      exact hok
    · intro c' hc' o ho
      rw [List.mem_singleton] at ho; subst ho
      exact Ne.symm hc'
    · intro c' hc' u; simp [taskCount]
    · intro c' hc' f' u hp; exact absurd hp (pending_nil _ _ _)
    · intro t ht
      simp only [List.mem_cons, List.not_mem_nil, or_false] at ht
      rcases ht with rfl | rfl
      · exact Or.inl ⟨key, by simp [St.push, St.setClient, St.obs]⟩
      · trivial
    · intro t ht
      simp at ht; subst ht; rfl
    · intro todo hits r he; simp at he
    · have := hC.fileReady (f := f) (key := key)
      simpa [St.push, St.setClient, St.obs, hst] using this
  | resultUnknown w rs os hw =>
    exact h.workersOnly hst rfl rfl [_] rfl (by simp [Quiet]) h.workersWf (fun _ _ _ h => h)
      (fun _ _ _ _ => rfl) (by simp [St.obs, hst])
  | resultIdle w rs os hw =>
    refine h.workersOnly hst rfl rfl [_] rfl (by simp [Quiet]) (AMap.wf_erase h.workersWf _) ?_
      ?_ (by simp [St.obs, hst])
    · intro w' c u hw'
      simp only [AMap.get?_erase] at hw'
      split at hw'
      · cases hw'
      · exact hw'
    · intro c cl u _
      have := workCount_erase h.workersWf hw c u
      simp at this
      exact this.symm
  | resultGone w rs os c u hw hc =>
    refine h.workersOnly hst rfl rfl [_] rfl (by simp [Quiet]) (AMap.wf_erase h.workersWf _) ?_
      ?_ (by simp [St.obs, St.push, hst])
    · intro w' c u hw'
      simp only [St.push, AMap.get?_erase] at hw'
      split at hw'
      · cases hw'
      · exact hw'
    · intro c' cl u' h1
      have hne : c' ≠ c := by rintro rfl; exact absurd (hc.symm.trans h1) (by simp)
      have := workCount_erase h.workersWf hw c' u'
      simp [Ne.symm hne] at this
      exact this.symm
  | result w rs os c u cl g hw hc hg hlen =>
    have hC := h.client c cl hc
    rw [hst] at hC
    have hgu := hC.groupUuid hg
    subst hgu
    refine h.one (c := c) (cl := cl) hc rfl rfl [_] rfl (by simp [LogAdd]) (by simp [Plain])
      (AMap.wf_erase h.workersWf _) (fun e he => Or.inl he) (fun _ _ _ => rfl) ?_ ?_
      [] [.execCompleted c g rs os false, .assignJobs, .checkCompletion c] [] (by simp [hst])
      (by simp [St.push, St.setClient, St.obs, hst]) (Or.inl rfl)
      ?_ ?_ ?_ ?_ ?_ ?_
    · intro w' c u hw'
      simp only [St.push, St.setClient, AMap.get?_erase] at hw'
      split at hw'
      · cases hw'
      · exact Or.inl hw'
    · intro c' hne u'
      have := workCount_erase h.workersWf hw c' u'
      simp [Ne.symm hne] at this
      exact this.symm
    · intro c' hc' u; simp [taskCount, Ne.symm hc']
    · intro c' hc' f' u hp; exact absurd hp (pending_nil _ _ _)
    · intro t ht
      simp only [List.mem_cons, List.not_mem_nil, or_false] at ht
      rcases ht with rfl | rfl | rfl
      · intro cl1 hcl1
        have he := hc.symm.trans hcl1
        cases he
        exact ⟨hg, hok c g.uuid cl g hw hc hg⟩
      · trivial
      · trivial
    · intro t ht
      simp at ht; rcases ht with rfl | rfl <;> rfl
    · intro todo hits r he; simp at he
    · have := hC.result (rs := rs) (os := os) h.workersWf hw
        ((PlainExt.refl c st.log).cons (.ev (.workerResult w rs os)) trivial)
      simpa [St.push, St.setClient, St.obs, hst] using this
  | workerConnected w =>
    have hw : st.workers.get? w = none := hok
    refine h.workersOnly hst rfl rfl [_] rfl (by simp [Quiet]) (AMap.wf_insert h.workersWf _ _) ?_
      ?_ (by simp [St.obs, St.push, hst])
    · intro w' c u hw'
      simp only [St.push, AMap.get?_insert] at hw'
      split at hw'
      · cases hw'
      · exact hw'
    · intro c cl u _
      simp only [St.push, St.obs]
      rw [workCount_insert, erase_of_get?_none hw]; simp
  | disconnectUnknown w hw =>
    exact h.workersOnly hst rfl rfl [_] rfl (by simp [Quiet]) h.workersWf (fun _ _ _ h => h)
      (fun _ _ _ _ => rfl) (by simp [St.obs, hst])
  | disconnectFree w job hw hj =>
    refine h.workersOnly hst rfl rfl [_] rfl (by simp [Quiet]) (AMap.wf_erase h.workersWf _) ?_
      ?_ (by simp [St.obs, hst])
    · intro w' c u hw'
      simp only [AMap.get?_erase] at hw'
      split at hw'
      · cases hw'
      · exact hw'
    · intro c cl u h1
      have := workCount_erase h.workersWf hw c u
      rw [if_neg] at this
      · exact this.symm
      · intro e; have := hj c u e; exact absurd (this.symm.trans h1) (by simp)
  | disconnect w c u cl g hw hc hg =>
    have hC := h.client c cl hc
    rw [hst] at hC
    refine h.one (c := c) (cl := cl) hc rfl rfl [_] rfl (by simp [LogAdd]) (by simp [Plain])
      (AMap.wf_erase h.workersWf _) ?_ ?_ ?_ ?_
      [] [] [] (by simp [hst])
      (by simp [St.setClient, St.obs, hst]) (Or.inl rfl)
      (fun _ _ _ => rfl) (fun _ _ _ _ hp => hp) (by simp) (by simp) (by simp) ?_
    · intro e he
      rcases List.mem_cons.1 he with rfl | he
      · exact Or.inr ⟨rfl, g, hg⟩
      · exact Or.inl he
    · intro c' hc' u'
      simp only [readyCount_cons]
      rw [if_neg (fun x => hc' x.1.symm)]; rfl
    · intro w' c u hw'
      simp only [St.setClient, AMap.get?_erase] at hw'
      split at hw'
      · cases hw'
      · exact Or.inl hw'
    · intro c' hne u'
      have := workCount_erase h.workersWf hw c' u'
      simp [Ne.symm hne] at this
      exact this.symm
    · have := hC.disconnect (p := HIGH_PRIORITY) (q := g.priority) h.workersWf hw
        ((PlainExt.refl c st.log).cons (.ev (.workerDisconnected w)) trivial)
      simpa [St.setClient, St.obs, hst] using this
  | status c ws hws =>
    exact h.workersOnly hst rfl rfl [_, _] rfl (by simp [Quiet]) h.workersWf (fun _ _ _ h => h)
      (fun _ _ _ _ => rfl) (by simp [St.obs, St.emit, hst])

theorem inv_init : Inv {} where
  clientsWf := AMap.wf_nil
  workersWf := AMap.wf_nil
  client := by intro c cl h; cases h
  readyLive := by intro e he; cases he
  workLive := by intro w c u cl h; cases h
  tasks := by intro t ht; cases ht
  loops := by intro t ht; cases ht
  cachedTop := by intro todo hits rest he; cases he
  seenWork := by intro w c u h; cases h
  seenTerm := by intro c u h; simp [termCount] at h
  seenProv := by rintro c f ⟨k, hk⟩; cases hk
  evUniq := by intro c d b d' b' h; cases h

theorem inv_step {st st' : St} (h : Inv st) (hs : Step st st') : Inv st' := by
  cases hs with
  | event e hst hok hh => exact inv_event h hst hok (eventStep_of_handle hh)
  | task t rest ch hst hok hh =>
    obtain ⟨ready, clients, workers, stack, log⟩ := st
    simp only at hst
    subst hst
    exact inv_taskStep (st := ⟨ready, clients, workers, rest, log⟩) h hok (taskStep_of_run hh)

/-- The invariant holds in every reachable state. -/
theorem reachable_inv {st : St} (h : Reachable st) : Inv st := by
  induction h with
  | init => exact inv_init
  | step _ hs ih => exact inv_step ih hs

end TM.Sched
