import Verif.Sched.Build
/-! The invariant is preserved by the tasks. -/

namespace TM.Sched
open TM.DagSpec

theorem CInv.groupUuid {log ready workers stack c cl} (h : CInv log ready workers stack c cl)
    {u g} (hg : cl.dag.executionGroups.get? u = some g) : g.uuid = u :=
  h.wf.keyed u g (AMap.mem_of_get? hg)

theorem CInv.mult_pos {log ready workers stack c cl} (h : CInv log ready workers stack c cl)
    {u g} (hg : cl.dag.executionGroups.get? u = some g) : 0 < mult g := by
  have := ((CheckDag.checkDag_ok_executable _ _ h.wf h.ok).1).nonempty u g (AMap.mem_of_get? hg)
  unfold mult
  split
  · exact List.length_pos_iff.2 this
  · omega

theorem missCount_eq {cl : Client} {u : GroupUuid} {fs : List FileUuid}
    (h : cl.missingDeps.get? u = some fs) : missCount cl u = 1 := by simp [missCount, h]

theorem stackCount_map_file (c' : ClientUuid) (l : List FileUuid) (k : FileUuid → Task)
    (hk : ∀ f, taskCount c' u (k f) = 0) : stackCount (l.map k) c' u = 0 := by
  induction l with
  | nil => rfl
  | cons a l ih => simp [hk, ih]

theorem popMax_eq {ready : List ReadyEntry} {e : ReadyEntry} {r : List ReadyEntry}
    (h : popMax ready = some (e, r)) : e ∈ ready ∧ r = ready.erase e := by
  cases ready with
  | nil => simp [popMax] at h
  | cons a b =>
    simp only [popMax, Option.some.injEq, Prod.mk.injEq] at h
    obtain ⟨rfl, rfl⟩ := h
    refine ⟨?_, rfl⟩
    have : ∀ (l : List ReadyEntry) m, maxEntry m l ∈ m :: l := by
      intro l
      induction l with
      | nil => simp [maxEntry]
      | cons x l ih =>
        intro m
        simp only [maxEntry]
        have := ih (if ReadyEntry.lt m x then x else m)
        split at this
        · next hlt => simp only [if_pos hlt]; exact List.mem_cons_of_mem _ this
        · next hlt =>
          simp only [if_neg hlt]
          rcases List.mem_cons.1 this with h | h
          · rw [h]; simp
          · simp [h]
    exact this b a

theorem CInv.successReady {log ready workers stack c cl f u us fs} {g : ExecutionGroup}
    (hC : CInv log ready workers (.successLoop c f (u :: us) :: stack) c cl)
    (hg : cl.dag.executionGroups.get? u = some g) (hm : cl.missingDeps.get? u = some fs)
    (he : setErase fs f = []) (hav : Available log c f) {p q : Priority} :
    CInv log (⟨p, q, u, c⟩ :: ready) workers (.successLoop c f us :: stack) c
      { cl with missingDeps := cl.missingDeps.erase u
                readyGroups := setInsert cl.readyGroups u } := by
  have hcons := hC.cons u g hg
  rw [missCount_eq hm] at hcons
  have hfs : ∀ f' ∈ fs, f' = f := by
    intro f' hf'
    apply Classical.byContradiction
    intro hne
    have : f' ∈ setErase fs f := by simp [hf', hne]
    rw [he] at this; cases this
  exact {
    wf := hC.wf
    ok := hC.ok
    evald := hC.evald
    inputOf := hC.inputOf
    miss := by
      intro u' fs' hm'
      simp only [AMap.get?_erase] at hm'
      split at hm'
      · cases hm'
      · exact hC.miss u' fs' hm'
    pend := by
      intro u' fs' f' hm' hf' hres
      simp only [AMap.get?_erase] at hm'
      split at hm'
      · cases hm'
      · next hu' =>
        have := hC.pend u' fs' f' hm' hf' hres
        simp only [pending_cons, Notifies, List.mem_cons, hu', false_or] at this ⊢
        exact this
    cons := by
      intro u' g' hg'
      simp only [readyCount_cons, missCount, AMap.get?_erase, true_and]
      by_cases hu' : u' = u
      · subst hu'
        rw [hg] at hg'; cases hg'
        simp [taskCount] at hcons ⊢
        omega
      · have := hC.cons u' g' hg'
        rw [if_neg hu', if_neg (Ne.symm hu')]
        simp only [missCount, taskCount, stackCount_cons] at this ⊢
        omega
    avail := by
      intro u' g' hg' hpos f' hf'
      by_cases hu' : u' = u
      · subst hu'
        rw [hg] at hg'; cases hg'
        obtain ⟨_, g1, h2, h3, h4⟩ := hC.miss u' fs hm
        rw [hg] at h2; cases h2
        by_cases hin : f' ∈ fs
        · rw [hfs f' hin]; exact hav
        · exact h4 f' hf' hin
      · refine hC.avail u' g' hg' ?_ f' hf'
        simp only [readyCount_cons, true_and] at hpos
        rw [if_neg (Ne.symm hu')] at hpos
        exact hpos
    handles := hC.handles
    readyG := by
      intro u' hu'
      simp only [readyCount_cons]
      simp only [mem_setInsert] at hu'
      rcases hu' with rfl | hu'
      · simp
      · have := hC.readyG u' hu'; omega
    runG := hC.runG
    cover := by
      intro u' g' hg'
      by_cases hu' : u' = u
      · left; simp [hu']
      · have := hC.cover u' g' hg'
        simpa [hu', missCount, AMap.get?_erase, taskCount] using this }

theorem CInv.successWait {log ready workers stack c cl f u us fs} {g : ExecutionGroup}
    (hC : CInv log ready workers (.successLoop c f (u :: us) :: stack) c cl)
    (hg : cl.dag.executionGroups.get? u = some g) (hm : cl.missingDeps.get? u = some fs)
    (he : setErase fs f ≠ []) (hav : Available log c f) :
    CInv log ready workers (.successLoop c f us :: stack) c
      { cl with missingDeps := cl.missingDeps.insert u (setErase fs f) } := by
  have hmc : ∀ u', missCount { cl with
      missingDeps := cl.missingDeps.insert u (setErase fs f) } u' = missCount cl u' := by
    intro u'
    simp only [missCount, AMap.get?_insert]
    by_cases hu' : u' = u
    · simp [hu', hm]
    · simp [hu']
  exact {
    wf := hC.wf
    ok := hC.ok
    evald := hC.evald
    inputOf := hC.inputOf
    miss := by
      intro u' fs' hm'
      simp only [AMap.get?_insert] at hm'
      split at hm'
      · next hu' =>
        subst hu'
        cases hm'
        refine ⟨he, g, hg, ?_⟩
        obtain ⟨_, g1, h2, h3, h4⟩ := hC.miss u' fs hm
        rw [hg] at h2; cases h2
        refine ⟨fun f' hf' => h3 f' (by simp at hf'; exact hf'.1), fun f' hf' hn => ?_⟩
        by_cases hff : f' = f
        · rw [hff]; exact hav
        · exact h4 f' hf' (fun hin => hn (by simp [hin, hff]))
      · exact hC.miss u' fs' hm'
    pend := by
      intro u' fs' f' hm' hf' hres
      simp only [AMap.get?_insert] at hm'
      split at hm'
      · next hu' =>
        subst hu'
        cases hm'
        simp only [mem_setErase] at hf'
        have := hC.pend u' fs f' hm hf'.1 hres
        simp only [pending_cons, Notifies, List.mem_cons, true_and] at this ⊢
        rcases this with ⟨h0, h1⟩ | h1
        · exact absurd h0.symm hf'.2
        · exact Or.inr h1
      · next hu' =>
        have := hC.pend u' fs' f' hm' hf' hres
        simp only [pending_cons, Notifies, List.mem_cons, hu', false_or] at this ⊢
        exact this
    cons := by
      intro u' g' hg'
      rw [hmc]
      exact hC.cons u' g' hg'
    avail := hC.avail
    handles := hC.handles
    readyG := hC.readyG
    runG := hC.runG
    cover := by
      intro u' g' hg'
      rw [hmc]
      exact hC.cover u' g' hg' }

theorem available_skipped {log : List Obs} {c c' g f} :
    Available (.skipped c g :: log) c' f ↔ Available log c' f := by
  simp [Available, Provided, Succeeded]

theorem failedFile_skipped {log : List Obs} {c g f} (h : FailedFile (.skipped c g :: log) c f) :
    FailedFile log c f ∨ f ∈ g.outs := by
  obtain ⟨g', h1, h2⟩ := h
  simp only [Failed, Skipped, List.mem_cons] at h1
  rcases h1 with ⟨rs, os, b, h1, h3⟩ | h1 | h1
  · refine Or.inl ⟨g', Or.inl ⟨rs, os, b, ?_, h3⟩, h2⟩
    simpa using h1
  · cases h1; exact Or.inr h2
  · exact Or.inl ⟨g', Or.inr h1, h2⟩

theorem term_skipped {log : List Obs} {c g} (u : GroupUuid) :
    termCount (.skipped c g :: log) c u = termCount log c u + if g.uuid = u then 1 else 0 := by
  simp [termCount, List.countP_cons, isTerm]

theorem CInv.skipOne {log log' ready workers stack c cl f u us fs failed} {g : ExecutionGroup}
    (hC : CInv log ready workers (.skipLoop c f (u :: us) failed :: stack) c cl)
    (hg : cl.dag.executionGroups.get? u = some g) (hm : cl.missingDeps.get? u = some fs)
    (hl : PlainExt c (.skipped c g :: log) log') :
    CInv log' ready workers (.skipLoop c f us (failed ++ g.outs) :: stack) c
      { cl with missingDeps := cl.missingDeps.erase u } := by
  have hcons := hC.cons u g hg
  rw [missCount_eq hm] at hcons
  have hgu := hC.groupUuid hg
  have hsub : ∀ o ∈ log, o ∈ log' := fun o ho => hl.sub o (by simp [ho])
  have hterm : ∀ u', termCount log' c u' = termCount log c u' + if u = u' then 1 else 0 := by
    intro u'; rw [hl.term, term_skipped, hgu]
  exact {
    wf := hC.wf
    ok := hC.ok
    evald := hsub _ hC.evald
    inputOf := hC.inputOf
    miss := by
      intro u' fs' hm'
      simp only [AMap.get?_erase] at hm'
      split at hm'
      · cases hm'
      · obtain ⟨h1, g', h2, h3, h4⟩ := hC.miss u' fs' hm'
        exact ⟨h1, g', h2, h3, fun f' hf' hn => available_mono hsub (h4 f' hf' hn)⟩
    pend := by
      intro u' fs' f' hm' hf' hres
      simp only [AMap.get?_erase] at hm'
      split at hm'
      · cases hm'
      · next hu' =>
        have hres' : Resolved log c f' ∨ f' ∈ g.outs := by
          rcases hres with hr | hr
          · rw [hl.available, available_skipped] at hr; exact Or.inl (Or.inl hr)
          · rw [hl.failedFile] at hr
            exact (failedFile_skipped hr).imp_left Or.inr
        simp only [pending_cons, Notifies, List.mem_append, true_and]
        rcases hres' with hr | hr
        · have := hC.pend u' fs' f' hm' hf' hr
          simp only [pending_cons, Notifies, List.mem_cons, hu', false_or, true_and] at this
          rcases this with (h1 | h1) | h1
          · exact Or.inl (Or.inl h1)
          · exact Or.inl (Or.inr (Or.inl h1))
          · exact Or.inr h1
        · exact Or.inl (Or.inr (Or.inr hr))
    cons := by
      intro u' g' hg'
      rw [hterm]
      simp only [missCount, AMap.get?_erase]
      by_cases hu' : u' = u
      · subst hu'
        rw [hg] at hg'; cases hg'
        simp [taskCount] at hcons ⊢
        omega
      · have := hC.cons u' g' hg'
        rw [if_neg hu', if_neg (Ne.symm hu')]
        simp only [missCount, taskCount, stackCount_cons] at this ⊢
        omega
    avail := fun u' g' hg' hpos f' hf' => available_mono hsub (hC.avail u' g' hg' hpos f' hf')
    handles := by
      intro f' hf'
      rw [hl.available, available_skipped] at hf'
      exact hC.handles f' hf'
    readyG := hC.readyG
    runG := hC.runG
    cover := by
      intro u' g' hg'
      rw [hterm]
      by_cases hu' : u' = u
      · subst hu'; right; right; right; right; simp
      · have := hC.cover u' g' hg'
        simpa [hu', Ne.symm hu', missCount, AMap.get?_erase, taskCount] using this }

theorem CInv.cachedHit {log log' ready workers stack c cl rest hits hit} {e : ReadyEntry}
    {g : ExecutionGroup}
    (hC : CInv log ready workers (.cachedLoop ((e, some hit) :: rest) hits :: stack) c cl)
    (hg : cl.dag.executionGroups.get? e.group = some g) (hec : e.client = c) (he : e ∈ ready)
    (hl : PlainExt c log log') :
    CInv log' (ready.erase e) workers (.cachedLoop rest (hits ++ [(c, g, hit)]) :: stack) c
      { cl with readyGroups := setErase cl.readyGroups g.uuid } := by
  have hgu := hC.groupUuid hg
  have hr : ∀ u', readyCount ready c u' = readyCount (ready.erase e) c u' +
      if g.uuid = u' then 1 else 0 := by
    intro u'; rw [readyCount_erase he]; simp [hec, hgu]
  have hs : ∀ u', stackCount (.cachedLoop rest (hits ++ [(c, g, hit)]) :: stack) c u' =
      stackCount (.cachedLoop ((e, some hit) :: rest) hits :: stack) c u' +
        if g.uuid = u' then 1 else 0 := by
    intro u'
    simp [taskCount, List.countP_append, List.countP_cons]
    omega
  exact {
    wf := hC.wf
    ok := hC.ok
    evald := hl.sub _ hC.evald
    inputOf := hC.inputOf
    miss := by
      intro u' fs' hm'
      obtain ⟨h1, g', h2, h3, h4⟩ := hC.miss u' fs' hm'
      exact ⟨h1, g', h2, h3, fun f' hf' hn => hl.available.2 (h4 f' hf' hn)⟩
    pend := by
      intro u' fs' f' hm' hf' hres
      have := hC.pend u' fs' f' hm' hf' (by
        unfold Resolved at *; rwa [hl.available, hl.failedFile] at hres)
      simpa [Notifies] using this
    cons := by
      intro u' g' hg'
      have := hC.cons u' g' hg'
      rw [hr] at this
      rw [hs, hl.term]
      simp only [missCount] at this ⊢
      omega
    avail := by
      intro u' g' hg' hpos f' hf'
      rw [hs] at hpos
      refine hl.available.2 (hC.avail u' g' hg' ?_ f' hf')
      rw [hr]
      omega
    handles := fun f' hf' => hC.handles f' (hl.available.1 hf')
    readyG := by
      intro u' hu'
      simp only [mem_setErase] at hu'
      have := hC.readyG u' hu'.1
      rw [hr, if_neg (Ne.symm hu'.2)] at this
      exact this
    runG := hC.runG
    cover := by
      intro u' g' hg'
      rw [hs, hl.term]
      by_cases hu' : u' = g.uuid
      · subst hu'; right; right; right; left; simp
      · have := hC.cover u' g' hg'
        simp only [mem_setErase, missCount] at this ⊢
        rw [if_neg (Ne.symm hu')]
        simpa [hu'] using this }

theorem CInv.assignJob {log log' ready workers stack c cl w ws} {e : ReadyEntry}
    (hC : CInv log ready workers (.assignLoop (w :: ws) :: stack) c cl)
    (hec : e.client = c) (he : e ∈ ready)
    (hww : AMap.Wf workers) (hw : workers.get? w = some none) (hl : PlainExt c log log') :
    CInv log' (ready.erase e) (workers.insert w (some (c, e.group))) (.assignLoop ws :: stack) c
      { cl with readyGroups := setErase cl.readyGroups e.group
                runningGroups := setInsert cl.runningGroups e.group } := by
  have hr : ∀ u', readyCount ready c u' = readyCount (ready.erase e) c u' +
      if e.group = u' then 1 else 0 := by
    intro u'; rw [readyCount_erase he]; simp [hec]
  have hwc : ∀ u', workCount (workers.insert w (some (c, e.group))) c u' = workCount workers c u' +
      if e.group = u' then 1 else 0 := by
    intro u'
    rw [workCount_insert, workCount_erase hww hw c u']; simp
  have hs : ∀ u', stackCount (.assignLoop ws :: stack) c u' =
      stackCount (.assignLoop (w :: ws) :: stack) c u' := by
    intro u'; simp [taskCount]
  exact {
    wf := hC.wf
    ok := hC.ok
    evald := hl.sub _ hC.evald
    inputOf := hC.inputOf
    miss := by
      intro u' fs' hm'
      obtain ⟨h1, g', h2, h3, h4⟩ := hC.miss u' fs' hm'
      exact ⟨h1, g', h2, h3, fun f' hf' hn => hl.available.2 (h4 f' hf' hn)⟩
    pend := by
      intro u' fs' f' hm' hf' hres
      have := hC.pend u' fs' f' hm' hf' (by
        unfold Resolved at *; rwa [hl.available, hl.failedFile] at hres)
      simpa [Notifies] using this
    cons := by
      intro u' g' hg'
      have := hC.cons u' g' hg'
      rw [hr] at this
      rw [hwc, hl.term, hs]
      simp only [missCount] at this ⊢
      omega
    avail := by
      intro u' g' hg' hpos f' hf'
      rw [hwc, hs] at hpos
      refine hl.available.2 (hC.avail u' g' hg' ?_ f' hf')
      rw [hr]
      omega
    handles := fun f' hf' => hC.handles f' (hl.available.1 hf')
    readyG := by
      intro u' hu'
      simp only [mem_setErase] at hu'
      have := hC.readyG u' hu'.1
      rw [hr, if_neg (Ne.symm hu'.2)] at this
      exact this
    runG := by
      intro u' hu'
      simp only [mem_setInsert] at hu'
      rw [hwc]
      rcases hu' with rfl | hu'
      · simp
      · have := hC.runG u' hu'; omega
    cover := by
      intro u' g' hg'
      rw [hs, hl.term]
      by_cases hu' : u' = e.group
      · subst hu'; right; left; simp
      · have := hC.cover u' g' hg'
        simp only [mem_setErase, mem_setInsert, missCount] at this ⊢
        simpa [hu'] using this }

theorem available_completed {log : List Obs} {c g rs os b f}
    (h : Available (.completed c g rs os b :: log) c f) :
    Available log c f ∨ ((∀ r ∈ rs, r.status = .success) ∧ f ∈ g.outs) := by
  rcases h with ⟨k, hk⟩ | ⟨g', ⟨rs', os', b', h1, h2⟩, h3⟩
  · exact Or.inl (Or.inl ⟨k, by simpa using hk⟩)
  · rcases List.mem_cons.1 h1 with h1 | h1
    · cases h1; exact Or.inr ⟨h2, h3⟩
    · exact Or.inl (Or.inr ⟨g', ⟨rs', os', b', h1, h2⟩, h3⟩)

theorem failedFile_completed {log : List Obs} {c g rs os b f}
    (h : FailedFile (.completed c g rs os b :: log) c f) :
    FailedFile log c f ∨ f ∈ g.outs := by
  obtain ⟨g', h1, h2⟩ := h
  simp only [Failed, Skipped, List.mem_cons] at h1
  rcases h1 with ⟨rs', os', b', h1 | h1, h3⟩ | h1 | h1
  · cases h1; exact Or.inr h2
  · exact Or.inl ⟨g', Or.inl ⟨rs', os', b', h1, h3⟩, h2⟩
  · cases h1
  · exact Or.inl ⟨g', Or.inr h1, h2⟩

theorem term_completed {log : List Obs} {c g rs os b} (u : GroupUuid) :
    termCount (.completed c g rs os b :: log) c u =
      termCount log c u + if g.uuid = u then 1 else 0 := by
  simp [termCount, List.countP_cons, isTerm]

theorem get?_insertAll (outputs : AMap FileUuid FileStoreKey) :
    ∀ m : AMap FileUuid FileStoreKey, ∀ f,
      ((insertAll m outputs).get? f = none ↔ m.get? f = none ∧ f ∉ outputs.keys) := by
  induction outputs with
  | nil => intro m f; simp [insertAll, AMap.keys]
  | cons p o ih =>
    obtain ⟨k, v⟩ := p
    intro m f
    simp only [insertAll]
    rw [ih]
    simp only [AMap.get?_insert, AMap.keys, List.map_cons, List.mem_cons, not_or]
    split
    · next h => subst h; simp
    · next h => simp [h]

theorem CInv.completed {log log' ready workers stack c cl rs os b k} {g : ExecutionGroup}
    (hC : CInv log ready workers (.execCompleted c g rs os b :: stack) c cl)
    (hok : ResultOk g rs os)
    (hk : k = Task.fileSuccess c ∨ k = Task.fileFailed c)
    (hl : PlainExt c (.completed c g rs os b :: log) log') :
    CInv log' ready workers ((g.outs.map k ++ [.scheduleCached]) ++ stack) c
      { cl with fileHandles := insertAll cl.fileHandles os } := by
  have hsub : ∀ o ∈ log, o ∈ log' := fun o ho => hl.sub o (by simp [ho])
  have hterm : ∀ u', termCount log' c u' = termCount log c u' + if g.uuid = u' then 1 else 0 := by
    intro u'; rw [hl.term, term_completed]
  have hs : ∀ u', stackCount (.execCompleted c g rs os b :: stack) c u' =
      stackCount ((g.outs.map k ++ [.scheduleCached]) ++ stack) c u' +
        if g.uuid = u' then 1 else 0 := by
    intro u'
    simp only [stackCount_append, stackCount_cons, stackCount_nil]
    rw [stackCount_map_file]
    · simp [taskCount]; omega
    · intro f; rcases hk with rfl | rfl <;> rfl
  have hres' : ∀ f, Resolved log' c f → Resolved log c f ∨ f ∈ g.outs := by
    intro f hr
    rcases hr with hr | hr
    · rw [hl.available] at hr
      rcases available_completed hr with h | h
      · exact Or.inl (Or.inl h)
      · exact Or.inr h.2
    · rw [hl.failedFile] at hr
      rcases failedFile_completed hr with h | h
      · exact Or.inl (Or.inr h)
      · exact Or.inr h
  exact {
    wf := hC.wf
    ok := hC.ok
    evald := hsub _ hC.evald
    inputOf := hC.inputOf
    miss := by
      intro u' fs' hm'
      obtain ⟨h1, g', h2, h3, h4⟩ := hC.miss u' fs' hm'
      exact ⟨h1, g', h2, h3, fun f' hf' hn => available_mono hsub (h4 f' hf' hn)⟩
    pend := by
      intro u' fs' f' hm' hf' hres
      rcases hres' f' hres with hr | hr
      · have := hC.pend u' fs' f' hm' hf' hr
        simp only [pending_cons, Notifies, false_or] at this
        rw [pending_append]
        exact Or.inr this
      · rw [pending_append, pending_append]
        refine Or.inl (Or.inl ⟨k f', List.mem_map.2 ⟨f', hr, rfl⟩, ?_⟩)
        rcases hk with rfl | rfl <;> simp [Notifies]
    cons := by
      intro u' g' hg'
      have := hC.cons u' g' hg'
      rw [hs] at this
      rw [hterm]
      simp only [missCount] at this ⊢
      omega
    avail := by
      intro u' g' hg' hpos f' hf'
      refine available_mono hsub (hC.avail u' g' hg' ?_ f' hf')
      rw [hs]; omega
    handles := by
      intro f' hf'
      rw [hl.available] at hf'
      have hne : (insertAll cl.fileHandles os).get? f' ≠ none := by
        rw [Ne, get?_insertAll]
        rintro ⟨h1, h2⟩
        rcases available_completed hf' with h | h
        · obtain ⟨k, hk⟩ := hC.handles f' h
          rw [h1] at hk; cases hk
        · exact h2 ((hok.outs f').2 h.2)
      exact Option.ne_none_iff_exists'.1 hne
    readyG := hC.readyG
    runG := hC.runG
    cover := by
      intro u' g' hg'
      rw [hterm]
      by_cases hu' : u' = g.uuid
      · subst hu'; right; right; right; right; simp
      · have := hC.cover u' g' hg'
        rw [hs, if_neg (Ne.symm hu')] at this
        rw [if_neg (Ne.symm hu')]
        simpa [missCount] using this }

theorem inv_taskStep {st st' : St} {t : Task} {ch : Choice}
    (h : Inv { st with stack := t :: st.stack })
    (hch : ChoiceOk { st with stack := t :: st.stack } t ch) (hs : TaskStep st t ch st') :
    Inv st' := by
  have htask := h.tasks t (by simp)
  cases hs with
  | fileSuccessGone c f ch hc =>
    refine h.quiet (ts := []) rfl rfl rfl rfl rfl [] rfl (by simp) (by simp [taskCount]) ?_
      (by simp) (by simp) (by simp)
    rintro c' cl f' u fs h1 - - ⟨rfl, rfl⟩
    rw [hc] at h1; cases h1
  | fileSuccessNone c f ch cl hc hi =>
    refine h.quiet (ts := []) rfl rfl rfl rfl rfl _ rfl (quiet_outs _) (by simp [taskCount]) ?_
      (by simp) (by simp) (by simp)
    rintro c' cl' f' u fs h1 hm hf ⟨rfl, rfl⟩
    rw [hc] at h1; cases h1
    obtain ⟨_, g, h2, h3, _⟩ := (h.client _ _ hc).miss u fs hm
    obtain ⟨us, h4, _⟩ := ((h.client _ _ hc).inputOf f u).2 ⟨g, h2, h3 _ hf⟩
    rw [hi] at h4; cases h4
  | fileSuccessSome c f ch cl us hc hi =>
    have hperm := hch cl us hc hi
    refine h.quiet (ts := [_]) rfl rfl rfl rfl rfl _ rfl (quiet_outs _) (by simp [taskCount]) ?_
      ?_ (by simp) (by simp)
    · rintro c' cl' f' u fs h1 hm hf ⟨rfl, rfl⟩
      rw [hc] at h1; cases h1
      obtain ⟨_, g, h2, h3, _⟩ := (h.client _ _ hc).miss u fs hm
      obtain ⟨us', h4, h5⟩ := ((h.client _ _ hc).inputOf f u).2 ⟨g, h2, h3 _ hf⟩
      rw [hi] at h4; cases h4
      simp [Notifies, hperm.mem_iff, h5]
    · simp only [List.mem_singleton, forall_eq]
      refine ⟨htask, fun cl' h1 u hu => ?_⟩
      rw [hc] at h1; cases h1
      obtain ⟨g, hg, _⟩ := ((h.client _ _ hc).inputOf f u).1 ⟨us, hi, hperm.mem_iff.1 hu⟩
      exact ⟨g, hg⟩
  | successEnd c f ch =>
    refine h.quiet (ts := [_, _]) rfl rfl rfl rfl rfl [] rfl (by simp) (by simp [taskCount])
      (by simp [Notifies]) (by simp [TaskOk]) (by simp [isCachedLoop]) (by simp)
  | successGone c f ch u us hc =>
    refine h.quiet (ts := []) rfl rfl rfl rfl rfl [] rfl (by simp) (by simp [taskCount]) ?_
      (by simp) (by simp) (by simp)
    rintro c' cl f' u' fs h1 - - ⟨rfl, rfl, _⟩
    rw [hc] at h1; cases h1
  | successSkip c f ch u us cl g hc hg hm =>
    refine h.quiet (ts := [_]) rfl rfl rfl rfl rfl [] rfl (by simp) (by simp [taskCount]) ?_
      ?_ (by simp) (by simp)
    · rintro c' cl' f' u' fs h1 hm' hf ⟨rfl, rfl, hu⟩
      rw [hc] at h1; cases h1
      rcases List.mem_cons.1 hu with rfl | hu
      · rw [hm] at hm'; cases hm'
      · simp [Notifies, hu]
    · simp only [List.mem_singleton, forall_eq]
      exact ⟨htask.1, fun cl' h1 u' hu => htask.2 cl' h1 u' (by simp [hu])⟩
  | successReady c f ch u us cl g fs hc hg hm he =>
    have hC := h.client c cl hc
    refine h.one (c := c) (cl := cl) hc rfl rfl [] rfl (by simp) (by simp) h.workersWf ?_ ?_ ?_ ?_
      [_] [_] _ rfl rfl (Or.inr (by simp)) ?_ ?_ ?_ (by simp) (by simp)
      (hC.successReady hg hm he htask.1)
    · intro e' he'
      rcases List.mem_cons.1 he' with rfl | he'
      · exact Or.inr ⟨rfl, g, hg⟩
      · exact Or.inl he'
    · intro c' hc' u'
      simp only [readyCount_cons, St.push]
      rw [if_neg (fun x => hc' x.1.symm)]; rfl
    · intro w c u hw; exact Or.inl hw
    · intro c' hc' u'; rfl
    · intro c' hc' u'; rfl
    · intro c' hc' f' u' hp
      simp only [pending_cons, pending_nil, or_false, Notifies] at hp ⊢
      exact absurd hp.1.symm hc'
    · simp only [List.mem_singleton, forall_eq]
      exact ⟨htask.1, fun cl' h1 u' hu => htask.2 cl' h1 u' (by simp [hu])⟩
  | successWait c f ch u us cl g fs hc hg hm he =>
    have hC := h.client c cl hc
    refine h.one (c := c) (cl := cl) hc rfl rfl [] rfl (by simp) (by simp) h.workersWf ?_ ?_ ?_ ?_
      [_] [_] _ rfl rfl (Or.inr (by simp)) ?_ ?_ ?_ (by simp) (by simp)
      (hC.successWait hg hm he htask.1)
    · intro e' he'; exact Or.inl he'
    · intro c' hc' u'; rfl
    · intro w c u hw; exact Or.inl hw
    · intro c' hc' u'; rfl
    · intro c' hc' u'; rfl
    · intro c' hc' f' u' hp
      simp only [pending_cons, pending_nil, or_false, Notifies] at hp ⊢
      exact absurd hp.1.symm hc'
    · simp only [List.mem_singleton, forall_eq]
      exact ⟨htask.1, fun cl' h1 u' hu => htask.2 cl' h1 u' (by simp [hu])⟩
  | fileFailedGone c f ch hc =>
    refine h.quiet (ts := []) rfl rfl rfl rfl rfl [] rfl (by simp) (by simp [taskCount]) ?_
      (by simp) (by simp) (by simp)
    rintro c' cl f' u fs h1 - - ⟨rfl, rfl⟩
    rw [hc] at h1; cases h1
  | fileFailedNone c f ch cl hc hi =>
    refine h.quiet (ts := []) rfl rfl rfl rfl rfl _ rfl (quiet_outs _) (by simp [taskCount]) ?_
      (by simp) (by simp) (by simp)
    rintro c' cl' f' u fs h1 hm hf ⟨rfl, rfl⟩
    rw [hc] at h1; cases h1
    obtain ⟨_, g, h2, h3, _⟩ := (h.client _ _ hc).miss u fs hm
    obtain ⟨us, h4, _⟩ := ((h.client _ _ hc).inputOf f u).2 ⟨g, h2, h3 _ hf⟩
    rw [hi] at h4; cases h4
  | fileFailedSome c f ch cl us hc hi =>
    have hperm := hch cl us hc hi
    refine h.quiet (ts := [_]) rfl rfl rfl rfl rfl _ rfl (quiet_outs _) (by simp [taskCount]) ?_
      ?_ (by simp) (by simp)
    · rintro c' cl' f' u fs h1 hm hf ⟨rfl, rfl⟩
      rw [hc] at h1; cases h1
      obtain ⟨_, g, h2, h3, _⟩ := (h.client _ _ hc).miss u fs hm
      obtain ⟨us', h4, h5⟩ := ((h.client _ _ hc).inputOf f u).2 ⟨g, h2, h3 _ hf⟩
      rw [hi] at h4; cases h4
      simp [Notifies, hperm.mem_iff, h5]
    · simp only [List.mem_singleton, forall_eq]
      refine ⟨htask, by simp, fun cl' h1 u hu => ?_⟩
      rw [hc] at h1; cases h1
      exact ((h.client _ _ hc).inputOf f u).1 ⟨us, hi, hperm.mem_iff.1 hu⟩
  | skipEnd c f failed ch =>
    refine h.quiet (ts := _) rfl rfl rfl rfl rfl [] rfl (by simp) ?_ ?_ ?_ ?_ ?_
    · intro c' cl' u' _
      rw [stackCount_map_file]
      · simp [taskCount]
      · intro f; simp [taskCount]
    · rintro c' cl' f' u' fs h1 hm' hf ⟨rfl, h2⟩
      refine ⟨_, List.mem_map.2 ⟨f', by simpa using h2, rfl⟩, by simp [Notifies]⟩
    · intro x hx
      simp only [List.mem_map] at hx
      obtain ⟨f', hf', rfl⟩ := hx
      exact htask.2.1 f' hf'
    · intro x hx
      have hx := List.mem_of_mem_tail hx
      simp only [List.mem_map] at hx
      obtain ⟨f', hf', rfl⟩ := hx
      rfl
    · intro todo hits r he
      cases failed <;> simp at he
  | skipGone c f failed ch u us hc =>
    refine h.quiet (ts := []) rfl rfl rfl rfl rfl [] rfl (by simp) (by simp [taskCount]) ?_
      (by simp) (by simp) (by simp)
    rintro c' cl f' u' fs h1 - - ⟨rfl, _⟩
    rw [hc] at h1; cases h1
  | skipTwice c f failed ch u us cl hc hm =>
    refine h.quiet (ts := [_]) rfl rfl rfl rfl rfl [] rfl (by simp) (by simp [taskCount]) ?_
      ?_ (by simp) (by simp)
    · rintro c' cl' f' u' fs h1 hm' hf ⟨rfl, hu⟩
      rw [hc] at h1; cases h1
      rcases hu with ⟨rfl, hu⟩ | hu
      · rcases List.mem_cons.1 hu with rfl | hu
        · rw [hm] at hm'; cases hm'
        · simp [Notifies, hu]
      · simp [Notifies, hu]
    · simp only [List.mem_singleton, forall_eq]
      exact ⟨htask.1, htask.2.1, fun cl' h1 u' hu => htask.2.2 cl' h1 u' (by simp [hu])⟩
  | skipOne c f failed ch u us cl g fs hc hm hg =>
    have hC := h.client c cl hc
    have hnew : ∀ c', ∀ f' ∈ g.outs, c' = c →
        FailedFile (((skipMsgs cl c g).map Obs.out).reverse ++ Obs.skipped c g :: st.log) c' f' := by
      rintro c' f' hf' rfl
      exact ⟨g, Or.inr (by unfold Skipped; simp), hf'⟩
    refine h.one (c := c) (cl := cl) hc rfl rfl
      (((skipMsgs cl c g).map Obs.out).reverse ++ [Obs.skipped c g]) (by simp [St.push, St.emitAll,
        St.obs, St.setClient]) ?_ ?_ h.workersWf ?_ ?_ ?_ ?_
      [_] [_] _ rfl rfl (Or.inr (by simp)) ?_ ?_ ?_ (by simp) (by simp)
      (hC.skipOne hg hm ?_)
    · intro o ho
      rcases List.mem_append.1 ho with ho | ho
      · exact (quiet_outs _ o ho).add _
      · rw [List.mem_singleton] at ho
        subst ho
        exact ⟨_, _, hC.evald⟩
    · intro c' hc' o ho
      rcases List.mem_append.1 ho with ho | ho
      · exact (quiet_outs _ o ho).plain _
      · rw [List.mem_singleton] at ho
        subst ho
        exact Ne.symm hc'
    · intro e' he'; exact Or.inl he'
    · intro c' hc' u'; rfl
    · intro w c u hw; exact Or.inl hw
    · intro c' hc' u'; rfl
    · intro c' hc' u'; rfl
    · intro c' hc' f' u' hp
      simp only [pending_cons, pending_nil, or_false, Notifies] at hp ⊢
      exact absurd hp.1.symm hc'
    · simp only [List.mem_singleton, forall_eq]
      refine ⟨failedFile_mono ?_ htask.1, fun f' hf' => ?_,
        fun cl' h1 u' hu => htask.2.2 cl' h1 u' (by simp [hu])⟩
      · intro o ho; simp only [St.push, St.emitAll, St.obs, St.setClient] at ho ⊢; simp [ho]
      · rcases List.mem_append.1 hf' with hf' | hf'
        · refine failedFile_mono ?_ (htask.2.1 f' hf')
          intro o ho; simp only [St.push, St.emitAll, St.obs, St.setClient] at ho ⊢; simp [ho]
        · exact hnew c f' hf' rfl
    · exact (PlainExt.refl c _).outs _
  | scheduleCached ch =>
    refine h.quiet (ts := [_]) rfl rfl rfl rfl rfl [] rfl (by simp) (by simp [taskCount])
      (by simp [Notifies]) ?_ (by simp) ?_
    · simp only [List.mem_singleton, forall_eq]
      exact ⟨hch.2, by simp⟩
    · intro todo hits r he e
      simp only [List.cons.injEq, Task.cachedLoop.injEq] at he
      obtain ⟨⟨rfl, rfl⟩, _⟩ := he
      exact Nat.le_of_eq (hch.1.count_eq e)
  | cachedEnd hits ch =>
    refine h.quiet (ts := _) rfl rfl rfl rfl rfl [] rfl (by simp) ?_ (by simp [Notifies]) ?_ ?_ ?_
    · intro c' cl' u' _
      clear h htask hch
      induction hits with
      | nil => rfl
      | cons a l ih =>
        simp only [taskCount, List.countP_cons, List.map_cons, stackCount_cons] at ih ⊢
        rw [ih (by assumption)]; simp [Nat.add_comm]
    · intro x hx
      simp only [List.mem_map] at hx
      obtain ⟨a, ha, rfl⟩ := hx
      exact htask.2 a ha
    · intro x hx
      have hx := List.mem_of_mem_tail hx
      simp only [List.mem_map] at hx
      obtain ⟨a, ha, rfl⟩ := hx
      rfl
    · intro todo hits' r he
      cases hits <;> simp at he
  | cachedGone e ans todo hits ch hc =>
    exfalso
    have := h.cachedTop _ _ _ rfl e
    have he : e ∈ st.ready := by
      rw [← List.count_pos_iff]
      simp at this
      exact Nat.lt_of_lt_of_le (Nat.succ_pos _) this
    obtain ⟨cl, h1, _⟩ := h.readyLive e he
    simp only at h1
    rw [hc] at h1; cases h1
  | cachedNo e ans todo hits ch cl hc hno =>
    refine h.quiet (ts := [_]) rfl rfl rfl rfl rfl [] rfl (by simp) (by simp [taskCount])
      (by simp [Notifies]) ?_ (by simp) ?_
    · simp only [List.mem_singleton, forall_eq]
      exact ⟨fun e' hit hm => htask.1 e' hit (List.mem_cons_of_mem _ hm), htask.2⟩
    · intro todo' hits' r he e'
      simp only [List.cons.injEq, Task.cachedLoop.injEq] at he
      obtain ⟨⟨rfl, rfl⟩, _⟩ := he
      have := h.cachedTop _ _ _ rfl e'
      simp only [List.map_cons, List.count_cons] at this
      simp only; omega
  | cachedMiss e todo hits ch cl g hc hn hg hi =>
    refine h.quiet (ts := [_]) rfl rfl rfl rfl rfl [.cacheLookup e.client e.group] rfl
      (by simp [Quiet]) (by simp [taskCount]) (by simp [Notifies]) ?_ (by simp) ?_
    · simp only [List.mem_singleton, forall_eq]
      exact ⟨fun e' hit hm => htask.1 e' hit (List.mem_cons_of_mem _ hm), htask.2⟩
    · intro todo' hits' r he e'
      simp only [List.cons.injEq, Task.cachedLoop.injEq] at he
      obtain ⟨⟨rfl, rfl⟩, _⟩ := he
      have := h.cachedTop _ _ _ rfl e'
      simp only [List.map_cons, List.count_cons] at this
      simp only; omega
  | cachedHit e hit todo hits ch cl g hc hn hg hi =>
    have hC := h.client e.client cl hc
    have hgu := hC.groupUuid hg
    have htop := h.cachedTop _ _ _ rfl
    have he : e ∈ st.ready := by
      rw [← List.count_pos_iff]
      have := htop e
      simp at this
      exact Nat.lt_of_lt_of_le (Nat.succ_pos _) this
    refine h.one (c := e.client) (cl := cl) hc rfl rfl
      [Obs.cacheLookup e.client e.group] rfl (by simp [LogAdd]) (by simp [Plain]) h.workersWf ?_ ?_ ?_ ?_
      [_] [_] _ rfl rfl (Or.inr (by simp)) ?_ ?_ ?_ (by simp) ?_
      (hC.cachedHit hg rfl he ((PlainExt.refl _ _).cons _ trivial))
    · intro e' he'; exact Or.inl (List.mem_of_mem_erase he')
    · intro c' hc' u'
      have := readyCount_erase he c' u'
      rw [if_neg (fun x => hc' x.1.symm)] at this
      exact this.symm
    · intro w c u hw; exact Or.inl hw
    · intro c' hc' u'; rfl
    · intro c' hc' u'
      simp [taskCount, List.countP_append, List.countP_cons, Ne.symm hc']
    · intro c' hc' f' u' hp
      simp [Notifies] at hp
    · simp only [List.mem_singleton, forall_eq]
      refine ⟨fun e' hit hm => htask.1 e' hit (List.mem_cons_of_mem _ hm), ?_⟩
      intro x hx cl' hcl'
      rcases List.mem_append.1 hx with hx | hx
      · exact htask.2 x hx cl' hcl'
      · rw [List.mem_singleton] at hx
        subst hx
        simp only at hcl'
        rw [hc] at hcl'; cases hcl'
        exact ⟨by rw [hgu]; exact hg, htask.1 e hit (by simp) cl g hc hg⟩
    · intro todo' hits' r he' e'
      simp only [List.cons.injEq, Task.cachedLoop.injEq] at he'
      obtain ⟨⟨rfl, rfl⟩, _⟩ := he'
      have := htop e'
      simp only [List.map_cons, List.count_cons] at this
      show _ ≤ (st.ready.erase e).count e'
      by_cases hee : e' = e
      · subst hee
        rw [List.count_erase_self]
        simp at this; omega
      · rw [List.count_erase_of_ne hee]
        omega
  | assignJobs ch =>
    exact h.quiet (ts := [_]) rfl rfl rfl rfl rfl [] rfl (by simp) (by simp [taskCount])
      (by simp [Notifies]) (by simp [TaskOk]) (by simp) (by simp)
  | assignEnd ws ch hw =>
    exact h.quiet (ts := []) rfl rfl rfl rfl rfl [.assigned] rfl (by simp [Quiet])
      (by simp [taskCount]) (by simp [Notifies]) (by simp) (by simp) (by simp)
  | assignSkip w ws ch hw =>
    exact h.quiet (ts := [_]) rfl rfl rfl rfl rfl [] rfl (by simp) (by simp [taskCount])
      (by simp [Notifies]) (by simp [TaskOk]) (by simp) (by simp)
  | assignGone w ws ch e ready hw hp hc =>
    exfalso
    obtain ⟨cl, h1, _⟩ := h.readyLive e (popMax_eq hp).1
    simp only at h1
    rw [hc] at h1; cases h1
  | assignJob w ws ch e ready cl g keys hw hp hc hg hk =>
    have hC := h.client e.client cl hc
    obtain ⟨he, rfl⟩ := popMax_eq hp
    refine h.one (c := e.client) (cl := cl) hc rfl rfl
      (((startMsgs cl e.client w g).map Obs.out).reverse ++ [.out (.workerJob w e.client g keys)])
      (by simp [St.push, St.emitAll, St.obs, St.setClient, St.emit]) ?_ ?_
      (AMap.wf_insert h.workersWf _ _) ?_ ?_ ?_ ?_
      [_] [_] _ rfl rfl (Or.inr (by simp)) ?_ ?_ ?_ (by simp) (by simp)
      (hC.assignJob rfl he h.workersWf hw
        (((PlainExt.refl _ _).cons (.out (.workerJob w e.client g keys)) trivial).outs _))
    · intro o ho
      rcases List.mem_append.1 ho with ho | ho
      · exact (quiet_outs _ o ho).add _
      · rw [List.mem_singleton] at ho
        subst ho
        trivial
    · intro c' hc' o ho
      rcases List.mem_append.1 ho with ho | ho
      · exact (quiet_outs _ o ho).plain _
      · rw [List.mem_singleton] at ho
        subst ho
        trivial
    · intro e' he'; exact Or.inl (List.mem_of_mem_erase he')
    · intro c' hc' u'
      have := readyCount_erase he c' u'
      rw [if_neg (fun x => hc' x.1.symm)] at this
      exact this.symm
    · intro w' c u hw'
      simp only [St.push, St.emitAll, St.obs, St.setClient, St.emit, AMap.get?_insert] at hw'
      split at hw'
      · cases hw'; exact Or.inr ⟨e, he, rfl, rfl⟩
      · exact Or.inl hw'
    · intro c' hc' u'
      simp only [St.push, St.emitAll, St.obs, St.setClient, St.emit]
      rw [workCount_insert, workCount_erase h.workersWf hw c' u']
      simp [Ne.symm hc']
    · intro c' hc' u'; simp [taskCount]
    · intro c' hc' f' u' hp; simp [Notifies] at hp
    · simp [TaskOk]
  | checkGone c ch hc =>
    exact h.quiet (ts := []) rfl rfl rfl rfl rfl [] rfl (by simp)
      (by simp [taskCount]) (by simp [Notifies]) (by simp) (by simp) (by simp)
  | checkNotDone c ch cl hc hd =>
    exact h.quiet (ts := []) rfl rfl rfl rfl rfl [] rfl (by simp)
      (by simp [taskCount]) (by simp [Notifies]) (by simp) (by simp) (by simp)
  | checkDone c ch cl hc hd =>
    exact h.quiet (ts := []) rfl rfl rfl rfl rfl [_] rfl (by simp [Quiet])
      (by simp [taskCount]) (by simp [Notifies]) (by simp) (by simp) (by simp)
  | completedGone c g results outputs fromCache ch hc =>
    refine h.quiet (ts := []) rfl rfl rfl rfl rfl [] rfl (by simp) ?_ (by simp [Notifies])
      (by simp) (by simp) (by simp)
    intro c' cl' u h1
    simp only [stackCount_nil, taskCount]
    rw [if_neg]
    rintro ⟨rfl, _⟩
    rw [hc] at h1; cases h1
  | completed c g results outputs fromCache ch cl extra hc he hx =>
    have hC := h.client c cl hc
    obtain ⟨hg, hok⟩ := htask cl hc
    have hqx : ∀ o ∈ extra, Quiet o := by
      intro o ho
      rcases he with rfl | rfl
      · cases ho
      · rw [List.mem_singleton] at ho; subst ho; trivial
    have hlog : extra ++ ((st.obs (.completed c g results outputs fromCache)).emitAll
        (doneMessages c cl.callbacks.executions g.executions results)).log =
        (extra ++ (((doneMessages c cl.callbacks.executions g.executions results).map
          Obs.out).reverse ++ [.completed c g results outputs fromCache])) ++ st.log := by
      simp [St.emitAll, St.obs]
    have hmem : Obs.completed c g results outputs fromCache ∈
        extra ++ ((st.obs (.completed c g results outputs fromCache)).emitAll
        (doneMessages c cl.callbacks.executions g.executions results)).log := by
      rw [hlog]; simp
    have hk : (if results.all (fun r => r.status.isSuccess) = true then Task.fileSuccess c
            else Task.fileFailed c) = Task.fileSuccess c ∨
        (if results.all (fun r => r.status.isSuccess) = true then Task.fileSuccess c
            else Task.fileFailed c) = Task.fileFailed c := by
      by_cases hall : results.all (fun r => r.status.isSuccess) = true
      · rw [if_pos hall]; exact Or.inl rfl
      · rw [if_neg hall]; exact Or.inr rfl
    have hsucc : ∀ r : ExecutionResult, r.status.isSuccess = true ↔ r.status = .success := by
      intro r; cases r.status <;> simp [ExecutionStatus.isSuccess]
    have hnl : ∀ t ∈ g.outs.map (if results.all (fun r => r.status.isSuccess) = true then
        Task.fileSuccess c else Task.fileFailed c) ++ [.scheduleCached], isCachedLoop t = false := by
      intro t ht
      rcases List.mem_append.1 ht with ht | ht
      · obtain ⟨f, _, rfl⟩ := List.mem_map.1 ht
        rcases hk with hk | hk <;> rw [hk] <;> rfl
      · rw [List.mem_singleton] at ht; subst ht; rfl
    refine h.one (c := c) (cl := cl) hc rfl rfl _ hlog ?_ ?_ h.workersWf ?_ ?_ ?_ ?_
      [_] _ _ rfl rfl (Or.inr (by simp)) ?_ ?_ ?_ ?_ ?_ (hC.completed hok hk ?_)
    · intro o ho
      simp only [List.mem_append, List.mem_singleton] at ho
      rcases ho with ho | ho | rfl
      · exact (hqx o ho).add _
      · exact (quiet_outs _ o ho).add _
      · exact ⟨_, _, hC.evald⟩
    · intro c' hc' o ho
      simp only [List.mem_append, List.mem_singleton] at ho
      rcases ho with ho | ho | rfl
      · exact (hqx o ho).plain _
      · exact (quiet_outs _ o ho).plain _
      · exact Ne.symm hc'
    · intro e' he'; exact Or.inl he'
    · intro c' hc' u'; rfl
    · intro w c u hw; exact Or.inl hw
    · intro c' hc' u'; rfl
    · intro c' hc' u'
      simp only [stackCount_append, stackCount_cons, stackCount_nil]
      rw [stackCount_map_file]
      · simp [taskCount, Ne.symm hc']
      · intro f; rcases hk with hk | hk <;> rw [hk] <;> rfl
    · intro c' hc' f' u' hp; simp [Notifies] at hp
    · intro t ht
      rcases List.mem_append.1 ht with ht | ht
      · obtain ⟨f, hf, rfl⟩ := List.mem_map.1 ht
        by_cases hall : results.all (fun r => r.status.isSuccess) = true
        · rw [if_pos hall]
          refine Or.inr ⟨g, ⟨results, outputs, fromCache, hmem, ?_⟩, hf⟩
          intro r hr
          exact (hsucc r).1 (List.all_eq_true.1 hall r hr)
        · rw [if_neg hall]
          refine ⟨g, Or.inl ⟨results, outputs, fromCache, hmem, ?_⟩, hf⟩
          apply Classical.byContradiction
          intro hno
          apply hall
          rw [List.all_eq_true]
          intro r hr
          rw [hsucc]
          apply Classical.byContradiction
          exact fun hne => hno ⟨r, hr, hne⟩
      · rw [List.mem_singleton] at ht; subst ht; trivial
    · intro t ht; exact hnl t (List.mem_of_mem_tail ht)
    · intro todo hits r he'
      have := hnl (.cachedLoop todo hits) (by rw [he']; simp)
      simp [isCachedLoop] at this
    · refine ⟨extra ++ ((doneMessages c cl.callbacks.executions g.executions results).map
        Obs.out).reverse, ?_, ?_⟩
      · show extra ++ _ = _
        simp [St.emitAll, St.obs]
      · intro o ho
        rcases List.mem_append.1 ho with ho | ho
        · exact (hqx o ho).plain _
        · exact (quiet_outs _ o ho).plain _

end TM.Sched
