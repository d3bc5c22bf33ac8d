import Verif.Sched.AuxTask
/-! The second invariant is preserved by the handling of a message. -/

namespace TM.Sched
open TM.DagSpec

theorem workerAt_job {w : WorkerUuid} {log : List Obs} {c u}
    (h : workerAt w log = some (some (c, u))) :
    ∃ g keys, Obs.out (.workerJob w c g keys) ∈ log ∧ g.uuid = u := by
  induction log with
  | nil => simp [workerAt] at h
  | cons o log ih =>
    have lift : workerAt w log = some (some (c, u)) →
        ∃ g keys, Obs.out (.workerJob w c g keys) ∈ o :: log ∧ g.uuid = u := by
      intro h1
      obtain ⟨g, k, h2, h3⟩ := ih h1
      exact ⟨g, k, by simp [h2], h3⟩
    cases o with
    | ev e =>
      cases e with
      | workerConnected w' =>
        simp only [workerAt] at h; split at h
        · cases h
        · exact lift h
      | workerDisconnected w' =>
        simp only [workerAt] at h; split at h
        · cases h
        · exact lift h
      | workerResult w' rs os =>
        simp only [workerAt] at h; split at h
        · cases h
        · exact lift h
      | _ => exact lift h
    | out x =>
      cases x with
      | workerJob w' c' g keys =>
        simp only [workerAt] at h; split at h
        · next e => cases h; subst e; exact ⟨g, keys, by simp, rfl⟩
        · exact lift h
      | _ => exact lift h
    | _ => exact lift h

/-- The handling of a message that adds only the message to the trace. -/
theorem Aux.event {st st' : St} {e : Event} (a : Aux st) (hlog : st'.log = .ev e :: st.log)
    (live : ∀ c, (st'.clients.get? c).isSome = Connected c (.ev e :: st.log))
    (work : ∀ w, st'.workers.get? w = workerAt w (.ev e :: st.log))
    (keys : ∀ c cl f, st'.clients.get? c = some cl →
      cl.fileHandles.get? f = keyOf c f (.ev e :: st.log))
    (miss : ∀ c cl' w g keys, st'.clients.get? c = some cl' →
      Obs.out (.workerJob w c g keys) ∈ st.log → cl'.missingDeps.get? g.uuid = none)
    (below : ∀ pre c post, st'.stack = pre ++ .checkCompletion c :: post →
      ∀ t ∈ post, t = .scheduleCached ∨ t = .assignJobs)
    (prov : ∀ t ∈ st'.stack, TaskProv st'.log t)
    (hev : HistOk (.ev e) st.log := by trivial) : Aux st' where
  live := by rw [hlog]; exact live
  work := by rw [hlog]; exact work
  keys := by rw [hlog]; exact keys
  started := by
    intro c cl w g k hc hm
    rw [hlog] at hm
    exact miss c cl w g k hc (by simpa using hm)
  below := below
  prov := prov
  jobGroup := by
    intro w c g k hm
    rw [hlog] at hm
    exact groupOf_mono (fun o ho => by rw [hlog]; simp [ho]) (a.jobGroup w c g k (by simpa using hm))
  hist := by rw [hlog]; exact ⟨hev, a.hist⟩

theorem below_nil {s : List Task} (h : s = []) : ∀ pre c post, s = pre ++ .checkCompletion c :: post →
      ∀ t ∈ post, t = .scheduleCached ∨ t = .assignJobs := by
  intro pre c post he; rw [h] at he; simp at he

theorem below_last {s ts : List Task} {c : ClientUuid} (h : s = ts ++ [.checkCompletion c])
    (hts : ∀ t ∈ ts, isCheck t = false) :
    ∀ pre c post, s = pre ++ .checkCompletion c :: post →
      ∀ t ∈ post, t = .scheduleCached ∨ t = .assignJobs := by
  rw [h]
  refine below_push hts ?_
  intro pre c' post he t ht
  cases pre with
  | nil => simp at he; rw [he.2] at ht; cases ht
  | cons x xs => simp at he

theorem mem_jobsOf {c : ClientUuid} {ws : AMap WorkerUuid (Option (ClientUuid × GroupUuid))} {w u} :
    (w, u) ∈ jobsOf c ws ↔ (w, some (c, u)) ∈ ws := by
  induction ws with
  | nil => simp [jobsOf]
  | cons p ws ih =>
    obtain ⟨w', j⟩ := p
    cases j with
    | none => simp [jobsOf, ih]
    | some x =>
      obtain ⟨c', u'⟩ := x
      simp only [jobsOf]
      split
      · next e => subst e; simp [ih]
      · next e => simp [ih]; intro _ h _; exact absurd h.symm e

theorem keyOf_none {c : ClientUuid} {f : FileUuid} {log : List Obs}
    (hp : ∀ f, ¬ Provided log c f) (ht : ∀ u, termCount log c u = 0) : keyOf c f log = none := by
  have hp' : ∀ f k, Obs.ev (.fileReady c f k) ∉ log := fun f k hm => hp f ⟨k, hm⟩
  have ht' : ∀ g rs os b, Obs.completed c g rs os b ∉ log := by
    intro g rs os b hm
    have : 0 < termCount log c g.uuid := List.countP_pos_iff.2 ⟨_, hm, by simp [isTerm]⟩
    rw [ht] at this; omega
  clear hp ht
  induction log with
  | nil => rfl
  | cons o log ih =>
    have ih := ih (fun f k hm => hp' f k (by simp [hm])) (fun g rs os b hm => ht' g rs os b (by simp [hm]))
    cases o with
    | ev e =>
      cases e with
      | fileReady c' f' k =>
        simp only [keyOf]
        split
        · next h => obtain ⟨rfl, rfl⟩ := h; exact absurd (by simp) (hp' f' k)
        · exact ih
      | _ => exact ih
    | completed c' g rs os b =>
      simp only [keyOf]
      split
      · next h => subst h; exact absurd (by simp) (ht' g rs os b)
      · exact ih
    | _ => exact ih

theorem aux_event {st st' : St} {e : Event} (h : Inv st) (a : Aux st) (hst : st.stack = [])
    (hok : EventOk st e) (hs : EventStep (st.obs (.ev e)) e st') : Aux st' := by
  cases hs with
  | evaluateDag c dag cb =>
    obtain ⟨hwf, hcheck, hfresh⟩ := hok
    have hns : ¬ Seen st.log c := by
      rintro ⟨d, b, hm⟩; exact hfresh d b hm
    have hcl : ∀ c1 cl1, (st.clients.insert c (initGroups c dag.executionGroups
        { dag := dag, callbacks := cb } st.ready).1).get? c1 = some cl1 →
        (c1 = c ∧ cl1 = (initGroups c dag.executionGroups
        { dag := dag, callbacks := cb } st.ready).1) ∨ (c1 ≠ c ∧ st.clients.get? c1 = some cl1) := by
      intro c1 cl1 h1
      rw [AMap.get?_insert] at h1
      split at h1
      · next he => cases h1; exact Or.inl ⟨he, rfl⟩
      · next hne => exact Or.inr ⟨hne, h1⟩
    refine a.event rfl ?_ ?_ ?_ ?_ ?_ ?_ ⟨hwf, hcheck, hns⟩
    · intro c1
      show ((st.clients.insert c _).get? c1).isSome = _
      simp only [Connected]
      rw [AMap.get?_insert]
      split
      · next e => simp [e]
      · next e => rw [a.live c1]; simp [Ne.symm e]
    · intro w; exact a.work w
    · intro c1 cl1 f h1
      show _ = keyOf c1 f st.log
      rcases hcl c1 cl1 h1 with ⟨rfl, rfl⟩ | ⟨hne, h1⟩
      · rw [(initGroups_same _ _ _ _).2.2.2]
        rw [keyOf_none]
        · rfl
        · intro f hp
          obtain ⟨d, b, hm, _⟩ := h.seenProv _ f hp
          exact hns ⟨d, b, hm⟩
        · intro u
          apply Classical.byContradiction
          intro hne
          exact hns (h.seenTerm _ u (Nat.pos_of_ne_zero hne))
      · exact a.keys c1 cl1 f h1
    · intro c1 cl1 w g k h1 hm
      rcases hcl c1 cl1 h1 with ⟨rfl, rfl⟩ | ⟨hne, h1⟩
      · obtain ⟨d, b, h2, _⟩ := a.jobGroup _ _ _ _ hm
        exact absurd ⟨d, b, h2⟩ hns
      · exact a.started c1 cl1 w g k h1 hm
    · intro pre c1 post he t ht
      have he' : [Task.checkCompletion c, .scheduleCached, .assignJobs] =
          pre ++ .checkCompletion c1 :: post := by
        simpa [handleEvaluateDag, St.push, St.obs, hst] using he
      cases pre with
      | nil =>
        simp only [List.nil_append, List.cons.injEq] at he'
        rw [← he'.2] at ht; simpa using ht
      | cons x xs =>
        simp only [List.cons_append, List.cons.injEq] at he'
        have := he'.2
        have hm : Task.checkCompletion c1 ∈ [Task.scheduleCached, .assignJobs] := by
          rw [this]; simp
        simp at hm
    · intro t ht
      simp only [handleEvaluateDag, St.push, St.obs, hst, List.append_nil, List.mem_cons,
          List.not_mem_nil, or_false] at ht
      rcases ht with rfl | rfl | rfl <;> trivial
  | clientDisconnected c =>
    have key : ∃ (os : List Out) (pre : List Obs), handleClientDisconnected
        (st.obs (.ev (.clientDisconnected c))) c = { st with
        clients := st.clients.erase c
        ready := st.ready.filter (fun e => (st.clients.erase c).contains e.client)
        log := (os.map Obs.out).reverse ++ (pre ++ (.ev (.clientDisconnected c) :: st.log)) } ∧
        (∀ o ∈ os, ∃ w u, o = .stopJob w u ∧ (w, some (c, u)) ∈ st.workers) ∧
        (pre = [] ∨ (pre = [.out (.evaluationDone c)] ∧ (st.clients.get? c).isSome)) := by
      unfold handleClientDisconnected
      have hjobs : ∀ o ∈ (jobsOf c st.workers).map (fun p => Out.stopJob p.1 p.2),
          ∃ w u, o = .stopJob w u ∧ (w, some (c, u)) ∈ st.workers := by
        intro o ho
        obtain ⟨⟨w, u⟩, hp, rfl⟩ := List.mem_map.1 ho
        exact ⟨w, u, rfl, mem_jobsOf.1 hp⟩
      have hcc : (st.obs (.ev (.clientDisconnected c))).clients = st.clients := rfl
      rw [hcc]
      cases hc : st.clients.get? c with
      | none => exact ⟨_, [], rfl, hjobs, Or.inl rfl⟩
      | some cl =>
        simp only
        by_cases hd : cl.isDone = true
        · rw [if_pos hd]; exact ⟨_, [], rfl, hjobs, Or.inl rfl⟩
        · rw [if_neg hd]; exact ⟨_, [.out (.evaluationDone c)], rfl, hjobs, Or.inr ⟨rfl, by simp⟩⟩
    obtain ⟨os, pre, heq, hos, hpre⟩ := key
    rw [heq]
    have hs1 : ∀ o ∈ (os.map Obs.out).reverse, Silent o := by
      apply silent_outs
      intro o ho; obtain ⟨w, u, rfl, _⟩ := hos o ho; trivial
    have hs2 : ∀ o ∈ pre, Silent o := by
      intro o ho
      rcases hpre with rfl | ⟨rfl, _⟩
      · cases ho
      · simp at ho; subst ho; trivial
    have q1 := silent_eqs hs1 (pre ++ (.ev (.clientDisconnected c) :: st.log))
    have q2 := silent_eqs hs2 (.ev (.clientDisconnected c) :: st.log)
    have hmemj : ∀ w c' g k, Obs.out (.workerJob w c' g k) ∈
        (os.map Obs.out).reverse ++ (pre ++ (.ev (.clientDisconnected c) :: st.log)) →
        Obs.out (.workerJob w c' g k) ∈ st.log := by
      intro w c' g k hm
      rcases List.mem_append.1 hm with hm | hm
      · exact (hs1 _ hm).elim
      · rcases List.mem_append.1 hm with hm | hm
        · exact (hs2 _ hm).elim
        · simpa using hm
    have hcl : ∀ c1 cl1, (st.clients.erase c).get? c1 = some cl1 →
        c1 ≠ c ∧ st.clients.get? c1 = some cl1 := by
      intro c1 cl1 h1
      rw [AMap.get?_erase] at h1
      split at h1
      · cases h1
      · next hne => exact ⟨hne, h1⟩
    exact {
      live := by
        intro c1
        simp only
        rw [q1.1, q2.1, AMap.get?_erase]
        simp only [Connected]
        split
        · next e => simp [e]
        · next e => rw [a.live c1]; simp [Ne.symm e]
      work := by intro w; simp only; rw [q1.2.1, q2.2.1]; exact a.work w
      keys := by
        intro c1 cl1 f h1
        simp only
        rw [q1.2.2, q2.2.2]
        exact a.keys c1 cl1 f (hcl c1 cl1 h1).2
      started := by
        intro c1 cl1 w g k h1 hm
        exact a.started c1 cl1 w g k (hcl c1 cl1 h1).2 (hmemj _ _ _ _ hm)
      below := below_nil hst
      prov := by intro t ht; simp only [hst] at ht; cases ht
      jobGroup := by
        intro w c1 g k hm
        exact groupOf_mono (fun o ho => by simp [ho]) (a.jobGroup w c1 g k (hmemj _ _ _ _ hm))
      hist := by
        refine hist_outs ?_ ?_
        · rcases hpre with rfl | ⟨rfl, hl⟩
          · exact ⟨trivial, a.hist⟩
          · refine ⟨Or.inl ⟨_, rfl, ?_⟩, trivial, a.hist⟩
            rw [← a.live]; exact hl
        · intro o ho l hl
          obtain ⟨w, u, rfl, hm⟩ := hos o ho
          have hsl : ∀ x ∈ l, Silent x := by
            intro x hx
            obtain ⟨y, hy, rfl⟩ := hl x hx
            obtain ⟨w, u, rfl, _⟩ := hos y hy; trivial
          have q := silent_eqs hsl (pre ++ (.ev (.clientDisconnected c) :: st.log))
          refine ⟨c, ?_, ?_⟩
          · rw [q.2.1, q2.2.1]
            show workerAt w st.log = _
            rw [← a.work w]
            exact AMap.get?_of_mem h.workersWf hm
          · rw [q.1, q2.1]; simp [Connected] }
  | fileReadyGone c f key hc =>
    have hc' : st.clients.get? c = none := hc
    refine a.event rfl a.live a.work ?_ a.started (below_nil hst) ?_ hok
    · intro c1 cl1 f1 h1
      have h1' : st.clients.get? c1 = some cl1 := h1
      have hne : c ≠ c1 := by rintro rfl; rw [hc'] at h1'; cases h1'
      simp only [keyOf, hne, false_and, if_false]
      exact a.keys c1 cl1 f1 h1'
    · intro t ht; simp only [St.obs, hst] at ht; cases ht
  | fileReady c f key cl hc =>
    have hc' : st.clients.get? c = some cl := hc
    have hcl : ∀ c1 cl1, (st.clients.insert c { cl with
        fileHandles := cl.fileHandles.insert f key }).get? c1 = some cl1 →
        (c1 = c ∧ cl1 = { cl with fileHandles := cl.fileHandles.insert f key }) ∨
        (c1 ≠ c ∧ st.clients.get? c1 = some cl1) := by
      intro c1 cl1 h1
      rw [AMap.get?_insert] at h1
      split at h1
      · next he => cases h1; exact Or.inl ⟨he, rfl⟩
      · next hne => exact Or.inr ⟨hne, h1⟩
    refine a.event rfl ?_ a.work ?_ ?_ ?_ ?_ hok
    · intro c1
      show ((st.clients.insert c _).get? c1).isSome = Connected c1 st.log
      rw [← a.live, AMap.get?_insert]
      split
      · next e => simp [e, hc']
      · rfl
    · intro c1 cl1 f1 h1
      rcases hcl c1 cl1 h1 with ⟨rfl, rfl⟩ | ⟨hne, h1⟩
      · simp only [keyOf, true_and]
        rw [AMap.get?_insert]
        by_cases hf : f1 = f
        · simp [hf]
        · rw [if_neg hf, if_neg (Ne.symm hf)]; exact a.keys c1 cl f1 hc'
      · simp only [keyOf, Ne.symm hne, false_and, if_false]
        exact a.keys c1 cl1 f1 h1
    · intro c1 cl1 w g k h1 hm
      rcases hcl c1 cl1 h1 with ⟨rfl, rfl⟩ | ⟨hne, h1⟩
      · exact a.started c1 cl w g k hc' hm
      · exact a.started c1 cl1 w g k h1 hm
    · refine below_last (ts := [.fileSuccess c f]) (c := c) ?_ ?_
      · simp [St.push, St.setClient, St.obs, hst]
      · intro t ht; simp at ht; subst ht; rfl
    · intro t ht
      simp [St.push, St.setClient, St.obs, hst] at ht
      rcases ht with rfl | rfl <;> trivial
  | resultUnknown w rs os hw =>
    have hw' : st.workers.get? w = none := hw
    refine a.event rfl a.live ?_ a.keys a.started (below_nil hst) ?_
    · intro w'
      simp only [workerAt]
      split
      · next e => subst e; exact hw
      · exact a.work w'
    · intro t ht; simp only [St.obs, hst] at ht; cases ht
  | resultIdle w rs os hw =>
    refine a.event rfl a.live ?_ a.keys a.started (below_nil hst) ?_
    · intro w'
      simp only [workerAt, AMap.get?_erase, St.obs]
      by_cases e : w' = w
      · simp [e]
      · rw [if_neg e, if_neg (Ne.symm e)]; exact a.work w'
    · intro t ht; simp only [St.obs, hst] at ht; cases ht
  | resultGone w rs os c u hw hc =>
    refine a.event rfl a.live ?_ a.keys a.started ?_ ?_
    · intro w'
      simp only [workerAt, AMap.get?_erase, St.obs, St.push]
      by_cases e : w' = w
      · simp [e]
      · rw [if_neg e, if_neg (Ne.symm e)]; exact a.work w'
    · refine below_last (ts := [.assignJobs]) (c := c) ?_ ?_
      · simp [St.push, St.obs, hst]
      · intro t ht; simp at ht; subst ht; rfl
    · intro t ht
      simp [St.push, St.obs, hst] at ht
      rcases ht with rfl | rfl <;> trivial
  | result w rs os c u cl g hw hc hg hlen =>
    have hc' : st.clients.get? c = some cl := hc
    have hw' : st.workers.get? w = some (some (c, u)) := hw
    have hcl : ∀ c1 cl1, (st.clients.insert c { cl with
        runningGroups := setErase cl.runningGroups u }).get? c1 = some cl1 →
        (c1 = c ∧ cl1 = { cl with runningGroups := setErase cl.runningGroups u }) ∨
        (c1 ≠ c ∧ st.clients.get? c1 = some cl1) := by
      intro c1 cl1 h1
      rw [AMap.get?_insert] at h1
      split at h1
      · next he => cases h1; exact Or.inl ⟨he, rfl⟩
      · next hne => exact Or.inr ⟨hne, h1⟩
    refine a.event rfl ?_ ?_ ?_ ?_ ?_ ?_
    · intro c1
      show ((st.clients.insert c _).get? c1).isSome = Connected c1 st.log
      rw [← a.live, AMap.get?_insert]
      split
      · next e => simp [e, hc']
      · rfl
    · intro w'
      simp only [workerAt, AMap.get?_erase, St.obs, St.push, St.setClient]
      by_cases e : w' = w
      · simp [e]
      · rw [if_neg e, if_neg (Ne.symm e)]; exact a.work w'
    · intro c1 cl1 f1 h1
      rcases hcl c1 cl1 h1 with ⟨rfl, rfl⟩ | ⟨hne, h1⟩
      · exact a.keys c1 cl f1 hc'
      · exact a.keys c1 cl1 f1 h1
    · intro c1 cl1 w g k h1 hm
      rcases hcl c1 cl1 h1 with ⟨rfl, rfl⟩ | ⟨hne, h1⟩
      · exact a.started c1 cl w g k hc' hm
      · exact a.started c1 cl1 w g k h1 hm
    · refine below_last (ts := [.execCompleted c g rs os false, .assignJobs]) (c := c) ?_ ?_
      · simp [St.push, St.setClient, St.obs, hst]
      · intro t ht; simp at ht; rcases ht with rfl | rfl <;> rfl
    · intro t ht
      simp [St.push, St.setClient, St.obs, hst] at ht
      rcases ht with rfl | rfl | rfl
      · refine ⟨fun _ => ?_, by simp⟩
        obtain ⟨g', k, hm, hu⟩ := workerAt_job ((a.work w).symm.trans hw')
        obtain ⟨d, b, h1, h2⟩ := a.jobGroup w c g' k hm
        have := h.evUniq c _ _ _ _ (h.client c cl hc').evald h1
        rw [this.1, hu, hg] at h2
        cases h2
        exact ⟨w, k, by simp [St.push, St.setClient, St.obs, hm], by simp [St.push, St.setClient, St.obs]⟩
      · trivial
      · trivial
  | workerConnected w =>
    refine a.event rfl a.live ?_ a.keys a.started ?_ ?_
    · intro w'
      simp only [workerAt, AMap.get?_insert, St.obs, St.push]
      by_cases e : w' = w
      · simp [e]
      · rw [if_neg e, if_neg (Ne.symm e)]; exact a.work w'
    · intro pre c post he
      have : [Task.assignJobs] = pre ++ .checkCompletion c :: post := by
        simpa [St.push, St.obs, hst] using he
      have hm : Task.checkCompletion c ∈ [Task.assignJobs] := by rw [this]; simp
      simp at hm
    · intro t ht
      simp [St.push, St.obs, hst] at ht
      subst ht; trivial
  | disconnectUnknown w hw =>
    refine a.event rfl a.live ?_ a.keys a.started (below_nil hst) ?_
    · intro w'
      simp only [workerAt]
      split
      · next e => subst e; exact hw
      · exact a.work w'
    · intro t ht; simp only [St.obs, hst] at ht; cases ht
  | disconnectFree w job hw hj =>
    refine a.event rfl a.live ?_ a.keys a.started (below_nil hst) ?_
    · intro w'
      simp only [workerAt, AMap.get?_erase, St.obs]
      by_cases e : w' = w
      · simp [e]
      · rw [if_neg e, if_neg (Ne.symm e)]; exact a.work w'
    · intro t ht; simp only [St.obs, hst] at ht; cases ht
  | disconnect w c u cl g hw hc hg =>
    have hc' : st.clients.get? c = some cl := hc
    have hcl : ∀ c1 cl1, (st.clients.insert c { cl with
        readyGroups := setInsert cl.readyGroups u
        runningGroups := setErase cl.runningGroups u }).get? c1 = some cl1 →
        (c1 = c ∧ cl1 = { cl with
        readyGroups := setInsert cl.readyGroups u
        runningGroups := setErase cl.runningGroups u }) ∨
        (c1 ≠ c ∧ st.clients.get? c1 = some cl1) := by
      intro c1 cl1 h1
      rw [AMap.get?_insert] at h1
      split at h1
      · next he => cases h1; exact Or.inl ⟨he, rfl⟩
      · next hne => exact Or.inr ⟨hne, h1⟩
    refine a.event rfl ?_ ?_ ?_ ?_ (below_nil hst) ?_
    · intro c1
      show ((st.clients.insert c _).get? c1).isSome = Connected c1 st.log
      rw [← a.live, AMap.get?_insert]
      split
      · next e => simp [e, hc']
      · rfl
    · intro w'
      simp only [workerAt, AMap.get?_erase, St.obs, St.setClient]
      by_cases e : w' = w
      · simp [e]
      · rw [if_neg e, if_neg (Ne.symm e)]; exact a.work w'
    · intro c1 cl1 f1 h1
      rcases hcl c1 cl1 h1 with ⟨rfl, rfl⟩ | ⟨hne, h1⟩
      · exact a.keys c1 cl f1 hc'
      · exact a.keys c1 cl1 f1 h1
    · intro c1 cl1 w g k h1 hm
      rcases hcl c1 cl1 h1 with ⟨rfl, rfl⟩ | ⟨hne, h1⟩
      · exact a.started c1 cl w g k hc' hm
      · exact a.started c1 cl1 w g k h1 hm
    · intro t ht; simp only [St.setClient, St.obs, hst] at ht; cases ht
  | status c ws hws =>
    have a1 : Aux (st.obs (.ev (.status c))) := by
      refine a.event rfl a.live a.work a.keys a.started (below_nil hst) ?_
      intro t ht; simp only [St.obs, hst] at ht; cases ht
    exact {
      live := a1.live
      work := a1.work
      keys := a1.keys
      started := fun c cl w g k hc hm => a1.started c cl w g k hc (by simpa [St.emit, St.obs] using hm)
      below := a1.below
      prov := by intro t ht; simp only [St.emit, St.obs, hst] at ht; cases ht
      jobGroup := fun w c g k hm => groupOf_mono (fun o ho => by simp [St.emit, St.obs] at ho ⊢; simp [ho])
        (a1.jobGroup w c g k (by simpa [St.emit, St.obs] using hm))
      hist := ⟨trivial, a1.hist⟩ }

theorem aux_init : Aux {} where
  live := fun c => rfl
  work := fun w => rfl
  keys := by intro c cl f h; cases h
  started := by intro c cl w g k h; cases h
  below := below_nil rfl
  prov := by intro t ht; cases ht
  jobGroup := by intro w c g k h; cases h
  hist := trivial

theorem aux_step {st st' : St} (h : Inv st) (a : Aux st) (hs : Step st st') : Aux st' := by
  cases hs with
  | event e hst hok hh => exact aux_event h a hst hok (eventStep_of_handle hh)
  | task t rest ch hst hok hh =>
    obtain ⟨ready, clients, workers, stack, log⟩ := st
    simp only at hst
    subst hst
    exact aux_taskStep (st := ⟨ready, clients, workers, rest, log⟩) h a (taskStep_of_run hh)

theorem reachable_aux {st : St} (h : Reachable st) : Aux st := by
  induction h with
  | init => exact aux_init
  | step hr hs ih => exact aux_step (reachable_inv hr) ih hs

end TM.Sched
