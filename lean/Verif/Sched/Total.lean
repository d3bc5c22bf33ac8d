import Verif.Sched.LemmasState
/-! No step of the scheduler fails, and the handling of a message ends: lemmas. -/

namespace TM.Sched
open TM.DagSpec

theorem workerStatus_total (clients : AMap ClientUuid Client) :
    ∀ ws : AMap WorkerUuid (Option (ClientUuid × GroupUuid)),
    (∀ w c u cl, (w, some (c, u)) ∈ ws → clients.get? c = some cl →
      ∃ g, cl.dag.executionGroups.get? u = some g) →
    ∃ r, workerStatus clients ws = .ok r := by
  intro ws
  induction ws with
  | nil => intro _; exact ⟨[], rfl⟩
  | cons p ws ih =>
    obtain ⟨w, job⟩ := p
    intro h
    obtain ⟨r, hr⟩ := ih (fun w c u cl hm => h w c u cl (List.mem_cons_of_mem _ hm))
    unfold workerStatus
    simp only [hr]
    cases job with
    | none => exact ⟨_, rfl⟩
    | some j =>
      obtain ⟨c, u⟩ := j
      simp only
      cases hc : clients.get? c with
      | none => exact ⟨_, rfl⟩
      | some cl =>
        obtain ⟨g, hg⟩ := h w c u cl List.mem_cons_self hc
        simp only [hg]
        exact ⟨_, rfl⟩

theorem handle_total {st : St} (h : Inv st) {e : Event} (he : EventOk st e) :
    ∃ st', handle st e = .ok st' := by
  cases e with
  | evaluateDag c dag cb => exact ⟨_, rfl⟩
  | clientDisconnected c => exact ⟨_, rfl⟩
  | fileReady c f k => exact ⟨_, rfl⟩
  | workerConnected w => exact ⟨_, rfl⟩
  | workerResult w rs os =>
    simp only [handle, handleWorkerResult, St.obs]
    cases hw : st.workers.get? w with
    | none => exact ⟨_, rfl⟩
    | some job =>
      cases job with
      | none => exact ⟨_, rfl⟩
      | some j =>
        obtain ⟨c, u⟩ := j
        simp only
        cases hc : st.clients.get? c with
        | none => exact ⟨_, rfl⟩
        | some cl =>
          obtain ⟨g, hg⟩ := h.workLive w c u cl hw hc
          have := (he c u cl g hw hc hg).len
          simp only [hg]
          rw [if_neg (by simp [this])]
          exact ⟨_, rfl⟩
  | workerDisconnected w =>
    simp only [handle, handleWorkerDisconnected, St.obs]
    cases hw : st.workers.get? w with
    | none => exact ⟨_, rfl⟩
    | some job =>
      cases job with
      | none => exact ⟨_, rfl⟩
      | some j =>
        obtain ⟨c, u⟩ := j
        simp only
        cases hc : st.clients.get? c with
        | none => exact ⟨_, rfl⟩
        | some cl =>
          obtain ⟨g, hg⟩ := h.workLive w c u cl hw hc
          simp only [hg]
          exact ⟨_, rfl⟩
  | status c =>
    obtain ⟨r, hr⟩ := workerStatus_total st.clients st.workers (fun w c u cl hm hc =>
      h.workLive w c u cl (AMap.get?_of_mem h.workersWf hm) hc)
    simp only [handle, handleStatus, St.obs, hr]
    exact ⟨_, rfl⟩

theorem depKeys_total (handles : AMap FileUuid FileStoreKey) : ∀ (fs : List FileUuid) acc,
    (∀ f ∈ fs, ∃ k, handles.get? f = some k) → ∃ r, depKeys handles fs acc = .ok r := by
  intro fs
  induction fs with
  | nil => intro acc _; exact ⟨acc, rfl⟩
  | cons f fs ih =>
    intro acc h
    obtain ⟨k, hk⟩ := h f (by simp)
    unfold depKeys
    simp only [hk]
    exact ih _ (fun f hf => h f (by simp [hf]))

theorem insertAll_contains (m : AMap FileUuid FileStoreKey) : ∀ (l : AMap FileUuid FileStoreKey) m,
    ∀ f, (∃ k, AMap.get? m f = some k) → ∃ k, (insertAll m l).get? f = some k := by
  intro l
  induction l with
  | nil => intro m f h; exact h
  | cons p l ih =>
    obtain ⟨g, k⟩ := p
    intro m f h
    refine ih _ f ?_
    by_cases hf : f = g
    · subst hf; exact ⟨k, AMap.get?_insert_self _ _ _⟩
    · rw [AMap.get?_insert_ne _ _ (by simpa using hf)]; exact h

theorem runTask_total {st : St} (h : Inv st) {t rest} {ch : Choice} (hst : st.stack = t :: rest)
    : ∃ st', runTask { st with stack := rest } t ch = .ok st' := by
  have ht := h.tasks t (by rw [hst]; simp)
  cases t with
  | fileSuccess c f => exact ⟨_, rfl⟩
  | fileFailed c f => exact ⟨_, rfl⟩
  | scheduleCached => exact ⟨_, rfl⟩
  | assignJobs => exact ⟨_, rfl⟩
  | checkCompletion c => exact ⟨_, rfl⟩
  | successLoop c f us =>
    cases us with
    | nil => exact ⟨_, rfl⟩
    | cons u us =>
      simp only [runTask, runSuccessLoop]
      cases hc : st.clients.get? c with
      | none => exact ⟨_, rfl⟩
      | some cl =>
        obtain ⟨g, hg⟩ := ht.2 cl hc u (by simp)
        simp only [hg]
        split
        · exact ⟨_, rfl⟩
        · split <;> exact ⟨_, rfl⟩
  | skipLoop c f us failed =>
    cases us with
    | nil => exact ⟨_, rfl⟩
    | cons u us =>
      simp only [runTask, runSkipLoop]
      cases hc : st.clients.get? c with
      | none => exact ⟨_, rfl⟩
      | some cl =>
        obtain ⟨g, hg, _⟩ := ht.2.2 cl hc u (by simp)
        simp only [hg]
        split <;> exact ⟨_, rfl⟩
  | cachedLoop todo hits =>
    cases todo with
    | nil => exact ⟨_, rfl⟩
    | cons p rest' =>
      obtain ⟨e, ans⟩ := p
      have hm : e ∈ st.ready := by
        have := h.cachedTop _ _ _ hst e
        simp at this
        exact List.count_pos_iff.1 (by omega)
      obtain ⟨cl, hc, g, hg⟩ := h.readyLive e hm
      have hcl := h.client _ cl hc
      have hne : g.executions ≠ [] :=
        (CheckDag.checkDag_ok_executable _ _ hcl.wf hcl.ok).1.nonempty _ _ (AMap.mem_of_get? hg)
      have hav : ∀ f ∈ g.deps, cl.fileHandles.contains f = true := by
        intro f hf
        refine AMap.contains_iff.2 (hcl.handles f (hcl.avail _ g hg ?_ f hf))
        have := readyCount_pos.2 ⟨e, hm, rfl, rfl⟩
        omega
      simp only [runTask, runCachedLoop, hc]
      split
      · exact ⟨_, rfl⟩
      · simp only [hg]
        rw [if_neg (by simpa using hne)]
        split
        · rw [if_neg (by simp; simpa using hav)]
          cases ans <;> exact ⟨_, rfl⟩
        · exact ⟨_, rfl⟩
  | assignLoop ws =>
    cases ws with
    | nil => exact ⟨_, rfl⟩
    | cons w ws =>
      simp only [runTask, runAssignLoop]
      split
      · exact ⟨_, rfl⟩
      · exact ⟨_, rfl⟩
      · split
        · exact ⟨_, rfl⟩
        · next e ready hp =>
          obtain ⟨cl, hc, g, hg⟩ := h.readyLive e (popMax_mem hp).1
          have hcl := h.client _ cl hc
          obtain ⟨r, hr⟩ := depKeys_total cl.fileHandles g.deps [] (fun f hf => by
            refine hcl.handles f (hcl.avail _ g hg ?_ f hf)
            have := readyCount_pos.2 ⟨e, (popMax_mem hp).1, rfl, rfl⟩
            omega)
          simp only [hc, hg, hr]
          exact ⟨_, rfl⟩
  | execCompleted c g rs os b =>
    simp only [runTask, runExecCompleted]
    cases hc : st.clients.get? c with
    | none => exact ⟨_, rfl⟩
    | some cl =>
      obtain ⟨hg, hr⟩ := ht cl hc
      have hcl := h.client _ cl hc
      have hav : ∀ f ∈ g.deps, (insertAll cl.fileHandles os).contains f = true := by
        intro f hf
        refine AMap.contains_iff.2 (insertAll_contains cl.fileHandles _ _ f
          (hcl.handles f (hcl.avail _ g hg ?_ f hf)))
        rw [hst]; simp [taskCount]; omega
      have hout : ∀ f ∈ g.outs, os.contains f = true := by
        intro f hf
        exact AMap.contains_iff.2 (AMap.mem_keys_iff.1 ((hr.outs f).2 hf))
      simp only
      have : ∃ st1, (if (!b && !rs.any fun r => r.status.isInternalError) = true then
          cacheExecution ((((({ st with stack := rest } : St).obs (.completed c g rs os b)).emitAll
      (doneMessages c cl.callbacks.executions g.executions rs))).setClient c
        { cl with fileHandles := insertAll cl.fileHandles os }) c (insertAll cl.fileHandles os) g os
        else Except.ok ((((({ st with stack := rest } : St).obs (.completed c g rs os b)).emitAll
      (doneMessages c cl.callbacks.executions g.executions rs))).setClient c
        { cl with fileHandles := insertAll cl.fileHandles os })) = .ok st1 := by
        split
        · unfold cacheExecution
          rw [if_pos (by simpa using hav), if_pos (by simpa using hout)]
          exact ⟨_, rfl⟩
        · exact ⟨_, rfl⟩
      obtain ⟨st1, h1⟩ := this
      simp only [h1]
      split <;> exact ⟨_, rfl⟩

end TM.Sched
