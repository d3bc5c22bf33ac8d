import Verif.Sched.LemmasState
import Verif.Dag.Props
/-!
# Properties of the scheduler: between two messages

`st.stack = []` says that the handling of the last message is over.
-/

namespace TM.Sched
open TM.DagSpec

/-! ## C08 -/

/-- Every group of the client ended: it is not waiting, not queued and not executed. -/
def AllEnded (log : List Obs) (c : ClientUuid) (dag : DagData) : Prop :=
  ∀ u g, dag.executionGroups.get? u = some g →
    termCount log c u = if g.deps = [] then g.executions.length else 1

theorem mult_eq (g : ExecutionGroup) : mult g = if g.deps = [] then g.executions.length else 1 := rfl

/-- C08, partial: once all the groups of a connected client ended, and the handling of the message is
over, the client was told that the evaluation is done.  Missing: runs in which a result of that
client was taken from the cache while the scheduler was handling something else than a file or a
result of that client; then it may never be told (`end_not_announced`). -/
theorem end_announced_partial {st : St} (h : Reachable st) (hst : st.stack = []) {c dag cb}
    (hc : Connected c st.log = true) (ha : Asked st.log c dag cb) (hall : AllEnded st.log c dag)
    (hcache : ∀ post g rs os pre, st.log = post ++ .completed c g rs os true :: pre → OwnEvent c pre) :
    Obs.out (.evaluationDone c) ∈ st.log := by
  have hI := reachable_inv h
  have a := reachable_aux h
  obtain ⟨cl, hcl⟩ := a.connected hc
  obtain ⟨rfl, rfl⟩ := hI.client_dag a.hist hcl ha
  have hci := hI.client c cl hcl
  have hzero : ∀ u g, cl.dag.executionGroups.get? u = some g →
      missCount cl u = 0 ∧ readyCount st.ready c u = 0 ∧ workCount st.workers c u = 0 := by
    intro u g hg
    have := hci.cons u g hg
    rw [hall u g hg, mult_eq] at this
    omega
  have hdone : cl.isDone = true := by
    simp only [Client.isDone, Bool.and_eq_true, List.isEmpty_iff]
    refine ⟨⟨?_, ?_⟩, ?_⟩
    · rw [List.eq_nil_iff_forall_not_mem]
      intro u hu
      have h1 := hci.readyG u hu
      obtain ⟨e, he, h2, h3⟩ := readyCount_pos.1 h1
      obtain ⟨cl', h4, g, h5⟩ := hI.readyLive e he
      rw [h2, hcl] at h4; cases h4
      rw [h3] at h5
      have := (hzero u g h5).2.1
      omega
    · rw [List.eq_nil_iff_forall_not_mem]
      intro u hu
      have h1 := hci.runG u hu
      obtain ⟨w, hw⟩ := workCount_pos.1 h1
      obtain ⟨g, h5⟩ := hI.workLive w c u cl (AMap.get?_of_mem hI.workersWf hw) hcl
      have := (hzero u g h5).2.2
      omega
    · rw [AMap.eq_nil_iff]
      intro u
      cases hm : cl.missingDeps.get? u with
      | none => rfl
      | some fs =>
        obtain ⟨_, g, hg, _⟩ := hci.miss u fs hm
        have := (hzero u g hg).1
        simp [missCount, hm] at this
  rcases (reachable_done h).done c cl hcl hdone with h1 | h1 | ⟨post, g, rs, os, pre, h1, h2⟩ | ⟨t, h1, _⟩
  · exact h1
  · rw [hst] at h1; cases h1
  · exact absurd (hcache _ _ _ _ _ h1) h2
  · rw [hst] at h1; cases h1

/-- A DAG without provided files. -/
def genOnly : DagData := { executionGroups := [(10, gen)] }

/-- The restriction is needed: everything is in the cache, every group is completed, and the client
is never told. -/
theorem end_not_announced : ∃ st, Reachable st ∧ st.stack = [] ∧ Connected 1 st.log = true ∧
    Asked st.log 1 genOnly {} ∧ AllEnded st.log 1 genOnly ∧ Obs.out (.evaluationDone 1) ∉ st.log := by
  refine ⟨after genCache [.evaluateDag 1 genOnly {}], (after_reachable _ _).1, (after_reachable _ _).2,
    by decide, by unfold Asked; decide, ?_, by decide⟩
  intro u g hg
  have := AMap.mem_of_get? hg
  simp [genOnly] at this
  obtain ⟨rfl, rfl⟩ := this
  decide

/-- Non-vacuity. -/
example : Reachable (after noCache demoRun) ∧ (after noCache demoRun).stack = [] ∧
    Connected 1 (after noCache demoRun).log = true ∧ AllEnded (after noCache demoRun).log 1 demoDag ∧
    (∀ o ∈ (after noCache demoRun).log, ∀ g rs os, o ≠ .completed 1 g rs os true) := by
  refine ⟨(after_reachable _ _).1, (after_reachable _ _).2, by decide, ?_, ?_⟩
  · intro u g hg
    have := AMap.mem_of_get? hg
    simp [demoDag] at this
    rcases this with ⟨rfl, rfl⟩ | ⟨rfl, rfl⟩ | ⟨rfl, rfl⟩ <;> decide
  · have : (after noCache demoRun).log.all (fun o => match o with
        | .completed _ _ _ _ b => !b | _ => true) = true := by decide
    intro o ho g rs os he
    subst he
    have := List.all_eq_true.1 this _ ho
    cases this

/-! ## C09 -/

/-- The group is ready: its inputs exist, and it is neither ended nor executed. -/
def IsReady (log : List Obs) (c : ClientUuid) (g : ExecutionGroup) : Prop :=
  GroupOf log c g ∧ (∀ f ∈ g.deps, Available log c f) ∧ termCount log c g.uuid = 0 ∧
  ∀ w, workerAt w log ≠ some (some (c, g.uuid))

/-- C09, partial: between two messages there is not both an idle worker and a ready group of a
connected client.  Missing: the time between the disconnection of a worker and the next message
that starts a round of assignments (`idle_and_ready`). -/
theorem work_conserving_partial {st : St} (h : Reachable st) (hst : st.stack = []) {c g w}
    (hc : Connected c st.log = true) (hg : IsReady st.log c g) (hw : workerAt w st.log = some none) :
    workerLost st.log = true := by
  have hI := reachable_inv h
  have a := reachable_aux h
  obtain ⟨cl, hcl⟩ := a.connected hc
  obtain ⟨hgo, hav, ht, hnw⟩ := hg
  have hgd := a.hist.groupOf_dag hgo (hI.client c cl hcl).evald
  have hwf := CheckDag.checkDag_ok_executable _ _ (hI.client c cl hcl).wf (hI.client c cl hcl).ok
  have hpos := mult_pos (hwf.1.nonempty _ _ (AMap.mem_of_get? hgd))
  rcases hI.where hst hcl hgd (by omega) with h1 | h1 | h1
  · exfalso
    obtain ⟨f, hf, hn⟩ := hI.waits hst hcl hgd h1
    exact hn (Or.inl (hav f hf))
  · rcases (reachable_work h).main with h2 | h2 | ⟨t, h2, _⟩ | h2
    · rw [h2] at h1; simp at h1
    · rw [← a.work] at hw; exact absurd hw (h2 w)
    · rw [hst] at h2; cases h2
    · exact h2
  · obtain ⟨w', hw'⟩ := work_at a h1 hI.workersWf
    exact absurd hw' (hnw w')

/-- The restriction is needed: a worker disconnects, its group is ready, another worker is idle. -/
theorem idle_and_ready : ∃ st, Reachable st ∧ st.stack = [] ∧ Connected 1 st.log = true ∧
    IsReady st.log 1 gen ∧ workerAt 6 st.log = some none := by
  refine ⟨after noCache [.evaluateDag 1 demoDag demoCb, .workerConnected 5, .workerConnected 6,
    .workerDisconnected 5], (after_reachable _ _).1, (after_reachable _ _).2, by decide,
    ⟨⟨demoDag, demoCb, by unfold Asked; decide, rfl⟩, ?_, by decide, ?_⟩, by decide⟩
  · intro f hf
    have : gen.deps = [] := by decide
    rw [this] at hf; cases hf
  intro w hw
  have hm := workerAt_job hw
  have : (after noCache [.evaluateDag 1 demoDag demoCb, .workerConnected 5, .workerConnected 6,
    .workerDisconnected 5]).workers.all (fun p => decide (p.2 ≠ some (1, 10))) = true := by decide
  rw [← (reachable_aux (after_reachable _ _).1).work] at hw
  have := List.all_eq_true.1 this _ (AMap.mem_of_get? hw)
  simp [gen] at this

/-- Without a lost worker: a connected client always makes progress.  Between two messages, if some
group of it did not end, then a provided file has not arrived yet, or one of its groups is queued, or
one of its groups is being executed. -/
theorem no_deadlock {st : St} (h : Reachable st) (hst : st.stack = []) {c dag cb}
    (hc : Connected c st.log = true) (ha : Asked st.log c dag cb)
    (hn : ¬ AllEnded st.log c dag) :
    (∃ f ∈ dag.providedFiles.keys, ¬ Provided st.log c f) ∨ (∃ e ∈ st.ready, e.client = c) ∨
    (∃ w u, workerAt w st.log = some (some (c, u))) := by
  have hI := reachable_inv h
  have a := reachable_aux h
  obtain ⟨cl, hcl⟩ := a.connected hc
  obtain ⟨rfl, rfl⟩ := hI.client_dag a.hist hcl ha
  have hci := hI.client c cl hcl
  apply Classical.byContradiction
  intro hcon
  simp only [not_or, not_exists, not_and, Classical.not_not] at hcon
  obtain ⟨hp, hr, hw⟩ := hcon
  have hr' : ∀ u, readyCount st.ready c u = 0 := by
    intro u
    apply Nat.eq_zero_of_not_pos
    intro h1
    obtain ⟨e, he, h2, _⟩ := readyCount_pos.1 h1
    exact hr e he h2
  have hw' : ∀ u, workCount st.workers c u = 0 := by
    intro u
    apply Nat.eq_zero_of_not_pos
    intro h1
    obtain ⟨w, h2⟩ := work_at a h1 hI.workersWf
    exact hw w u h2
  have hnw := no_wait h hst hcl hp hr' hw'
  apply hn
  intro u g hg
  have := hci.cons u g hg
  rw [hr', hw', hnw u g hg, hst] at this
  simpa [mult_eq] using this

/-- Non-vacuity of `no_deadlock`, and each of its three cases. -/
example : (¬ AllEnded (after noCache (demoRun.take 1)).log 1 demoDag ∧
      ¬ Provided (after noCache (demoRun.take 1)).log 1 0 ∧
      (∃ e ∈ (after noCache (demoRun.take 1)).ready, e.client = 1)) ∧
    workerAt 5 (after noCache (demoRun.take 3)).log = some (some (1, 10)) := by
  refine ⟨⟨?_, ?_, ⟨⟨0, 0, 10, 1⟩, by decide, rfl⟩⟩, by decide⟩
  · intro h
    have := h 10 gen rfl
    revert this
    decide
  · rintro ⟨k, hk⟩
    have : (after noCache (demoRun.take 1)).log.all (fun o => match o with
      | .ev (.fileReady _ _ _) => false | _ => true) = true := by decide
    have := List.all_eq_true.1 this _ hk
    cases this

/-! ## C10 -/

/-- C10: when the worker executing a group of a connected client is lost, the group is queued again
with all its inputs, and the worker is forgotten. -/
theorem lost_job_requeued {st st' : St} (h : Reachable st) (_hst : st.stack = []) {w c u}
    (hw : workerAt w st.log = some (some (c, u))) (hc : Connected c st.log = true)
    (hs : handle st (.workerDisconnected w) = .ok st') :
    ∃ g, GroupOf st'.log c g ∧ g.uuid = u ∧ (∃ e ∈ st'.ready, e.client = c ∧ e.group = u) ∧
      (∀ f ∈ g.deps, Available st'.log c f) ∧ workerAt w st'.log = none ∧
      Connected c st'.log = true := by
  have hI := reachable_inv h
  have a := reachable_aux h
  obtain ⟨cl, hcl⟩ := a.connected hc
  have hci := hI.client c cl hcl
  have hw' : st.workers.get? w = some (some (c, u)) := by rw [a.work]; exact hw
  have hev : EventStep (st.obs (.ev (.workerDisconnected w))) (.workerDisconnected w) st' :=
    eventStep_of_handle hs
  cases hev with
  | disconnectUnknown _ h1 => exact absurd (hw'.symm.trans h1) (by simp)
  | disconnectFree _ job h1 h2 =>
    have : job = some (c, u) := by have := hw'.symm.trans h1; simpa using this.symm
    exact absurd (hcl.symm.trans (h2 c u this)) (by simp)
  | disconnect _ c' u' cl' g h1 h2 h3 =>
    have := hw'.symm.trans h1
    cases this
    have := hcl.symm.trans h2
    cases this
    have hu : g.uuid = u := hci.wf.keyed _ _ (AMap.mem_of_get? h3)
    refine ⟨g, ⟨cl.dag, cl.callbacks, List.mem_cons_of_mem _ hci.evald, by rw [hu]; exact h3⟩, hu,
      ⟨_, List.mem_cons_self, rfl, rfl⟩, ?_, by simp [St.setClient, St.obs, workerAt], hc⟩
    intro f hf
    refine available_mono (fun o ho => List.mem_cons_of_mem _ ho) (hci.avail u g h3 ?_ f hf)
    have := work_pos a hw
    omega

/-- C10: a queued group stays queued until it is sent to a worker, its result is found in the cache,
or its client leaves. -/
theorem queued_until_handled {st st' : St} (h : Reachable st) (hs : Step st st') {e}
    (he : e ∈ st.ready) :
    e ∈ st'.ready ∨
    (∃ w g keys, Obs.out (.workerJob w e.client g keys) ∈ st'.log ∧ g.uuid = e.group ∧
      workerAt w st'.log = some (some (e.client, e.group))) ∨
    (∃ todo hits g hit, Task.cachedLoop todo hits ∈ st'.stack ∧ (e.client, g, hit) ∈ hits ∧
      g.uuid = e.group) ∨
    Obs.ev (.clientDisconnected e.client) ∈ st'.log := by
  have hI := reachable_inv h
  have a := reachable_aux h
  have a' : Aux st' := reachable_aux (h.step hs)
  cases hs with
  | event ev hst hok hh =>
    have hev := eventStep_of_handle hh
    cases hev with
    | evaluateDag c dag cb =>
      refine Or.inl ?_
      have key : ∀ (gs : List (GroupUuid × ExecutionGroup)) cl ready, e ∈ ready →
          e ∈ (initGroups c gs cl ready).2 := by
        intro gs
        induction gs with
        | nil => intro cl ready h; exact h
        | cons p gs ih =>
          obtain ⟨k, g⟩ := p
          intro cl ready h
          rw [initGroups_cons]
          exact ih _ _ (by simp [h])
      exact key _ _ _ he
    | clientDisconnected c =>
      by_cases hec : e.client = c
      · refine Or.inr (Or.inr (Or.inr ?_))
        obtain ⟨l, hl, _⟩ := handleClientDisconnected_stop (st.obs (.ev (.clientDisconnected c))) c
        rw [hl, hec]
        simp [St.obs]
      · exact Or.inl (((client_leaves_cleanly h hst (c := c) rfl).2.1 e hec).2 he)
    | disconnect w c u cl g hw hc hg => exact Or.inl (List.mem_cons_of_mem _ he)
    | _ => exact Or.inl he
  | task t rest ch hst hok hh =>
    have ht := taskStep_of_run hh
    have hkeep : ∀ x : ReadyEntry, e ≠ x → e ∈ st.ready.erase x := fun x hx =>
      (List.mem_erase_of_ne hx).2 he
    cases ht with
    | successReady c f ch u us cl g fs hc hg hm he' => exact Or.inl (List.mem_cons_of_mem _ he)
    | cachedGone x ans todo hits ch hc =>
      by_cases hx : e = x
      · subst hx
        obtain ⟨cl, h1, _⟩ := hI.readyLive e he
        exact absurd (hc.symm.trans h1) (by simp)
      · exact Or.inl (hkeep x hx)
    | cachedHit x hit todo hits ch cl g hc hn hg hi =>
      by_cases hx : e = x
      · subst hx
        refine Or.inr (Or.inr (Or.inl ⟨_, _, g, hit, List.mem_cons_self, by simp, ?_⟩))
        exact (hI.client _ cl hc).wf.keyed _ _ (AMap.mem_of_get? hg)
      · exact Or.inl (hkeep x hx)
    | assignGone w ws ch x ready hw hp hc =>
      obtain ⟨cl, h1, _⟩ := hI.readyLive x (popMax_mem hp).1
      exact absurd (hc.symm.trans h1) (by simp)
    | assignJob w ws ch x ready cl g keys hw hp hc hg hk =>
      by_cases hx : e = x
      · subst hx
        refine Or.inr (Or.inl ⟨w, g, keys, ?_, ?_, ?_⟩)
        · simp [St.push, St.emitAll, St.emit, St.obs, St.setClient]
        · exact (hI.client _ cl hc).wf.keyed _ _ (AMap.mem_of_get? hg)
        · rw [← a'.work]; exact AMap.get?_insert_self _ _ _
      · exact Or.inl (by show e ∈ ready; rw [(popMax_mem hp).2]; exact hkeep x hx)
    | _ => exact Or.inl he

/-- C10: when a round of assignments ends, either nothing is queued or every waiting worker got a
job; so with enough workers every queued group is sent. -/
theorem round_assigns_all {st st' : St} (h : Reachable st) (hs : Step st st')
    (hr : st'.log = .assigned :: st.log) :
    st'.ready = [] ∨ ∀ w, workerAt w st'.log ≠ some none := by
  have hI := reachable_inv h
  have a := reachable_aux h
  have a' : Aux st' := reachable_aux (h.step hs)
  have hW := reachable_work h
  cases hs with
  | event ev hst hok hh =>
    exfalso
    have hev := eventStep_of_handle hh
    have hlen : ∃ l, st'.log = l ++ .ev ev :: st.log := by
      cases hev with
      | clientDisconnected c =>
        obtain ⟨l, hl, _⟩ := handleClientDisconnected_stop (st.obs (.ev (.clientDisconnected c))) c
        exact ⟨l, by rw [hl]; rfl⟩
      | status c ws hws => exact ⟨[_], rfl⟩
      | _ => exact ⟨[], rfl⟩
    obtain ⟨l, hl⟩ := hlen
    rw [hl] at hr
    have h1 := congrArg List.length hr
    simp only [List.length_append, List.length_cons] at h1
    have : l = [] := List.eq_nil_of_length_eq_zero (by omega)
    subst this
    simp at hr
  | task t rest ch hst hok hh =>
    have ht := taskStep_of_run hh
    have hne : ∀ {st1 : St}, st1.log = st.log → st1.log ≠ .assigned :: st.log := by
      intro st1 h1 h2
      rw [h1] at h2
      exact absurd h2 (by simp)
    have houts : ∀ (l : List Obs), Obs.assigned ∉ l → l ++ st.log ≠ .assigned :: st.log := by
      intro l h1 h2
      cases l with
      | nil => exact absurd h2 (by simp)
      | cons x l =>
        simp only [List.cons_append, List.cons.injEq] at h2
        exact h1 (by simp [h2.1])
    cases ht with
    | assignEnd ws ch hw =>
      rcases hw with hw | hw
      · subst hw
        right
        intro w h1
        rw [← a'.work] at h1
        have := hW.assignTop [] rest hst w h1
        cases this
      · exact Or.inl hw
    | fileSuccessNone => exact absurd hr (houts _ (by simp))
    | fileSuccessSome => exact absurd hr (houts _ (by simp))
    | fileFailedNone => exact absurd hr (houts _ (by simp))
    | fileFailedSome => exact absurd hr (houts _ (by simp))
    | skipOne c f failed ch u us cl g fs hc hm hg =>
      refine absurd hr (?_ : (_ : List Obs) ≠ _)
      have := houts (((skipMsgs cl c g).map Obs.out).reverse ++ [Obs.skipped c g]) (by simp)
      simpa [St.push, St.emitAll, St.obs, St.setClient] using this
    | cachedMiss => exact absurd hr (houts [_] (by simp))
    | cachedHit => exact absurd hr (houts [_] (by simp))
    | checkDone => exact absurd hr (houts [_] (by simp))
    | assignJob w ws ch e ready cl g keys hw hp hc hg hk =>
      refine absurd hr (?_ : (_ : List Obs) ≠ _)
      have := houts (((startMsgs cl e.client w g).map Obs.out).reverse ++
        [Obs.out (.workerJob w e.client g keys)]) (by simp)
      simpa [St.push, St.emitAll, St.emit, St.obs, St.setClient] using this
    | completed c g results outputs fromCache ch cl extra hc he hx =>
      refine absurd hr (?_ : (_ : List Obs) ≠ _)
      have := houts (extra ++ (((doneMessages c cl.callbacks.executions g.executions results).map
        Obs.out).reverse ++ [Obs.completed c g results outputs fromCache]))
        (by rcases he with rfl | rfl <;> simp)
      simpa [St.push, St.emitAll, St.obs, St.setClient] using this
    | _ => exact absurd hr (hne rfl)

/-- Non-vacuity: the worker executing the generator is lost; the group is sent to the next one. -/
example : workerAt 6 (after noCache (demoRetry.take 2)).log = some (some (2, 10)) ∧
    Connected 2 (after noCache (demoRetry.take 2)).log = true ∧
    (∃ e ∈ (after noCache (demoRetry.take 3)).ready, e.client = 2 ∧ e.group = 10) ∧
    workerAt 7 (after noCache (demoRetry.take 5)).log = some (some (2, 10)) :=
  ⟨by decide, by decide, ⟨⟨HIGH_PRIORITY, 0, 10, 2⟩, by decide, rfl, rfl⟩, by decide⟩

/-! ## C11 -/

/-- C11: a job is only sent to a worker that asked for one and has none. -/
theorem job_only_to_idle_worker {st : St} (h : Reachable st) {post pre w c g keys}
    (hl : st.log = post ++ .out (.workerJob w c g keys) :: pre) : workerAt w pre = some none := by
  have hh := (reachable_aux h).hist
  rw [hl] at hh
  exact hh.split.2.1

/-- C11: at any time, a group of a connected client that waits for inputs is neither queued nor
executed, nor counted as ready or running. -/
theorem waiting_not_ready_nor_running {st : St} (h : Reachable st) {c cl u fs}
    (hc : st.clients.get? c = some cl) (hm : cl.missingDeps.get? u = some fs) :
    (∀ e ∈ st.ready, ¬ (e.client = c ∧ e.group = u)) ∧
    (∀ w, workerAt w st.log ≠ some (some (c, u))) ∧ u ∉ cl.readyGroups ∧ u ∉ cl.runningGroups := by
  have hI := reachable_inv h
  have a := reachable_aux h
  have hci := hI.client c cl hc
  obtain ⟨hne, g, hg, hsub, _⟩ := hci.miss u fs hm
  obtain ⟨f, hf⟩ := List.exists_mem_of_ne_nil fs hne
  have hcons := hci.cons u g hg
  rw [deps_ne_nil (hsub f hf)] at hcons
  have h1 : missCount cl u = 1 := by simp [missCount, hm]
  refine ⟨?_, ?_, ?_, ?_⟩
  · rintro e he h2
    have := readyCount_pos.2 ⟨e, he, h2⟩
    omega
  · intro w hw
    have := work_pos a hw
    omega
  · intro hu; have := hci.readyG u hu; omega
  · intro hu; have := hci.runG u hu; omega

/-- C11: a group that runs once is executed by at most one worker, and is not queued while it is
executed. -/
theorem running_once {st : St} (h : Reachable st) {c g w} (hc : Connected c st.log = true)
    (hg : GroupOf st.log c g) (h1 : RunsOnce g) (hw : workerAt w st.log = some (some (c, g.uuid))) :
    (∀ w', workerAt w' st.log = some (some (c, g.uuid)) → w' = w) ∧
    (∀ e ∈ st.ready, ¬ (e.client = c ∧ e.group = g.uuid)) := by
  have hI := reachable_inv h
  have a := reachable_aux h
  obtain ⟨cl, hcl⟩ := a.connected hc
  have hci := hI.client c cl hcl
  have hgd := a.hist.groupOf_dag hg hci.evald
  have hcons := hci.cons _ _ hgd
  rw [mult_le_one h1] at hcons
  have hp := work_pos a hw
  refine ⟨?_, ?_⟩
  · intro w' hw'
    apply Classical.byContradiction
    intro hne
    rw [← a.work] at hw hw'
    have h2 := workCount_erase hI.workersWf hw c g.uuid
    rw [if_pos rfl] at h2
    have h3 : 0 < workCount (st.workers.erase w) c g.uuid := by
      refine workCount_pos.2 ⟨w', AMap.mem_of_get? (k := w') ?_⟩
      rw [AMap.get?_erase_ne _ hne]; exact hw'
    omega
  · rintro e he h2
    have := readyCount_pos.2 ⟨e, he, h2⟩
    omega

/-- C11: a worker executes a group of a connected client, or was told to stop. -/
theorem orphan_jobs_stopped {st : St} (h : Reachable st) {w c u}
    (hw : workerAt w st.log = some (some (c, u))) :
    Connected c st.log = true ∨ stopSent w st.log = true := by
  have a := reachable_aux h
  cases hc : st.clients.get? c with
  | some cl => left; rw [← a.live c, hc]; rfl
  | none =>
    right
    rw [← a.work] at hw
    exact (reachable_queue h).stop w c u hw hc

/-- Non-vacuity: the three situations occur. -/
example : workerAt 5 (after noCache (demoRun.take 3)).log = some (some (1, 10)) ∧
    Connected 1 (after noCache (demoRun.take 3)).log = true ∧
    (∃ cl fs, (after noCache (demoRun.take 3)).clients.get? 1 = some cl ∧
      cl.missingDeps.get? 11 = some fs) ∧
    Connected 1 (after noCache (demoRun.take 3 ++ [.clientDisconnected 1])).log = false ∧
    workerAt 5 (after noCache (demoRun.take 3 ++ [.clientDisconnected 1])).log = some (some (1, 10)) :=
  ⟨by decide, by decide, ⟨_, [1], rfl, by decide⟩, by decide, by decide⟩

/-! ## C12 -/

/-- C12: the group sent to a worker has maximal (DAG priority, group priority) among the queued ones. -/
theorem job_has_max_priority {st st' : St} (h : Reachable st) (hs : Step st st') {w c g keys}
    (hnew : Obs.out (.workerJob w c g keys) ∉ st.log)
    (hm : Obs.out (.workerJob w c g keys) ∈ st'.log) :
    ∃ e ∈ st.ready, e.client = c ∧ e.group = g.uuid ∧ ∀ e' ∈ st.ready,
      e'.dagPriority < e.dagPriority ∨
        (e'.dagPriority = e.dagPriority ∧ e'.priority ≤ e.priority) := by
  have hI := reachable_inv h
  cases hs with
  | event ev hst hok hh => exact absurd (job_event (eventStep_of_handle hh) hm) hnew
  | task t rest ch hst hok hh =>
    rcases job_new (taskStep_of_run hh) hm with h1 | ⟨e, ready, cl, h1, h2, h3, h4, _⟩
    · exact absurd h1 hnew
    · refine ⟨e, (popMax_mem h1).1, h4, ?_, ?_⟩
      · exact ((hI.client _ cl h2).wf.keyed _ _ (AMap.mem_of_get? h3)).symm
      · intro e' he'
        have := popMax_max h1 e' he'
        simp only [ReadyEntry.lt, ne_eq, decide_eq_true_eq, not_or, not_and, Int.not_lt] at this
        rcases Int.lt_or_eq_of_le this.1 with h5 | h5
        · exact Or.inl h5
        · exact Or.inr ⟨h5, (this.2 h5.symm).1⟩

/-- C12: the priorities of the queue are those of the DAG: the priority of the DAG and of an
execution for a group without inputs that was not retried; the highest DAG priority and the priority
of the group for one that waited for its inputs or was retried. -/
theorem queue_priorities {st : St} (h : Reachable st) {e} (he : e ∈ st.ready) :
    ∃ dag cb g, Asked st.log e.client dag cb ∧ dag.executionGroups.get? e.group = some g ∧
    (∃ x ∈ g.executions, e.priority = x.priority) ∧
    ((e.dagPriority = HIGH_PRIORITY ∧ (∀ x ∈ g.executions, x.priority ≤ e.priority) ∧
        (g.deps ≠ [] ∨ Lost st.log e.client e.group)) ∨
     (g.deps = [] ∧ e.dagPriority = dag.config.priority)) := by
  have hI := reachable_inv h
  obtain ⟨dag, cb, g, h1, h2, h3⟩ := (reachable_queue h).prio e he
  refine ⟨dag, cb, g, h1, h2, ?_⟩
  rcases h3 with ⟨h3, h4, h5⟩ | ⟨h3, h4, h5⟩
  · obtain ⟨cl, hcl, _⟩ := hI.readyLive e he
    have hci := hI.client _ cl hcl
    obtain ⟨rfl, _⟩ := hI.client_dag (reachable_aux h).hist hcl h1
    have hne := (CheckDag.checkDag_ok_executable _ _ hci.wf hci.ok).1.nonempty _ _ (AMap.mem_of_get? h2)
    obtain ⟨x, hx, h6, h7⟩ := group_priority_is_max g hne
    exact ⟨⟨x, hx, by rw [h4, h6]⟩, Or.inl ⟨h3, by rw [h4]; exact h7, h5⟩⟩
  · exact ⟨h5, Or.inr ⟨h3, h4⟩⟩

/-- Two groups with different priorities. -/
def prioDag : DagData :=
  { executionGroups := [ (30, { uuid := 30, executions := [{ uuid := 300, priority := 1 }] }),
                         (31, { uuid := 31, executions := [{ uuid := 301, priority := 2 }] }) ] }

/-- Non-vacuity: with two queued groups of different priorities the greater one is sent. -/
example : (after noCache [.evaluateDag 1 prioDag {}]).ready.length = 2 ∧
    workerAt 5 (after noCache [.evaluateDag 1 prioDag {}, .workerConnected 5]).log =
      some (some (1, 31)) := ⟨by decide, by decide⟩

end TM.Sched
