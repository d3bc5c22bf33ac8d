import Verif.Sched.DoneInv
/-! Priorities of the queue; jobs of clients that left are stopped. -/

namespace TM.Sched
open TM.DagSpec

/-- A worker doing group `u` of client `c` disconnected. -/
def Lost (log : List Obs) (c : ClientUuid) (u : GroupUuid) : Prop :=
  ∃ post w pre, log = post ++ .ev (.workerDisconnected w) :: pre ∧
    workerAt w pre = some (some (c, u))

theorem Lost.append {log : List Obs} {c u} (h : Lost log c u) (l : List Obs) : Lost (l ++ log) c u := by
  obtain ⟨post, w, pre, rfl, hw⟩ := h
  exact ⟨l ++ post, w, pre, by simp, hw⟩

/-- The priorities with which group `g` is queued: a group that waited for its inputs, or that was
taken from a lost worker, has the highest DAG priority and the priority of the group; a group
without inputs has the priority of the DAG and the one of an execution (scheduler.rs:330-337, 443,
628-633, execution.rs:37-39). -/
def EntryPrio (log : List Obs) (e : ReadyEntry) : Prop :=
  ∃ dag cb g, Asked log e.client dag cb ∧ dag.executionGroups.get? e.group = some g ∧
    ((e.dagPriority = HIGH_PRIORITY ∧ e.priority = g.priority ∧
        (g.deps ≠ [] ∨ Lost log e.client e.group)) ∨
     (g.deps = [] ∧ e.dagPriority = dag.config.priority ∧ ∃ x ∈ g.executions, e.priority = x.priority))

theorem EntryPrio.append {log : List Obs} {e} (h : EntryPrio log e) (l : List Obs) :
    EntryPrio (l ++ log) e := by
  obtain ⟨dag, cb, g, h1, h2, h3⟩ := h
  refine ⟨dag, cb, g, ?_, h2, ?_⟩
  · unfold Asked at *; simp [h1]
  · rcases h3 with ⟨a, b, c | c⟩ | h
    · exact Or.inl ⟨a, b, Or.inl c⟩
    · exact Or.inl ⟨a, b, Or.inr (c.append l)⟩
    · exact Or.inr h

/-- Worker `w` was told to stop the last job it was given. -/
def stopSent (w : WorkerUuid) : List Obs → Bool
  | [] => false
  | .out (.stopJob w' _) :: log => decide (w' = w) || stopSent w log
  | .out (.workerJob w' _ _ _) :: log => decide (w' ≠ w) && stopSent w log
  | _ :: log => stopSent w log

theorem stopSent_mem {w : WorkerUuid} {l log : List Obs} (hl : ∀ o ∈ l, ∃ x, o = .out x ∧ NotJob x)
    {u} (h : Obs.out (.stopJob w u) ∈ l) : stopSent w (l ++ log) = true := by
  induction l with
  | nil => cases h
  | cons o l ih =>
    obtain ⟨x, rfl, hx⟩ := hl o (by simp)
    rcases List.mem_cons.1 h with h | h
    · cases h; simp [stopSent]
    · have := ih (fun o ho => hl o (by simp [ho])) h
      cases x <;> simp_all [stopSent, NotJob]

theorem stopSent_append {w : WorkerUuid} {l log : List Obs}
    (hl : ∀ o ∈ l, ∀ c g k, o ≠ .out (.workerJob w c g k)) (h : stopSent w log = true) :
    stopSent w (l ++ log) = true := by
  induction l with
  | nil => exact h
  | cons o l ih =>
    have := ih (fun o ho => hl o (by simp [ho]))
    have h0 := hl o (by simp)
    cases o with
    | out x =>
      cases x <;> simp_all [stopSent]
      intro e; subst e; exact h0 _ _ _ rfl rfl rfl rfl
    | _ => simpa [stopSent] using this

structure QueueInv (st : St) : Prop where
  prio : ∀ e ∈ st.ready, EntryPrio st.log e
  stop : ∀ w c u, st.workers.get? w = some (some (c, u)) → st.clients.get? c = none →
    stopSent w st.log = true

theorem QueueInv.build {st st' : St} (h : QueueInv st)
    (hr : ∀ e ∈ st'.ready, e ∈ st.ready ∨ EntryPrio st'.log e)
    (hw : st'.workers = st.workers)
    (hc : ∀ c, st'.clients.get? c = none → st.clients.get? c = none)
    (l : List Obs) (hlog : st'.log = l ++ st.log)
    (hl : ∀ o ∈ l, ∀ w c g k, o ≠ .out (.workerJob w c g k)) : QueueInv st' := by
  constructor
  · intro e he
    rcases hr e he with h1 | h1
    · rw [hlog]; exact (h.prio e h1).append l
    · exact h1
  · intro w c u h1 h2
    rw [hlog]
    exact stopSent_append (fun o ho => hl o ho w) (h.stop w c u (by rw [← hw]; exact h1) (hc c h2))

theorem none_insert {m : AMap ClientUuid Client} {c : ClientUuid} {cl' : Client}
     :
    ∀ c1, (m.insert c cl').get? c1 = none → m.get? c1 = none := by
  intro c1 h1
  rw [AMap.get?_insert] at h1
  split at h1
  · cases h1
  · exact h1

theorem noJob_sendMsgs (cl c f s) : ∀ o ∈ ((sendMsgs cl c f s).map Obs.out).reverse,
    ∀ w c g k, o ≠ Obs.out (.workerJob w c g k) := by
  intro o ho w c' g k he
  subst he
  simp [sendMsgs] at ho
  split at ho <;> simp at ho

theorem maxEntry_mem : ∀ (l : List ReadyEntry) (m : ReadyEntry), maxEntry m l ∈ m :: l := by
  intro l
  induction l with
  | nil => intro m; simp [maxEntry]
  | cons e es ih =>
    intro m
    simp only [maxEntry]
    split
    · exact List.mem_cons_of_mem _ (ih e)
    · rcases List.mem_cons.1 (ih m) with h | h
      · rw [h]; simp
      · simp [h]

theorem popMax_mem {ready ready' : List ReadyEntry} {e : ReadyEntry}
    (h : popMax ready = some (e, ready')) : e ∈ ready ∧ ready' = ready.erase e := by
  cases ready with
  | nil => cases h
  | cons a b =>
    simp only [popMax, Option.some.injEq, Prod.mk.injEq] at h
    obtain ⟨rfl, rfl⟩ := h
    exact ⟨maxEntry_mem b a, rfl⟩

theorem initGroups_ready_prio (gs : List (GroupUuid × ExecutionGroup)) (c : ClientUuid) :
    ∀ cl ready e, e ∈ (initGroups c gs cl ready).2 →
      e ∈ ready ∨ ∃ p ∈ gs, e.client = c ∧ e.group = p.2.uuid ∧ p.2.deps = [] ∧
        e.dagPriority = cl.dag.config.priority ∧ ∃ x ∈ p.2.executions, e.priority = x.priority := by
  induction gs with
  | nil => intro cl ready e he; exact Or.inl he
  | cons p gs ih =>
    obtain ⟨k, g⟩ := p
    intro cl ready e he
    rw [initGroups_cons] at he
    rcases ih _ _ e he with h | ⟨p, hp, h1, h2, h3, h4, h5⟩
    · rcases List.mem_append.1 h with h | h
      · unfold initEntries at h
        split at h
        · next hd =>
          obtain ⟨x, hx, rfl⟩ := List.mem_map.1 h
          exact Or.inr ⟨(k, g), by simp, rfl, rfl, hd, rfl, x, hx, rfl⟩
        · cases h
      · exact Or.inl h
    · exact Or.inr ⟨p, by simp [hp], h1, h2, h3, by rw [h4, initOne_dag], h5⟩

theorem queueInv_taskStep {st st' : St} {t : Task} {ch : Choice}
    (hI : Inv { st with stack := t :: st.stack })
    (h : QueueInv { st with stack := t :: st.stack })
    (hs : TaskStep st t ch st') : QueueInv st' := by
  have hsame : ∀ e ∈ st.ready, e ∈ st.ready ∨ EntryPrio st'.log e := fun e he => Or.inl he
  cases hs with
  | fileSuccessGone c f ch hc => exact h.build hsame rfl (fun _ h => h) [] rfl (by simp)
  | fileSuccessNone c f ch cl hc hi =>
    exact h.build hsame rfl (fun _ h => h) _ rfl (noJob_sendMsgs _ _ _ _)
  | fileSuccessSome c f ch cl us hc hi =>
    exact h.build hsame rfl (fun _ h => h) _ rfl (noJob_sendMsgs _ _ _ _)
  | successEnd c f ch => exact h.build hsame rfl (fun _ h => h) [] rfl (by simp)
  | successGone c f ch u us hc => exact h.build hsame rfl (fun _ h => h) [] rfl (by simp)
  | successSkip c f ch u us cl g hc hg hm => exact h.build hsame rfl (fun _ h => h) [] rfl (by simp)
  | successReady c f ch u us cl g fs hc hg hm he =>
    refine h.build ?_ rfl none_insert [] rfl (by simp)
    intro e he'
    rcases List.mem_cons.1 he' with rfl | he'
    · right
      have hcl := hI.client c cl hc
      refine ⟨cl.dag, cl.callbacks, g, hcl.evald, hg, Or.inl ⟨rfl, rfl, Or.inl ?_⟩⟩
      intro hd
      obtain ⟨h1, g', h2, h3, _⟩ := hcl.miss u fs hm
      rw [hg] at h2; cases h2
      rw [hd] at h3
      exact h1 (List.eq_nil_iff_forall_not_mem.2 fun f hf => by simpa using h3 f hf)
    · exact Or.inl he'
  | successWait c f ch u us cl g fs hc hg hm he =>
    exact h.build hsame rfl none_insert [] rfl (by simp)
  | fileFailedGone c f ch hc => exact h.build hsame rfl (fun _ h => h) [] rfl (by simp)
  | fileFailedNone c f ch cl hc hi =>
    exact h.build hsame rfl (fun _ h => h) _ rfl (noJob_sendMsgs _ _ _ _)
  | fileFailedSome c f ch cl us hc hi =>
    exact h.build hsame rfl (fun _ h => h) _ rfl (noJob_sendMsgs _ _ _ _)
  | skipEnd c f failed ch => exact h.build hsame rfl (fun _ h => h) [] rfl (by simp)
  | skipGone c f failed ch u us hc => exact h.build hsame rfl (fun _ h => h) [] rfl (by simp)
  | skipTwice c f failed ch u us cl hc hm => exact h.build hsame rfl (fun _ h => h) [] rfl (by simp)
  | skipOne c f failed ch u us cl g fs hc hm hg =>
    refine h.build hsame rfl none_insert
      (((skipMsgs cl c g).map Obs.out).reverse ++ [Obs.skipped c g])
      (by simp [St.push, St.emitAll, St.obs, St.setClient]) ?_
    intro o ho w c' g' k he
    subst he
    simp [skipMsgs] at ho
  | scheduleCached ch => exact h.build hsame rfl (fun _ h => h) [] rfl (by simp)
  | cachedEnd hits ch => exact h.build hsame rfl (fun _ h => h) [] rfl (by simp)
  | cachedGone e ans todo hits ch hc =>
    exact h.build (fun x hx => Or.inl (List.mem_of_mem_erase hx)) rfl (fun _ h => h) [] rfl (by simp)
  | cachedNo e ans todo hits ch cl hc hno => exact h.build hsame rfl (fun _ h => h) [] rfl (by simp)
  | cachedMiss e todo hits ch cl g hc hn hg hi =>
    exact h.build hsame rfl (fun _ h => h) [_] rfl (by simp)
  | cachedHit e hit todo hits ch cl g hc hn hg hi =>
    exact h.build (fun x hx => Or.inl (List.mem_of_mem_erase hx)) rfl none_insert [_] rfl (by simp)
  | assignJobs ch => exact h.build hsame rfl (fun _ h => h) [] rfl (by simp)
  | assignEnd ws ch hw => exact h.build hsame rfl (fun _ h => h) [_] rfl (by simp)
  | assignSkip w ws ch hw => exact h.build hsame rfl (fun _ h => h) [] rfl (by simp)
  | assignGone w ws ch e ready hw hp hc =>
    exfalso
    have he : e ∈ st.ready := (popMax_mem hp).1
    obtain ⟨cl, h1, _⟩ := hI.readyLive e he
    exact absurd (hc.symm.trans h1) (by simp)
  | assignJob w ws ch e ready cl g keys hw hp hc hg hk =>
    have hsub : ∀ x ∈ ready, x ∈ st.ready := by
      intro x hx
      rw [(popMax_mem hp).2] at hx; exact List.mem_of_mem_erase hx
    constructor
    · intro x hx
      have := (h.prio x (hsub x hx)).append
        (((startMsgs cl e.client w g).map Obs.out).reverse ++ [Obs.out (.workerJob w e.client g keys)])
      simpa [St.push, St.emitAll, St.emit, St.obs, St.setClient] using this
    · intro w' c' u' h1 h2
      have h1' : (st.workers.insert w (some (e.client, e.group))).get? w' = some (some (c', u')) := h1
      have h2' := none_insert c' h2
      rw [AMap.get?_insert] at h1'
      split at h1'
      · cases h1'
        exact absurd (hc.symm.trans h2') (by simp)
      · next hne =>
        have h3 := h.stop w' c' u' h1' h2'
        have := stopSent_append (w := w') (l := ((startMsgs cl e.client w g).map Obs.out).reverse ++
          [Obs.out (.workerJob w e.client g keys)]) (log := st.log) ?_ h3
        · simpa [St.push, St.emitAll, St.emit, St.obs, St.setClient] using this
        · intro o ho c1 g1 k1 he
          subst he
          simp [startMsgs] at ho
          exact hne ho.1
  | checkGone c ch hc => exact h.build hsame rfl (fun _ h => h) [] rfl (by simp)
  | checkNotDone c ch cl hc hd => exact h.build hsame rfl (fun _ h => h) [] rfl (by simp)
  | checkDone c ch cl hc hd => exact h.build hsame rfl (fun _ h => h) [_] rfl (by simp)
  | completedGone c g results outputs fromCache ch hc =>
    exact h.build hsame rfl (fun _ h => h) [] rfl (by simp)
  | completed c g results outputs fromCache ch cl extra hc he hx =>
    refine h.build hsame rfl none_insert
      (extra ++ (((doneMessages c cl.callbacks.executions g.executions results).map Obs.out).reverse ++
        [Obs.completed c g results outputs fromCache])) (by simp [St.push, St.emitAll, St.obs]) ?_
    intro o ho w c' g' k hh
    subst hh
    rcases he with rfl | rfl <;> simp [doneMessages] at ho

theorem handleClientDisconnected_stop (st : St) (c : ClientUuid) :
    ∃ l, handleClientDisconnected st c = { st with
        clients := st.clients.erase c
        ready := st.ready.filter (fun e => (st.clients.erase c).contains e.client)
        log := l ++ st.log } ∧ (∀ o ∈ l, ∃ x, o = .out x ∧ NotJob x) ∧
      ∀ w u, (w, u) ∈ jobsOf c st.workers → Obs.out (.stopJob w u) ∈ l := by
  have hm : ∀ w u, (w, u) ∈ jobsOf c st.workers → Obs.out (.stopJob w u) ∈
      (((jobsOf c st.workers).map (fun p => Out.stopJob p.1 p.2)).map Obs.out).reverse := by
    intro w u h
    simp only [List.mem_reverse, List.mem_map]
    exact ⟨_, ⟨(w, u), h, rfl⟩, rfl⟩
  have hn : ∀ o ∈ (((jobsOf c st.workers).map (fun p => Out.stopJob p.1 p.2)).map Obs.out).reverse,
      ∃ x, o = .out x ∧ NotJob x := by
    intro o ho
    simp only [List.mem_reverse, List.mem_map] at ho
    obtain ⟨x, ⟨p, _, rfl⟩, rfl⟩ := ho
    exact ⟨_, rfl, trivial⟩
  unfold handleClientDisconnected
  cases hc : st.clients.get? c with
  | none => exact ⟨_, rfl, hn, hm⟩
  | some cl =>
    simp only
    by_cases hd : cl.isDone = true
    · rw [if_pos hd]
      exact ⟨_, rfl, hn, hm⟩
    · rw [if_neg hd]
      refine ⟨(((jobsOf c st.workers).map (fun p => Out.stopJob p.1 p.2)).map Obs.out).reverse ++
        [.out (.evaluationDone c)], ?_, ?_, ?_⟩
      · simp [St.emitAll, St.emit, St.obs]
      · intro o ho
        rcases List.mem_append.1 ho with ho | ho
        · exact hn o ho
        · rw [List.mem_singleton] at ho; exact ⟨_, ho, trivial⟩
      · intro w u h; exact List.mem_append.2 (Or.inl (hm w u h))

theorem QueueInv.event {st st' : St} {e : Event} (hI : Inv st) (a : Aux st) (hok : EventOk st e)
    (h : QueueInv st)
    (hs : EventStep (st.obs (.ev e)) e st') : QueueInv st' := by
  have hsame : ∀ e ∈ st.ready, e ∈ st.ready ∨ EntryPrio st'.log e := fun e he => Or.inl he
  have herase : ∀ (w : WorkerUuid) (st' : St), st'.ready = st.ready → st'.workers = st.workers.erase w →
      (∀ c, st'.clients.get? c = none → st.clients.get? c = none) → st'.log = .ev e :: st.log →
      QueueInv st' := by
    intro w st' h1 h2 h3 h4
    constructor
    · intro x hx; rw [h4]; exact (h.prio x (h1 ▸ hx)).append [_]
    · intro w' c u h5 h6
      rw [h2, AMap.get?_erase] at h5
      split at h5
      · cases h5
      · rw [h4]
        exact stopSent_append (l := [_]) (by simp) (h.stop w' c u h5 (h3 c h6))
  cases hs with
  | evaluateDag c dag cb =>
    refine h.build ?_ rfl none_insert [_] rfl (by simp)
    intro x hx
    rcases initGroups_ready_prio dag.executionGroups c { dag := dag, callbacks := cb } st.ready x hx with
      h1 | ⟨p, hp, h1, h2, h3, h4, h5⟩
    · exact Or.inl h1
    · obtain ⟨k, g⟩ := p
      refine Or.inr ⟨dag, cb, g, ?_, ?_, Or.inr ⟨h3, h4, h5⟩⟩
      · rw [h1]; unfold Asked; simp [handleEvaluateDag, St.push, St.obs]
      · rw [h2]
        have hwf := hok.1
        have := hwf.keyed k g hp
        simp only [this]
        exact AMap.get?_of_mem hwf.groups hp
  | clientDisconnected c =>
    obtain ⟨l, hl, hq, hj⟩ := handleClientDisconnected_stop (st.obs (.ev (.clientDisconnected c))) c
    rw [hl]
    constructor
    · intro x hx
      have hx' := (List.mem_filter.1 hx).1
      have := ((h.prio x hx').append [.ev (.clientDisconnected c)]).append l
      exact this
    · intro w c' u h1 h2
      have h1' : st.workers.get? w = some (some (c', u)) := h1
      have h2' : (st.clients.erase c).get? c' = none := h2
      rw [AMap.get?_erase] at h2'
      split at h2'
      · next e =>
        subst e
        exact stopSent_mem hq (hj w u (mem_jobsOf.2 (AMap.mem_of_get? h1')))
      · refine stopSent_append ?_ (stopSent_append (l := [_]) (by simp) (h.stop w c' u h1' h2'))
        intro o ho c1 g1 k1 he
        subst he
        obtain ⟨x, hx, hn⟩ := hq _ ho
        cases hx; exact hn
  | fileReadyGone c f key hc => exact h.build hsame rfl (fun _ h => h) [_] rfl (by simp)
  | fileReady c f key cl hc => exact h.build hsame rfl none_insert [_] rfl (by simp)
  | resultUnknown w rs os hw => exact h.build hsame rfl (fun _ h => h) [_] rfl (by simp)
  | resultIdle w rs os hw => exact herase w _ rfl rfl (fun _ h => h) rfl
  | resultGone w rs os c u hw hc => exact herase w _ rfl rfl (fun _ h => h) rfl
  | result w rs os c u cl g hw hc hg hlen => exact herase w _ rfl rfl none_insert rfl
  | workerConnected w =>
    constructor
    · intro x hx; exact (h.prio x hx).append [_]
    · intro w' c u h5 h6
      have h5' : (st.workers.insert w none).get? w' = some (some (c, u)) := h5
      rw [AMap.get?_insert] at h5'
      split at h5'
      · cases h5'
      · exact stopSent_append (l := [_]) (by simp) (h.stop w' c u h5' h6)
  | disconnectUnknown w hw => exact h.build hsame rfl (fun _ h => h) [_] rfl (by simp)
  | disconnectFree w job hw hj => exact herase w _ rfl rfl (fun _ h => h) rfl
  | disconnect w c u cl g hw hc hg =>
    have hw' : st.workers.get? w = some (some (c, u)) := hw
    have hc' : st.clients.get? c = some cl := hc
    constructor
    · intro x hx
      rcases List.mem_cons.1 hx with rfl | hx
      · refine ⟨cl.dag, cl.callbacks, g, ?_, hg, Or.inl ⟨rfl, rfl, Or.inr ⟨[], w, st.log, rfl, ?_⟩⟩⟩
        · exact List.mem_cons_of_mem _ (hI.client c cl hc').evald
        · rw [← a.work]; exact hw'
      · exact (h.prio x hx).append [_]
    · intro w' c1 u1 h5 h6
      have h5' : (st.workers.erase w).get? w' = some (some (c1, u1)) := h5
      rw [AMap.get?_erase] at h5'
      split at h5'
      · cases h5'
      · exact stopSent_append (l := [_]) (by simp) (h.stop w' c1 u1 h5' (none_insert _ h6))
  | status c ws hws => exact h.build hsame rfl (fun _ h => h) [_, _] rfl (by simp)

theorem queueInv_step {st st' : St} (hI : Inv st) (a : Aux st) (h : QueueInv st) (hs : Step st st') :
    QueueInv st' := by
  cases hs with
  | event e hst hok hh => exact h.event hI a hok (eventStep_of_handle hh)
  | task t rest ch hst hok hh =>
    obtain ⟨ready, clients, workers, stack, log⟩ := st
    simp only at hst
    subst hst
    exact queueInv_taskStep (st := ⟨ready, clients, workers, rest, log⟩) hI h (taskStep_of_run hh)

theorem reachable_queue {st : St} (h : Reachable st) : QueueInv st := by
  induction h with
  | init => exact ⟨by simp, by intro w c u h; cases h⟩
  | step hr hs ih => exact queueInv_step (reachable_inv hr) (reachable_aux hr) ih hs

end TM.Sched
