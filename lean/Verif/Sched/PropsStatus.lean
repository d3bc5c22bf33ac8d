import Verif.Sched.PropsState
/-!
# Properties of the scheduler: the answer to a status request (C49)
-/

namespace TM.Sched
open TM.DagSpec

/-! ### Shape of the collections of a client -/

/-- The sets of a client have no repetitions. -/
def Shape (cl : Client) : Prop := AMap.Wf cl.missingDeps ∧ cl.readyGroups.Nodup

def ShapeInv (st : St) : Prop := ∀ c cl, st.clients.get? c = some cl → Shape cl

theorem ShapeInv.set {st : St} (h : ShapeInv st) {m : AMap ClientUuid Client} {c : ClientUuid}
    {cl : Client} (hm : m = st.clients.insert c cl) (hcl : Shape cl) :
    ∀ c' cl', m.get? c' = some cl' → Shape cl' := by
  intro c' cl' h1
  rw [hm, AMap.get?_insert] at h1
  split at h1
  · cases h1; exact hcl
  · exact h c' cl' h1

theorem initGroups_shape (c : ClientUuid) (gs : List (GroupUuid × ExecutionGroup)) :
    ∀ cl ready, Shape cl → Shape (initGroups c gs cl ready).1 := by
  induction gs with
  | nil => intro cl ready h; exact h
  | cons p gs ih =>
    obtain ⟨k, g⟩ := p
    intro cl ready h
    rw [initGroups_cons]
    apply ih
    unfold initOne
    by_cases hd : g.deps = []
    · simp only [hd, if_true]; exact ⟨h.1, nodup_setInsert h.2 _⟩
    · simp only [hd, if_false]; exact ⟨AMap.wf_insert h.1 _ _, h.2⟩

theorem shape_taskStep {st st' : St} {t : Task} {ch : Choice} (h : ShapeInv st)
    (hs : TaskStep st t ch st') : ShapeInv st' := by
  cases hs <;> first
    | exact h
    | skip
  case successReady c f u us cl g fs hc _ _ _ =>
    exact h.set rfl ⟨AMap.wf_erase (h c cl hc).1 _, nodup_setInsert (h c cl hc).2 _⟩
  case successWait c f u us cl g fs hc _ _ _ =>
    exact h.set rfl ⟨AMap.wf_insert (h c cl hc).1 _ _, (h c cl hc).2⟩
  case skipOne c f failed u us cl g fs hc _ _ =>
    exact h.set rfl ⟨AMap.wf_erase (h c cl hc).1 _, (h c cl hc).2⟩
  case cachedHit e hit rest hits cl g hc _ _ _ =>
    exact h.set rfl ⟨(h _ cl hc).1, nodup_setErase (h _ cl hc).2 _⟩
  case assignJob w ws e ready cl g keys _ _ hc _ _ =>
    exact h.set rfl ⟨(h _ cl hc).1, nodup_setErase (h _ cl hc).2 _⟩
  case completed c g results outputs fromCache cl extra hc _ _ =>
    exact h.set rfl ⟨(h _ cl hc).1, (h _ cl hc).2⟩

theorem shape_eventStep {st st' : St} {e : Event} (h : ShapeInv st)
    (hs : EventStep st e st') : ShapeInv st' := by
  cases hs <;> first
    | exact h
    | skip
  case evaluateDag c dag cb =>
    exact h.set rfl (initGroups_shape _ _ _ _ ⟨AMap.wf_nil, List.nodup_nil⟩)
  case clientDisconnected c =>
    obtain ⟨l, hl, _⟩ := handleClientDisconnected_eq st c
    rw [hl]
    intro c' cl' h1
    have h1' : (st.clients.erase c).get? c' = some cl' := h1
    rw [AMap.get?_erase] at h1'
    split at h1'
    · cases h1'
    · exact h c' cl' h1'
  case fileReady c f key cl hc =>
    exact h.set rfl ⟨(h _ cl hc).1, (h _ cl hc).2⟩
  case result w rs os c u cl g _ hc _ _ =>
    exact h.set rfl ⟨(h c cl hc).1, (h c cl hc).2⟩
  case disconnect w c u cl g _ hc _ =>
    exact h.set rfl ⟨(h c cl hc).1, nodup_setInsert (h c cl hc).2 _⟩

theorem reachable_shape {st : St} (h : Reachable st) : ShapeInv st := by
  induction h with
  | init => intro c cl h; cases h
  | step hr hs ih =>
    cases hs with
    | event e hst hok hh => exact shape_eventStep (by exact ih) (eventStep_of_handle hh)
    | task t rest ch hst hok hh => exact shape_taskStep (by exact ih) (taskStep_of_run hh)

/-! ### The workers -/

theorem workerStatus_spec (clients : AMap ClientUuid Client) :
    ∀ (ws : AMap WorkerUuid (Option (ClientUuid × GroupUuid))) r,
      workerStatus clients ws = .ok r →
      r = ws.map (fun p => (p.1, match p.2 with
        | none => none
        | some (c, u) => if (clients.get? c).isSome then some u else none)) := by
  intro ws
  induction ws with
  | nil => intro r h; cases h; rfl
  | cons p ws ih =>
    obtain ⟨w, job⟩ := p
    intro r h
    simp only [workerStatus] at h
    cases hr : workerStatus clients ws with
    | error e => simp [hr] at h
    | ok rest =>
      simp only [hr] at h
      have := ih rest hr
      subst this
      cases job with
      | none => cases h; rfl
      | some j =>
        obtain ⟨c, u⟩ := j
        simp only at h
        cases hc : clients.get? c with
        | none => simp only [hc] at h; cases h; simp [hc]
        | some cl =>
          simp only [hc] at h
          cases hg : cl.dag.executionGroups.get? u with
          | none => simp [hg] at h
          | some g => simp only [hg] at h; cases h; simp [hc]

/-! ### Counting -/

/-- The pairs (client, group) listed by a function of the clients. -/
def pairs (clients : AMap ClientUuid Client) (f : Client → List GroupUuid) :
    List (ClientUuid × GroupUuid) :=
  clients.flatMap (fun p => (f p.2).map (fun u => (p.1, u)))

theorem length_pairs (clients : AMap ClientUuid Client) (f : Client → List GroupUuid) :
    (pairs clients f).length = (clients.map (fun p => (f p.2).length)).sum := by
  simp [pairs, List.length_flatMap]

theorem mem_pairs {clients : AMap ClientUuid Client} (hwf : AMap.Wf clients)
    {f : Client → List GroupUuid} {c u} :
    (c, u) ∈ pairs clients f ↔ ∃ cl, clients.get? c = some cl ∧ u ∈ f cl := by
  simp only [pairs, List.mem_flatMap, List.mem_map, Prod.mk.injEq]
  constructor
  · rintro ⟨⟨c', cl⟩, h1, u', h2, rfl, rfl⟩
    exact ⟨cl, AMap.get?_of_mem hwf h1, h2⟩
  · rintro ⟨cl, h1, h2⟩
    exact ⟨(c, cl), AMap.mem_of_get? h1, u, h2, rfl, rfl⟩

theorem nodup_pairs {clients : AMap ClientUuid Client} (hwf : AMap.Wf clients)
    {f : Client → List GroupUuid} (hf : ∀ c cl, (c, cl) ∈ clients → (f cl).Nodup) :
    (pairs clients f).Nodup := by
  induction clients with
  | nil => simp [pairs]
  | cons p clients ih =>
    simp only [AMap.Wf, AMap.keys, List.map_cons, List.nodup_cons] at hwf
    simp only [pairs, List.flatMap_cons] at ih ⊢
    rw [List.nodup_append]
    refine ⟨?_, ih hwf.2 (fun c cl h => hf c cl (by simp [h])), ?_⟩
    · exact (hf p.1 p.2 (by simp)).map (fun u => (p.1, u)) (by intro a b h1 h2; exact h1 (by cases h2; rfl))
    · rintro ⟨c, u⟩ h1 ⟨c', u'⟩ h2 he
      cases he
      simp only [List.mem_map, Prod.mk.injEq] at h1
      obtain ⟨_, _, rfl, rfl⟩ := h1
      simp only [List.mem_flatMap, List.mem_map, Prod.mk.injEq] at h2
      obtain ⟨q, hq, _, _, h3, rfl⟩ := h2
      exact hwf.1 (List.mem_map.2 ⟨q, hq, h3⟩)

/-! ## C49 -/

/-- The group waits for its inputs: it has not ended and some input does not exist (yet). -/
def IsWaiting (log : List Obs) (c : ClientUuid) (g : ExecutionGroup) : Prop :=
  GroupOf log c g ∧ termCount log c g.uuid = 0 ∧ ∃ f ∈ g.deps, ¬ Available log c f

/-- Every status request is answered, to the client that asked and changing nothing else, with: each worker that is
waiting for a job or has one, once; for each of these the group it is executing, if its client is
still there; the number of groups of the connected clients that wait for their inputs; the number of
groups that are ready, provided that every group runs once (a group without inputs and several
executions is queued more than once). -/
theorem status_answer {st st' : St} (h : Reachable st) (hst : st.stack = []) {c}
    (hs : handle st (.status c) = .ok st') :
    ∃ ws ready waiting,
      st' = { st with log := .out (.status c ws ready waiting) :: .ev (.status c) :: st.log } ∧
      (ws.map (·.1)).Nodup ∧
      (∀ w, w ∈ ws.map (·.1) ↔ workerAt w st.log ≠ none) ∧
      (∀ w u, (w, some u) ∈ ws ↔
        ∃ c', workerAt w st.log = some (some (c', u)) ∧ Connected c' st.log = true) ∧
      (∃ L : List (ClientUuid × GroupUuid), L.Nodup ∧ L.length = waiting ∧
        ∀ c' u, (c', u) ∈ L ↔ Connected c' st.log = true ∧
          ∃ g, g.uuid = u ∧ IsWaiting st.log c' g) ∧
      ((∀ c' g, Connected c' st.log = true → GroupOf st.log c' g → RunsOnce g) →
        ∃ L : List (ClientUuid × GroupUuid), L.Nodup ∧ L.length = ready ∧
          ∀ c' u, (c', u) ∈ L ↔ Connected c' st.log = true ∧
            ∃ g, g.uuid = u ∧ IsReady st.log c' g) := by
  have hI := reachable_inv h
  have a := reachable_aux h
  have hsh := reachable_shape h
  have hE := eventStep_of_handle hs
  have hfind : ∀ c' cl u g, st.clients.get? c' = some cl → cl.dag.executionGroups.get? u = some g →
      g.uuid = u ∧ GroupOf st.log c' g ∧ 0 < mult g := by
    intro c' cl u g hc hg
    have hci := hI.client c' cl hc
    have hu := hci.wf.keyed u g (AMap.mem_of_get? hg)
    refine ⟨hu, ⟨cl.dag, cl.callbacks, hci.evald, by rw [hu]; exact hg⟩, ?_⟩
    exact mult_pos ((CheckDag.checkDag_ok_executable _ _ hci.wf hci.ok).1.nonempty _ _
      (AMap.mem_of_get? hg))
  have hcon : ∀ c', Connected c' st.log = true ↔ ∃ cl, st.clients.get? c' = some cl := by
    intro c'
    rw [← a.live c', Option.isSome_iff_exists]
  cases hE with
  | status c ws hws =>
  have hws' : workerStatus st.clients st.workers = .ok ws := hws
  have hspec := workerStatus_spec _ _ _ hws'
  have hnd : (ws.map (·.1)).Nodup := by
    rw [hspec, List.map_map]; exact hI.workersWf
  refine ⟨ws, _, _, rfl, hnd, ?_, ?_, ?_, ?_⟩
  · intro w
    rw [hspec, List.map_map, ← a.work w, ne_eq, AMap.get?_eq_none_iff, Classical.not_not]
    rfl
  · intro w u
    rw [hspec]
    simp only [List.mem_map, Prod.mk.injEq]
    constructor
    · rintro ⟨⟨w', job⟩, h1, rfl, h2⟩
      cases job with
      | none => cases h2
      | some j =>
        obtain ⟨c', u'⟩ := j
        simp only at h2
        split at h2
        · next h3 =>
          cases h2
          refine ⟨c', ?_, by rw [← a.live c']; exact h3⟩
          rw [← a.work]; exact AMap.get?_of_mem hI.workersWf h1
        · cases h2
    · rintro ⟨c', h1, h2⟩
      rw [← a.work] at h1
      rw [← a.live c'] at h2
      exact ⟨(w, some (c', u)), AMap.mem_of_get? h1, rfl, by simp [h2]⟩
  · refine ⟨pairs st.clients (fun cl => cl.missingDeps.keys), ?_, ?_, ?_⟩
    · exact nodup_pairs hI.clientsWf (fun c' cl hc => (hsh c' cl (AMap.get?_of_mem hI.clientsWf hc)).1)
    · rw [length_pairs]; simp [AMap.keys, St.obs]
    · intro c' u
      rw [mem_pairs hI.clientsWf]
      constructor
      · rintro ⟨cl, hc, hm⟩
        refine ⟨(hcon c').2 ⟨cl, hc⟩, ?_⟩
        obtain ⟨fs, hm⟩ := AMap.mem_keys_iff.1 hm
        have hci := hI.client c' cl hc
        obtain ⟨hne, g, hg, hsub, _⟩ := hci.miss u fs hm
        obtain ⟨f, hf⟩ := List.exists_mem_of_ne_nil fs hne
        obtain ⟨hu, hgo, _⟩ := hfind c' cl u g hc hg
        have hcons := hci.cons u g hg
        rw [deps_ne_nil (hsub f hf)] at hcons
        have h1 : missCount cl u = 1 := by simp [missCount, hm]
        refine ⟨g, hu, hgo, by rw [hu]; omega, f, hsub f hf, fun hav => ?_⟩
        have := hci.pend u fs f hm hf (Or.inl hav)
        rw [hst] at this; simp at this
      · rintro ⟨hc, g, rfl, hgo, ht, f, hf, hn⟩
        obtain ⟨cl, hc⟩ := (hcon c').1 hc
        refine ⟨cl, hc, ?_⟩
        have hci := hI.client c' cl hc
        have hgd := a.hist.groupOf_dag hgo hci.evald
        have hcons := hci.cons _ g hgd
        have hpos := (hfind c' cl _ g hc hgd).2.2
        have hz : ¬ 0 < readyCount st.ready c' g.uuid + workCount st.workers c' g.uuid +
            stackCount st.stack c' g.uuid := fun hp => hn (hci.avail _ g hgd hp f hf)
        have hm : 0 < missCount cl g.uuid := by omega
        rw [AMap.mem_keys_iff]
        unfold missCount at hm
        split at hm
        · next v hv => exact ⟨v, hv⟩
        · omega
  · intro honce
    refine ⟨pairs st.clients (fun cl => cl.readyGroups), ?_, ?_, ?_⟩
    · exact nodup_pairs hI.clientsWf (fun c' cl hc => (hsh c' cl (AMap.get?_of_mem hI.clientsWf hc)).2)
    · rw [length_pairs]; rfl
    · intro c' u
      rw [mem_pairs hI.clientsWf]
      constructor
      · rintro ⟨cl, hc, hm⟩
        have hc1 := (hcon c').2 ⟨cl, hc⟩
        refine ⟨hc1, ?_⟩
        have hci := hI.client c' cl hc
        have hr := hci.readyG u hm
        obtain ⟨e, he, h2, h3⟩ := readyCount_pos.1 hr
        obtain ⟨cl', h4, g, h5⟩ := hI.readyLive e he
        rw [h2, hc] at h4; cases h4
        rw [h3] at h5
        obtain ⟨hu, hgo, _⟩ := hfind c' cl u g hc h5
        have hcons := hci.cons u g h5
        rw [mult_le_one (honce c' g hc1 hgo)] at hcons
        refine ⟨g, hu, hgo, hci.avail u g h5 (by omega), by rw [hu]; omega, ?_⟩
        intro w hw
        have := work_pos a hw
        rw [hu] at this
        omega
      · rintro ⟨hc, g, rfl, hgo, hav, ht, hnw⟩
        have honce' := honce c' g hc hgo
        obtain ⟨cl, hc⟩ := (hcon c').1 hc
        refine ⟨cl, hc, ?_⟩
        have hci := hI.client c' cl hc
        have hgd := a.hist.groupOf_dag hgo hci.evald
        have hw0 : workCount st.workers c' g.uuid = 0 := by
          apply Nat.eq_zero_of_not_pos
          intro hp
          obtain ⟨w, hw⟩ := work_at a hp hI.workersWf
          exact hnw w hw
        have hm0 : missCount cl g.uuid = 0 := by
          unfold missCount
          split
          · next fs hm =>
            exfalso
            obtain ⟨hne, g', hg', hsub, _⟩ := hci.miss _ fs hm
            obtain ⟨f, hf⟩ := List.exists_mem_of_ne_nil fs hne
            rw [hgd] at hg'; cases hg'
            have := hci.pend _ fs f hm hf (Or.inl (hav f (hsub f hf)))
            rw [hst] at this; simp at this
          · rfl
        rcases hci.cover _ g hgd with h1 | h1 | h1 | h1 | h1
        · exact h1
        · have := hci.runG _ h1; omega
        · omega
        · rw [hst] at h1; simp at h1
        · omega

/-- The request of a connected or unknown client is never refused. -/
theorem status_always_answered {st : St} (h : Reachable st) (c : ClientUuid) :
    ∃ st', handle st (.status c) = .ok st' := by
  cases hh : handle st (.status c) with
  | ok st' => exact ⟨st', rfl⟩
  | error e =>
    exfalso
    simp only [handle, handleStatus] at hh
    have hI := reachable_inv h
    have key : ∀ ws : AMap WorkerUuid (Option (ClientUuid × GroupUuid)),
        (∀ w c' u, (w, some (c', u)) ∈ ws → ∀ cl, st.clients.get? c' = some cl →
          ∃ g, cl.dag.executionGroups.get? u = some g) →
        ∃ r, workerStatus st.clients ws = .ok r := by
      intro ws
      induction ws with
      | nil => intro _; exact ⟨_, rfl⟩
      | cons p ws ih =>
        obtain ⟨w, job⟩ := p
        intro hl
        obtain ⟨r, hr⟩ := ih (fun w c' u hm => hl w c' u (by simp [hm]))
        simp only [workerStatus, hr]
        cases job with
        | none => exact ⟨_, rfl⟩
        | some j =>
          obtain ⟨c', u⟩ := j
          simp only
          cases hc : st.clients.get? c' with
          | none => exact ⟨_, rfl⟩
          | some cl =>
            obtain ⟨g, hg⟩ := hl w c' u (by simp) cl hc
            simp only [hg]; exact ⟨_, rfl⟩
    obtain ⟨r, hr⟩ := key st.workers (fun w c' u hm cl hc =>
      hI.workLive w c' u cl (AMap.get?_of_mem hI.workersWf hm) hc)
    have hr' : workerStatus (st.obs (.ev (.status c))).clients (st.obs (.ev (.status c))).workers = .ok r := hr
    rw [hr'] at hh
    cases hh

/-- Non-vacuity: during the demo run a worker executes the generator and the group reading its
output waits. -/
example : ∃ st', handle (after noCache (demoRun.take 3)) (.status 9) = .ok st' ∧
    st'.log.head? = some (.out (.status 9 [(5, some 10)] 0 2)) := by
  refine ⟨_, rfl, by decide⟩

end TM.Sched
