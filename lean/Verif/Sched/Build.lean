import Verif.Sched.Inv
/-! Assembling the invariant after a step. -/

namespace TM.Sched
open TM.DagSpec

/-- An entry which may be added to the trace by a step that does not accept a DAG. -/
def LogAdd (log : List Obs) : Obs → Prop
  | .ev (.evaluateDag _ _ _) => False
  | .ev (.fileReady c f _) => ∃ dag cb, Obs.ev (.evaluateDag c dag cb) ∈ log ∧
      f ∈ dag.providedFiles.keys
  | .completed c _ _ _ _ => Seen log c
  | .skipped c _ => Seen log c
  | _ => True

theorem logAdd_outs (log : List Obs) (os : List Out) :
    ∀ o ∈ (os.map Obs.out).reverse, LogAdd log o := by
  intro o ho
  simp at ho
  obtain ⟨a, _, rfl⟩ := ho
  trivial

theorem Inv.build {st st' : St} (h : Inv st) (l : List Obs) (hlog : st'.log = l ++ st.log)
    (hadd : ∀ o ∈ l, LogAdd st.log o)
    (hcw : AMap.Wf st'.clients) (hww : AMap.Wf st'.workers)
    (hdag : ∀ c cl', st'.clients.get? c = some cl' →
      ∃ cl, st.clients.get? c = some cl ∧ cl.dag = cl'.dag)
    (hlive : ∀ c cl, st.clients.get? c = some cl →
      ∃ cl', st'.clients.get? c = some cl' ∧ cl'.dag = cl.dag)
    (hclient : ∀ c cl', st'.clients.get? c = some cl' →
      CInv st'.log st'.ready st'.workers st'.stack c cl')
    (hready : ∀ e ∈ st'.ready, e ∈ st.ready ∨ ∃ cl, st.clients.get? e.client = some cl ∧
      ∃ g, cl.dag.executionGroups.get? e.group = some g)
    (hwork : ∀ w c u, st'.workers.get? w = some (some (c, u)) →
      st.workers.get? w = some (some (c, u)) ∨ ∃ e ∈ st.ready, e.client = c ∧ e.group = u)
    (old ts rest : List Task) (hst : st.stack = old ++ rest) (hst' : st'.stack = ts ++ rest)
    (hold : rest = [] ∨ old ≠ [])
    (hts : ∀ t ∈ ts, TaskOk st'.log st'.clients t)
    (hloop : ∀ t ∈ ts.tail, isCachedLoop t = false)
    (htop : ∀ todo hits r, ts = .cachedLoop todo hits :: r →
      ∀ e, (todo.map (·.1)).count e ≤ st'.ready.count e) : Inv st' := by
  have hsub : ∀ o ∈ st.log, o ∈ st'.log := by intro o ho; rw [hlog]; simp [ho]
  have hev : ∀ c dag cb, Obs.ev (.evaluateDag c dag cb) ∈ st'.log →
      Obs.ev (.evaluateDag c dag cb) ∈ st.log := by
    intro c dag cb hm
    rw [hlog] at hm
    rcases List.mem_append.1 hm with hm | hm
    · exact (hadd _ hm).elim
    · exact hm
  have hrest : ∀ t ∈ rest, isCachedLoop t = false := by
    intro t ht
    apply h.loops
    rw [hst]
    rcases hold with rfl | ho
    · simp at ht
    · cases old with
      | nil => exact absurd rfl ho
      | cons a b => simp [ht]
  exact {
    clientsWf := hcw
    workersWf := hww
    client := hclient
    readyLive := by
      intro e he
      have key : ∃ cl, st.clients.get? e.client = some cl ∧
          ∃ g, cl.dag.executionGroups.get? e.group = some g := by
        rcases hready e he with he | he
        · exact h.readyLive e he
        · exact he
      obtain ⟨cl, h1, g, h2⟩ := key
      obtain ⟨cl', h3, h4⟩ := hlive _ _ h1
      exact ⟨cl', h3, g, by rw [h4]; exact h2⟩
    workLive := by
      intro w c u cl' hw hc
      obtain ⟨cl, h1, h2⟩ := hdag c cl' hc
      rcases hwork w c u hw with hw | ⟨e, he, rfl, rfl⟩
      · rw [← h2]; exact h.workLive w c u cl hw h1
      · obtain ⟨cl1, h3, g, h4⟩ := h.readyLive e he
        rw [h1] at h3; cases h3
        exact ⟨g, by rw [← h2]; exact h4⟩
    tasks := by
      intro t ht
      rw [hst'] at ht
      rcases List.mem_append.1 ht with ht | ht
      · exact hts t ht
      · exact (h.tasks t (by rw [hst]; simp [ht])).mono hsub hdag
    loops := by
      intro t ht
      rw [hst'] at ht
      cases ts with
      | nil => exact hrest t (List.mem_of_mem_tail ht)
      | cons a b =>
        simp only [List.cons_append, List.tail_cons] at ht
        rcases List.mem_append.1 ht with ht | ht
        · exact hloop t ht
        · exact hrest t ht
    cachedTop := by
      intro todo hits r he
      rw [hst'] at he
      cases ts with
      | nil =>
        simp only [List.nil_append] at he
        have := hrest (.cachedLoop todo hits) (by rw [he]; simp)
        simp [isCachedLoop] at this
      | cons a b =>
        simp only [List.cons_append, List.cons.injEq] at he
        exact htop todo hits b (by rw [he.1])
    seenWork := by
      intro w c u hw
      rcases hwork w c u hw with hw | ⟨e, he, rfl, rfl⟩
      · exact seen_mono hsub (h.seenWork w c u hw)
      · obtain ⟨cl1, h3, _⟩ := h.readyLive e he
        exact seen_mono hsub ⟨_, _, (h.client _ _ h3).evald⟩
    seenTerm := by
      intro c u hpos
      unfold termCount at hpos
      rw [List.countP_pos_iff] at hpos
      obtain ⟨o, ho, ht⟩ := hpos
      rw [hlog] at ho
      rcases List.mem_append.1 ho with ho | ho
      · have := hadd o ho
        cases o <;> simp [isTerm] at ht <;> obtain ⟨rfl, rfl⟩ := ht <;> exact seen_mono hsub this
      · exact seen_mono hsub (h.seenTerm c u (List.countP_pos_iff.2 ⟨o, ho, ht⟩))
    seenProv := by
      intro c f ⟨k, hk⟩
      rw [hlog] at hk
      rcases List.mem_append.1 hk with hk | hk
      · obtain ⟨dag, cb, h1, h2⟩ := hadd _ hk
        exact ⟨dag, cb, hsub _ h1, h2⟩
      · obtain ⟨dag, cb, h1, h2⟩ := h.seenProv c f ⟨k, hk⟩
        exact ⟨dag, cb, hsub _ h1, h2⟩
    evUniq := by
      intro c dag cb dag' cb' h1 h2
      exact h.evUniq c dag cb dag' cb' (hev _ _ _ h1) (hev _ _ _ h2) }

/-- An entry of the trace that says nothing about any client's files and groups. -/
def Quiet : Obs → Prop
  | .ev (.evaluateDag _ _ _) => False
  | .ev (.fileReady _ _ _) => False
  | .completed _ _ _ _ _ => False
  | .skipped _ _ => False
  | _ => True

theorem Quiet.plain {o : Obs} (h : Quiet o) (c : ClientUuid) : Plain c o := by
  cases o with
  | ev e => cases e <;> simp_all [Quiet, Plain]
  | _ => simp_all [Quiet, Plain]

theorem Quiet.add {o : Obs} (h : Quiet o) (log : List Obs) : LogAdd log o := by
  cases o with
  | ev e => cases e <;> simp_all [Quiet, LogAdd]
  | _ => simp_all [Quiet, LogAdd]

theorem quiet_outs (os : List Out) : ∀ o ∈ (os.map Obs.out).reverse, Quiet o := by
  intro o ho
  simp at ho
  obtain ⟨a, _, rfl⟩ := ho
  trivial

/-- A step of a task that changes only the stack and adds quiet entries to the trace. -/
theorem Inv.quiet {st st' : St} (h : Inv st) {t : Task} {ts rest : List Task}
    (hst : st.stack = t :: rest) (hst' : st'.stack = ts ++ rest)
    (hc : st'.clients = st.clients) (hr : st'.ready = st.ready) (hw : st'.workers = st.workers)
    (l : List Obs) (hlog : st'.log = l ++ st.log) (hq : ∀ o ∈ l, Quiet o)
    (hcount : ∀ c cl u, st.clients.get? c = some cl → stackCount ts c u = taskCount c u t)
    (hpend : ∀ c cl f u fs, st.clients.get? c = some cl → cl.missingDeps.get? u = some fs →
      f ∈ fs → Notifies c f u t → Pending ts c f u)
    (hts : ∀ x ∈ ts, TaskOk st.log st.clients x)
    (hloop : ∀ x ∈ ts.tail, isCachedLoop x = false)
    (htop : ∀ todo hits r, ts = .cachedLoop todo hits :: r →
      ∀ e, (todo.map (·.1)).count e ≤ st.ready.count e) : Inv st' := by
  have hsub : ∀ o ∈ st.log, o ∈ st'.log := by intro o ho; rw [hlog]; simp [ho]
  refine h.build l hlog (fun o ho => (hq o ho).add _) (by rw [hc]; exact h.clientsWf)
    (by rw [hw]; exact h.workersWf) ?_ ?_ ?_ ?_ ?_ [t] ts rest hst hst' (Or.inr (by simp)) ?_ hloop
    (by rw [hr]; exact htop)
  · intro c cl' h1; exact ⟨cl', by rw [← hc]; exact h1, rfl⟩
  · intro c cl' h1; exact ⟨cl', by rw [hc]; exact h1, rfl⟩
  · intro c cl h1
    rw [hc] at h1
    refine (h.client c cl h1).frame' (by simp [hr]) (by simp [hw]) ?_ ?_ ?_
    · intro u
      rw [hst, hst']
      simp only [stackCount_append, stackCount_cons, hcount c cl u h1]
    · exact ⟨l, hlog, fun o ho => (hq o ho).plain c⟩
    · intro f u fs hm hf hp
      rw [hst] at hp
      rw [hst']
      simp only [pending_cons, pending_append] at hp ⊢
      rcases hp with hp | hp
      · exact Or.inl (hpend c cl f u fs h1 hm hf hp)
      · exact Or.inr hp
  · intro e he; rw [hr] at he; exact Or.inl he
  · intro w c u h1; rw [hw] at h1; exact Or.inl h1
  · intro x hx
    exact (hts x hx).mono hsub (fun c cl' h1 => ⟨cl', by rw [← hc]; exact h1, rfl⟩)

/-- A step that changes one client, `c`. -/
theorem Inv.one {st st' : St} (h : Inv st) {c : ClientUuid} {cl cl' : Client}
    (hc : st.clients.get? c = some cl) (hc' : st'.clients = st.clients.insert c cl')
    (hdag : cl'.dag = cl.dag)
    (l : List Obs) (hlog : st'.log = l ++ st.log) (hadd : ∀ o ∈ l, LogAdd st.log o)
    (hplain : ∀ c', c' ≠ c → ∀ o ∈ l, Plain c' o)
    (hww : AMap.Wf st'.workers)
    (hready : ∀ e ∈ st'.ready, e ∈ st.ready ∨ (e.client = c ∧
      ∃ g, cl.dag.executionGroups.get? e.group = some g))
    (hrc : ∀ c', c' ≠ c → ∀ u, readyCount st'.ready c' u = readyCount st.ready c' u)
    (hwork : ∀ w c u, st'.workers.get? w = some (some (c, u)) →
      st.workers.get? w = some (some (c, u)) ∨ ∃ e ∈ st.ready, e.client = c ∧ e.group = u)
    (hwc : ∀ c', c' ≠ c → ∀ u, workCount st'.workers c' u = workCount st.workers c' u)
    (old ts rest : List Task) (hst : st.stack = old ++ rest) (hst' : st'.stack = ts ++ rest)
    (hold : rest = [] ∨ old ≠ [])
    (hsc : ∀ c', c' ≠ c → ∀ u, stackCount ts c' u = stackCount old c' u)
    (hpd : ∀ c', c' ≠ c → ∀ f u, Pending old c' f u → Pending ts c' f u)
    (hts : ∀ t ∈ ts, TaskOk st'.log st.clients t)
    (hloop : ∀ t ∈ ts.tail, isCachedLoop t = false)
    (htop : ∀ todo hits r, ts = .cachedLoop todo hits :: r →
      ∀ e, (todo.map (·.1)).count e ≤ st'.ready.count e)
    (hself : CInv st'.log st'.ready st'.workers st'.stack c cl') : Inv st' := by
  have hdag' : ∀ c1 cl1, st'.clients.get? c1 = some cl1 →
      ∃ cl, st.clients.get? c1 = some cl ∧ cl.dag = cl1.dag := by
    intro c1 cl1 h1
    rw [hc', AMap.get?_insert] at h1
    split at h1
    · next e => subst e; cases h1; exact ⟨cl, hc, hdag.symm⟩
    · exact ⟨cl1, h1, rfl⟩
  refine h.build l hlog hadd (by rw [hc']; exact AMap.wf_insert h.clientsWf _ _) hww hdag' ?_ ?_ ?_
    hwork old ts rest hst hst' hold ?_ hloop htop
  · intro c1 cl1 h1
    by_cases e : c1 = c
    · subst e; rw [hc] at h1; cases h1
      exact ⟨cl', by rw [hc', AMap.get?_insert_self], hdag⟩
    · exact ⟨cl1, by rw [hc', AMap.get?_insert_ne _ _ e]; exact h1, rfl⟩
  · intro c1 cl1 h1
    by_cases e : c1 = c
    · subst e; rw [hc', AMap.get?_insert_self] at h1; cases h1; exact hself
    · rw [hc', AMap.get?_insert_ne _ _ e] at h1
      refine (h.client c1 cl1 h1).frame' (hrc c1 e) (hwc c1 e) ?_ ?_ ?_
      · intro u; rw [hst, hst']; simp [hsc c1 e u]
      · exact ⟨l, hlog, hplain c1 e⟩
      · intro f u fs hm hf hp
        rw [hst] at hp
        rw [hst']
        simp only [pending_append] at hp ⊢
        exact hp.imp_left (hpd c1 e f u)
  · intro e he
    rcases hready e he with he | ⟨rfl, hg⟩
    · exact Or.inl he
    · exact Or.inr ⟨cl, hc, hg⟩
  · intro t ht
    exact (hts t ht).mono (fun o ho => ho) hdag'

end TM.Sched
