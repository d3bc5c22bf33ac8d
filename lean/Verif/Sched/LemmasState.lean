import Verif.Sched.PropsHistory
/-! Lemmas for the properties of the states of the scheduler. -/

namespace TM.Sched
open TM.DagSpec

/-! ### The maximum of the queue -/

/-- The order of `ReadyEntry.lt` on plain numbers. -/
def Lex4 (a1 a2 : Int) (a3 a4 : Nat) (b1 b2 : Int) (b3 b4 : Nat) : Prop :=
  a1 < b1 ∨ (a1 = b1 ∧ (a2 < b2 ∨ (a2 = b2 ∧ (a3 < b3 ∨ (a3 = b3 ∧ a4 < b4)))))

theorem lex4_trans {a1 a2 : Int} {a3 a4 : Nat} {b1 b2 : Int} {b3 b4 : Nat} {c1 c2 : Int} {c3 c4 : Nat}
    (h1 : Lex4 a1 a2 a3 a4 b1 b2 b3 b4) (h2 : Lex4 b1 b2 b3 b4 c1 c2 c3 c4) :
    Lex4 a1 a2 a3 a4 c1 c2 c3 c4 := by unfold Lex4 at *; omega

theorem lex4_irrefl {a1 a2 : Int} {a3 a4 : Nat} : ¬ Lex4 a1 a2 a3 a4 a1 a2 a3 a4 := by
  unfold Lex4; omega

theorem lex4_cotrans {a1 a2 : Int} {a3 a4 : Nat} {b1 b2 : Int} {b3 b4 : Nat} {c1 c2 : Int}
    {c3 c4 : Nat} (h1 : Lex4 a1 a2 a3 a4 c1 c2 c3 c4) :
    Lex4 a1 a2 a3 a4 b1 b2 b3 b4 ∨ Lex4 b1 b2 b3 b4 c1 c2 c3 c4 := by unfold Lex4 at *; omega

theorem lt_iff {a b : ReadyEntry} : ReadyEntry.lt a b = true ↔
    Lex4 a.dagPriority a.priority a.group a.client b.dagPriority b.priority b.group b.client := by
  simp only [ReadyEntry.lt, decide_eq_true_eq]; exact Iff.rfl

theorem lt_trans' {a b c : ReadyEntry} (h1 : ReadyEntry.lt a b = true) (h2 : ReadyEntry.lt b c = true) :
    ReadyEntry.lt a c = true := by
  rw [lt_iff] at *; exact lex4_trans h1 h2

theorem maxEntry_max : ∀ (l : List ReadyEntry) (m : ReadyEntry), ∀ x ∈ m :: l,
    ReadyEntry.lt (maxEntry m l) x ≠ true := by
  intro l
  induction l with
  | nil =>
    intro m x hx
    simp at hx; subst hx
    rw [ne_eq, lt_iff]; exact lex4_irrefl
  | cons e es ih =>
    intro m x hx
    simp only [maxEntry]
    by_cases hlt : ReadyEntry.lt m e = true
    · rw [if_pos hlt]
      rcases List.mem_cons.1 hx with rfl | hx
      · intro h
        exact ih e e (by simp) (lt_trans' h hlt)
      · exact ih e x hx
    · rw [if_neg hlt]
      rcases List.mem_cons.1 hx with rfl | hx
      · exact ih _ _ (by simp)
      · rcases List.mem_cons.1 hx with rfl | hx
        · intro h
          have h0 := ih m m (by simp)
          have : ReadyEntry.lt m x = true ∨ ReadyEntry.lt (maxEntry m es) m = true := by
            rw [lt_iff] at h
            rcases lex4_cotrans (b1 := m.dagPriority) (b2 := m.priority) (b3 := m.group)
              (b4 := m.client) h with h | h
            · exact Or.inr (lt_iff.2 h)
            · exact Or.inl (lt_iff.2 h)
          rcases this with h1 | h1
          · exact hlt h1
          · exact h0 h1
        · exact ih m x (by simp [hx])

theorem popMax_max {ready ready' : List ReadyEntry} {e : ReadyEntry}
    (h : popMax ready = some (e, ready')) : ∀ x ∈ ready, ReadyEntry.lt e x ≠ true := by
  cases ready with
  | nil => cases h
  | cons a b =>
    simp only [popMax, Option.some.injEq, Prod.mk.injEq] at h
    obtain ⟨rfl, _⟩ := h
    exact maxEntry_max b a

/-! ### Entries added by a step -/

/-- A job in the trace after a task step was there before, or the step assigned it. -/
theorem job_new {st st' : St} {t : Task} {ch : Choice} (hs : TaskStep st t ch st') {w c g keys}
    (hm : Obs.out (.workerJob w c g keys) ∈ st'.log) :
    Obs.out (.workerJob w c g keys) ∈ st.log ∨
    ∃ e ready cl, popMax st.ready = some (e, ready) ∧ st.clients.get? e.client = some cl ∧
      cl.dag.executionGroups.get? e.group = some g ∧ e.client = c ∧ st.workers.get? w = some none := by
  cases hs with
  | fileSuccessNone c f ch cl hc hi =>
    rcases List.mem_append.1 hm with h | h
    · exact absurd rfl (noJob_sendMsgs _ _ _ _ _ h _ _ _ _)
    · exact Or.inl h
  | fileSuccessSome c f ch cl us hc hi =>
    rcases List.mem_append.1 hm with h | h
    · exact absurd rfl (noJob_sendMsgs _ _ _ _ _ h _ _ _ _)
    · exact Or.inl h
  | fileFailedNone c f ch cl hc hi =>
    rcases List.mem_append.1 hm with h | h
    · exact absurd rfl (noJob_sendMsgs _ _ _ _ _ h _ _ _ _)
    · exact Or.inl h
  | fileFailedSome c f ch cl us hc hi =>
    rcases List.mem_append.1 hm with h | h
    · exact absurd rfl (noJob_sendMsgs _ _ _ _ _ h _ _ _ _)
    · exact Or.inl h
  | skipOne c f failed ch u us cl g fs hc hm' hg =>
    simp [St.push, St.emitAll, St.obs, St.setClient, skipMsgs] at hm
    exact Or.inl hm
  | cachedMiss e todo hits ch cl g hc hn hg hi =>
    simp [St.push, St.obs] at hm; exact Or.inl hm
  | cachedHit e hit todo hits ch cl g hc hn hg hi =>
    simp [St.push, St.obs, St.setClient] at hm; exact Or.inl hm
  | assignEnd ws ch hw => simp [St.obs] at hm; exact Or.inl hm
  | assignJob w' ws ch e ready cl g' keys' hw hp hc hg hk =>
    simp [St.push, St.emitAll, St.emit, St.obs, St.setClient, startMsgs] at hm
    rcases hm with ⟨rfl, rfl, rfl, rfl⟩ | hm
    · exact Or.inr ⟨e, ready, cl, hp, hc, hg, rfl, hw⟩
    · exact Or.inl hm
  | checkDone c ch cl hc hd => simp [St.emit, St.obs] at hm; exact Or.inl hm
  | completed c g results outputs fromCache ch cl extra hc he hx =>
    have : Obs.out (.workerJob w _ _ keys) ∈ extra ++ _ := hm
    rcases he with rfl | rfl <;>
      simp [St.emitAll, St.obs, doneMessages] at this <;> exact Or.inl this
  | _ => exact Or.inl hm

theorem job_event {st st' : St} {e : Event} (hs : EventStep (st.obs (.ev e)) e st') {w c g keys}
    (hm : Obs.out (.workerJob w c g keys) ∈ st'.log) :
    Obs.out (.workerJob w c g keys) ∈ st.log := by
  cases hs with
  | evaluateDag c dag cb => simpa [handleEvaluateDag, St.push, St.obs] using hm
  | clientDisconnected c =>
    obtain ⟨l, hl, hq, _⟩ := handleClientDisconnected_stop (st.obs (.ev (.clientDisconnected c))) c
    rw [hl] at hm
    rcases List.mem_append.1 hm with h | h
    · obtain ⟨x, hx, hn⟩ := hq _ h
      cases hx; exact hn.elim
    · simpa [St.obs] using h
  | status c ws hws => simpa [St.emit, St.obs] using hm
  | fileReady c f key cl hc => simpa [St.push, St.setClient, St.obs] using hm
  | resultGone w rs os c u hw hc => simpa [St.push, St.obs] using hm
  | result w rs os c u cl g hw hc hg hlen => simpa [St.push, St.setClient, St.obs] using hm
  | workerConnected w => simpa [St.push, St.obs] using hm
  | _ => simpa [St.setClient, St.obs] using hm

/-! ### Nothing is lost -/

/-- When nothing is pending, an unresolved group of a client is waiting, queued or executed. -/
theorem Inv.where {st : St} (h : Inv st) (hst : st.stack = []) {c cl u g}
    (hc : st.clients.get? c = some cl) (hg : cl.dag.executionGroups.get? u = some g)
    (ht : termCount st.log c u < mult g) :
    0 < missCount cl u ∨ 0 < readyCount st.ready c u ∨ 0 < workCount st.workers c u := by
  have := (h.client c cl hc).cons u g hg
  rw [hst] at this
  simp at this
  omega

theorem missCount_pos {cl : Client} {u} (h : 0 < missCount cl u) :
    ∃ fs, cl.missingDeps.get? u = some fs := by
  unfold missCount at h
  split at h
  · next fs hf => exact ⟨fs, hf⟩
  · omega

/-- When nothing is pending, a waiting group waits for an unresolved file. -/
theorem Inv.waits {st : St} (h : Inv st) (hst : st.stack = []) {c cl u g}
    (hc : st.clients.get? c = some cl) (hg : cl.dag.executionGroups.get? u = some g)
    (hm : 0 < missCount cl u) : ∃ f ∈ g.deps, ¬ Resolved st.log c f := by
  obtain ⟨fs, hfs⟩ := missCount_pos hm
  have hcl := h.client c cl hc
  obtain ⟨hne, g', hg', hsub, _⟩ := hcl.miss u fs hfs
  rw [hg] at hg'; cases hg'
  obtain ⟨f, hf⟩ := List.exists_mem_of_ne_nil fs hne
  refine ⟨f, hsub f hf, fun hr => ?_⟩
  have := hcl.pend u fs f hfs hf hr
  rw [hst] at this; simp at this

theorem mult_pos {g : ExecutionGroup} (h : g.executions ≠ []) : 0 < mult g := by
  unfold mult
  split
  · exact List.length_pos_iff.2 h
  · omega

theorem Hist.term_resolves {log : List Obs} (h : Hist log) {c g f} (hg : GroupOf log c g)
    (ht : 0 < termCount log c g.uuid) (hf : f ∈ g.outs) : Resolved log c f := by
  rcases h.term_cases hg ht with ⟨rs, os, b, hm⟩ | hm
  · by_cases hs : ∀ r ∈ rs, r.status = .success
    · exact Or.inl (Or.inr ⟨g, ⟨rs, os, b, hm, hs⟩, hf⟩)
    · simp only [Classical.not_forall] at hs
      obtain ⟨r, hr, hs⟩ := hs
      exact Or.inr ⟨g, Or.inl ⟨rs, os, b, hm, r, hr, hs⟩, hf⟩
  · exact Or.inr ⟨g, Or.inr hm, hf⟩

/-- If no group of a client is queued or executed, and all the provided files arrived, nothing waits. -/
theorem no_wait {st : St} (h : Reachable st) (hst : st.stack = []) {c cl}
    (hc : st.clients.get? c = some cl)
    (hprov : ∀ f ∈ cl.dag.providedFiles.keys, Provided st.log c f)
    (hr : ∀ u, readyCount st.ready c u = 0) (hw : ∀ u, workCount st.workers c u = 0) :
    ∀ u g, cl.dag.executionGroups.get? u = some g → missCount cl u = 0 := by
  have hI := reachable_inv h
  have hh := (reachable_aux h).hist
  have hcl := hI.client c cl hc
  obtain ⟨hwf, order, hperm, hrun⟩ := CheckDag.checkDag_ok_executable _ _ hcl.wf hcl.ok
  have key : ∀ pre, Runnable cl.dag pre → (∀ p ∈ pre, p ∈ cl.dag.executionGroups) →
      ∀ p ∈ pre, missCount cl p.1 = 0 := by
    intro pre hp
    induction hp with
    | nil => simp
    | snoc pre u g _ hdeps ih =>
      intro hsub p hp
      have ih := ih (fun p hp => hsub p (by simp [hp]))
      rcases List.mem_append.1 hp with hp | hp
      · exact ih p hp
      · rw [List.mem_singleton] at hp; subst hp
        have hg : cl.dag.executionGroups.get? u = some g :=
          AMap.get?_of_mem hcl.wf.groups (hsub (u, g) (by simp))
        apply Classical.byContradiction
        intro hne
        obtain ⟨f, hf, hnr⟩ := hI.waits hst hc hg (Nat.pos_of_ne_zero hne)
        apply hnr
        rcases hdeps f hf with h1 | ⟨⟨u', g'⟩, h1, h2⟩
        · exact Or.inl (Or.inl (hprov f h1))
        · have hm := hsub (u', g') (by simp [h1])
          have hg' : cl.dag.executionGroups.get? u' = some g' := AMap.get?_of_mem hcl.wf.groups hm
          have hcons := hcl.cons u' g' hg'
          rw [hr, hw, hst, ih _ h1] at hcons
          simp at hcons
          have hpos := mult_pos (hwf.nonempty u' g' hm)
          have hu : g'.uuid = u' := hcl.wf.keyed _ _ hm
          subst hu
          exact hh.term_resolves ⟨_, _, hcl.evald, hg'⟩ (by omega) h2
  intro u g hg
  exact key order hrun (fun p hp => hperm.mem_iff.1 hp) (u, g)
    (hperm.mem_iff.2 (AMap.mem_of_get? hg))

theorem Aux.connected {st : St} (a : Aux st) {c} (h : Connected c st.log = true) :
    ∃ cl, st.clients.get? c = some cl := by
  have := a.live c
  rw [h] at this
  exact Option.isSome_iff_exists.1 this

theorem Inv.client_dag {st : St} (h : Inv st) (hh : Hist st.log) {c cl dag cb}
    (hc : st.clients.get? c = some cl) (ha : Asked st.log c dag cb) : cl.dag = dag ∧ cl.callbacks = cb :=
  hh.asked_unique ha (h.client c cl hc).evald

theorem work_at {st : St} (a : Aux st) {c u} (h : 0 < workCount st.workers c u)
    (hwf : AMap.Wf st.workers) : ∃ w, workerAt w st.log = some (some (c, u)) := by
  obtain ⟨w, hw⟩ := workCount_pos.1 h
  exact ⟨w, by rw [← a.work]; exact AMap.get?_of_mem hwf hw⟩

theorem work_pos {st : St} (a : Aux st) {w c u} (h : workerAt w st.log = some (some (c, u))) :
    0 < workCount st.workers c u := by
  rw [← a.work] at h
  exact workCount_pos.2 ⟨w, AMap.mem_of_get? h⟩

end TM.Sched
