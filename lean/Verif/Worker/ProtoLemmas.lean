import Verif.Worker.JobLemmas
/-! The inductive invariant of the protocol between the worker and its manager. -/
namespace TM.Worker

/-- Where the rounds of a worker are. -/
inductive Stage where
  | offline
  | free
  | busy (job : Job)
  | reporting (job : Job) (results : List ExecutionResult) (outputs : AMap FileUuid FileStoreKey)

/-- The histories a worker should have: it connects, is assigned a job, completes it, its result is
reported with a handle for each of its outputs, and again. -/
inductive Hist : List Ev → Stage → Prop
  | start : Hist [] .offline
  | connected {l} : Hist l .offline → Hist (l ++ [.connected]) .free
  | assigned {l} (job) : Hist l .free → Hist (l ++ [.assigned job]) (.busy job)
  | finished {l job} (results outputs) : Hist l (.busy job) →
    results.length = job.group.executions.length →
    Hist (l ++ [.finished job results outputs]) (.reporting job results outputs)
  | result {l job results outputs} (handlers) : Hist l (.reporting job results outputs) →
    (∀ u, AMap.get? handlers u = AMap.get? outputs u) →
    Hist (l ++ [.result results handlers]) .offline

/-- The messages that are not kill requests. -/
def notKill : Down → Bool
  | .killJob _ => false
  | _ => true

def nk (d : List Down) : List Down := d.filter notKill

/-- The manager still waits for the files `pending`. -/
def Rep (mgr : Mgr) (stage : Stage) (outputs : AMap FileUuid FileStoreKey)
    (pending : List FileUuid) : Prop :=
  (pending = [] ∧ mgr = .idle ∧ stage = .offline) ∨
  ∃ job results handlers, pending ≠ [] ∧ mgr = .collecting pending.length results handlers ∧
    stage = .reporting job results outputs ∧ pending.Nodup ∧
    (∀ u ∈ pending, ∃ k, outputs.get? u = some k) ∧
    ∀ u, u ∉ pending → handlers.get? u = outputs.get? u

def prov (p : FileUuid × FileStoreKey) : Up := .provideFile p.1 p.2

/-- The phases of the protocol; the last two indices make the termination measure. -/
inductive Inv : Current → Thread → Option (List FileUuid) → List Up → List Down → Mgr →
    List FileStoreKey → Bool → Stage → Nat → Nat → Prop
  | atServer {mgr store stage} (outputs) (ps : List (FileUuid × FileStoreKey)) :
    Rep mgr stage outputs (ps.map (·.1)) → (∀ p ∈ ps, AMap.get? outputs p.1 = some p.2) →
    Inv {} .none none (ps.map prov ++ [.getWork]) [] mgr store false stage 1 (ps.length + 1)
  | ready {store} : Inv {} .none none [] [] .idle store true .free 0 0
  | assigned {store job} : JobOk store job →
    Inv {} .none none [] [.work job] .idle store false (.busy job) 8 0
  | fetching {cur store} (job : Job) (ks1 ks2 : List FileStoreKey) : Waiting cur job (ks2 ++ ks1) →
    ks2 ++ ks1 ≠ [] → cur.sandboxes = false → cur.asks = false → (∀ k ∈ ks1, k ∈ store) →
    Inv cur .none none (ks1.map .askFile) (ks2.map .provideFile) .idle store false (.busy job) 7
      (2 * ks1.length)
  | running {store job handles} :
    Inv ⟨some (job, handles), [], true, true⟩ (.running job handles) none [] [] .idle store false
      (.busy job) 6 0
  | done {store jh} (job : Job) (results : List ExecutionResult)
      (outputs : AMap FileUuid FileStoreKey) : AMap.Wf outputs →
    Inv ⟨some jh, [], true, true⟩ (.waiting outputs) none [.workerDone results outputs] [] .idle
      store false (.reporting job results outputs) 5 0
  | asking {store jh outputs mgr stage pending} : Rep mgr stage outputs pending →
    Inv ⟨some jh, [], true, true⟩ (.waiting outputs) none [] [.askFiles pending] mgr
      store false stage 4 0
  | mailed {store jh outputs mgr stage pending} : Rep mgr stage outputs pending →
    Inv ⟨some jh, [], true, false⟩ (.waiting outputs) (some pending) [] [] mgr
      store false stage 3 0
  | sending {store jh outputs mgr stage} (ps : List (FileUuid × FileStoreKey))
      (rest : List FileUuid) :
    Rep mgr stage outputs (ps.map (·.1) ++ rest) → (∀ p ∈ ps, AMap.get? outputs p.1 = some p.2) →
    Inv ⟨some jh, [], true, false⟩ (.sending outputs rest) none (ps.map prov) [] mgr
      store false stage 2 (3 * rest.length + ps.length)

/-- The invariant of a state. -/
def Sys.Inv (s : Sys) (stage : Stage) (a b : Nat) : Prop :=
  Worker.Inv s.current s.thread s.mailbox s.up (nk s.down) s.mgr s.store s.free stage a b ∧
    s.failed = none ∧ Hist s.log stage

theorem nk_append (a b : List Down) : nk (a ++ b) = nk a ++ nk b := List.filter_append ..

theorem nk_cons {m : Down} {rest : List Down} (h : notKill m = true) :
    nk (m :: rest) = m :: nk rest := by simp [nk, h]

theorem nk_kill {g : GroupUuid} {rest : List Down} : nk (.killJob g :: rest) = nk rest := by
  simp [nk, notKill]

/-- The measure. -/
def Lt (p q : Nat × Nat) : Prop := p.1 < q.1 ∨ p.1 = q.1 ∧ p.2 < q.2

theorem splitOutputs_spec (store : List FileStoreKey) (outputs : AMap FileUuid FileStoreKey)
    (hw : AMap.Wf outputs) :
    (splitOutputs store outputs).2.Nodup ∧
    (∀ u ∈ (splitOutputs store outputs).2, ∃ k, outputs.get? u = some k) ∧
    ∀ u, u ∉ (splitOutputs store outputs).2 →
      (splitOutputs store outputs).1.get? u = outputs.get? u := by
  unfold splitOutputs
  refine ⟨?_, ?_, ?_⟩
  · exact hw.sublist (List.filter_sublist.map _)
  · intro u hu
    obtain ⟨p, hp, rfl⟩ := List.mem_map.1 hu
    exact ⟨p.2, AMap.get?_of_mem hw (List.mem_filter.1 hp).1⟩
  · intro u hu
    simp only at hu ⊢
    have hw' : AMap.Wf (outputs.filter (fun p => decide (p.2 ∈ store))) :=
      List.Nodup.sublist (List.filter_sublist.map _) hw
    cases ho : outputs.get? u with
    | none =>
      rw [AMap.get?_eq_none_iff] at ho ⊢
      intro h
      apply ho
      obtain ⟨p, hp, rfl⟩ := List.mem_map.1 h
      exact List.mem_map.2 ⟨p, (List.mem_filter.1 hp).1, rfl⟩
    | some k =>
      have hm := AMap.mem_of_get? ho
      by_cases hk : k ∈ store
      · exact AMap.get?_of_mem hw' (List.mem_filter.2 ⟨hm, by simpa using hk⟩)
      · exact absurd (List.mem_map.2 ⟨(u, k), List.mem_filter.2 ⟨hm, by simpa using hk⟩, rfl⟩) hu

/-- A pending file arrives at the manager. -/
theorem rep_provide {mgr : Mgr} {stage : Stage} {outputs : AMap FileUuid FileStoreKey}
    {u : FileUuid} {pending : List FileUuid} (h : Rep mgr stage outputs (u :: pending))
    {k : FileStoreKey} (hk : outputs.get? u = some k) {s : Sys} (hs : s.mgr = mgr)
    (hl : Hist s.log stage) :
    ∃ stage', Rep (s.onUp (.provideFile u k)).mgr stage' outputs pending ∧
      Hist (s.onUp (.provideFile u k)).log stage' ∧
      ∃ mgr' log', s.onUp (.provideFile u k) =
        { s with store := k :: s.store, mgr := mgr', log := log' } := by
  rcases h with ⟨h, _⟩ | ⟨job, results, handlers, h1, h2, h3, h4, h5, h6⟩
  · cases h
  · subst h2 h3
    have hins : ∀ v, v ∉ pending → (handlers.insert u k).get? v = outputs.get? v := by
      intro v hv
      rw [AMap.get?_insert]
      by_cases hvu : v = u
      · subst hvu; rw [if_pos rfl, hk]
      · rw [if_neg hvu]; exact h6 v (by simp [hvu, hv])
    cases pending with
    | nil =>
      refine ⟨.offline, ?_, ?_, ?_⟩
      · left
        simp [Sys.onUp, hs]
      · simp only [Sys.onUp, hs, List.length_cons, List.length_nil, Nat.zero_add, if_true]
        exact Hist.result _ hl (fun v => hins v (by simp))
      · simp only [Sys.onUp, hs, List.length_cons, List.length_nil, Nat.zero_add, if_true]
        exact ⟨_, _, rfl⟩
    | cons v vs =>
      refine ⟨.reporting job results outputs, ?_, ?_, ?_⟩
      · right
        refine ⟨job, results, handlers.insert u k, by simp, ?_, rfl, (List.nodup_cons.1 h4).2,
          fun w hw => h5 w (List.mem_cons_of_mem _ hw), hins⟩
        simp [Sys.onUp, hs]
      · simpa [Sys.onUp, hs] using hl
      · simp only [Sys.onUp, hs, List.length_cons]
        rw [if_neg (by omega)]
        exact ⟨_, _, rfl⟩

theorem waiting_perm {c : Current} {job : Job} {ks ks' : List FileStoreKey} (h : Waiting c job ks)
    (hp : ks.Perm ks') : Waiting c job ks' :=
  ⟨fun k => by rw [← hp.mem_iff, h.keys], hp.nodup_iff.1 h.nodup, h.gathered⟩

theorem nk_nil_of {m : Down} {rest : List Down} (hm : notKill m = true) : nk (m :: rest) ≠ [] := by
  rw [nk_cons hm]; simp

/-- The main thread of the worker. -/
theorem main_inv {s : Sys} {stage : Stage} {a b : Nat} (h : s.Inv stage a b) (present : Nat → Bool)
    {m : Down} {rest : List Down} (hd : s.down = m :: rest) :
    ∃ stage' a' b', (({ s with down := rest } : Sys).onDown present m).Inv stage' a' b' ∧
      Lt (a', b' + (({ s with down := rest } : Sys).onDown present m).down.length)
        (a, b + s.down.length) := by
  obtain ⟨h1, h2, h3⟩ := h
  obtain ⟨cur, th, mb, up, down, mgr, store, free, killed, log, failed⟩ := s
  simp only at *
  subst hd h2
  cases m with
  | killJob g =>
    rw [nk_kill] at h1
    refine ⟨stage, a, b, ?_, .inr ⟨rfl, ?_⟩⟩
    · simp only [Sys.onDown]
      split
      · split
        · exact ⟨h1, rfl, h3⟩
        · exact ⟨h1, rfl, h3⟩
      · exact ⟨h1, rfl, h3⟩
    · simp only [Sys.onDown, List.length_cons]
      split
      · split <;> simp
      · simp
  | work job =>
    rw [nk_cons rfl] at h1
    generalize hg : Down.work job :: nk rest = d at h1
    cases h1 with
    | assigned hj =>
      injection hg with e1 e2
      cases e1
      obtain ⟨c', asked, st, w1, w2, w3, w4, w5⟩ := onWork_spec {} rfl job
        (fun f hf => (hj f hf).imp (fun _ hk => hk.1)) present
      simp only [Sys.onDown, w1]
      have hstore : ∀ k ∈ asked, k ∈ store := by
        intro k hk
        obtain ⟨n, f, q1, q2, _⟩ := (w3 k).1 hk
        obtain ⟨k', q3, q4⟩ := hj f (List.mem_of_getElem? q1)
        rw [q2] at q3; cases q3; exact q4
      by_cases ha : asked = []
      · subst ha
        obtain ⟨handles, q1, q2, q3, q4, q5, _⟩ := w5 rfl
        subst q1
        refine ⟨.busy job, 6, 0, ⟨?_, rfl, h3⟩, .inl (by simp)⟩
        have hc : c' = ⟨some (job, handles), [], true, true⟩ := by
          cases c'; simp only at q2 q3 q4 q5; subst q2 q3 q4 q5; rfl
        subst hc
        simp only [List.map_nil, List.append_nil, e2]
        exact Inv.running
      · obtain ⟨q1, q2, q3, q4⟩ := w4 ha
        subst q1
        refine ⟨.busy job, 7, 2 * asked.length, ⟨?_, rfl, h3⟩, .inl (by simp)⟩
        simp only [List.nil_append, e2]
        exact Inv.fetching (ks2 := []) job asked q2 ha q3 q4 hstore
    | fetching job' ks1 ks2 =>
      cases ks2 with
      | nil => cases hg
      | cons k ks2 => cases hg
    | atServer => cases hg
    | ready => cases hg
    | running => cases hg
    | done => cases hg
    | asking => cases hg
    | mailed => cases hg
    | sending => cases hg
  | provideFile k =>
    rw [nk_cons rfl] at h1
    generalize hg : Down.provideFile k :: nk rest = d at h1
    cases h1 with
    | fetching job ks1 ks2 hw hne hs1 hs2 hst =>
      cases ks2 with
      | nil => cases hg
      | cons k' ks2 =>
        injection hg with e1 e2
        cases e1
        obtain ⟨c', st, p1, _, p3, p4⟩ := onProvide_spec hw (by simp : k ∈ (k :: ks2) ++ ks1)
        have hers : ((k :: ks2) ++ ks1).erase k = ks2 ++ ks1 := by simp
        rw [hers] at p3 p4
        simp only [Sys.onDown, p1]
        by_cases hn : ks2 ++ ks1 = []
        · obtain ⟨handles, q1, q2, q3, q4, q5, _⟩ := p4 hn
          subst q1
          refine ⟨_, 6, 0, ⟨?_, rfl, h3⟩, .inl (by simp)⟩
          have hc : c' = ⟨some (job, handles), [], true, true⟩ := by
            cases c'; simp only at q2 q3 q4 q5; subst q2 q3 q4 q5; rfl
          subst hc
          obtain ⟨n1, n2⟩ := List.append_eq_nil_iff.1 hn
          subst n1 n2
          simp only [e2, List.map_nil]
          exact Inv.running
        · obtain ⟨q1, q2, q3, q4⟩ := p3 hn
          subst q1
          refine ⟨_, 7, 2 * ks1.length, ⟨?_, rfl, h3⟩, .inr ⟨rfl, by simp⟩⟩
          simp only [e2]
          exact Inv.fetching job ks1 ks2 q2 hn (q3.trans hs1) (q4.trans hs2) hst
    | assigned => cases hg
    | atServer => cases hg
    | ready => cases hg
    | running => cases hg
    | done => cases hg
    | asking => cases hg
    | mailed => cases hg
    | sending => cases hg
  | askFiles files =>
    rw [nk_cons rfl] at h1
    generalize hg : Down.askFiles files :: nk rest = d at h1
    cases h1 with
    | asking hr =>
      injection hg with e1 e2
      cases e1
      refine ⟨stage, 3, 0, ⟨?_, rfl, h3⟩, .inl (by simp)⟩
      simp only [Sys.onDown, if_true, e2]
      exact Inv.mailed hr
    | fetching job' ks1 ks2 =>
      cases ks2 with
      | nil => cases hg
      | cons k ks2 => cases hg
    | assigned => cases hg
    | atServer => cases hg
    | ready => cases hg
    | running => cases hg
    | done => cases hg
    | mailed => cases hg
    | sending => cases hg

/-- The manager. -/
theorem manager_inv {s : Sys} {stage : Stage} {a b : Nat} (h : s.Inv stage a b)
    {m : Up} {rest : List Up} (hu : s.up = m :: rest) :
    ∃ stage' a' b', (({ s with up := rest } : Sys).onUp m).Inv stage' a' b' ∧
      Lt (a', b' + (({ s with up := rest } : Sys).onUp m).down.length)
        (a, b + s.down.length) := by
  obtain ⟨h1, h2, h3⟩ := h
  obtain ⟨cur, th, mb, up, down, mgr, store, free, killed, log, failed⟩ := s
  simp only at *
  subst hu h2
  generalize hup : m :: rest = u at h1
  generalize hnk : nk down = d at h1
  cases h1 with
  | atServer outputs ps hr hp =>
    cases ps with
    | nil =>
      simp only [List.map_nil, List.nil_append] at hup
      cases hup
      rcases hr with ⟨_, q2, q3⟩ | ⟨_, _, _, q1, _⟩
      · subst q2 q3
        refine ⟨.free, 0, 0, ⟨?_, rfl, Hist.connected h3⟩, .inl (by simp)⟩
        simp only [Sys.onUp, hnk]
        exact Inv.ready
      · exact absurd rfl q1
    | cons p ps =>
      simp only [List.map_cons, List.cons_append, prov] at hup
      injection hup with e1 e2
      subst e1 e2
      obtain ⟨stage', r1, r2, mgr', log', r3⟩ := rep_provide (s :=
        ⟨{}, .none, none, ps.map prov ++ [.getWork], down, mgr, store, false, killed, log, none⟩)
        hr (hp p (by simp)) rfl h3
      simp only [prov] at r1 r2 r3
      rw [r3] at r1 r2 ⊢
      refine ⟨stage', 1, ps.length + 1, ⟨?_, rfl, r2⟩, .inr ⟨rfl, by simp⟩⟩
      simp only [hnk]
      exact Inv.atServer outputs ps r1 (fun q hq => hp q (List.mem_cons_of_mem _ hq))
  | ready => cases hup
  | assigned => cases hup
  | fetching job ks1 ks2 hw hne hs1 hs2 hst =>
    cases ks1 with
    | nil => cases hup
    | cons k ks1 =>
      simp only [List.map_cons] at hup
      injection hup with e1 e2
      subst e1 e2
      refine ⟨.busy job, 7, 2 * ks1.length, ⟨?_, ?_, ?_⟩, .inr ⟨rfl, ?_⟩⟩
      · simp only [Sys.onUp, hst k (by simp), if_true, nk_append, hnk]
        have : nk [Down.provideFile k] = [k].map Down.provideFile := rfl
        rw [this, ← List.map_append]
        exact Inv.fetching job ks1 (ks2 ++ [k]) (by simpa using hw) (by simp) hs1 hs2
          (fun k' hk' => hst k' (List.mem_cons_of_mem _ hk'))
      · simp only [Sys.onUp, hst k (by simp), if_true]
      · simp only [Sys.onUp, hst k (by simp), if_true]; exact h3
      · simp only [Sys.onUp, hst k (by simp), if_true, List.length_append, List.length_cons,
          List.length_nil]
        omega
  | running => cases hup
  | done job results outputs hwf =>
    cases hup
    obtain ⟨s1, s2, s3⟩ := splitOutputs_spec store _ hwf
    simp only [Sys.onUp]
    by_cases hn : (splitOutputs store outputs).2 = []
    · simp only [hn, if_true]
      refine ⟨.offline, 4, 0, ⟨?_, rfl, Hist.result _ h3 (fun u => s3 u (by rw [hn]; simp))⟩,
        .inl (by simp)⟩
      simp only [nk_append, hnk, List.nil_append]
      exact Inv.asking (.inl ⟨rfl, rfl, rfl⟩)
    · simp only [hn, if_false]
      refine ⟨_, 4, 0, ⟨?_, rfl, h3⟩, .inl (by simp)⟩
      simp only [nk_append, hnk, List.nil_append]
      exact Inv.asking (.inr ⟨_, _, _, hn, rfl, rfl, s1, s2, s3⟩)
  | asking => cases hup
  | mailed => cases hup
  | sending ps rest' hr hp =>
    cases ps with
    | nil => cases hup
    | cons p ps =>
      simp only [List.map_cons, prov] at hup
      injection hup with e1 e2
      subst e1 e2
      obtain ⟨stage', r1, r2, mgr', log', r3⟩ := rep_provide (s :=
        ⟨_, .sending _ rest', none, ps.map prov, down, mgr, store, false, killed, log, none⟩)
        hr (hp p (by simp)) rfl h3
      simp only [prov] at r1 r2 r3
      rw [r3] at r1 r2 ⊢
      refine ⟨stage', 2, 3 * rest'.length + ps.length, ⟨?_, rfl, r2⟩, .inr ⟨rfl, ?_⟩⟩
      · simp only [hnk]
        exact Inv.sending ps rest' r1 (fun q hq => hp q (List.mem_cons_of_mem _ hq))
      · simp only [List.length_cons]; omega

/-- Every internal step preserves the invariant and makes the measure smaller. -/
theorem internal_inv {s s' : Sys} {stage : Stage} {a b : Nat} (h : s.Inv stage a b)
    (hs : Internal s s') :
    ∃ stage' a' b', s'.Inv stage' a' b' ∧ Lt (a', b' + s'.down.length) (a, b + s.down.length) := by
  cases hs with
  | main present m rest _ hd => exact main_inv h present hd
  | manager m rest _ hu => exact manager_inv h hu
  | finish job handles results outputs _ ht hlen hwf =>
    obtain ⟨h1, h2, h3⟩ := h
    obtain ⟨cur, th, mb, up, down, mgr, store, free, killed, log, failed⟩ := s
    simp only at *
    subst ht h2
    generalize hnk : nk down = d at h1
    cases h1
    refine ⟨_, 5, 0, ⟨?_, rfl, Hist.finished _ _ h3 hlen⟩, .inl (by simp)⟩
    simp only [hnk, List.nil_append]
    exact Inv.done _ _ _ hwf
  | take outputs files _ ht hm =>
    obtain ⟨h1, h2, h3⟩ := h
    obtain ⟨cur, th, mb, up, down, mgr, store, free, killed, log, failed⟩ := s
    simp only at *
    subst ht hm h2
    generalize hnk : nk down = d at h1
    cases h1 with
    | mailed hr =>
      refine ⟨stage, 2, 3 * files.length + 0, ⟨?_, rfl, h3⟩, .inl (by simp)⟩
      simp only [hnk]
      exact Inv.sending [] files (by simpa using hr) (by simp)
  | provide outputs u rest _ ht =>
    obtain ⟨h1, h2, h3⟩ := h
    obtain ⟨cur, th, mb, up, down, mgr, store, free, killed, log, failed⟩ := s
    simp only at *
    subst ht h2
    generalize hnk : nk down = d at h1
    cases h1 with
    | sending ps _ hr hp =>
      have hk : ∃ k, outputs.get? u = some k := by
        rcases hr with ⟨q, _⟩ | ⟨_, _, _, _, _, _, _, q, _⟩
        · simp at q
        · exact q u (by simp)
      obtain ⟨k, hk⟩ := hk
      refine ⟨stage, 2, 3 * rest.length + (ps ++ [(u, k)]).length, ⟨?_, rfl, h3⟩, .inr ⟨rfl, ?_⟩⟩
      · simp only [hk, hnk]
        have : ps.map prov ++ [Up.provideFile u k] = (ps ++ [(u, k)]).map prov := by
          rw [List.map_append]; rfl
        rw [this]
        refine Inv.sending (ps ++ [(u, k)]) rest (by simpa using hr) ?_
        intro p hp'
        rcases List.mem_append.1 hp' with hp' | hp'
        · exact hp p hp'
        · have := List.mem_singleton.1 hp'; subst this; exact hk
      · simp only [List.length_append, List.length_cons, List.length_nil]; omega
  | complete outputs _ ht =>
    obtain ⟨h1, h2, h3⟩ := h
    obtain ⟨cur, th, mb, up, down, mgr, store, free, killed, log, failed⟩ := s
    simp only at *
    subst ht h2
    generalize hnk : nk down = d at h1
    cases h1 with
    | sending ps _ hr hp =>
      refine ⟨stage, 1, ps.length + 1, ⟨?_, rfl, h3⟩, .inl (by simp)⟩
      simp only [hnk]
      exact Inv.atServer outputs ps (by simpa using hr) hp

/-- Every reachable state satisfies the invariant. -/
theorem reach_inv {store : List FileStoreKey} {s : Sys} (h : Reach store s) :
    ∃ stage a b, s.Inv stage a b := by
  induction h with
  | start =>
    refine ⟨.offline, 1, 1, ?_, rfl, Hist.start⟩
    exact Inv.atServer [] [] (.inl ⟨rfl, rfl, rfl⟩) (by simp)
  | @step s s' hr hs ih =>
    obtain ⟨stage, a, b, hi⟩ := ih
    cases hs with
    | internal hin =>
      obtain ⟨stage', a', b', h', _⟩ := internal_inv hi hin
      exact ⟨stage', a', b', h'⟩
    | assign job _ hf hj =>
      obtain ⟨h1, h2, h3⟩ := hi
      obtain ⟨cur, th, mb, up, down, mgr, store, free, killed, log, failed⟩ := s
      simp only at *
      subst hf h2
      generalize hnk : nk down = d at h1
      cases h1
      refine ⟨.busy job, 8, 0, ?_, rfl, Hist.assigned job h3⟩
      simp only [nk_append, hnk, List.nil_append]
      exact Inv.assigned hj
    | kill g _ =>
      obtain ⟨h1, h2, h3⟩ := hi
      refine ⟨stage, a, b, ?_, h2, h3⟩
      simp only [nk_append]
      have : nk [Down.killJob g] = [] := rfl
      rw [this, List.append_nil]
      exact h1

end TM.Worker
