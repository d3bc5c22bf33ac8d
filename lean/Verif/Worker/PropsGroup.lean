import Verif.Worker.Group
/-!
# C48: the results of a group are those of its executions, in order
-/
namespace TM.Worker

/-! ## Specification -/

/-- The key under which a file of the sandbox is stored: an absent file counts as empty. -/
def FileState.key? (hash : List Nat → FileStoreKey) : FileState → Option FileStoreKey
  | .content bytes => some (hash bytes)
  | .absent => some (hash [])
  | .unreadable _ => none

/-- `res` is the result of an execution: that of the sandbox, unless an output cannot be read, which
is an internal error. -/
structure FinalOf (e : Execution) (r : SandboxResult) (box : Box) (res : ExecutionResult) :
    Prop where
  resources : res.resources = (computeResult e r box).resources
  wasKilled : res.wasKilled = (computeResult e r box).wasKilled
  wasCached : res.wasCached = false
  stdout : res.stdout = (computeResult e r box).stdout
  stderr : res.stderr = (computeResult e r box).stderr
  readable : (∀ p ∈ outputsOf e box, ∀ err, p.2 ≠ .unreadable err) →
    res.status = (computeResult e r box).status
  unreadable : (∃ p ∈ outputsOf e box, ∃ err, p.2 = .unreadable err) →
    res.status.isInternalError = true

/-! ## Lemmas -/

theorem outputsOf_fst (e : Execution) (box : Box) :
    (outputsOf e box).map (·.1) = e.outputFiles := by
  unfold outputsOf Execution.outputFiles
  simp only [List.map_append, List.map_map]
  congr 1
  · cases e.stdout <;> rfl
  · congr 1
    cases e.stderr <;> rfl

theorem addFile_status_congr (hash : List Nat → FileStoreKey) (L : List (FileUuid × FileState)) :
    ∀ (o o' : AMap FileUuid FileStoreKey) (s : ExecutionStatus),
      (L.foldl (addFile hash) (o, s)).2 = (L.foldl (addFile hash) (o', s)).2 := by
  induction L with
  | nil => intro o o' s; rfl
  | cons p L ih =>
    intro o o' s
    simp only [List.foldl_cons, addFile]
    cases p.2 <;> exact ih _ _ _

theorem addFile_status_readable (hash : List Nat → FileStoreKey) (L : List (FileUuid × FileState)) :
    ∀ (o : AMap FileUuid FileStoreKey) (s : ExecutionStatus),
      (∀ p ∈ L, ∀ err, p.2 ≠ .unreadable err) → (L.foldl (addFile hash) (o, s)).2 = s := by
  induction L with
  | nil => intro o s _; rfl
  | cons p L ih =>
    intro o s h
    simp only [List.foldl_cons, addFile]
    cases hp : p.2 with
    | unreadable e => exact absurd hp (h p (by simp) e)
    | absent => exact ih _ _ (fun q hq => h q (List.mem_cons_of_mem _ hq))
    | content b => exact ih _ _ (fun q hq => h q (List.mem_cons_of_mem _ hq))

theorem addFile_status_internal (hash : List Nat → FileStoreKey) (L : List (FileUuid × FileState)) :
    ∀ (o : AMap FileUuid FileStoreKey) (s : ExecutionStatus), s.isInternalError = true →
      (L.foldl (addFile hash) (o, s)).2.isInternalError = true := by
  induction L with
  | nil => intro o s h; exact h
  | cons p L ih =>
    intro o s h
    simp only [List.foldl_cons, addFile]
    cases p.2 with
    | unreadable e => exact ih _ _ rfl
    | absent => exact ih _ _ h
    | content b => exact ih _ _ h

theorem addFile_status_unreadable (hash : List Nat → FileStoreKey) (L : List (FileUuid × FileState)) :
    ∀ (o : AMap FileUuid FileStoreKey) (s : ExecutionStatus),
      (∃ p ∈ L, ∃ err, p.2 = .unreadable err) →
      (L.foldl (addFile hash) (o, s)).2.isInternalError = true := by
  induction L with
  | nil => rintro o s ⟨p, hp, _⟩; cases hp
  | cons p L ih =>
    rintro o s ⟨q, hq, err, he⟩
    simp only [List.foldl_cons]
    rcases List.mem_cons.1 hq with rfl | hq
    · simp only [addFile, he]
      exact addFile_status_internal hash L _ _ rfl
    · exact ih _ _ ⟨q, hq, err, he⟩

theorem addFile_outputs (hash : List Nat → FileStoreKey) (L : List (FileUuid × FileState)) :
    ∀ (o : AMap FileUuid FileStoreKey) (s : ExecutionStatus), AMap.Wf o →
      (L.map (·.1)).Nodup → (∀ u ∈ L.map (·.1), o.get? u = none) →
      AMap.Wf (L.foldl (addFile hash) (o, s)).1 ∧
      ∀ u k, (L.foldl (addFile hash) (o, s)).1.get? u = some k ↔
        o.get? u = some k ∨ ∃ fs, (u, fs) ∈ L ∧ fs.key? hash = some k := by
  induction L with
  | nil => intro o s hw _ _; exact ⟨hw, by simp⟩
  | cons p L ih =>
    intro o s hw hn hd
    simp only [List.map_cons, List.nodup_cons] at hn
    have hstep : ∃ o', addFile hash (o, s) p = (o', (addFile hash (o, s) p).2) ∧ AMap.Wf o' ∧
        ∀ u k, o'.get? u = some k ↔ o.get? u = some k ∨ (u = p.1 ∧ p.2.key? hash = some k) := by
      have hp0 := hd p.1 (by simp)
      have hins : ∀ k0, ∀ u k, (o.insert p.1 k0).get? u = some k ↔
          o.get? u = some k ∨ (u = p.1 ∧ some k0 = some k) := by
        intro k0 u k
        rw [AMap.get?_insert]
        by_cases hu : u = p.1
        · subst hu; simp [hp0]
        · simp [hu]
      unfold addFile
      cases hp : p.2 with
      | unreadable e => exact ⟨o, rfl, hw, by simp [FileState.key?]⟩
      | absent => exact ⟨_, rfl, AMap.wf_insert hw _ _, hins _⟩
      | content b => exact ⟨_, rfl, AMap.wf_insert hw _ _, hins _⟩
    obtain ⟨o', e1, e2, e3⟩ := hstep
    simp only [List.foldl_cons]
    rw [e1]
    obtain ⟨i1, i2⟩ := ih o' (addFile hash (o, s) p).2 e2 hn.2 (by
      intro u hu
      cases hg : o'.get? u with
      | none => rfl
      | some k =>
        rcases (e3 u k).1 hg with h | ⟨h, _⟩
        · rw [hd u (by simp [List.mem_map.1 hu])] at h; cases h
        · subst h; exact absurd hu hn.1)
    refine ⟨i1, ?_⟩
    intro u k
    rw [i2, e3]
    obtain ⟨pu, pf⟩ := p
    simp only [List.mem_cons, Prod.mk.injEq]
    constructor
    · rintro ((h | ⟨h1, h2⟩) | ⟨fs, h1, h2⟩)
      · exact .inl h
      · exact .inr ⟨pf, .inl ⟨h1, rfl⟩, h2⟩
      · exact .inr ⟨fs, .inr h1, h2⟩
    · rintro (h | ⟨fs, ⟨h1, h2⟩ | h1, h3⟩)
      · exact .inl (.inl h)
      · subst h2; exact .inl (.inr ⟨h1, h3⟩)
      · exact .inr ⟨fs, h1, h3⟩

/-- The result sent for the `i`-th execution. -/
def finalResult (hash : List Nat → FileStoreKey) (e : Execution) (r : SandboxResult) (box : Box) :
    ExecutionResult :=
  { computeResult e r box with
    status := (getOutputs hash e box [] (computeResult e r box).status).2 }

theorem computeResult_wasCached (e : Execution) (r : SandboxResult) (box : Box) :
    (computeResult e r box).wasCached = false := by
  cases r <;> rfl

theorem finalResult_final (hash : List Nat → FileStoreKey) (e : Execution) (r : SandboxResult)
    (box : Box) : FinalOf e r box (finalResult hash e r box) :=
  ⟨rfl, rfl, computeResult_wasCached e r box, rfl, rfl, addFile_status_readable hash _ _ _,
    addFile_status_unreadable hash _ _ _⟩

theorem outs_disjoint {execs : List Execution}
    (hn : (execs.flatMap Execution.outputFiles).Nodup) {i j : Nat} {a b : Execution}
    (hi : execs[i]? = some a) (hj : execs[j]? = some b) (hne : i ≠ j) {u : FileUuid}
    (ha : u ∈ a.outputFiles) : u ∉ b.outputFiles := by
  obtain ⟨_, hp⟩ := List.pairwise_flatMap.1 hn
  have key : ∀ {i j : Nat} {a b : Execution}, execs[i]? = some a → execs[j]? = some b → i < j →
      ∀ x ∈ a.outputFiles, ∀ y ∈ b.outputFiles, x ≠ y := by
    intro i j a b hi hj hlt
    rw [List.getElem?_eq_some_iff] at hi hj
    obtain ⟨hi1, rfl⟩ := hi
    obtain ⟨hj1, rfl⟩ := hj
    exact List.pairwise_iff_getElem.1 hp i j hi1 hj1 hlt
  intro hb
  rcases Nat.lt_or_gt_of_ne hne with h | h
  · exact key hi hj h u ha u hb rfl
  · exact key hj hi h u hb u ha rfl

/-- The invariant of the loop after the executions `done` have ended. -/
structure LoopInv (hash : List Nat → FileStoreKey) (execs : List Execution) (boxes : Nat → Box)
    (outcome : Nat → SandboxResult) (done : List Nat) (st : GroupState) : Prop where
  len : st.results.length = execs.length
  results : ∀ i e, execs[i]? = some e → st.results[i]? =
    some (if i ∈ done then some (finalResult hash e (outcome i) (boxes i)) else none)
  wf : AMap.Wf st.outputs
  outputs : ∀ u k, st.outputs.get? u = some k ↔ ∃ i ∈ done, ∃ e fs, execs[i]? = some e ∧
    (u, fs) ∈ outputsOf e (boxes i) ∧ fs.key? hash = some k

theorem onSandbox_inv {hash : List Nat → FileStoreKey} {execs : List Execution}
    {boxes : Nat → Box} {outcome : Nat → SandboxResult}
    (hn : (execs.flatMap Execution.outputFiles).Nodup) {done : List Nat} {st : GroupState}
    (h : LoopInv hash execs boxes outcome done st) {i : Nat} (hi : i < execs.length)
    (hid : i ∉ done) :
    ∃ st', onSandbox hash execs boxes st i (outcome i) = some st' ∧
      LoopInv hash execs boxes outcome (done ++ [i]) st' ∧
      st'.kills = st.kills ++
        if (computeResult execs[i] (outcome i) (boxes i)).status.isSuccess then []
        else ((List.range execs.length).filter (fun j => decide (j ≠ i) && decide (j ∉ done))).map
          (fun j => (i, j)) := by
  have he : execs[i]? = some execs[i] := List.getElem?_eq_getElem hi
  have hr := h.results i _ he
  rw [if_neg hid] at hr
  unfold onSandbox
  rw [hr, he]
  simp only
  refine ⟨_, rfl, ⟨?_, ?_, ?_, ?_⟩, ?_⟩
  · simp [h.len]
  · intro j e hj
    rw [List.getElem?_set]
    by_cases hij : i = j
    · subst hij
      rw [he] at hj
      cases hj
      have hlen : i < st.results.length := by rw [h.len]; exact hi
      simp only [if_true, hlen, List.mem_append, List.mem_singleton, or_true, finalResult]
      congr 3
      exact addFile_status_congr hash _ _ _ _
    · rw [if_neg hij, h.results j e hj]
      have : ¬ j = i := fun e => hij e.symm
      simp [this]
  · refine (addFile_outputs hash _ _ _ h.wf ?_ ?_).1
    · rw [outputsOf_fst]
      exact (List.pairwise_flatMap.1 hn).1 _ (List.getElem_mem hi)
    · intro u hu
      rw [outputsOf_fst] at hu
      cases hg : st.outputs.get? u with
      | none => rfl
      | some k =>
        obtain ⟨j, hj, e', fs, q1, q2, _⟩ := (h.outputs u k).1 hg
        have hne : i ≠ j := fun e => hid (e ▸ hj)
        exact absurd (by rw [← outputsOf_fst e' (boxes j)]; exact List.mem_map.2 ⟨_, q2, rfl⟩)
          (outs_disjoint hn he q1 hne hu)
  · intro u k
    have := (addFile_outputs hash (outputsOf execs[i] (boxes i)) st.outputs
      (computeResult execs[i] (outcome i) (boxes i)).status h.wf (by
        rw [outputsOf_fst]
        exact (List.pairwise_flatMap.1 hn).1 _ (List.getElem_mem hi)) (by
        intro u hu
        rw [outputsOf_fst] at hu
        cases hg : st.outputs.get? u with
        | none => rfl
        | some k =>
          obtain ⟨j, hj, e', fs, q1, q2, _⟩ := (h.outputs u k).1 hg
          have hne : i ≠ j := fun e => hid (e ▸ hj)
          exact absurd (by rw [← outputsOf_fst e' (boxes j)]; exact List.mem_map.2 ⟨_, q2, rfl⟩)
            (outs_disjoint hn he q1 hne hu))).2 u k
    simp only [getOutputs]
    rw [this, h.outputs]
    constructor
    · rintro (⟨j, hj, e', fs, q1, q2, q3⟩ | ⟨fs, q1, q2⟩)
      · exact ⟨j, List.mem_append_left _ hj, e', fs, q1, q2, q3⟩
      · exact ⟨i, by simp, execs[i], fs, he, q1, q2⟩
    · rintro ⟨j, hj, e', fs, q1, q2, q3⟩
      rcases List.mem_append.1 hj with hj | hj
      · exact .inl ⟨j, hj, e', fs, q1, q2, q3⟩
      · have := List.mem_singleton.1 hj
        subst this
        rw [he] at q1; cases q1
        exact .inr ⟨fs, q2, q3⟩
  · simp only
    congr 1
    cases (computeResult execs[i] (outcome i) (boxes i)).status.isSuccess with
    | true => rfl
    | false =>
      simp only [Bool.false_eq_true, if_false, h.len]
      congr 1
      apply List.filter_congr
      intro j hj
      have hj' : j < execs.length := by simpa using hj
      rw [h.results j _ (List.getElem?_eq_getElem hj')]
      by_cases hjd : j ∈ done <;> simp [hjd]

theorem groupLoop_inv {hash : List Nat → FileStoreKey} {execs : List Execution}
    {boxes : Nat → Box} {outcome : Nat → SandboxResult}
    (hn : (execs.flatMap Execution.outputFiles).Nodup) :
    ∀ (order done : List Nat) (st : GroupState), LoopInv hash execs boxes outcome done st →
      (∀ i ∈ order, i < execs.length ∧ i ∉ done) → order.Nodup →
      ∃ st', groupLoop hash execs boxes outcome st order = some st' ∧
        LoopInv hash execs boxes outcome (done ++ order) st' := by
  intro order
  induction order with
  | nil => intro done st h _ _; exact ⟨st, rfl, by simpa using h⟩
  | cons i is ih =>
    intro done st h ho hnd
    obtain ⟨st1, e1, h1, _⟩ := onSandbox_inv hn h (ho i (by simp)).1 (ho i (by simp)).2
    unfold groupLoop
    rw [e1]
    obtain ⟨st2, e2, h2⟩ := ih (done ++ [i]) st1 h1 (by
      intro j hj
      refine ⟨(ho j (List.mem_cons_of_mem _ hj)).1, ?_⟩
      have hne : j ≠ i := by rintro rfl; exact (List.nodup_cons.1 hnd).1 hj
      simp [hne, (ho j (List.mem_cons_of_mem _ hj)).2]) (List.nodup_cons.1 hnd).2
    exact ⟨st2, e2, by simpa using h2⟩

theorem groupStart_inv (hash : List Nat → FileStoreKey) (execs : List Execution)
    (boxes : Nat → Box) (outcome : Nat → SandboxResult) :
    LoopInv hash execs boxes outcome [] (groupStart execs) := by
  refine ⟨by simp [groupStart], ?_, AMap.wf_nil, by simp [groupStart]⟩
  intro i e he
  simp [groupStart, he]

/-! ## Theorems -/

/-- Whatever the order in which the sandboxes end, the worker reports one result per execution, in the
order of the executions, each being the result of that execution; and for each declared output the
key of the file the execution left in its sandbox (the empty file if there is none), and nothing
else.  In particular what is reported does not depend on the order. -/
theorem group_results (hash : List Nat → FileStoreKey) (g : ExecutionGroup) (boxes : Nat → Box)
    (outcome : Nat → SandboxResult) (hn : g.outs.Nodup) (order : List Nat)
    (ho : order.Perm (List.range g.executions.length)) :
    ∃ st results outputs,
      groupLoop hash g.executions boxes outcome (groupStart g.executions) order = some st ∧
      workerDone st = some (results, outputs) ∧ results.length = g.executions.length ∧
      (∀ (i : Nat) (e : Execution), g.executions[i]? = some e →
        ∃ res, results[i]? = some res ∧ FinalOf e (outcome i) (boxes i) res) ∧
      AMap.Wf outputs ∧
      ∀ u k, outputs.get? u = some k ↔ ∃ (i : Nat) (e : Execution) (fs : FileState),
        g.executions[i]? = some e ∧ (u, fs) ∈ outputsOf e (boxes i) ∧ fs.key? hash = some k := by
  obtain ⟨st, h1, h2⟩ := groupLoop_inv hn order [] _ (groupStart_inv hash g.executions boxes outcome)
    (by intro i hi; exact ⟨by simpa using ho.mem_iff.1 hi, by simp⟩)
    (ho.nodup_iff.2 List.nodup_range)
  rw [List.nil_append] at h2
  have hmem : ∀ (i : Nat) (e : Execution), g.executions[i]? = some e → i ∈ order := by
    intro i e he
    rw [ho.mem_iff, List.mem_range]
    exact (List.getElem?_eq_some_iff.1 he).1
  have hsome : ∀ r ∈ st.results, r.isSome = true := by
    intro r hr
    obtain ⟨i, hi⟩ := List.mem_iff_getElem?.1 hr
    have hlt : i < g.executions.length := by
      rw [← h2.len]; exact (List.getElem?_eq_some_iff.1 hi).1
    have he := List.getElem?_eq_getElem hlt
    rw [h2.results i _ he, if_pos (hmem i _ he)] at hi
    cases hi; rfl
  have hm : ∀ (l : List (Option ExecutionResult)), (∀ r ∈ l, r.isSome = true) →
      ∃ rs, l.mapM id = some rs ∧ rs.map some = l := by
    intro l
    induction l with
    | nil => intro _; exact ⟨[], rfl, rfl⟩
    | cons a l ih =>
      intro h
      obtain ⟨rs, q1, q2⟩ := ih (fun r hr => h r (List.mem_cons_of_mem _ hr))
      cases a with
      | none => have := h none (by simp); cases this
      | some a => exact ⟨a :: rs, by simp [List.mapM_cons, q1], by simp [q2]⟩
  obtain ⟨rs, q1, q2⟩ := hm st.results hsome
  refine ⟨st, rs, st.outputs, h1, by simp [workerDone, q1], ?_, ?_, h2.wf, ?_⟩
  · rw [← h2.len, ← q2]; simp
  · intro i e he
    have := h2.results i e he
    rw [if_pos (hmem i e he), ← q2] at this
    simp only [List.getElem?_map] at this
    cases hr : rs[i]? with
    | none => rw [hr] at this; cases this
    | some res =>
      rw [hr] at this
      simp only [Option.map_some, Option.some.injEq] at this
      exact ⟨res, rfl, this ▸ finalResult_final hash e (outcome i) (boxes i)⟩
  · intro u k
    rw [h2.outputs]
    constructor
    · rintro ⟨i, _, e, fs, q⟩; exact ⟨i, e, fs, q⟩
    · rintro ⟨i, e, fs, q⟩; exact ⟨i, hmem i e q.1, e, fs, q⟩

/-- If every output can be read the report has the shape the scheduler relies on. -/
theorem group_report_ok (hash : List Nat → FileStoreKey) (g : ExecutionGroup) (boxes : Nat → Box)
    (outcome : Nat → SandboxResult) (hn : g.outs.Nodup) (order : List Nat)
    (ho : order.Perm (List.range g.executions.length))
    (hread : ∀ (i : Nat) (e : Execution), g.executions[i]? = some e →
      ∀ p ∈ outputsOf e (boxes i), ∀ err, p.2 ≠ .unreadable err) :
    ∃ st results outputs,
      groupLoop hash g.executions boxes outcome (groupStart g.executions) order = some st ∧
      workerDone st = some (results, outputs) ∧ Sched.ResultOk g results outputs := by
  obtain ⟨st, results, outputs, h1, h2, h3, _, h5, h6⟩ :=
    group_results hash g boxes outcome hn order ho
  refine ⟨st, results, outputs, h1, h2, h3, h5, ?_⟩
  intro u
  rw [AMap.mem_keys_iff]
  constructor
  · rintro ⟨k, hk⟩
    obtain ⟨i, e, fs, q1, q2, _⟩ := (h6 u k).1 hk
    refine List.mem_flatMap.2 ⟨e, List.mem_of_getElem? q1, ?_⟩
    rw [← outputsOf_fst e (boxes i)]
    exact List.mem_map.2 ⟨_, q2, rfl⟩
  · intro hu
    obtain ⟨e, he, hue⟩ := List.mem_flatMap.1 hu
    obtain ⟨i, hi⟩ := List.mem_iff_getElem?.1 he
    rw [← outputsOf_fst e (boxes i)] at hue
    obtain ⟨p, hp, rfl⟩ := List.mem_map.1 hue
    cases hfs : p.2 with
    | unreadable err => exact absurd hfs (hread i e hi p hp err)
    | absent => exact ⟨hash [], (h6 _ _).2 ⟨i, e, p.2, hi, hp, by rw [hfs]; rfl⟩⟩
    | content b => exact ⟨hash b, (h6 _ _).2 ⟨i, e, p.2, hi, hp, by rw [hfs]; rfl⟩⟩

/-- The kill requests: when an execution does not succeed exactly the executions that have not ended
yet are told to terminate. -/
theorem group_kills (hash : List Nat → FileStoreKey) (g : ExecutionGroup) (boxes : Nat → Box)
    (outcome : Nat → SandboxResult) (hn : g.outs.Nodup) (order : List Nat)
    (ho : order.Perm (List.range g.executions.length)) :
    ∃ st, groupLoop hash g.executions boxes outcome (groupStart g.executions) order = some st ∧
      ∀ i j, (i, j) ∈ st.kills ↔
        (∃ pre mid post, order = pre ++ i :: mid ++ j :: post) ∧
        ∃ e, g.executions[i]? = some e ∧
          (computeResult e (outcome i) (boxes i)).status.isSuccess = false := by
  have key : ∀ (rest done : List Nat) (st : GroupState),
      LoopInv hash g.executions boxes outcome done st →
      (done ++ rest).Perm (List.range g.executions.length) →
      ∃ st', groupLoop hash g.executions boxes outcome st rest = some st' ∧
        ∀ i j, (i, j) ∈ st'.kills ↔ (i, j) ∈ st.kills ∨
          ((∃ pre mid post, rest = pre ++ i :: mid ++ j :: post) ∧
          ∃ e, g.executions[i]? = some e ∧
            (computeResult e (outcome i) (boxes i)).status.isSuccess = false) := by
    intro rest
    induction rest with
    | nil => intro done st h _; exact ⟨st, rfl, by simp⟩
    | cons i is ih =>
      intro done st h hp
      have hnd := hp.nodup_iff.2 List.nodup_range
      have hi : i < g.executions.length := by simpa using hp.mem_iff.1 (by simp : i ∈ done ++ i :: is)
      have hid : i ∉ done := by
        intro hd
        exact (List.nodup_append.1 hnd).2.2 i hd i (by simp) rfl
      obtain ⟨st1, e1, h1, hk⟩ := onSandbox_inv hn h hi hid
      unfold groupLoop
      rw [e1]
      obtain ⟨st2, e2, h2⟩ := ih (done ++ [i]) st1 h1 (by simpa using hp)
      refine ⟨st2, e2, ?_⟩
      intro a b
      have hin : (a, b) ∈ (if (computeResult g.executions[i] (outcome i) (boxes i)).status.isSuccess
          then [] else ((List.range g.executions.length).filter
            (fun j => decide (j ≠ i) && decide (j ∉ done))).map (fun j => (i, j))) ↔
          a = i ∧ b ∈ is ∧ ∃ e, g.executions[a]? = some e ∧
            (computeResult e (outcome a) (boxes a)).status.isSuccess = false := by
        have hb : b ∈ is ↔ b < g.executions.length ∧ b ≠ i ∧ b ∉ done := by
          rw [← List.mem_range, ← hp.mem_iff]
          constructor
          · intro hb
            refine ⟨by simp [hb], ?_, ?_⟩
            · rintro rfl
              exact (List.nodup_cons.1 (List.nodup_append.1 hnd).2.1).1 hb
            · intro hd
              exact (List.nodup_append.1 hnd).2.2 b hd b (by simp [hb]) rfl
          · rintro ⟨h1, h2, h3⟩
            simp only [List.mem_append, List.mem_cons] at h1
            rcases h1 with h1 | h1 | h1
            · exact absurd h1 h3
            · exact absurd h1 h2
            · exact h1
        cases hs : (computeResult g.executions[i] (outcome i) (boxes i)).status.isSuccess with
        | true =>
          simp only [if_true, List.not_mem_nil, false_iff]
          rintro ⟨rfl, _, e, q1, q2⟩
          rw [List.getElem?_eq_getElem hi] at q1; cases q1
          rw [hs] at q2; cases q2
        | false =>
          simp only [Bool.false_eq_true, if_false, List.mem_map, List.mem_filter, List.mem_range,
            Prod.mk.injEq, Bool.and_eq_true, decide_eq_true_eq]
          rw [hb]
          constructor
          · rintro ⟨j, ⟨q1, q2, q3⟩, rfl, rfl⟩
            exact ⟨rfl, ⟨q1, q2, q3⟩, _, List.getElem?_eq_getElem hi, hs⟩
          · rintro ⟨rfl, ⟨q1, q2, q3⟩, _⟩
            exact ⟨b, ⟨q1, q2, q3⟩, rfl, rfl⟩
      rw [h2, hk, List.mem_append, hin]
      constructor
      · rintro ((h | ⟨rfl, h, h'⟩) | ⟨⟨pre, mid, post, h⟩, h'⟩)
        · exact .inl h
        · obtain ⟨mid, post, rfl⟩ := List.append_of_mem h
          exact .inr ⟨⟨[], mid, post, rfl⟩, h'⟩
        · exact .inr ⟨⟨i :: pre, mid, post, by rw [h]; rfl⟩, h'⟩
      · rintro (h | ⟨⟨pre, mid, post, h⟩, h'⟩)
        · exact .inl (.inl h)
        · cases pre with
          | nil =>
            injection h with q1 q2
            subst q1
            exact .inl (.inr ⟨rfl, by rw [q2]; simp, h'⟩)
          | cons p pre =>
            injection h with q1 q2
            exact .inr ⟨⟨pre, mid, post, q2⟩, h'⟩
  obtain ⟨st, h1, h2⟩ := key order [] _ (groupStart_inv hash g.executions boxes outcome)
    (by simpa using ho)
  refine ⟨st, h1, ?_⟩
  intro i j
  rw [h2]
  simp [groupStart]

/-- The special case of a single execution does the same as the general one. -/
theorem single_same (hash : List Nat → FileStoreKey) (e : Execution) (box : Box)
    (r : SandboxResult) :
    ((groupLoop hash [e] (fun _ => box) (fun _ => r) (groupStart [e]) [0]).bind workerDone) =
      some (singleGroup hash e box r) := by
  simp [groupLoop, onSandbox, groupStart, workerDone, singleGroup]

/-- A sandbox that could not run the program is an internal error. -/
theorem sandbox_error_is_internal (e : Execution) (box : Box) (msg : String) :
    (computeResult e (readRaw (.error msg)) box).status.isInternalError = true := rfl

/-- A program that exits within the limits succeeds iff its exit code is zero (the captured streams
being readable); the memory limit is checked against the usage rounded down to KiB. -/
theorem exit_code_status (e : Execution) (box : Box) (code : Nat) (user system wall : Int)
    (memory : Nat) (h1 : ∀ l, e.limits.cpuTime = some l → user ≤ l)
    (h2 : ∀ l, e.limits.sysTime = some l → system ≤ l)
    (h3 : ∀ l, e.limits.wallTime = some l → wall ≤ l)
    (h4 : ∀ l, e.limits.memory = some l → memory / 1024 ≤ l)
    (h5 : ∃ o, capture box.stdout e.captureStdout = .ok o)
    (h6 : ∃ o, capture box.stderr e.captureStderr = .ok o) :
    (computeResult e (readRaw (.success (.exitCode code) user system wall memory)) box).status =
      if code = 0 then .success else .returnCode code := by
  obtain ⟨o1, h5⟩ := h5
  obtain ⟨o2, h6⟩ := h6
  have over_false : ∀ (l : Option Int) (x : Int), (∀ v, l = some v → x ≤ v) →
      Execution.over l x = false := by
    intro l x h
    cases l with
    | none => rfl
    | some v => simpa [Execution.over] using h v rfl
  have mem_false : Execution.overMem e.limits.memory (memory / 1024) = false := by
    cases hm : e.limits.memory with
    | none => rfl
    | some v => simpa [Execution.overMem] using h4 v hm
  simp only [readRaw, computeResult, h5, h6, Execution.status, over_false _ _ h1,
    over_false _ _ h2, over_false _ _ h3, mem_false]
  by_cases hc : code = 0 <;> simp [hc]

/-- A program killed by the sandbox never succeeds. -/
theorem killed_never_success (e : Execution) (box : Box) (user system wall : Int) (memory : Nat) :
    (computeResult e (readRaw (.success .killed user system wall memory)) box).status.isSuccess =
      false ∧
    (computeResult e (readRaw (.success .killed user system wall memory)) box).wasKilled = true := by
  refine ⟨?_, rfl⟩
  simp only [readRaw, computeResult]
  cases capture box.stdout e.captureStdout with
  | error _ => rfl
  | ok _ =>
    cases capture box.stderr e.captureStderr with
    | error _ => rfl
    | ok _ =>
      simp only [Execution.status]
      split
      · rfl
      · split
        · rfl
        · split
          · rfl
          · split <;> rfl

/-- A program terminated by a signal within the limits is reported with that signal, and never
succeeds whatever it used. -/
theorem signal_status (e : Execution) (box : Box) (sig : Nat) (name : Option String)
    (user system wall : Int) (memory : Nat) :
    (computeResult e (readRaw (.success (.signal sig name) user system wall memory)) box).status.isSuccess
      = false ∧
    ((∀ l, e.limits.cpuTime = some l → user ≤ l) → (∀ l, e.limits.sysTime = some l → system ≤ l) →
      (∀ l, e.limits.wallTime = some l → wall ≤ l) →
      (∀ l, e.limits.memory = some l → memory / 1024 ≤ l) →
      (∃ o, capture box.stdout e.captureStdout = .ok o) →
      (∃ o, capture box.stderr e.captureStderr = .ok o) →
      (computeResult e (readRaw (.success (.signal sig name) user system wall memory)) box).status =
        .signal sig (name.getD "unknown")) := by
  constructor
  · simp only [readRaw, computeResult]
    cases capture box.stdout e.captureStdout with
    | error _ => rfl
    | ok _ =>
      cases capture box.stderr e.captureStderr with
      | error _ => rfl
      | ok _ =>
        simp only [Execution.status]
        split
        · rfl
        · split
          · rfl
          · split
            · rfl
            · split <;> rfl
  · rintro h1 h2 h3 h4 ⟨o1, h5⟩ ⟨o2, h6⟩
    have over_false : ∀ (l : Option Int) (x : Int), (∀ v, l = some v → x ≤ v) →
        Execution.over l x = false := by
      intro l x h
      cases l with
      | none => rfl
      | some v => simpa [Execution.over] using h v rfl
    have mem_false : Execution.overMem e.limits.memory (memory / 1024) = false := by
      cases hm : e.limits.memory with
      | none => rfl
      | some v => simpa [Execution.overMem] using h4 v hm
    simp only [readRaw, computeResult, h5, h6, Execution.status, over_false _ _ h1,
      over_false _ _ h2, over_false _ _ h3, mem_false]
    rfl

/-- What a run that took place reports: the times measured by the sandbox, the memory in KiB, and the
beginning of each stream whose capture was asked for, standard output as standard output and standard
error as standard error. -/
theorem result_reports (e : Execution) (box : Box) (status : ExitStatus) (user system wall : Int)
    (memory : Nat) :
    let res := computeResult e (readRaw (.success status user system wall memory)) box
    res.resources = { cpuTime := user, sysTime := system, wallTime := wall, memory := memory / 1024 } ∧
    (res.wasKilled = true ↔ status = .killed) ∧
    (e.captureStdout = none → res.stdout = none) ∧
    (e.captureStderr = none → res.stderr = none) ∧
    (∀ n bytes, e.captureStdout = some n → box.stdout = .content bytes →
      res.stdout = captureStream bytes [] (some n)) ∧
    (∀ n bytes, e.captureStderr = some n → box.stderr = .content bytes →
      res.stderr = captureStream bytes [] (some n)) := by
  cases status <;>
    (refine ⟨rfl, by simp [readRaw, computeResult], ?_, ?_, ?_, ?_⟩ <;> intros <;>
      simp_all [readRaw, computeResult, capture, Except.toOption])

example : (computeResult { uuid := 1, captureStdout := some 2, captureStderr := some 2 }
    (readRaw (.success (.signal 11 (some "SIGSEGV")) 1 2 3 4096))
    { stdout := .content [7], stderr := .content [8, 9] }) =
      { status := .signal 11 "SIGSEGV", resources := { cpuTime := 1, sysTime := 2, wallTime := 3, memory := 4 },
        wasKilled := false, stdout := some [7], stderr := some [8, 9] } := by decide +kernel

/-! ## A concrete group -/

/-- Two executions connected by a pipe; the second fails and the first is killed. -/
def pipeGroup : ExecutionGroup where
  uuid := 3
  fifo := [8]
  executions := [{ uuid := 1, stdout := some 10 }, { uuid := 2, stderr := some 11,
                                                      captureStderr := some 5 }]

def pipeBoxes : Nat → Box
  | 0 => {}
  | _ => { stderr := .content [1, 2, 3] }

def pipeOutcome : Nat → SandboxResult
  | 0 => readRaw (.success .killed 0 0 1 2048)
  | _ => readRaw (.success (.exitCode 4) 0 0 1 2048)

example : (groupLoop (fun b => ⟨toString b⟩) pipeGroup.executions pipeBoxes pipeOutcome
    (groupStart pipeGroup.executions) [1, 0]).map (fun st => (st.kills, st.outputs.keys)) =
    some ([(1, 0)], [10, 11]) := by
  simp [groupLoop, onSandbox, pipeGroup, pipeBoxes, pipeOutcome, groupStart, readRaw, computeResult,
    capture, Execution.status, Execution.over, Execution.overMem, ExecutionStatus.isSuccess,
    getOutputs, outputsOf, addFile, AMap.insert, AMap.keys, AMap.erase, captureStream]
  decide

example : pipeGroup.outs.Nodup ∧ [1, 0].Perm (List.range pipeGroup.executions.length) :=
  ⟨by decide, by decide⟩

end TM.Worker
