import Verif.CheckDag.Lemmas
import Verif.CheckDag.SpecLemmas
/-! Assembly of the loop lemmas into facts about `checkDag`. -/

namespace TM.CheckDag
open TM.DagSpec

theorem flatMap_flatMap' {α β γ : Type} (l : List α) (f : α → List β) (g : β → List γ) :
    (l.flatMap f).flatMap g = l.flatMap (fun x => (f x).flatMap g) := by
  induction l with
  | nil => rfl
  | cons a l ih => simp [List.flatMap_append, ih]

/-- The conditions the first loop checks, in terms of the specification. -/
theorem groupsCond_init (dag : DagData) :
    groupsCond {} dag.executionGroups ↔
      (∀ u g, (u, g) ∈ dag.executionGroups → g.executions ≠ []) ∧
      (∀ u g, (u, g) ∈ dag.executionGroups → g.fifo.Nodup) ∧
      ((allExecs dag).map (·.uuid)).Nodup ∧
      (∀ e ∈ allExecs dag, e.captureStdout ≠ none → e.stdout ≠ none) ∧
      (∀ e ∈ allExecs dag, e.captureStderr ≠ none → e.stderr ≠ none) ∧
      (dag.executionGroups.flatMap (fun p => p.2.outs)).Nodup := by
  have e1 : (dag.executionGroups.flatMap (·.2.executions)).flatMap Execution.outputFiles =
      dag.executionGroups.flatMap (fun p => p.2.outs) := flatMap_flatMap' _ _ _
  simp only [groupsCond, execsCond, allExecs, Prod.forall, e1]
  constructor
  · rintro ⟨a, b, c, _, d, e, f, _⟩; exact ⟨a, b, c, d, e, f⟩
  · rintro ⟨a, b, c, d, e, f⟩; exact ⟨a, b, c, fun _ _ => by simp, d, e, f, fun _ _ => by simp⟩

/-- What holds when the visit starts, i.e. when the first loop and the provided files passed. -/
structure Phase1Ok (dag : DagData) (st : Phase1) (known : List FileUuid) : Prop where
  cond : groupsCond {} dag.executionGroups
  files : (allFiles dag).Nodup
  known : ∀ f, f ∈ known ↔ f ∈ allFiles dag
  execs : ∀ e, e ∈ st.knownExecs ↔ e ∈ (allExecs dag).map (·.uuid)
  visit : ∃ num P dr, visit dag.executionGroups st.dependencies
      (2 * dag.executionGroups.length + 3) st.numDependencies st.readyGroups
      dag.providedFiles.keys = .ok num ∧
    VInv dag.executionGroups dag.providedFiles.keys num [] [] P dr

theorem phase1_ok {dag : DagData} (hw : dag.Wf) {st : Phase1} {known : List FileUuid}
    (h1 : checkGroups {} dag.executionGroups = .ok st)
    (h2 : insertFiles st.knownFiles dag.providedFiles.keys = .ok known) :
    Phase1Ok dag st known := by
  rw [checkGroups_ok] at h1
  obtain ⟨hc, rfl⟩ := h1
  rw [insertFiles_ok] at h2
  obtain ⟨hp1, hp2, rfl⟩ := h2
  have hout := ((groupsCond_init dag).1 hc).2.2.2.2.2
  have hmemk : ∀ f, f ∈ (dag.executionGroups.foldl p1step {}).knownFiles ↔
      f ∈ dag.executionGroups.flatMap (fun p => p.2.outs) := by
    intro f; rw [foldl_p1_knownFiles]; simp
  have hfiles : (allFiles dag).Nodup := by
    refine List.nodup_append.2 ⟨hout, hp1, ?_⟩
    rintro f hf f' hf' rfl
    exact hp2 f hf' ((hmemk f).2 hf)
  refine ⟨hc, hfiles, ?_, ?_, ?_⟩
  · intro f
    rw [List.mem_append, hmemk, allFiles, List.mem_append, List.mem_reverse]
    exact or_comm
  · intro e; rw [foldl_p1_knownExecs]; simp [allExecs]
  · have hd : DepsTable dag.executionGroups (dag.executionGroups.foldl p1step {}).dependencies := by
      intro f u
      rw [foldl_p1_deps _ _ hw.groups]
      simp [depsAt]
    refine visit_spec _ _ hd _ hfiles _ _ _ _ [] [] ?_ ?_
    · have hrg := foldl_p1_ready dag.executionGroups {}
      rw [hrg]
      have hmem : ∀ u, u ∈ (dag.executionGroups.filter (fun p => p.2.deps.length == 0)).map (·.1) ↔
          ∃ g, AMap.get? dag.executionGroups u = some g ∧ g.deps = [] := by
        intro u
        simp only [List.mem_map, List.mem_filter, beq_iff_eq, List.length_eq_zero_iff]
        constructor
        · rintro ⟨⟨a, g⟩, ⟨hm, hz⟩, rfl⟩
          exact ⟨g, AMap.get?_of_mem hw.groups hm, hz⟩
        · rintro ⟨g, hg, hz⟩
          exact ⟨(u, g), ⟨AMap.mem_of_get? hg, hz⟩, rfl⟩
      refine ⟨foldl_p1_num_wf _ _ AMap.wf_nil, ?_, ?_, ?_, ?_, ?_, ?_, .nil⟩
      · intro u
        rw [foldl_p1_num _ _ hw.groups]
        cases AMap.get? dag.executionGroups u with
        | none => rfl
        | some g => simp [pending]
      · intro u g hg
        rw [pending_eq_zero]
        simp only [List.nil_append, hmem]
        constructor
        · intro h; exact ⟨g, hg, List.eq_nil_iff_forall_not_mem.2 fun f hf => by simpa using h f hf⟩
        · rintro ⟨g', hg', hz⟩; rw [hg] at hg'; cases hg'; simp [hz]
      · simp only [List.nil_append]
        exact List.Nodup.sublist (List.Sublist.map _ List.filter_sublist) hw.groups
      · intro u hu
        simp only [List.nil_append] at hu
        obtain ⟨g, hg, _⟩ := (hmem u).1 hu
        exact ⟨g, hg⟩
      · simp
      · simpa using hp1
    · simp; split <;> omega

theorem map_groups_perm {dag : DagData} (hw : dag.Wf) (dr : List GroupUuid) (hn : dr.Nodup)
    (hall : ∀ u, u ∈ dr ↔ ∃ g, dag.executionGroups.get? u = some g) :
    (dr.map (fun u => (u, (dag.executionGroups.get? u).getD ⟨0, [], []⟩))).Perm
      dag.executionGroups := by
  have hnd : ∀ {l : List (GroupUuid × ExecutionGroup)}, (l.map (·.1)).Nodup → l.Nodup := by
    intro l h
    exact List.Pairwise.imp (fun h => by rintro rfl; exact h rfl) (List.pairwise_map.1 h)
  refine (List.perm_ext_iff_of_nodup (hnd (by simpa [Function.comp_def] using hn))
    (hnd hw.groups)).2 ?_
  rintro ⟨u, g⟩
  simp only [List.mem_map, Prod.mk.injEq]
  constructor
  · rintro ⟨v, hv, rfl, rfl⟩
    obtain ⟨g, hg⟩ := (hall v).1 hv
    rw [hg]; exact AMap.mem_of_get? hg
  · intro hm
    have := AMap.get?_of_mem hw.groups hm
    exact ⟨u, (hall u).2 ⟨g, this⟩, rfl, by simp [this]⟩

theorem sched_runnable {dag : DagData} {dr : List GroupUuid}
    (h : Sched dag.executionGroups dag.providedFiles.keys dr) :
    Runnable dag (dr.map (fun u => (u, (dag.executionGroups.get? u).getD ⟨0, [], []⟩))) := by
  induction h with
  | nil => exact .nil
  | snoc dr u g _ hg hd ih =>
    rw [List.map_append]
    refine Runnable.snoc _ u _ ih ?_
    rw [hg]
    intro f hf
    rcases hd f hf with h | ⟨v, hv, hf⟩
    · exact Or.inl h
    · refine Or.inr ⟨_, List.mem_map.2 ⟨v, hv, rfl⟩, ?_⟩
      simp only [outsOf] at hf
      cases hgv : dag.executionGroups.get? v with
      | none => simp [hgv] at hf
      | some gv => simpa [hgv] using hf

/-- After the visit: all groups drained iff the DAG is executable. -/
theorem all_drained_iff {dag : DagData} (hw : dag.Wf) {num : AMap GroupUuid Nat}
    {P : List FileUuid} {dr : List GroupUuid}
    (hv : VInv dag.executionGroups dag.providedFiles.keys num [] [] P dr) :
    (∀ u g, dag.executionGroups.get? u = some g → u ∈ dr) ↔ Executable dag := by
  constructor
  · intro hall
    refine ⟨_, map_groups_perm hw dr (by simpa using hv.nodup) ?_, sched_runnable hv.sched⟩
    intro u
    exact ⟨fun h => hv.known u (by simpa using h), fun ⟨g, hg⟩ => hall u g hg⟩
  · rintro ⟨order, hperm, hrun⟩
    have key : ∀ pre : List (GroupUuid × ExecutionGroup), Runnable dag pre →
        (∀ p ∈ pre, p ∈ dag.executionGroups) → ∀ p ∈ pre, p.1 ∈ dr := by
      intro pre hr
      induction hr with
      | nil => simp
      | snoc pre u g _ hd ih =>
        intro hsub
        have ih := ih (fun p hp => hsub p (by simp [hp]))
        intro p hp
        rcases List.mem_append.1 hp with hp | hp
        · exact ih p hp
        · have : p = (u, g) := by simpa using hp
          subst this
          have hg : dag.executionGroups.get? u = some g :=
            AMap.get?_of_mem hw.groups (hsub (u, g) (by simp))
          have : pending P g = 0 := by
            rw [pending_eq_zero]
            intro f hf
            have := (hv.files f).2
            simp only [List.append_nil] at this
            rcases hd f hf with h | ⟨q, hq, hfq⟩
            · exact this (Or.inl h)
            · refine this (Or.inr ⟨q.1, ih q hq, ?_⟩)
              have hgq : dag.executionGroups.get? q.1 = some q.2 :=
                AMap.get?_of_mem hw.groups (hsub q (by simp [hq]))
              simp [outsOf, hgq, hfq]
          simpa using (hv.zero u g hg).1 this
    intro u g hg
    exact key order hrun (fun p hp => hperm.mem_iff.1 hp) (u, g)
      (hperm.mem_iff.2 (AMap.mem_of_get? hg))

theorem checkReached_cases (groups : AMap GroupUuid ExecutionGroup) (known : List FileUuid)
    (num : List (GroupUuid × Nat)) (hk : ∀ p ∈ num, ∃ g, groups.get? p.1 = some g) :
    ((∀ p ∈ num, p.2 = 0) ∧ checkReached groups known num = .ok ()) ∨
    (∃ u c g, (u, c) ∈ num ∧ c ≠ 0 ∧ groups.get? u = some g ∧
      ((∃ f, checkReached groups known num = .error (.missingFile f) ∧ f ∈ g.deps ∧ f ∉ known) ∨
       (checkReached groups known num = .error (.cycleDetected u) ∧ ∀ f ∈ g.deps, f ∈ known))) := by
  induction num with
  | nil => left; simp [checkReached]
  | cons p num ih =>
    obtain ⟨u, c⟩ := p
    simp only [checkReached]
    by_cases hc : c = 0
    · rw [if_pos hc]
      rcases ih (fun p hp => hk p (by simp [hp])) with ⟨a, b⟩ | ⟨u', c', g, hm, hne, hg, h⟩
      · exact Or.inl ⟨by simpa [hc] using a, b⟩
      · exact Or.inr ⟨u', c', g, by simp [hm], hne, hg, h⟩
    · rw [if_neg hc]
      obtain ⟨g, hg⟩ := hk (u, c) (by simp)
      simp only at hg
      right
      refine ⟨u, c, g, by simp, hc, hg, ?_⟩
      rw [hg]
      cases hf : firstUnknown known g.deps with
      | none =>
        right
        refine ⟨by simp only [hf], ?_⟩
        intro f hfd
        have := List.find?_eq_none.1 hf f hfd
        simpa using this
      | some f =>
        left
        refine ⟨f, by simp only [hf], List.mem_of_find?_eq_some hf, ?_⟩
        have := List.find?_some hf
        simpa using this

theorem checkFileCallbacks_cases (known fs : List FileUuid) :
    ((∀ f ∈ fs, f ∈ known) ∧ checkFileCallbacks known fs = .ok ()) ∨
    (∃ f ∈ fs, f ∉ known ∧ checkFileCallbacks known fs = .error (.missingFile f)) := by
  induction fs with
  | nil => simp [checkFileCallbacks]
  | cons f fs ih =>
    simp only [checkFileCallbacks]
    by_cases h : f ∈ known
    · rw [if_pos h]
      rcases ih with ⟨a, b⟩ | ⟨f', a, b, c⟩
      · left; exact ⟨by simpa [h] using a, b⟩
      · right; exact ⟨f', by simp [a], b, c⟩
    · rw [if_neg h]; right; exact ⟨f, by simp, h, rfl⟩

theorem checkExecCallbacks_cases (known fs : List ExecutionUuid) :
    ((∀ f ∈ fs, f ∈ known) ∧ checkExecCallbacks known fs = .ok ()) ∨
    (∃ f ∈ fs, f ∉ known ∧ checkExecCallbacks known fs = .error (.missingExecution f)) := by
  induction fs with
  | nil => simp [checkExecCallbacks]
  | cons f fs ih =>
    simp only [checkExecCallbacks]
    by_cases h : f ∈ known
    · rw [if_pos h]
      rcases ih with ⟨a, b⟩ | ⟨f', a, b, c⟩
      · left; exact ⟨by simpa [h] using a, b⟩
      · right; exact ⟨f', by simp [a], b, c⟩
    · rw [if_neg h]; right; exact ⟨f, by simp, h, rfl⟩

/-! ### Errors of the first loop -/

theorem checkFifos_err {seen fs : List FifoUuid} {err : DagError}
    (h : checkFifos seen fs = .error err) : ∃ f, err = .duplicateFifo f := by
  induction fs generalizing seen with
  | nil => simp [checkFifos] at h
  | cons f fs ih =>
    simp only [checkFifos] at h
    split at h
    · cases h; exact ⟨f, rfl⟩
    · exact ih h

theorem insertFiles_err {known fs : List FileUuid} {err : DagError}
    (h : insertFiles known fs = .error err) : ∃ f ∈ fs, err = .duplicateFile f ∧
      (f ∈ known ∨ 2 ≤ fs.count f) := by
  induction fs generalizing known with
  | nil => simp [insertFiles] at h
  | cons f fs ih =>
    simp only [insertFiles] at h
    split at h
    · next hk => cases h; exact ⟨f, by simp, rfl, Or.inl hk⟩
    · obtain ⟨f', hm, he, h'⟩ := ih h
      refine ⟨f', by simp [hm], he, ?_⟩
      rcases h' with h' | h'
      · rcases List.mem_cons.1 h' with rfl | h'
        · right
          have := List.count_pos_iff.2 hm
          rw [List.count_cons_self]; omega
        · exact Or.inl h'
      · right
        have : fs.count f' ≤ (f :: fs).count f' := List.count_le_count_cons
        omega

theorem checkExecs_err {u : GroupUuid} {st : Phase1} {c : Nat} {es : List Execution}
    {err : DagError} (h : checkExecs u st c es = .error err) :
    (∃ x, err = .duplicateExecution x) ∨ (∃ x, err = .invalidCapture x) ∨
    (∃ f, err = .duplicateFile f) := by
  induction es generalizing st c with
  | nil => simp [checkExecs] at h
  | cons e es ih =>
    simp only [checkExecs] at h
    split at h
    · cases h; exact Or.inl ⟨_, rfl⟩
    · split at h
      · cases h; exact Or.inr (Or.inl ⟨_, rfl⟩)
      · split at h
        · cases h; exact Or.inr (Or.inl ⟨_, rfl⟩)
        · split at h
          · next hi =>
            cases h
            obtain ⟨f, _, he, _⟩ := insertFiles_err hi
            exact Or.inr (Or.inr ⟨f, he⟩)
          · exact ih h

theorem checkGroups_err {st : Phase1} {gs : List (GroupUuid × ExecutionGroup)} {err : DagError}
    (h : checkGroups st gs = .error err) :
    (∃ u, err = .emptyGroup u) ∨ (∃ f, err = .duplicateFifo f) ∨
    (∃ x, err = .duplicateExecution x) ∨ (∃ x, err = .invalidCapture x) ∨
    (∃ f, err = .duplicateFile f) := by
  induction gs generalizing st with
  | nil => simp [checkGroups] at h
  | cons p gs ih =>
    obtain ⟨u, g⟩ := p
    simp only [checkGroups] at h
    split at h
    · cases h; exact Or.inl ⟨_, rfl⟩
    · split at h
      · next hf => cases h; exact Or.inr (Or.inl (checkFifos_err hf))
      · split at h
        · next he => cases h; exact Or.inr (Or.inr (checkExecs_err he))
        · exact ih h

/-- The complete case analysis of `checkDag` on a well formed DAG. -/
theorem checkDag_cases (dag : DagData) (cb : WatchSet) (hw : dag.Wf) :
    (checkDag dag cb = .ok () ∧ WellFormed dag cb ∧ Executable dag) ∨
    (∃ err, checkDag dag cb = .error err ∧ ¬ (WellFormed dag cb ∧ Executable dag) ∧
      (match err with
        | .panic => False
        | .outOfFuel => False
        | .missingFile f => f ∉ allFiles dag ∧
            (f ∈ cb.files ∨ ∃ u g, (u, g) ∈ dag.executionGroups ∧ f ∈ g.deps)
        | .missingExecution e => e ∈ cb.executions ∧ e ∉ (allExecs dag).map (·.uuid)
        | .cycleDetected u => ¬ Executable dag ∧ u ∈ dag.executionGroups.keys
        | _ => ¬ WellFormed dag cb)) := by
  unfold checkDag
  cases h1 : checkGroups {} dag.executionGroups with
  | error err =>
    right
    have hnot : ¬ WellFormed dag cb := by
      intro hwf
      have hc : groupsCond {} dag.executionGroups := (groupsCond_init dag).2
        ⟨hwf.nonempty, hwf.fifos, hwf.execs, hwf.captureOut, hwf.captureErr,
          (List.nodup_append.1 hwf.files).1⟩
      have : checkGroups {} dag.executionGroups = .ok _ := checkGroups_ok.2 ⟨hc, rfl⟩
      rw [h1] at this; cases this
    refine ⟨err, rfl, fun h => hnot h.1, ?_⟩
    rcases checkGroups_err h1 with ⟨x, rfl⟩ | ⟨x, rfl⟩ | ⟨x, rfl⟩ | ⟨x, rfl⟩ | ⟨x, rfl⟩ <;> exact hnot
  | ok st =>
    simp only
    cases h2 : insertFiles st.knownFiles dag.providedFiles.keys with
    | error err =>
      right
      have hnot : ¬ WellFormed dag cb := by
        intro hwf
        obtain ⟨_, rfl⟩ := checkGroups_ok.1 h1
        have hf := List.nodup_append.1 hwf.files
        have : insertFiles (dag.executionGroups.foldl p1step {}).knownFiles
            dag.providedFiles.keys = .ok _ := insertFiles_ok.2 ⟨hf.2.1, fun f hfp hk => by
              rw [foldl_p1_knownFiles] at hk
              simp only [List.not_mem_nil, false_or] at hk
              exact hf.2.2 f hk f hfp rfl, rfl⟩
        rw [h2] at this; cases this
      refine ⟨err, rfl, fun h => hnot h.1, ?_⟩
      obtain ⟨f, _, rfl, _⟩ := insertFiles_err h2
      exact hnot
    | ok known =>
      have hp := phase1_ok hw h1 h2
      obtain ⟨num, P, dr, hvis, hinv⟩ := hp.visit
      simp only [hvis]
      have hg := (groupsCond_init dag).1 hp.cond
      have hk : ∀ p ∈ num, ∃ g, dag.executionGroups.get? p.1 = some g := by
        rintro ⟨u, c⟩ hm
        have h3 := AMap.get?_of_mem hinv.wf hm
        rw [hinv.num u] at h3
        cases h4 : dag.executionGroups.get? u with
        | none => rw [h4] at h3; simp at h3
        | some g => exact ⟨g, rfl⟩
      have hex : (∀ p ∈ num, p.2 = 0) ↔ Executable dag := by
        rw [← all_drained_iff hw hinv]
        constructor
        · intro h u g hg
          have h3 : num.get? u = some (pending P g) := by rw [hinv.num u, hg]; rfl
          have := h _ (AMap.mem_of_get? h3)
          simpa using (hinv.zero u g hg).1 this
        · rintro h ⟨u, c⟩ hm
          obtain ⟨g, hg⟩ := hk _ hm
          have h3 := AMap.get?_of_mem hinv.wf hm
          rw [hinv.num u, hg] at h3
          simp only [Option.map_some, Option.some.injEq] at h3
          rw [← h3]
          exact (hinv.zero u g hg).2 (by simpa using h u g hg)
      rcases checkReached_cases dag.executionGroups known num hk with
        ⟨hz, hr⟩ | ⟨u, c, g, hm, hne, hgu, h⟩
      · rw [hr]
        simp only
        rcases checkFileCallbacks_cases known cb.files with ⟨hfc, hr2⟩ | ⟨f, hf1, hf2, hr2⟩
        · rw [hr2]
          simp only
          rcases checkExecCallbacks_cases st.knownExecs cb.executions with
            ⟨hec, hr3⟩ | ⟨e, he1, he2, hr3⟩
          · left
            refine ⟨hr3, ⟨hg.1, hg.2.1, hg.2.2.1, hg.2.2.2.1, hg.2.2.2.2.1, hp.files, ?_, ?_⟩,
              hex.1 hz⟩
            · exact fun f hf => (hp.known f).1 (hfc f hf)
            · exact fun e he => (hp.execs e).1 (hec e he)
          · right
            have : e ∉ (allExecs dag).map (·.uuid) := fun h => he2 ((hp.execs e).2 h)
            exact ⟨_, hr3, fun h => this (h.1.execCallbacks e he1), he1, this⟩
        · right
          rw [hr2]
          have : f ∉ allFiles dag := fun h => hf2 ((hp.known f).2 h)
          exact ⟨_, rfl, fun h => this (h.1.fileCallbacks f hf1), this, Or.inl hf1⟩
      · right
        have hnex : ¬ Executable dag := fun h => hne (hex.2 h (u, c) hm)
        rcases h with ⟨f, hr, hfd, hfk⟩ | ⟨hr, _⟩
        · rw [hr]
          exact ⟨_, rfl, fun h => hnex h.2, fun h => hfk ((hp.known f).2 h),
            Or.inr ⟨u, g, AMap.mem_of_get? hgu, hfd⟩⟩
        · rw [hr]
          exact ⟨_, rfl, fun h => hnex h.2, hnex, AMap.mem_keys_iff.2 ⟨g, hgu⟩⟩

end TM.CheckDag
