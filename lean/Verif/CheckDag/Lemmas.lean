import Verif.CheckDag.Model
import Verif.CheckDag.Spec
/-! Helper lemmas for the DAG validator: what each loop computes. -/

namespace TM.CheckDag

theorem insertFiles_ok {known fs k : List FileUuid} :
    insertFiles known fs = .ok k ↔
      fs.Nodup ∧ (∀ f ∈ fs, f ∉ known) ∧ k = fs.reverse ++ known := by
  induction fs generalizing known with
  | nil => simp [insertFiles, eq_comm]
  | cons f fs ih =>
    simp only [insertFiles]
    split
    · next h => simp [h]
    · next h =>
      rw [ih]
      simp only [List.mem_cons, not_or, List.nodup_cons, List.reverse_cons, List.append_assoc,
        List.cons_append, List.nil_append, forall_eq_or_imp]
      constructor
      · rintro ⟨a, b, c⟩
        exact ⟨⟨fun hm => (b f hm).1 rfl, a⟩, ⟨h, fun x hx => (b x hx).2⟩, c⟩
      · rintro ⟨⟨a1, a2⟩, ⟨_, b⟩, c⟩
        exact ⟨a2, fun x hx => ⟨fun e => a1 (e ▸ hx), b x hx⟩, c⟩

theorem checkFifos_ok {seen fs : List FifoUuid} :
    checkFifos seen fs = .ok () ↔ fs.Nodup ∧ (∀ f ∈ fs, f ∉ seen) := by
  induction fs generalizing seen with
  | nil => simp [checkFifos]
  | cons f fs ih =>
    simp only [checkFifos]
    split
    · next h => simp [h]
    · next h =>
      rw [ih]
      simp only [List.mem_cons, not_or, List.nodup_cons, forall_eq_or_imp]
      constructor
      · rintro ⟨a, b⟩
        exact ⟨⟨fun hm => (b f hm).1 rfl, a⟩, h, fun x hx => (b x hx).2⟩
      · rintro ⟨⟨a1, a2⟩, _, b⟩
        exact ⟨a2, fun x hx => ⟨fun e => a1 (e ▸ hx), b x hx⟩⟩

/-- `dependencies.get(file)` with the empty vector for an absent entry. -/
def depsAt (m : AMap FileUuid (List GroupUuid)) (f : FileUuid) : List GroupUuid :=
  (m.get? f).getD []

theorem addDependencies_append (m : AMap FileUuid (List GroupUuid)) (u : GroupUuid)
    (a b : List FileUuid) :
    addDependencies m u (a ++ b) = addDependencies (addDependencies m u a) u b := by
  induction a generalizing m with
  | nil => rfl
  | cons f fs ih => simp [addDependencies, ih]

theorem depsAt_addDependencies (m : AMap FileUuid (List GroupUuid)) (u : GroupUuid)
    (fs : List FileUuid) (f : FileUuid) :
    depsAt (addDependencies m u fs) f = depsAt m f ++ List.replicate (fs.count f) u := by
  induction fs generalizing m with
  | nil => simp [addDependencies]
  | cons g fs ih =>
    simp only [addDependencies]
    rw [ih]
    unfold depsAt
    rw [AMap.get?_insert]
    by_cases h : f = g
    · subst h; simp [List.replicate_succ]
    · have : ¬ g = f := fun e => h e.symm
      simp [h, this]

/-- Closed form of one iteration of the loop over the groups. -/
def p1step (st : Phase1) (p : GroupUuid × ExecutionGroup) : Phase1 :=
  { dependencies := addDependencies st.dependencies p.1 p.2.deps
    numDependencies := st.numDependencies.insert p.1 p.2.deps.length
    knownFiles := p.2.outs.reverse ++ st.knownFiles
    knownExecs := (p.2.executions.map (·.uuid)).reverse ++ st.knownExecs
    readyGroups := if p.2.deps.length = 0 then st.readyGroups ++ [p.1] else st.readyGroups }

/-- The conditions the loop over the executions checks. -/
def execsCond (st : Phase1) (es : List Execution) : Prop :=
  (es.map (·.uuid)).Nodup ∧ (∀ x ∈ es.map (·.uuid), x ∉ st.knownExecs) ∧
  (∀ e ∈ es, e.captureStdout ≠ none → e.stdout ≠ none) ∧
  (∀ e ∈ es, e.captureStderr ≠ none → e.stderr ≠ none) ∧
  (es.flatMap Execution.outputFiles).Nodup ∧
  (∀ f ∈ es.flatMap Execution.outputFiles, f ∉ st.knownFiles)

theorem checkExecs_ok {u : GroupUuid} {st : Phase1} {c : Nat} {es : List Execution}
    {st' : Phase1} {c' : Nat} :
    checkExecs u st c es = .ok (st', c') ↔
      execsCond st es ∧ c' = c + (es.flatMap Execution.dependencies).length ∧
      st' = { st with
        knownExecs := (es.map (·.uuid)).reverse ++ st.knownExecs
        dependencies := addDependencies st.dependencies u (es.flatMap Execution.dependencies)
        knownFiles := (es.flatMap Execution.outputFiles).reverse ++ st.knownFiles } := by
  induction es generalizing st c with
  | nil => simp [checkExecs, execsCond, addDependencies, eq_comm, and_comm]
  | cons e es ih =>
    simp only [checkExecs]
    split
    · next h => simp [execsCond, h]
    · next h =>
      split
      · next h1 =>
        simp only [Bool.and_eq_true, Option.isSome_iff_ne_none, Option.isNone_iff_eq_none] at h1
        simp [execsCond]; intros; simp_all
      · next h1 =>
        split
        · next h2 =>
          simp only [Bool.and_eq_true, Option.isSome_iff_ne_none, Option.isNone_iff_eq_none] at h2
          simp [execsCond]; intros; simp_all
        · next h2 =>
          simp only [Bool.and_eq_true, Option.isSome_iff_ne_none, Option.isNone_iff_eq_none,
            not_and] at h1 h2
          split
          · next err hi =>
            simp only [reduceCtorEq, false_iff, not_and]
            rintro ⟨_, _, _, _, hn, hk⟩
            exfalso
            have : insertFiles st.knownFiles e.outputFiles = .ok _ :=
              insertFiles_ok.2 ⟨by
                simp only [List.flatMap_cons] at hn
                exact (List.nodup_append.1 hn).1, fun f hf => hk f (by simp [hf]), rfl⟩
            rw [hi] at this; cases this
          · next known hi =>
            rw [insertFiles_ok] at hi
            obtain ⟨hi1, hi2, rfl⟩ := hi
            rw [ih]
            simp only [execsCond, List.flatMap_cons, List.map_cons, List.length_append,
              List.reverse_cons, List.append_assoc, List.cons_append, List.nil_append,
              addDependencies_append, List.reverse_append]
            constructor
            · rintro ⟨⟨a1, a2, a3, a4, a5, a6⟩, hc, hst⟩
              refine ⟨⟨?_, ?_, ?_, ?_, ?_, ?_⟩, by omega, hst⟩
              · refine List.nodup_cons.2 ⟨fun hm => ?_, a1⟩
                exact a2 _ hm (by simp)
              · intro x hx
                rcases List.mem_cons.1 hx with rfl | hx
                · exact h
                · exact fun hk => a2 x hx (by simp [hk])
              · intro x hx
                rcases List.mem_cons.1 hx with rfl | hx
                · exact h1
                · exact a3 x hx
              · intro x hx
                rcases List.mem_cons.1 hx with rfl | hx
                · exact h2
                · exact a4 x hx
              · refine List.nodup_append.2 ⟨hi1, a5, ?_⟩
                intro x hx y hy he
                subst he
                exact a6 x hy (by simp [hx])
              · intro x hx
                rcases List.mem_append.1 hx with hx | hx
                · exact hi2 x hx
                · exact fun hk => a6 x hx (by simp [hk])
            · rintro ⟨⟨a1, a2, a3, a4, a5, a6⟩, hc, hst⟩
              obtain ⟨b1, b2⟩ := List.nodup_cons.1 a1
              obtain ⟨c1, c2, c3⟩ := List.nodup_append.1 a5
              refine ⟨⟨b2, ?_, fun x hx => a3 x (by simp [hx]), fun x hx => a4 x (by simp [hx]),
                c2, ?_⟩, by omega, hst⟩
              · intro x hx hk
                rcases List.mem_cons.1 hk with rfl | hk
                · exact b1 hx
                · exact a2 x (by simp [hx]) hk
              · intro x hx hk
                rcases List.mem_append.1 hk with hk | hk
                · exact c3 x (by simpa using hk) x hx rfl
                · exact a6 x (by simp [hx]) hk

/-- The conditions the loop over the groups checks. -/
def groupsCond (st : Phase1) (gs : List (GroupUuid × ExecutionGroup)) : Prop :=
  (∀ p ∈ gs, p.2.executions ≠ []) ∧ (∀ p ∈ gs, p.2.fifo.Nodup) ∧
  execsCond st (gs.flatMap (·.2.executions))

theorem checkGroups_ok {st : Phase1} {gs : List (GroupUuid × ExecutionGroup)} {st' : Phase1} :
    checkGroups st gs = .ok st' ↔ groupsCond st gs ∧ st' = gs.foldl p1step st := by
  induction gs generalizing st with
  | nil => simp [checkGroups, groupsCond, execsCond, eq_comm]
  | cons p gs ih =>
    obtain ⟨u, g⟩ := p
    simp only [checkGroups]
    split
    · next h => simp [groupsCond, List.isEmpty_iff.1 h]
    · next h =>
      have hne : g.executions ≠ [] := fun e => h (by simp [e])
      split
      · next err hf =>
        simp only [reduceCtorEq, false_iff, not_and]
        rintro ⟨_, hfn, _⟩
        exfalso
        have : checkFifos [] g.fifo = .ok () := checkFifos_ok.2 ⟨hfn (u, g) (by simp), by simp⟩
        rw [hf] at this; cases this
      · next hf =>
        have hf' := (checkFifos_ok.1 hf).1
        have split_cond : ∀ es : List Execution,
            execsCond st (g.executions ++ es) ↔ execsCond st g.executions ∧
              execsCond (p1step st (u, g)) es := by
          intro es
          simp only [execsCond, p1step, List.map_append, List.flatMap_append, List.nodup_append,
            ExecutionGroup.outs]
          constructor
          · rintro ⟨⟨a1, a2, a3⟩, b, c, d, ⟨e1, e2, e3⟩, f⟩
            refine ⟨⟨a1, fun x hx => b x (by simp_all), fun x hx => c x (by simp [hx]),
              fun x hx => d x (by simp [hx]), e1, fun x hx => f x (by simp_all)⟩,
              a2, ?_, fun x hx => c x (by simp [hx]), fun x hx => d x (by simp [hx]), e2, ?_⟩
            · intro x hx hk
              rcases List.mem_append.1 hk with hk | hk
              · exact a3 x (by simpa using hk) x hx rfl
              · exact b x (List.mem_append.2 (Or.inr hx)) hk
            · intro x hx hk
              rcases List.mem_append.1 hk with hk | hk
              · exact e3 x (by simpa using hk) x hx rfl
              · exact f x (List.mem_append.2 (Or.inr hx)) hk
          · rintro ⟨⟨a1, b1, c1, d1, e1, f1⟩, ⟨a2, b2, c2, d2, e2, f2⟩⟩
            refine ⟨⟨a1, a2, ?_⟩, ?_, ?_, ?_, ⟨e1, e2, ?_⟩, ?_⟩
            · rintro x hx y hy rfl
              exact b2 x hy (List.mem_append.2 (Or.inl (by simpa using hx)))
            · intro x hx
              rcases List.mem_append.1 hx with hx | hx
              · exact b1 x hx
              · exact fun hk => b2 x hx (List.mem_append.2 (Or.inr hk))
            · intro x hx
              rcases List.mem_append.1 hx with hx | hx
              · exact c1 x hx
              · exact c2 x hx
            · intro x hx
              rcases List.mem_append.1 hx with hx | hx
              · exact d1 x hx
              · exact d2 x hx
            · rintro x hx y hy rfl
              exact f2 x hy (List.mem_append.2 (Or.inl (by simpa using hx)))
            · intro x hx
              rcases List.mem_append.1 hx with hx | hx
              · exact f1 x hx
              · exact fun hk => f2 x hx (List.mem_append.2 (Or.inr hk))
        split
        · next err he =>
          simp only [reduceCtorEq, false_iff, not_and]
          rintro ⟨_, _, hc⟩
          exfalso
          simp only [List.flatMap_cons] at hc
          have : checkExecs u st 0 g.executions = .ok (_, _) :=
            checkExecs_ok.2 ⟨((split_cond _).1 hc).1, rfl, rfl⟩
          rw [he] at this; cases this
        · next st1 count he =>
          rw [checkExecs_ok] at he
          obtain ⟨hc, rfl, rfl⟩ := he
          have hstep : ({ st with
              knownExecs := (g.executions.map (·.uuid)).reverse ++ st.knownExecs
              dependencies := addDependencies st.dependencies u
                (g.executions.flatMap Execution.dependencies)
              knownFiles := (g.executions.flatMap Execution.outputFiles).reverse ++ st.knownFiles
              numDependencies := st.numDependencies.insert u
                (0 + (g.executions.flatMap Execution.dependencies).length)
              readyGroups := if 0 + (g.executions.flatMap Execution.dependencies).length = 0
                then st.readyGroups ++ [u] else st.readyGroups } : Phase1) =
              p1step st (u, g) := by
            simp [p1step, ExecutionGroup.deps, ExecutionGroup.outs]
          simp only at hstep ⊢
          rw [hstep, ih]
          simp only [groupsCond, List.foldl_cons, List.flatMap_cons, split_cond, List.mem_cons,
            forall_eq_or_imp]
          constructor
          · rintro ⟨⟨a, b, c⟩, d⟩; exact ⟨⟨⟨hne, a⟩, ⟨hf', b⟩, hc, c⟩, d⟩
          · rintro ⟨⟨⟨_, a⟩, ⟨_, b⟩, _, c⟩, d⟩; exact ⟨⟨a, b, c⟩, d⟩

/-! ### The state after the first loop -/

theorem foldl_p1_knownFiles (gs : List (GroupUuid × ExecutionGroup)) (st : Phase1) (f : FileUuid) :
    f ∈ (gs.foldl p1step st).knownFiles ↔ f ∈ st.knownFiles ∨ f ∈ gs.flatMap (·.2.outs) := by
  induction gs generalizing st with
  | nil => simp
  | cons p gs ih =>
    rw [List.foldl_cons, ih]; simp [p1step]; grind

theorem foldl_p1_knownExecs (gs : List (GroupUuid × ExecutionGroup)) (st : Phase1)
    (x : ExecutionUuid) :
    x ∈ (gs.foldl p1step st).knownExecs ↔
      x ∈ st.knownExecs ∨ x ∈ (gs.flatMap (·.2.executions)).map (·.uuid) := by
  induction gs generalizing st with
  | nil => simp
  | cons p gs ih =>
    rw [List.foldl_cons, ih]
    simp only [p1step, List.mem_append, List.mem_reverse, List.flatMap_cons, List.map_append]
    grind

theorem foldl_p1_num (gs : List (GroupUuid × ExecutionGroup)) (st : Phase1)
    (hn : AMap.Wf gs) (u : GroupUuid) :
    (gs.foldl p1step st).numDependencies.get? u =
      match AMap.get? gs u with
      | some g => some g.deps.length
      | none => st.numDependencies.get? u := by
  induction gs generalizing st with
  | nil => simp
  | cons p gs ih =>
    obtain ⟨k, g⟩ := p
    simp only [AMap.Wf, AMap.keys, List.map_cons, List.nodup_cons] at hn
    rw [List.foldl_cons, ih _ hn.2]
    simp only [p1step, AMap.get?_cons, AMap.get?_insert]
    by_cases h : k = u
    · subst h
      have : AMap.get? gs k = none := AMap.get?_eq_none_iff.2 hn.1
      simp [this]
    · have : ¬ u = k := fun e => h e.symm
      simp [h, this]

theorem foldl_p1_num_wf (gs : List (GroupUuid × ExecutionGroup)) (st : Phase1)
    (hn : AMap.Wf st.numDependencies) : AMap.Wf (gs.foldl p1step st).numDependencies := by
  induction gs generalizing st with
  | nil => simpa
  | cons p gs ih => rw [List.foldl_cons]; exact ih _ (AMap.wf_insert hn _ _)

theorem foldl_p1_deps (gs : List (GroupUuid × ExecutionGroup)) (st : Phase1)
    (hn : AMap.Wf gs) (f : FileUuid) (u : GroupUuid) :
    (depsAt (gs.foldl p1step st).dependencies f).count u =
      (depsAt st.dependencies f).count u +
      match AMap.get? gs u with
      | some g => g.deps.count f
      | none => 0 := by
  induction gs generalizing st with
  | nil => simp
  | cons p gs ih =>
    obtain ⟨k, g⟩ := p
    simp only [AMap.Wf, AMap.keys, List.map_cons, List.nodup_cons] at hn
    rw [List.foldl_cons, ih _ hn.2]
    simp only [p1step, AMap.get?_cons, depsAt_addDependencies, List.count_append,
      List.count_replicate]
    by_cases h : k = u
    · subst h
      have : AMap.get? gs k = none := AMap.get?_eq_none_iff.2 hn.1
      simp [this]
    · simp [h]

theorem foldl_p1_ready (gs : List (GroupUuid × ExecutionGroup)) (st : Phase1) :
    (gs.foldl p1step st).readyGroups =
      st.readyGroups ++ (gs.filter (fun p => p.2.deps.length == 0)).map (·.1) := by
  induction gs generalizing st with
  | nil => simp
  | cons p gs ih =>
    rw [List.foldl_cons, ih]
    simp only [p1step, List.filter_cons]
    by_cases h : p.2.deps.length = 0 <;> simp [h]

/-! ### The visit -/

theorem decrement_spec (R : List GroupUuid) (num : AMap GroupUuid Nat) (rg : List GroupUuid)
    (c : GroupUuid → Nat) (hwf : AMap.Wf num)
    (h : ∀ u ∈ R, num.get? u = some (c u + R.count u)) :
    ∃ num' new, decrement num rg R = .ok (num', rg ++ new) ∧ AMap.Wf num' ∧
      (∀ u ∈ R, num'.get? u = some (c u)) ∧ (∀ u, u ∉ R → num'.get? u = num.get? u) ∧
      new.Nodup ∧ (∀ u, u ∈ new ↔ u ∈ R ∧ c u = 0) := by
  induction R generalizing num rg with
  | nil => exact ⟨num, [], by simp [decrement, hwf]⟩
  | cons g R ih =>
    have hg := h g (by simp)
    rw [List.count_cons_self, ← Nat.add_assoc] at hg
    simp only [decrement, hg]
    have hrest : ∀ u ∈ R, (num.insert g (c g + R.count g)).get? u = some (c u + R.count u) := by
      intro u hu
      rw [AMap.get?_insert]
      by_cases he : u = g
      · subst he; simp
      · rw [if_neg he, h u (by simp [hu])]
        have : ¬ g = u := fun e => he e.symm
        simp [this]
    obtain ⟨num', new, h1, hwf', h2, h3, h4, h5⟩ := ih _
      (if c g + R.count g = 0 then rg ++ [g] else rg) (AMap.wf_insert hwf _ _) hrest
    rw [h1]
    by_cases hz : c g + R.count g = 0
    · have hgR : g ∉ R := List.count_eq_zero.1 (by omega)
      refine ⟨num', g :: new, by simp [hz], hwf', ?_, ?_, ?_, ?_⟩
      · intro u hu
        rcases List.mem_cons.1 hu with rfl | hu
        · rw [h3 _ hgR]; simp; omega
        · exact h2 u hu
      · intro u hu
        simp at hu
        rw [h3 u hu.2, AMap.get?_insert_ne _ _ hu.1]
      · exact List.nodup_cons.2 ⟨fun hm => hgR ((h5 g).1 hm).1, h4⟩
      · intro u
        simp only [List.mem_cons, h5]
        constructor
        · rintro (rfl | ⟨a, b⟩)
          · exact ⟨Or.inl rfl, by omega⟩
          · exact ⟨Or.inr a, b⟩
        · rintro ⟨rfl | a, b⟩
          · exact Or.inl rfl
          · exact Or.inr ⟨a, b⟩
    · refine ⟨num', new, by simp only [hz, if_false], hwf', ?_, ?_, h4, ?_⟩
      · intro u hu
        by_cases huR : u ∈ R
        · exact h2 u huR
        · rcases List.mem_cons.1 hu with rfl | hu
          · rw [h3 _ huR]; simp
            have := List.count_eq_zero.2 huR; omega
          · exact absurd hu huR
      · intro u hu
        simp at hu
        rw [h3 u hu.2, AMap.get?_insert_ne _ _ hu.1]
      · intro u
        rw [h5]
        constructor
        · rintro ⟨a, b⟩; exact ⟨by simp [a], b⟩
        · rintro ⟨a, b⟩
          rcases List.mem_cons.1 a with rfl | a
          · refine ⟨?_, b⟩
            exact Classical.byContradiction fun hn => by
              have := List.count_eq_zero.2 hn; omega
          · exact ⟨a, b⟩

/-- Number of dependencies of the group (with multiplicity) not among the processed files. -/
def pending (P : List FileUuid) (g : ExecutionGroup) : Nat :=
  g.deps.countP (fun f => decide (f ∉ P))

theorem pending_cons (P : List FileUuid) (f : FileUuid) (hf : f ∉ P) (g : ExecutionGroup) :
    pending P g = pending (f :: P) g + g.deps.count f := by
  unfold pending
  induction g.deps with
  | nil => simp
  | cons d ds ih =>
    simp only [List.countP_cons, List.count_cons]
    by_cases h : d = f
    · subst h; simp [hf] at ih ⊢; omega
    · by_cases h2 : d ∈ P <;> simp [h, h2] at ih ⊢ <;> omega

theorem pending_eq_zero {P : List FileUuid} {g : ExecutionGroup} :
    pending P g = 0 ↔ ∀ f ∈ g.deps, f ∈ P := by
  simp [pending, List.countP_eq_zero]

/-- The dependency table lists each group once per occurrence of the file among its inputs. -/
def DepsTable (groups : AMap GroupUuid ExecutionGroup) (deps : AMap FileUuid (List GroupUuid)) :
    Prop :=
  ∀ f u, (depsAt deps f).count u =
    match groups.get? u with
    | some g => g.deps.count f
    | none => 0

/-- `num_dependencies` counts the inputs not yet processed. -/
def NumOk (groups : AMap GroupUuid ExecutionGroup) (num : AMap GroupUuid Nat)
    (P : List FileUuid) : Prop :=
  ∀ u, num.get? u = (groups.get? u).map (pending P)

theorem drainFiles_spec (groups : AMap GroupUuid ExecutionGroup)
    (deps : AMap FileUuid (List GroupUuid)) (hd : DepsTable groups deps)
    (fs : List FileUuid) (P : List FileUuid) (num : AMap GroupUuid Nat) (rg : List GroupUuid)
    (hwf : AMap.Wf num) (hn : NumOk groups num P) (hfs : fs.Nodup) (hdis : ∀ f ∈ fs, f ∉ P) :
    ∃ num' new, drainFiles deps num rg fs = .ok (num', rg ++ new) ∧ AMap.Wf num' ∧
      NumOk groups num' (fs.reverse ++ P) ∧ new.Nodup ∧
      (∀ u, u ∈ new ↔ ∃ g, groups.get? u = some g ∧ 0 < pending P g ∧
        pending (fs.reverse ++ P) g = 0) := by
  induction fs generalizing P num rg with
  | nil =>
    refine ⟨num, [], by simp [drainFiles], hwf, by simpa using hn, by simp, ?_⟩
    intro u; simp
    intro g _ h; omega
  | cons f fs ih =>
    obtain ⟨hf1, hf2⟩ := List.nodup_cons.1 hfs
    have hfP : f ∉ P := hdis f (by simp)
    -- the decrement loop on this file
    have hdec : ∃ num1 new1, (match deps.get? f with
          | none => (.ok (num, rg) : Except DagError _)
          | some gs => decrement num rg gs) = .ok (num1, rg ++ new1) ∧ AMap.Wf num1 ∧
        NumOk groups num1 (f :: P) ∧ new1.Nodup ∧
        (∀ u, u ∈ new1 ↔ ∃ g, groups.get? u = some g ∧ 0 < pending P g ∧
          pending (f :: P) g = 0) := by
      have e : (match deps.get? f with
          | none => (.ok (num, rg) : Except DagError _)
          | some gs => decrement num rg gs) = decrement num rg (depsAt deps f) := by
        unfold depsAt; cases deps.get? f <;> simp [decrement]
      rw [e]
      let c : GroupUuid → Nat := fun u => match groups.get? u with
        | some g => pending (f :: P) g
        | none => 0
      have hmem : ∀ u ∈ depsAt deps f, ∃ g, groups.get? u = some g ∧ 0 < g.deps.count f := by
        intro u hu
        have := hd f u
        have hpos := List.count_pos_iff.2 hu
        cases hg : groups.get? u with
        | none => rw [hg] at this; simp at this; omega
        | some g => rw [hg] at this; simp at this; exact ⟨g, rfl, by omega⟩
      have hpre : ∀ u ∈ depsAt deps f, num.get? u = some (c u + (depsAt deps f).count u) := by
        intro u hu
        obtain ⟨g, hg, _⟩ := hmem u hu
        rw [hn u, hd f u]
        simp only [hg, c, Option.map_some]
        rw [pending_cons P f hfP g]
      obtain ⟨num1, new1, h1, hw1, h2, h3, h4, h5⟩ := decrement_spec _ num rg c hwf hpre
      refine ⟨num1, new1, h1, hw1, ?_, h4, ?_⟩
      · intro u
        by_cases hu : u ∈ depsAt deps f
        · obtain ⟨g, hg, _⟩ := hmem u hu
          rw [h2 u hu]; simp [hg, c]
        · rw [h3 u hu, hn u]
          cases hg : groups.get? u with
          | none => rfl
          | some g =>
            have := hd f u
            rw [hg, List.count_eq_zero.2 hu] at this
            simp only at this
            simp only [Option.map_some]
            rw [pending_cons P f hfP g, ← this]; rfl
      · intro u
        rw [h5]
        constructor
        · rintro ⟨a, b⟩
          obtain ⟨g, hg, hpos⟩ := hmem u a
          simp only [c, hg] at b
          exact ⟨g, hg, by rw [pending_cons P f hfP g]; omega, b⟩
        · rintro ⟨g, hg, a, b⟩
          refine ⟨?_, by simp [c, hg, b]⟩
          rw [pending_cons P f hfP g, b] at a
          have := hd f u
          rw [hg] at this
          exact List.count_pos_iff.1 (by simp only at this; omega)
    obtain ⟨num1, new1, h1, hw1, hN1, hnd1, hnew1⟩ := hdec
    have hdis' : ∀ x ∈ fs, x ∉ f :: P := by
      intro x hx hm
      rcases List.mem_cons.1 hm with rfl | hm
      · exact hf1 hx
      · exact hdis x (by simp [hx]) hm
    obtain ⟨num2, new2, h2, hw2, hN2, hnd2, hnew2⟩ := ih (f :: P) num1 (rg ++ new1) hw1 hN1 hf2 hdis'
    refine ⟨num2, new1 ++ new2, ?_, hw2, by simpa using hN2, ?_, ?_⟩
    · simp only [drainFiles]
      cases hdf : deps.get? f with
      | none =>
        rw [hdf] at h1; simp at h1
        obtain ⟨rfl, h1⟩ := h1
        subst h1
        simpa using h2
      | some gs =>
        rw [hdf] at h1; simp only at h1
        simp only [h1]; simpa using h2
    · refine List.nodup_append.2 ⟨hnd1, hnd2, ?_⟩
      rintro x hx y hy rfl
      obtain ⟨g, hg, _, hz⟩ := (hnew1 x).1 hx
      obtain ⟨g', hg', hp, _⟩ := (hnew2 x).1 hy
      rw [hg] at hg'; cases hg'
      omega
    · intro u
      simp only [List.mem_append, hnew1, hnew2, List.reverse_cons, List.append_assoc,
        List.cons_append, List.nil_append]
      have mono : ∀ g : ExecutionGroup, pending (f :: P) g = 0 →
          pending (fs.reverse ++ f :: P) g = 0 := by
        intro g h; rw [pending_eq_zero] at h ⊢
        intro x hx; exact List.mem_append.2 (Or.inr (h x hx))
      constructor
      · rintro (⟨g, a, b, c⟩ | ⟨g, a, b, c⟩)
        · exact ⟨g, a, b, mono g c⟩
        · exact ⟨g, a, by rw [pending_cons P f hfP g]; omega, c⟩
      · rintro ⟨g, a, b, c⟩
        by_cases hz : pending (f :: P) g = 0
        · exact Or.inl ⟨g, a, b, hz⟩
        · exact Or.inr ⟨g, a, by omega, c⟩

/-- The outputs of the group with the given uuid. -/
def outsOf (groups : AMap GroupUuid ExecutionGroup) (u : GroupUuid) : List FileUuid :=
  match groups.get? u with
  | some g => g.outs
  | none => []

theorem drainGroups_spec (groups : AMap GroupUuid ExecutionGroup) (us : List GroupUuid)
    (h : ∀ u ∈ us, ∃ g, groups.get? u = some g) :
    drainGroups groups us = .ok (us.flatMap (outsOf groups)) := by
  induction us with
  | nil => rfl
  | cons u us ih =>
    obtain ⟨g, hg⟩ := h u (by simp)
    simp [drainGroups, hg, ih (fun x hx => h x (by simp [hx])), outsOf]

/-- The order built so far is a valid schedule: every group's inputs are provided or come from
earlier groups. -/
inductive Sched (groups : AMap GroupUuid ExecutionGroup) (prov : List FileUuid) :
    List GroupUuid → Prop
  | nil : Sched groups prov []
  | snoc (dr : List GroupUuid) (u : GroupUuid) (g : ExecutionGroup) : Sched groups prov dr →
      groups.get? u = some g →
      (∀ f ∈ g.deps, f ∈ prov ∨ ∃ v ∈ dr, f ∈ outsOf groups v) → Sched groups prov (dr ++ [u])

theorem Sched.append {groups : AMap GroupUuid ExecutionGroup} {prov : List FileUuid}
    {dr : List GroupUuid} (h : Sched groups prov dr) (rg : List GroupUuid)
    (hrg : ∀ u ∈ rg, ∃ g, groups.get? u = some g ∧
      ∀ f ∈ g.deps, f ∈ prov ∨ ∃ v ∈ dr, f ∈ outsOf groups v) :
    Sched groups prov (dr ++ rg) := by
  induction rg generalizing dr with
  | nil => simpa
  | cons u rg ih =>
    obtain ⟨g, hg, hd⟩ := hrg u (by simp)
    have := ih (Sched.snoc dr u g h hg hd) (by
      intro v hv
      obtain ⟨g', hg', hd'⟩ := hrg v (by simp [hv])
      refine ⟨g', hg', fun f hf => ?_⟩
      rcases hd' f hf with h1 | ⟨w, hw, h1⟩
      · exact Or.inl h1
      · exact Or.inr ⟨w, by simp [hw], h1⟩)
    simpa using this

/-- Loop invariant of the visit: `P` are the processed files, `dr` the drained groups. -/
structure VInv (groups : AMap GroupUuid ExecutionGroup) (prov : List FileUuid)
    (num : AMap GroupUuid Nat) (rg : List GroupUuid) (rf : List FileUuid) (P : List FileUuid)
    (dr : List GroupUuid) : Prop where
  wf : AMap.Wf num
  num : NumOk groups num P
  zero : ∀ u g, groups.get? u = some g → (pending P g = 0 ↔ u ∈ dr ++ rg)
  nodup : (dr ++ rg).Nodup
  known : ∀ u ∈ dr ++ rg, ∃ g, groups.get? u = some g
  files : ∀ f, f ∈ P ++ rf ↔ f ∈ prov ∨ ∃ u ∈ dr, f ∈ outsOf groups u
  fnodup : (P ++ rf).Nodup
  sched : Sched groups prov dr

theorem nodup_outs_of_sub {groups : AMap GroupUuid ExecutionGroup}
    (hf : (groups.flatMap (fun p => p.2.outs)).Nodup) (us : List GroupUuid) (hus : us.Nodup)
    (hk : ∀ u ∈ us, ∃ g, groups.get? u = some g) : (us.flatMap (outsOf groups)).Nodup := by
  have key : ∀ (gs : AMap GroupUuid ExecutionGroup), (gs.flatMap (fun p => p.2.outs)).Nodup →
      ∀ u v gu gv, (u, gu) ∈ gs → (v, gv) ∈ gs → u ≠ v → ∀ f ∈ gu.outs, f ∉ gv.outs := by
    intro gs hn
    induction gs with
    | nil => simp
    | cons p gs ih =>
      simp only [List.flatMap_cons, List.nodup_append] at hn
      obtain ⟨_, h2, h3⟩ := hn
      intro u v gu gv hu hv hne f hfu hfv
      rcases List.mem_cons.1 hu with hu' | hu' <;> rcases List.mem_cons.1 hv with hv' | hv'
      · rw [← hu'] at hv'; cases hv'; exact hne rfl
      · exact h3 f (by rw [← hu']; exact hfu) f (List.mem_flatMap.2 ⟨(v, gv), hv', hfv⟩) rfl
      · exact h3 f (by rw [← hv']; exact hfv) f (List.mem_flatMap.2 ⟨(u, gu), hu', hfu⟩) rfl
      · exact ih h2 u v gu gv hu' hv' hne f hfu hfv
  have single : ∀ (gs : AMap GroupUuid ExecutionGroup), (gs.flatMap (fun p => p.2.outs)).Nodup →
      ∀ p ∈ gs, p.2.outs.Nodup := by
    intro gs hn
    induction gs with
    | nil => simp
    | cons p gs ih =>
      simp only [List.flatMap_cons, List.nodup_append] at hn
      intro q hq
      rcases List.mem_cons.1 hq with rfl | hq
      · exact hn.1
      · exact ih hn.2.1 q hq
  induction us with
  | nil => simp
  | cons u us ih =>
    obtain ⟨hu, hus⟩ := List.nodup_cons.1 hus
    obtain ⟨g, hg⟩ := hk u (by simp)
    simp only [List.flatMap_cons, List.nodup_append]
    refine ⟨?_, ih hus (fun x hx => hk x (by simp [hx])), ?_⟩
    · simp only [outsOf, hg]; exact single groups hf _ (AMap.mem_of_get? hg)
    · rintro f hf1 f' hf2 rfl
      simp only [outsOf, hg] at hf1
      obtain ⟨v, hv, hf2⟩ := List.mem_flatMap.1 hf2
      obtain ⟨g', hg'⟩ := hk v (by simp [hv])
      simp only [outsOf, hg'] at hf2
      exact key groups hf u v g g' (AMap.mem_of_get? hg) (AMap.mem_of_get? hg')
        (fun e => hu (e ▸ hv)) f hf1 hf2

theorem length_le_of_nodup_keys {groups : AMap GroupUuid ExecutionGroup} (us : List GroupUuid)
    (hus : us.Nodup) (hk : ∀ u ∈ us, ∃ g, groups.get? u = some g) :
    us.length ≤ groups.length := by
  have hsub : us ⊆ AMap.keys groups := fun u hu => AMap.mem_keys_iff.2 (hk u hu)
  have := List.Nodup.length_le_of_subset hus hsub
  simpa [AMap.keys] using this

theorem visit_spec (groups : AMap GroupUuid ExecutionGroup)
    (deps : AMap FileUuid (List GroupUuid)) (hd : DepsTable groups deps)
    (prov : List FileUuid)
    (hfiles : (groups.flatMap (fun p => p.2.outs) ++ prov).Nodup)
    (fuel : Nat) (num : AMap GroupUuid Nat) (rg : List GroupUuid) (rf P : List FileUuid)
    (dr : List GroupUuid) (hinv : VInv groups prov num rg rf P dr)
    (hfuel : 2 * (groups.length - dr.length) + (if rf = [] then 0 else 1) + 1 < fuel) :
    ∃ num' P' dr', visit groups deps fuel num rg rf = .ok num' ∧
      VInv groups prov num' [] [] P' dr' := by
  induction fuel generalizing num rg rf P dr with
  | zero => omega
  | succ fuel ih =>
    simp only [visit]
    split
    · next h =>
      simp only [Bool.and_eq_true, List.isEmpty_iff] at h
      obtain ⟨rfl, rfl⟩ := h
      exact ⟨num, P, dr, rfl, hinv⟩
    · next h =>
      obtain ⟨hPn, hrfn, hPrf⟩ := List.nodup_append.1 hinv.fnodup
      obtain ⟨num1, new, h1, hwf1, hN1, hnd, hnew⟩ := drainFiles_spec groups deps hd rf P num rg
        hinv.wf hinv.num hrfn (fun f hf hP => hPrf f hP f hf rfl)
      rw [h1]
      simp only
      have hknown : ∀ u ∈ rg ++ new, ∃ g, groups.get? u = some g := by
        intro u hu
        rcases List.mem_append.1 hu with hu | hu
        · exact hinv.known u (by simp [hu])
        · obtain ⟨g, hg, _⟩ := (hnew u).1 hu; exact ⟨g, hg⟩
      rw [drainGroups_spec groups _ hknown]
      simp only
      have hmono : ∀ g : ExecutionGroup, pending P g = 0 → pending (rf.reverse ++ P) g = 0 := by
        intro g hp; rw [pending_eq_zero] at hp ⊢
        exact fun x hx => List.mem_append.2 (Or.inr (hp x hx))
      have hnodup : (dr ++ (rg ++ new)).Nodup := by
        rw [← List.append_assoc]
        refine List.nodup_append.2 ⟨hinv.nodup, hnd, ?_⟩
        rintro x hx y hy rfl
        obtain ⟨g, hg, hp, _⟩ := (hnew x).1 hy
        have := (hinv.zero x g hg).2 hx
        omega
      have hzero : ∀ u g, groups.get? u = some g →
          (pending (rf.reverse ++ P) g = 0 ↔ u ∈ dr ++ (rg ++ new)) := by
        intro u g hg
        constructor
        · intro hz
          by_cases hp : pending P g = 0
          · have := (hinv.zero u g hg).1 hp
            simp only [List.mem_append] at this ⊢; grind
          · have := (hnew u).2 ⟨g, hg, by omega, hz⟩
            simp [this]
        · intro hm
          rw [← List.append_assoc] at hm
          rcases List.mem_append.1 hm with hm | hm
          · exact hmono g ((hinv.zero u g hg).2 hm)
          · obtain ⟨g', hg', _, hz⟩ := (hnew u).1 hm
            rw [hg] at hg'; cases hg'; exact hz
      have hfP : ∀ f, f ∈ rf.reverse ++ P ↔ f ∈ prov ∨ ∃ u ∈ dr, f ∈ outsOf groups u := by
        intro f
        rw [← hinv.files f]; simp [or_comm]
      have hallk : ∀ u ∈ dr ++ (rg ++ new), ∃ g, groups.get? u = some g := by
        intro u hu
        rcases List.mem_append.1 hu with hu | hu
        · exact hinv.known u (by simp [hu])
        · exact hknown u hu
      have hsched : Sched groups prov (dr ++ (rg ++ new)) := by
        refine hinv.sched.append _ ?_
        intro u hu
        obtain ⟨g, hg⟩ := hknown u hu
        refine ⟨g, hg, fun f hf => ?_⟩
        have hz := (hzero u g hg).2 (List.mem_append.2 (Or.inr hu))
        exact (hfP f).1 (pending_eq_zero.1 hz f hf)
      have hinv' : VInv groups prov num1 [] ((rg ++ new).flatMap (outsOf groups))
          (rf.reverse ++ P) (dr ++ (rg ++ new)) := by
        refine ⟨hwf1, hN1, by simpa using hzero, by simpa using hnodup, by simpa using hallk, ?_, ?_,
          hsched⟩
        · intro f
          rw [List.mem_append, hfP f, List.mem_flatMap]
          constructor
          · rintro ((h | ⟨u, hu, h⟩) | ⟨u, hu, h⟩)
            · exact Or.inl h
            · exact Or.inr ⟨u, by simp [hu], h⟩
            · exact Or.inr ⟨u, List.mem_append.2 (Or.inr hu), h⟩
          · rintro (h | ⟨u, hu, h⟩)
            · exact Or.inl (Or.inl h)
            · rcases List.mem_append.1 hu with hu | hu
              · exact Or.inl (Or.inr ⟨u, hu, h⟩)
              · exact Or.inr ⟨u, hu, h⟩
        · obtain ⟨ho, hp, hop⟩ := List.nodup_append.1 hfiles
          have hall := nodup_outs_of_sub ho _ hnodup hallk
          rw [List.flatMap_append] at hall
          obtain ⟨_, hr, hdrr⟩ := List.nodup_append.1 hall
          refine List.nodup_append.2 ⟨?_, hr, ?_⟩
          · exact List.nodup_append.2 ⟨(List.reverse_perm rf).nodup_iff.2 hrfn, hPn,
              fun x hx y hy e => hPrf y hy x (by simpa using hx) e.symm⟩
          · rintro f hf f' hf' rfl
            rcases (hfP f).1 hf with hf | ⟨u, hu, hf⟩
            · obtain ⟨u, hu, hfo⟩ := List.mem_flatMap.1 hf'
              obtain ⟨g, hg⟩ := hknown u hu
              simp only [outsOf, hg] at hfo
              exact hop f (List.mem_flatMap.2 ⟨_, AMap.mem_of_get? hg, hfo⟩) f hf rfl
            · exact hdrr f (List.mem_flatMap.2 ⟨u, hu, hf⟩) f hf' rfl
      have hlen := length_le_of_nodup_keys _ hnodup hallk
      simp only [List.length_append] at hlen
      obtain ⟨num', P', dr', hv, hi⟩ := ih num1 [] _ _ _ hinv' (by
        by_cases hrg : rg ++ new = []
        · have hrg' : rg = [] ∧ new = [] := by simpa using hrg
          obtain ⟨rfl, rfl⟩ := hrg'
          have hrfne : rf ≠ [] := by
            intro e; apply h; simp [e]
          simp only [hrfne, if_false] at hfuel
          simp; omega
        · have : 0 < (rg ++ new).length := List.length_pos_iff.2 hrg
          simp only [List.length_append] at this ⊢
          split at hfuel <;> split <;> omega)
      exact ⟨num', P', dr', hv, hi⟩

end TM.CheckDag
