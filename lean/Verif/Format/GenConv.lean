import Verif.Format.GenMain

/-! # Every file of the specification is accepted -/
namespace TM.Format
open TM AMap

theorem genLoop_append (env : GenEnv) (gen : Source) (a b : List GenLine) : ∀ st,
    genLoop env gen st (a ++ b) = match genLoop env gen st a with
      | .error e => .error e
      | .ok st' => genLoop env gen st' b := by
  induction a with
  | nil => intro st; rfl
  | cons l a ih =>
    intro st
    simp only [List.cons_append, genLoop]
    cases genStep env gen st l with
    | error e => rfl
    | ok st' => exact ih st'

/-- An error comes from a line. -/
theorem genLoop_error {env : GenEnv} {gen : Source} (ls : List GenLine) : ∀ {st : GenState} {e : GenErr},
    genLoop env gen st ls = .error e → ∃ pre l post st', ls = pre ++ l :: post ∧
      genLoop env gen st pre = .ok st' ∧ genStep env gen st' l = .error e := by
  induction ls with
  | nil => intro st e h; cases h
  | cons l ls ih =>
    intro st e h
    simp only [genLoop] at h
    cases hs : genStep env gen st l with
    | error e' => rw [hs] at h; cases h; exact ⟨[], l, ls, st, rfl, rfl, hs⟩
    | ok st1 =>
      rw [hs] at h
      obtain ⟨pre, l', post, st', rfl, h1, h2⟩ := ih h
      exact ⟨l :: pre, l', post, st', rfl, by simp only [genLoop, hs]; exact h1, h2⟩

/-- Annotations followed by something else. -/
theorem annots_append {a b : List GenLine} (h : ∀ l ∈ a, isAnnot l = true) :
    annots (a ++ b) = a ++ annots b := by
  induction a with
  | nil => rfl
  | cons l a ih =>
    rw [List.cons_append, annots_cons_annot (h l (by simp)), ih fun l hl => h l (by simp [hl])]; rfl

/-- The last line that is not an annotation. -/
theorem last_entry_line (ls : List GenLine) : (∀ l ∈ ls, isAnnot l = true) ∨
    ∃ pre l seg, ls = pre ++ l :: seg ∧ isAnnot l = false ∧ ∀ x ∈ seg, isAnnot x = true := by
  induction ls with
  | nil => exact .inl (by simp)
  | cons l ls ih =>
    rcases ih with h | ⟨pre, l', seg, rfl, h1, h2⟩
    · cases hl : isAnnot l with
      | true => exact .inl (by
          intro x hx
          rcases List.mem_cons.1 hx with rfl | hx
          · exact hl
          · exact h x hx)
      | false => exact .inr ⟨[], l, ls, rfl, hl, h⟩
    · exact .inr ⟨l :: pre, l', seg, rfl, h1, h2⟩

/-- The head of the entries after a `#ST:` line and some annotations with no name. -/
theorem head_after_subtask {env : GenEnv} {gen : Source} {st0 : GenState} {pre seg : List GenLine} {sc : Text}
    {st : GenState} (h : genLoop env gen st0 (pre ++ .subtask sc :: seg) = .ok st)
    (hseg : ∀ x ∈ seg, isAnnot x = true) (hno : namesIn seg = []) :
    ∃ s, headSub st.rev = some s ∧ s.name = none := by
  rw [genLoop_append] at h
  cases hp : genLoop env gen st0 pre with
  | error e => rw [hp] at h; cases h
  | ok st1 =>
    rw [hp] at h
    simp only [genLoop, genStep] at h
    -- only annotations follow
    have key : ∀ (seg : List GenLine) (st2 st3 : GenState), (∀ x ∈ seg, isAnnot x = true) →
        namesIn seg = [] → (∃ s, headSub st2.rev = some s ∧ s.name = none) →
        genLoop env gen st2 seg = .ok st3 → ∃ s, headSub st3.rev = some s ∧ s.name = none := by
      intro seg
      induction seg with
      | nil => intro st2 st3 _ _ hh h; cases h; exact hh
      | cons l seg ih =>
        intro st2 st3 ha hn hh h
        simp only [genLoop] at h
        have ha' : ∀ x ∈ seg, isAnnot x = true := fun x hx => ha x (by simp [hx])
        cases l with
        | comment => exact ih st2 st3 ha' hn hh h
        | empty => exact ih st2 st3 ha' hn hh h
        | subtaskName n => simp [namesIn] at hn
        | subtaskDep ws =>
          simp only [genStep] at h
          cases hr : st2.rev with
          | nil => rw [hr] at h; cases h
          | cons e r =>
            cases e with
            | testcase t => rw [hr] at h; cases h
            | subtask s =>
              simp only [hr] at h
              refine ih _ st3 ha' hn ?_ h
              simp only [← hr]
              exact hh
        | subtask sc => simpa [isAnnot] using ha _ (List.mem_cons_self ..)
        | copy sc => simpa [isAnnot] using ha _ (List.mem_cons_self ..)
        | command sc => simpa [isAnnot] using ha _ (List.mem_cons_self ..)
    exact key seg _ st hseg hno ⟨_, rfl, rfl⟩ h

theorem nTc_append (a b : List GenLine) : nTc (a ++ b) = nTc a + nTc b := by
  simp [nTc, List.filter_append]

/-- The number of testcases read so far. -/
theorem testcaseCount_eq {env : GenEnv} {gen : Source} (ls : List GenLine) : ∀ {st st' : GenState},
    genLoop env gen st ls = .ok st' → st'.testcaseCount = st.testcaseCount + nTc ls := by
  induction ls with
  | nil => intro st st' h; cases h; rfl
  | cons l ls ih =>
    intro st st' h
    simp only [genLoop] at h
    cases hs : genStep env gen st l with
    | error e => rw [hs] at h; cases h
    | ok st1 =>
      rw [hs] at h
      have := ih h
      have e1 : st1.testcaseCount = st.testcaseCount + if isTcLine l then 1 else 0 := by
        have htd : (takeDefault env st).testcaseCount = st.testcaseCount := by
          unfold takeDefault; split <;> rfl
        cases l with
        | subtask sc => cases hs; rfl
        | subtaskName n =>
          simp only [genStep] at hs
          split at hs
          · split at hs
            · cases hs
            · split at hs
              · cases hs
              · split at hs
                · cases hs
                · cases hs; rfl
          · cases hs
        | subtaskDep n =>
          simp only [genStep] at hs
          split at hs
          · cases hs; rfl
          · cases hs
        | copy p => cases hs; simp [htd, isTcLine]
        | command p =>
          simp only [genStep, htd] at hs
          split at hs
          · cases hs
          · cases hs; simp [isTcLine]
        | comment => cases hs; rfl
        | empty => cases hs; rfl
      rw [this, e1]
      simp only [nTc, List.filter_cons]
      split <;> simp <;> omega

theorem nameTable_append_sub (env : GenEnv) (a b : List GenLine) (hb : isAnnot <$> b.head? ≠ some true) :
    ∀ k, ∃ k', nameTable env k (a ++ b) = nameTable env k a ++ nameTable env k' b := by
  induction a with
  | nil => intro k; exact ⟨k, rfl⟩
  | cons l a ih =>
    intro k
    cases l with
    | subtask sc =>
      obtain ⟨k', hk'⟩ := ih (k + 1)
      refine ⟨k', ?_⟩
      have : annots (a ++ b) = annots a := by
        clear ih hk'
        induction a with
        | nil =>
          cases b with
          | nil => rfl
          | cons x b => simp at hb; exact annots_cons_not hb b
        | cons y a ih =>
          cases hy : isAnnot y with
          | true => rw [List.cons_append, annots_cons_annot hy, annots_cons_annot hy, ih]
          | false => rw [List.cons_append, annots_cons_not hy, annots_cons_not hy]
      simp only [List.cons_append, nameTable, this, hk', List.append_assoc]
    | _ => exact ih k

/-- The names read from a prefix are among the names of the file. -/
theorem nameTable_prefix (env : GenEnv) (a b : List GenLine) : ∀ k,
    ((nameTable env k a).map (·.1)).Sublist ((nameTable env k (a ++ b)).map (·.1)) := by
  induction a with
  | nil => intro k; exact List.nil_sublist _
  | cons l a ih =>
    intro k
    cases l with
    | subtask sc =>
      simp only [List.cons_append, nameTable, List.map_append, List.map_map]
      refine List.Sublist.append ?_ (ih (k + 1))
      refine List.Sublist.map _ (List.Sublist.filterMap _ (List.Sublist.filterMap _ ?_))
      unfold annots
      rw [List.takeWhile_append]
      split
      · rename_i h
        rw [show a.takeWhile isAnnot = a from
          (List.takeWhile_sublist isAnnot).eq_of_length h]
        exact List.sublist_append_left _ _
      · exact List.Sublist.refl _
    | _ => exact ih k

theorem nameTable_annots {env : GenEnv} {ls : List GenLine} (h : ∀ l ∈ ls, isAnnot l = true) :
    ∀ k, nameTable env k ls = [] := by
  induction ls with
  | nil => intro k; rfl
  | cons l ls ih =>
    intro k
    have h0 := h l (by simp)
    cases l with
    | subtask sc => simp [isAnnot] at h0
    | _ => exact ih (fun l hl => h l (by simp [hl])) k

/-- The state stays well formed. -/
theorem stOk_loop {env : GenEnv} {gen : Source} (ls : List GenLine) : ∀ {st st' : GenState}, StOk st →
    genLoop env gen st ls = .ok st' → StOk st' := by
  induction ls with
  | nil => intro st st' hs h; cases h; exact hs
  | cons l ls ih =>
    intro st st' hs h
    simp only [genLoop] at h
    cases hst : genStep env gen st l with
    | error e => rw [hst] at h; cases h
    | ok st1 =>
      rw [hst] at h
      refine ih ?_ h
      have htd : takeDefault env st = st := by simp [takeDefault, hs.dflt]
      cases l with
      | comment => cases hst; exact hs
      | empty => cases hst; exact hs
      | subtask sc =>
        cases hst
        refine ⟨rfl, ?_, ?_⟩
        · intro s hh; simp only [headSub, Option.some.injEq] at hh; subst hh; exact Nat.lt_succ_self _
        · intro i hi; exact hs.deps i (by simp only at hi; omega)
      | copy p =>
        simp only [genStep, htd, Except.ok.injEq] at hst
        subst hst
        exact ⟨hs.dflt, by intro s hh; simp [headSub] at hh, hs.deps⟩
      | command p =>
        simp only [genStep, htd] at hst
        split at hst
        · cases hst
        · cases hst
          exact ⟨hs.dflt, by intro s hh; simp [headSub] at hh, hs.deps⟩
      | subtaskDep ws =>
        simp only [genStep] at hst
        split at hst
        · rename_i s r hr
          cases hst
          refine ⟨hs.dflt, hs.head, ?_⟩
          intro i hi
          have hid := hs.head s (by rw [hr]; rfl)
          simp only at hi ⊢
          split
          · exact hs.deps i hi
          · rw [AMap.get?_insert, if_neg (by omega)]; exact hs.deps i hi
        · cases hst
      | subtaskName n =>
        simp only [genStep] at hst
        split at hst
        · rename_i s r hr
          split at hst
          · cases hst
          · split at hst
            · cases hst
            · split at hst
              · cases hst
              · cases hst
                refine ⟨hs.dflt, ?_, hs.deps⟩
                intro s' hs'
                simp only [headSub, Option.some.injEq] at hs'
                subst hs'
                exact hs.head s (by rw [hr]; rfl)
        · cases hst

/-- **Completeness.**  Nothing in the specification is rejected. -/
theorem interpGen_complete {env : GenEnv} {lines : List GenLine} {gen : Source}
    (hgen : env.generators = [gen]) (hacc : Accepted env lines) :
    ∃ es, interpGen env lines = .ok es := by
  unfold interpGen
  rw [hgen]
  simp only
  cases hl : genLoop env gen {} lines with
  | error e =>
    exfalso
    obtain ⟨pre, l, post, st, e1, h1, h2⟩ := genLoop_error lines hl
    -- the entry the line refers to
    have hhead : (∃ n, l = .subtaskName n) ∨ (∃ ws, l = .subtaskDep ws) →
        ∃ pre' sc seg, pre = pre' ++ .subtask sc :: seg ∧ (∀ x ∈ seg, isAnnot x = true) ∧
          ((∃ n, l = .subtaskName n) → namesIn seg = []) := by
      intro hcase
      have hla : isAnnot l = true := by rcases hcase with ⟨n, rfl⟩ | ⟨n, rfl⟩ <;> rfl
      rcases last_entry_line pre with hall | ⟨pre', x, seg, rfl, hx, hseg⟩
      · -- in the first lines
        have : annots lines = pre ++ l :: annots post := by
          rw [e1, annots_append hall, annots_cons_annot hla]
        rcases hcase with ⟨n, rfl⟩ | ⟨ws, rfl⟩
        · have := hacc.lead.1
          rw [‹annots lines = _›] at this
          simp [namesIn] at this
        · exact absurd (by rw [this]; simp) (hacc.lead.2 ws)
      · have e2 : lines = pre' ++ x :: (seg ++ l :: post) := by rw [e1]; simp
        have hf := hacc.follow pre' x _ e2
        have han : annots (seg ++ l :: post) = seg ++ l :: annots post := by
          rw [annots_append hseg, annots_cons_annot hla]
        rw [han] at hf
        have hnotc : isTcLine x = true → False := by
          intro htc
          obtain ⟨f1, f2⟩ := hf.1 htc
          rcases hcase with ⟨n, rfl⟩ | ⟨ws, rfl⟩
          · simp [namesIn] at f1
          · exact f2 ws (by simp)
        cases x with
        | subtask sc =>
          refine ⟨pre', sc, seg, rfl, hseg, ?_⟩
          rintro ⟨n, rfl⟩
          have hnn : namesIn (seg ++ GenLine.subtaskName n :: annots post) =
              namesIn seg ++ n :: namesIn (annots post) := by
            simp [namesIn]
          rcases hf.2 rfl with f | ⟨n', c, f, _⟩
          · rw [hnn] at f; simp at f
          · rw [hnn] at f
            cases hs : namesIn seg with
            | nil => rfl
            | cons a as => rw [hs] at f; simp at f
        | copy p => exact absurd rfl hnotc
        | command p => exact absurd rfl hnotc
        | subtaskName p => simp [isAnnot] at hx
        | subtaskDep p => simp [isAnnot] at hx
        | comment => simp [isAnnot] at hx
        | empty => simp [isAnnot] at hx
    cases l with
    | subtask sc => cases h2
    | comment => cases h2
    | empty => cases h2
    | copy p => cases h2
    | command args =>
      have htd : (takeDefault env st).testcaseCount = st.testcaseCount := by
        unfold takeDefault; split <;> rfl
      simp only [genStep, htd] at h2
      split at h2
      · rename_i p hp
        rw [testcaseCount_eq pre h1] at hp
        simp only [Nat.zero_add] at hp
        exact hacc.solution pre args post e1 p hp
      · cases h2
    | subtaskDep ws =>
      obtain ⟨pre', sc, seg, rfl, hseg, _⟩ := hhead (.inr ⟨ws, rfl⟩)
      -- the head is a subtask
      have : ∃ s, headSub st.rev = some s := by
        have key : ∀ (seg : List GenLine) (st2 st3 : GenState), (∀ x ∈ seg, isAnnot x = true) →
            (∃ s, headSub st2.rev = some s) →
            genLoop env gen st2 seg = .ok st3 → ∃ s, headSub st3.rev = some s := by
          intro seg
          induction seg with
          | nil => intro st2 st3 _ hh h; cases h; exact hh
          | cons l seg ih =>
            intro st2 st3 ha hh h
            simp only [genLoop] at h
            have ha' : ∀ x ∈ seg, isAnnot x = true := fun x hx => ha x (by simp [hx])
            cases hs : genStep env gen st2 l with
            | error e => rw [hs] at h; cases h
            | ok st4 =>
              rw [hs] at h
              refine ih st4 st3 ha' ?_ h
              have hal := ha l (by simp)
              cases l with
              | comment => cases hs; exact hh
              | empty => cases hs; exact hh
              | subtaskName n =>
                simp only [genStep] at hs
                split at hs
                · split at hs
                  · cases hs
                  · split at hs
                    · cases hs
                    · split at hs
                      · cases hs
                      · cases hs; exact ⟨_, rfl⟩
                · cases hs
              | subtaskDep n =>
                simp only [genStep] at hs
                split at hs
                · cases hs; exact hh
                · cases hs
              | subtask sc => simp [isAnnot] at hal
              | copy sc => simp [isAnnot] at hal
              | command sc => simp [isAnnot] at hal
        rw [genLoop_append] at h1
        cases hp : genLoop env gen {} pre' with
        | error e => rw [hp] at h1; cases h1
        | ok st1 =>
          rw [hp] at h1
          simp only [genLoop, genStep] at h1
          exact key seg _ st hseg ⟨_, rfl⟩ h1
      obtain ⟨s, hs⟩ := this
      simp only [genStep] at h2
      cases hr : st.rev with
      | nil => rw [hr] at hs; simp [headSub] at hs
      | cons x r =>
        cases x with
        | testcase t => rw [hr] at hs; simp [headSub] at hs
        | subtask s' => rw [hr] at h2; simp at h2
    | subtaskName n =>
      obtain ⟨pre', sc, seg, rfl, hseg, hno⟩ := hhead (.inl ⟨n, rfl⟩)
      obtain ⟨s, hs, hsn⟩ := head_after_subtask h1 hseg (hno ⟨n, rfl⟩)
      simp only [genStep] at h2
      cases hr : st.rev with
      | nil => rw [hr] at hs; simp [headSub] at hs
      | cons x r =>
        cases x with
        | testcase t => rw [hr] at hs; simp [headSub] at hs
        | subtask s' =>
          rw [hr] at hs
          simp only [headSub, Option.some.injEq] at hs
          subst hs
          rw [hr] at h2
          simp only [hsn, Option.isSome_none, Bool.false_eq_true, if_false] at h2
          -- the name is valid
          have e2 : lines = pre' ++ .subtask sc :: (seg ++ .subtaskName n :: post) := by rw [e1]; simp
          have hf := hacc.follow pre' _ _ e2
          have han : annots (seg ++ GenLine.subtaskName n :: post) =
              seg ++ .subtaskName n :: annots post := by
            rw [annots_append hseg, annots_cons_annot rfl]
          rw [han] at hf
          have hnn : namesIn (seg ++ GenLine.subtaskName n :: annots post) =
              namesIn seg ++ n :: namesIn (annots post) := by
            simp [namesIn]
          have hf2 := hf.2 rfl
          rw [hnn, hno ⟨n, rfl⟩, List.nil_append] at hf2
          rcases hf2 with f | ⟨n', c, f, hc⟩
          · cases f
          · simp only [List.cons.injEq] at f
            obtain ⟨rfl, f2⟩ := f
            simp only [hc] at h2
            split at h2
            · rename_i hdup
              -- the name has been seen in the lines before
              have hin : c ∈ (nameTable env 0 pre').map (·.1) := by
                rw [genLoop_append] at h1
                cases hp : genLoop env gen {} pre' with
                | error e => rw [hp] at h1; cases h1
                | ok st1 =>
                  rw [hp] at h1
                  simp only at h1
                  rcases genLoop_start pre' hp with ⟨g1, _, g3⟩ | ⟨g1, g2⟩
                  · have H1 := genLoop_ok env gen pre' _ _ (startState_ok env _) g3
                    have hst1 := stOk_loop pre' (startState_ok env _) g3
                    have h1' : genLoop env gen { st1 with hasDefault := false } (.subtask sc :: seg) =
                        .ok st := h1
                    have H2 := genLoop_ok env gen _ _ st hst1 h1'
                    have hz := H2.names c
                    rw [annots_cons_not rfl, headPairs_nil, List.nil_append] at hz
                    have hnt : nameTable env st1.subtaskId (GenLine.subtask sc :: seg) = [] := by
                      have : annots seg = seg := annots_all hseg
                      simp only [nameTable, this, hno ⟨n, rfl⟩, List.filterMap_nil, List.map_nil,
                        List.nil_append]
                      exact nameTable_annots hseg _
                    rw [hnt] at hz
                    simp only [look, Option.or_none] at hz
                    rw [hz] at hdup
                    have hy := H1.names c
                    simp only at hy
                    rw [hy] at hdup
                    have hp0 : headPairs env (startState env (startsWithTestcase pre')).rev (annots pre') = [] := by
                      unfold headPairs; split <;> simp [g1]
                    have hn0 : (startState env (startsWithTestcase pre')).nameToId = [] := by
                      unfold startState; cases startsWithTestcase pre' <;> rfl
                    rw [hp0, hn0] at hdup
                    simp only [List.nil_append, AMap.get?, Option.none_or] at hdup
                    rw [look_isSome] at hdup
                    rw [nameTable_fst env pre' 0 (startState env (startsWithTestcase pre')).subtaskId]
                    exact hdup
                  · exfalso
                    subst g2
                    have hst1 : genLoop env gen (startState env false) (.subtask sc :: seg) = .ok st := h1
                    have H2 := genLoop_ok env gen _ _ st (startState_ok env false) hst1
                    have hz := H2.names c
                    rw [annots_cons_not rfl, headPairs_nil, List.nil_append] at hz
                    have hnt : ∀ k, nameTable env k (GenLine.subtask sc :: seg) = [] := by
                      intro k
                      have : annots seg = seg := annots_all hseg
                      simp only [nameTable, this, hno ⟨n, rfl⟩, List.filterMap_nil, List.map_nil,
                        List.nil_append]
                      exact nameTable_annots hseg _
                    rw [hnt, show (startState env false).nameToId = [] from rfl] at hz
                    rw [hz] at hdup
                    simp [look, AMap.get?] at hdup
              -- but it appears again here
              have hd := hacc.distinct
              rw [e2] at hd
              obtain ⟨k', hk'⟩ := nameTable_append_sub env pre'
                (.subtask sc :: (seg ++ .subtaskName n :: post)) (by simp [isAnnot]) 0
              rw [hk', List.map_append, List.nodup_append] at hd
              refine hd.2.2 c hin c ?_ rfl
              simp [nameTable, han, hnn, hc]
            · cases h2
  | ok st =>
    simp only
    rcases genLoop_start lines hl with ⟨hlead1, hlead2, hrun⟩ | ⟨hcom, rfl⟩
    · have H := genLoop_ok env gen lines _ _ (startState_ok env (startsWithTestcase lines)) hrun
      have hsub : (startState env (startsWithTestcase lines)).subtaskId = firstId lines := by
        unfold startState firstId; cases startsWithTestcase lines <;> rfl
      have htc0 : (startState env (startsWithTestcase lines)).testcaseCount = 0 := by
        unfold startState; cases startsWithTestcase lines <;> rfl
      have hnm0 : (startState env (startsWithTestcase lines)).nameToId = [] := by
        unfold startState; cases startsWithTestcase lines <;> rfl
      have hdp0 : (startState env (startsWithTestcase lines)).deps = [] := by
        unfold startState; cases startsWithTestcase lines <;> rfl
      have hpairs : headPairs env (startState env (startsWithTestcase lines)).rev (annots lines) = [] := by
        unfold headPairs; split <;> simp [hlead1]
      have hnames : ∀ d, st.nameToId.get? d = look d (nameTable env (firstId lines) lines) := by
        intro d
        have := H.names d
        rw [hpairs, hsub, hnm0] at this
        simpa [AMap.get?] using this
      have hdist := H.dist.1
      rw [hpairs, hsub, List.nil_append] at hdist
      have hn : st.subtaskId = firstId lines + nSub lines := by
        have := H.sub
        rw [hsub] at this
        exact this
      have hdeps : ∀ i, firstId lines ≤ i → st.deps.get? i =
          (look i (depTable (firstId lines) lines)).bind (addDeps none) := by
        intro i hi
        have := H.depsNew i (by rw [hsub]; exact hi)
        rw [hsub] at this
        exact this
      have hrev : st.rev.reverse = (if startsWithTestcase lines then
          [Entry.subtask (defaultSubtask env)] else []) ++
          spec env gen (fun _ => []) (firstId lines) 0 lines := by
        have := H.rev
        rw [hsub, htc0] at this
        simp only at this
        rw [this]
        congr 1
        unfold startState
        cases startsWithTestcase lines with
        | false => rfl
        | true => simp [annHead, hlead1, defaultSubtask]
      have hdef : startsWithTestcase lines = true → st.deps.get? 0 = none := by
        intro e
        have := H.depsHead (defaultSubtask env) (by rw [e]; rfl)
        rw [hdp0] at this
        have hd0 : depsIn (annots lines) = [] := by
          unfold depsIn
          rw [List.flatMap_eq_nil_iff]
          intro l hl
          cases l with
          | subtaskDep ws => exact absurd hl (hlead2 ws)
          | _ => rfl
        rw [hd0] at this
        exact this
      have hok := resolveAll_spec (env := env) (gen := gen) (names := st.nameToId) (deps := st.deps)
        (n := st.subtaskId)
        (dep := depIds (nameTable env (firstId lines) lines) (firstId lines + nSub lines))
        (by simp [depIds]) lines (firstId lines) 0 hdeps (by
          intro p hp
          rw [hn]
          refine resolve_eq hnames hdist (fun q hq => (nameTable_bound env lines _ q hq).2)
            (nameTable_noStar env lines _) ?_
          intro w hw
          obtain ⟨ws, h1, h2⟩ := depTable_sub _ p hp w hw
          have := hacc.known ws h1 w h2
          rw [nameTable_fst env lines (firstId lines) 0]
          exact this)
      rw [hrev]
      cases hsw : startsWithTestcase lines with
      | false => simp only [Bool.false_eq_true, if_false, List.nil_append]; exact ⟨_, hok⟩
      | true =>
        have hd : st.deps.get? (defaultSubtask env).id = none := hdef hsw
        simp only [if_true, List.cons_append, List.nil_append, resolveAll, hd, hok]
        exact ⟨_, rfl⟩
    · exact ⟨[], rfl⟩

end TM.Format
