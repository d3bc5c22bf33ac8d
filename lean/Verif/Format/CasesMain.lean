import Verif.Format.CasesStep

/-!
# The reader of `gen/cases.gen` follows the specification
-/
namespace TM.Format
open TM AMap

theorem stateOf_cons_plain {env : CasesEnv} {l : CLine} {a : List CLine}
    (h1 : isSub l = false) (h2 : isTest l = false) (h3 : genDef l = none) (h4 : valDef l = none)
    (h5 : genSel l = none) (h6 : constrOf l = none) (h7 : subName l = none)
    (h8 : depsOf (l :: a) = depsOf a) (h9 : subC (l :: a) = subC a)
    (h10 : revEnt env (l :: a) = revEnt env a) : stateOf env (l :: a) = stateOf env a := by
  unfold stateOf
  rw [h8, h9, h10, constraints_cons, h6, currentName_cons h1, currentGen_cons h1 h5,
    nSubs_cons, nTests_cons, h1, h2, namesOf_cons_none h7]
  simp [List.filterMap_cons, h3, h4]

theorem casesStep_iff (env : CasesEnv) {a : List CLine} (ha : AllOk env a) (l : CLine) :
    (LineOk env a l → casesStep env (stateOf env a) l = .ok (stateOf env (l :: a))) ∧
    (¬ LineOk env a l → ∃ e, casesStep env (stateOf env a) l = .error e ∧ e ≠ .panic) := by
  obtain ⟨hgg, hgv⟩ := gens_good ha
  cases l with
  | comment =>
    refine ⟨fun _ => ?_, fun h => absurd trivial h⟩
    rw [stateOf_cons_plain rfl rfl rfl rfl rfl rfl rfl rfl rfl rfl]; rfl
  | empty =>
    refine ⟨fun _ => ?_, fun h => absurd trivial h⟩
    rw [stateOf_cons_plain rfl rfl rfl rfl rfl rfl rfl rfl rfl rfl]; rfl
  | testcase text =>
    obtain ⟨h1, h2⟩ := testcase_step env ha text (currentGen a)
    refine ⟨fun h => ?_, h2⟩
    refine (h1 h).trans ?_
    congr 1
    unfold stateOf
    rw [constraints_cons, currentName_cons rfl, currentGen_cons rfl rfl, nSubs_cons, nTests_cons,
      namesOf_cons_none rfl]
    simp [List.filterMap_cons, genDef, valDef, constrOf, isSub, isTest, subC, depsOf, revEnt, Nat.add_comm]
  | command c =>
    cases c with
    | run n args =>
      simp only [casesStep, parseCommand, LineOk]
      by_cases h0 : (stateOf env a).subtaskId = 0
      · rw [if_pos h0]
        refine ⟨fun h => ?_, fun _ => ⟨_, rfl, by simp⟩⟩
        have := h.1
        change nSubs a = 0 at h0
        omega
      · rw [if_neg h0]
        have hc : (stateOf env a).generators.contains n = true ↔ n ∈ (a.filterMap genDef).map (·.1) :=
          mgrs_contains env hgg n
        by_cases hcc : (stateOf env a).generators.contains n = true
        · rw [hcc]
          simp only [Bool.not_true, Bool.false_eq_true, if_false]
          obtain ⟨h1, h2⟩ := testcase_step env ha args (some n)
          refine ⟨fun h => ?_, h2⟩
          refine (h1 h).trans ?_
          congr 1
          unfold stateOf
          rw [constraints_cons, currentName_cons rfl, currentGen_cons rfl rfl, nSubs_cons, nTests_cons,
            namesOf_cons_none rfl]
          simp [List.filterMap_cons, genDef, valDef, constrOf, isSub, isTest, subC, depsOf, revEnt, Nat.add_comm]
        · rw [if_pos (by simp [hcc])]
          refine ⟨fun h => ?_, fun _ => ⟨_, rfl, by simp⟩⟩
          obtain ⟨_, g, m, args', h1, h2, _⟩ := h
          cases h1
          exact absurd (hc.2 ((named_iff env hgg n).1 (by rw [h2]; rfl))) hcc
    | copy p =>
      simp only [casesStep, parseCommand, LineOk]
      by_cases h0 : (stateOf env a).subtaskId = 0
      · rw [if_pos h0]
        refine ⟨fun h => ?_, fun _ => ⟨_, rfl, by simp⟩⟩
        have := h.1
        change nSubs a = 0 at h0
        omega
      · rw [if_neg h0]
        have hpos : 0 < nSubs a := by change ¬ nSubs a = 0 at h0; omega
        cases hp : env.pathExists (env.join p) with
        | false => exact ⟨fun h => by simp at h, fun _ => ⟨_, rfl, by simp⟩⟩
        | true =>
          refine ⟨fun _ => ?_, fun h => absurd ⟨hpos, rfl⟩ h⟩
          simp only [Bool.not_true, Bool.false_eq_true, if_false]
          congr 1
          unfold stateOf
          rw [constraints_cons, currentName_cons rfl, currentGen_cons rfl rfl, nSubs_cons, nTests_cons,
            namesOf_cons_none rfl]
          simp [List.filterMap_cons, genDef, valDef, constrOf, isSub, isTest, subC, depsOf, revEnt, Nat.add_comm]
    | genSelect n =>
      simp only [casesStep, parseCommand, LineOk]
      by_cases h0 : (stateOf env a).subtaskId = 0
      · rw [if_pos h0]
        refine ⟨fun h => ?_, fun _ => ⟨_, rfl, by simp⟩⟩
        have := h.1
        change nSubs a = 0 at h0
        omega
      · rw [if_neg h0]
        have hpos : 0 < nSubs a := by change ¬ nSubs a = 0 at h0; omega
        have hc : (stateOf env a).generators.contains n = true ↔ n ∈ (a.filterMap genDef).map (·.1) :=
          mgrs_contains env hgg n
        by_cases hcc : (stateOf env a).generators.contains n = true
        · rw [hcc]
          refine ⟨fun _ => ?_, fun h => absurd ⟨hpos, hc.1 hcc⟩ h⟩
          simp only [Bool.not_true, Bool.false_eq_true, if_false]
          congr 1
          unfold stateOf
          rw [constraints_cons, currentName_cons rfl, nSubs_cons, nTests_cons, namesOf_cons_none rfl]
          simp [List.filterMap_cons, genDef, valDef, constrOf, isSub, isTest, subC, depsOf, revEnt, currentGen, sinceSub_cons,
            genSel]
        · rw [if_pos (by simp [hcc])]
          exact ⟨fun h => absurd (hc.2 h.2) hcc, fun _ => ⟨_, rfl, by simp⟩⟩
    | genDefine n p v =>
      obtain ⟨h1, h2⟩ := define_step env hgg n p v
      have hst : casesStep env (stateOf env a) (.command (.genDefine n p v)) =
          match defineManager env n p v (defaultOf (a.filterMap genDef)) (mgrs env (a.filterMap genDef)) with
          | .error e => .error e
          | .ok (d, m) => .ok { stateOf env a with defaultGen := d, generators := m } := rfl
      rw [hst]
      refine ⟨fun h => ?_, fun h => ?_⟩
      · rw [(h1 h).1]
        simp only
        congr 1
        unfold stateOf
        rw [constraints_cons, currentName_cons rfl, currentGen_cons rfl rfl, nSubs_cons, nTests_cons,
          namesOf_cons_none rfl]
        simp [List.filterMap_cons, genDef, valDef, constrOf, isSub, isTest, subC, depsOf, revEnt]
      · obtain ⟨e, he, hne⟩ := h2 h
        rw [he]
        exact ⟨e, rfl, hne⟩
    | valDefine n p v =>
      obtain ⟨h1, h2⟩ := define_step env hgv n p v
      have hst : casesStep env (stateOf env a) (.command (.valDefine n p v)) =
          match defineManager env n p v (defaultOf (a.filterMap valDef)) (mgrs env (a.filterMap valDef)) with
          | .error e => .error e
          | .ok (d, m) => .ok { stateOf env a with defaultVal := d, validators := m } := rfl
      rw [hst]
      refine ⟨fun h => ?_, fun h => ?_⟩
      · rw [(h1 h).1]
        simp only
        congr 1
        unfold stateOf
        rw [constraints_cons, currentName_cons rfl, currentGen_cons rfl rfl, nSubs_cons, nTests_cons,
          namesOf_cons_none rfl]
        simp [List.filterMap_cons, genDef, valDef, constrOf, isSub, isTest, subC, depsOf, revEnt]
      · obtain ⟨e, he, hne⟩ := h2 h
        rw [he]
        exact ⟨e, rfl, hne⟩
    | valSelect n =>
      simp only [casesStep, parseCommand, LineOk]
      obtain ⟨hr1, hr2⟩ := revEnt_head (env := env) a
      by_cases h0 : (stateOf env a).subtaskId = 0
      · rw [if_pos h0]
        refine ⟨fun h => ?_, fun _ => ⟨_, rfl, by simp⟩⟩
        obtain ⟨s, r, _, _, hp⟩ := hr1 h.1
        change nSubs a = 0 at h0
        omega
      · rw [if_neg h0]
        have hpos : 0 < nSubs a := by change ¬ nSubs a = 0 at h0; omega
        obtain ⟨vars, hv1, hv2⟩ := autoVars_ok (st := stateOf env a) hpos
        rw [hv1]
        simp only
        obtain ⟨g1, g2⟩ := getValidator_some env (st := stateOf env a) hgv rfl hv2 n
        cases hval : validatorOf env a (nSubs a - 1) (currentName a) n with
        | none =>
          obtain ⟨e, he, hne⟩ := g2 hval
          rw [he]
          exact ⟨fun h => by simp at h, fun _ => ⟨e, rfl, hne⟩⟩
        | some v =>
          rw [g1 v hval]
          simp only
          have hrev : (stateOf env a).rev = revEnt env a := rfl
          rw [hrev]
          by_cases has : AfterSub a
          · obtain ⟨s, r, hs, hid, _⟩ := hr1 has
            rw [hs]
            refine ⟨fun _ => ?_, fun h => absurd ⟨has, rfl⟩ h⟩
            simp only
            congr 1
            unfold stateOf
            rw [constraints_cons, currentName_cons rfl, currentGen_cons rfl rfl, nSubs_cons, nTests_cons,
              namesOf_cons_none rfl]
            simp [List.filterMap_cons, genDef, valDef, constrOf, isSub, isTest, subC, depsOf, revEnt, hs, hval]
          · refine ⟨fun h => absurd h.1 has, fun _ => ?_⟩
            have := hr2 has
            cases hr : revEnt env a with
            | nil => exact ⟨_, rfl, by simp⟩
            | cons e es =>
              cases e with
              | subtask s => exact absurd hr (this s es)
              | testcase t => exact ⟨_, rfl, by simp⟩
    | constraint x xs =>
      simp only [casesStep, parseCommand, LineOk, parseConstraint]
      obtain ⟨h1, h2⟩ := items_all x xs
      by_cases hok : InRange x ∧ (∀ p ∈ xs, InRange p.2) ∧ OneDirection xs
      · rw [h1 hok.1 hok.2.1 hok.2.2]
        simp only
        rw [if_neg (by simp [toC])]
        by_cases hne : xs = []
        · subst hne
          rw [if_pos (by simp [toC])]
          exact ⟨fun h => absurd rfl h.1, fun _ => ⟨_, rfl, by simp⟩⟩
        · have hlen : 0 < xs.length := List.length_pos_iff.2 hne
          rw [if_neg (by simp [toC]; omega)]
          refine ⟨fun _ => ?_, fun h => absurd ⟨hne, hok.1, hok.2.1, hok.2.2⟩ h⟩
          by_cases h0 : nSubs a = 0
          · have h0' : (stateOf env a).subtaskId = 0 := h0
            rw [if_pos h0']
            congr 1
            unfold stateOf
            rw [constraints_cons, currentName_cons rfl, currentGen_cons rfl rfl, nSubs_cons, nTests_cons,
              namesOf_cons_none rfl]
            simp [List.filterMap_cons, genDef, valDef, constrOf, isSub, isTest, subC, depsOf, revEnt, h0, subC_zero]
          · have h0' : ¬ (stateOf env a).subtaskId = 0 := h0
            rw [if_neg h0']
            obtain ⟨r, hr⟩ := subC_pos (a := a) (by omega)
            have hr' : (stateOf env a).subConstraints =
              ((sinceSub a).reverse.filterMap constrOf).map toC :: r := hr
            rw [hr']
            simp only
            congr 1
            unfold stateOf
            rw [constraints_cons, currentName_cons rfl, currentGen_cons rfl rfl, nSubs_cons, nTests_cons,
              namesOf_cons_none rfl]
            simp [List.filterMap_cons, genDef, valDef, isSub, isTest, subC, depsOf, revEnt, h0, hr]
      · obtain ⟨e, he, hne⟩ := h2 hok
        rw [he]
        exact ⟨fun h => absurd ⟨h.2.1, h.2.2.1, h.2.2.2⟩ hok, fun _ => ⟨e, rfl, hne⟩⟩
    | subtask sc d =>
      simp only [LineOk]
      by_cases hdup : ∀ n, d.map nameOf = some n → n ∉ a.filterMap subName
      · have hd : (match d.map nameOf with
            | some n => ((stateOf env a).nameToId.get? n).isSome | none => false) = false := by
          cases hn : d.map nameOf with
          | none => rfl
          | some n =>
            have := hdup n hn
            rw [← names_mem] at this
            simp only
            cases hx : ((stateOf env a).nameToId.get? n).isSome with
            | false => rfl
            | true => exact absurd hx this
        -- the state in which the validator is looked up
        let st1 : CasesState :=
          { stateOf env a with
            currentGen := defaultOf (a.filterMap genDef)
            subConstraints := [] :: subC a
            subtaskName := d.map nameOf
            nameToId := (match d.map nameOf with
              | some n => AMap.insert (namesOf a) n (nSubs a) | none => namesOf a)
            subtaskId := nSubs a + 1 }
        obtain ⟨vars, hv1, hv2⟩ := autoVars_ok (st := st1) (Nat.succ_pos _)
        have key : (match autoVars st1 with
            | .error e => (.error e : Except CasesErr CasesState)
            | .ok vars =>
            match getValidator st1 st1.defaultVal vars with
            | .error e => .error e
            | .ok v =>
              .ok { st1 with rev := .subtask { id := st1.subtaskId - 1, name := d.map nameOf
                                               description := d
                                               maxScore := floatVal sc, isDefault := false
                                               validator := v } :: st1.rev }) = 
            match getValidator st1 (defaultOf (a.filterMap valDef)) vars with
            | .error e => .error e
            | .ok v =>
              .ok { st1 with rev := .subtask { id := nSubs a, name := d.map nameOf
                                               description := d
                                               maxScore := floatVal sc
                                               validator := v } :: revEnt env a } := by
          rw [hv1]; rfl
        have hfin : ∀ v, (∀ w, startValidator env a (d.map nameOf) = some w → w = v) →
            startValidator env a (d.map nameOf) ≠ none →
            (.ok { st1 with rev := .subtask { id := nSubs a, name := d.map nameOf
                                              description := d
                                              maxScore := floatVal sc
                                              validator := v } :: revEnt env a } :
                Except CasesErr CasesState) = .ok (stateOf env (.command (.subtask sc d) :: a)) := by
          intro v hv hne
          congr 1
          unfold stateOf
          rw [constraints_cons, nSubs_cons, nTests_cons]
          cases hsv : startValidator env a (d.map nameOf) with
          | none => exact absurd hsv hne
          | some w =>
            have := hv w hsv
            subst this
            have hn : namesOf (.command (.subtask sc d) :: a) =
                (match d.map nameOf with
                  | some n => AMap.insert (namesOf a) n (nSubs a) | none => namesOf a) := by
              simp only [namesOf, subName]
              cases hn : d.map nameOf with
              | none => rfl
              | some n =>
                simp only
                have hc : (namesOf a).contains n = false := by
                  unfold AMap.contains
                  cases hx : ((namesOf a).get? n).isSome with
                  | false => rfl
                  | true => exact absurd (names_mem.1 hx) (hdup n hn)
                rw [AMap.insert, erase_self hc]
            rw [hn]
            simp [List.filterMap_cons, genDef, valDef, constrOf, isSub, isTest, subC, depsOf, revEnt, currentGen, sinceSub_cons,
              fromSub_cons, currentName, subName, hsv, Nat.add_comm, st1, stateOf]
        have hgoal : casesStep env (stateOf env a) (.command (.subtask sc d)) =
            match getValidator st1 (defaultOf (a.filterMap valDef)) vars with
            | .error e => .error e
            | .ok v =>
              .ok { st1 with rev := .subtask { id := nSubs a, name := d.map nameOf
                                               description := d
                                               maxScore := floatVal sc
                                               validator := v } :: revEnt env a } := by
          rw [← key]
          cases d with
          | none => rfl
          | some x => exact if_neg (fun h => Bool.false_ne_true (hd.symm.trans h))
        rw [hgoal]
        cases hdv : defaultOf (a.filterMap valDef) with
        | none =>
          have hsv : startValidator env a (d.map nameOf) = some .assumeValid := by
            simp [startValidator, hdv]
          refine ⟨fun _ => ?_, fun h => absurd ⟨hdup, by rw [hsv]; rfl⟩ h⟩
          exact hfin .assumeValid (by intro w hw; rw [hsv] at hw; cases hw; rfl) (by rw [hsv]; simp)
        | some v =>
          have hsv : startValidator env a (d.map nameOf) = validatorOf env a (nSubs a) (d.map nameOf) v := by
            simp [startValidator, hdv]
          obtain ⟨g1, g2⟩ := getValidator_some env (st := st1) (above := a) hgv rfl
            (num := nSubs a) (nm := d.map nameOf) hv2 v
          cases hval : validatorOf env a (nSubs a) (d.map nameOf) v with
          | none =>
            obtain ⟨e, he, hne⟩ := g2 hval
            rw [he]
            refine ⟨fun h => ?_, fun _ => ⟨e, rfl, hne⟩⟩
            rw [hsv, hval] at h
            simp at h
          | some w =>
            rw [g1 w hval]
            refine ⟨fun _ => ?_, fun h => absurd ⟨hdup, by rw [hsv, hval]; rfl⟩ h⟩
            exact hfin w (by intro w' hw; rw [hsv, hval] at hw; cases hw; rfl) (by rw [hsv, hval]; simp)
      · refine ⟨fun h => absurd h.1 hdup, fun _ => ?_⟩
        simp only [Classical.not_forall, Classical.not_not] at hdup
        obtain ⟨n, hn, hmem⟩ := hdup
        have : ((stateOf env a).nameToId.get? n).isSome = true := names_mem.2 hmem
        refine ⟨.duplicateName, ?_, by simp⟩
        cases d with
        | none => cases hn
        | some x =>
          cases hn
          exact if_pos this
    | stDep ws =>
      simp only [casesStep, parseCommand, LineOk]
      by_cases hw : ws = []
      · subst hw
        refine ⟨fun _ => ?_, fun h => absurd (.inl rfl) h⟩
        rw [stateOf_cons_plain rfl rfl rfl rfl rfl rfl rfl (by simp [depsOf]) rfl rfl]; rfl
      · have hwe : ws.isEmpty = false := by cases ws <;> simp_all
        rw [hwe]
        simp only [Bool.false_eq_true, if_false]
        obtain ⟨hr1, hr2⟩ := revEnt_head (env := env) a
        have hrev : (stateOf env a).rev = revEnt env a := rfl
        rw [hrev]
        by_cases has : AfterSub a
        · obtain ⟨s, r, hs, hid, _⟩ := hr1 has
          rw [hs]
          refine ⟨fun _ => ?_, fun h => absurd (.inr has) h⟩
          simp only
          congr 1
          unfold stateOf
          rw [constraints_cons, currentName_cons rfl, currentGen_cons rfl rfl, nSubs_cons, nTests_cons,
            namesOf_cons_none rfl]
          simp [List.filterMap_cons, genDef, valDef, constrOf, isSub, isTest, subC, depsOf, revEnt, hs, hwe, hid, hw]
        · refine ⟨fun h => (h.elim hw has).elim, fun _ => ?_⟩
          have := hr2 has
          cases hr : revEnt env a with
          | nil => exact ⟨_, rfl, by simp⟩
          | cons e es =>
            cases e with
            | subtask s => exact absurd hr (this s es)
            | testcase t => exact ⟨_, rfl, by simp⟩

theorem casesLoop_iff (env : CasesEnv) (ls : List CLine) : ∀ {a : List CLine}, AllOk env a →
    (AllOk env (ls.reverse ++ a) → casesLoop env (stateOf env a) ls = .ok (stateOf env (ls.reverse ++ a))) ∧
    (¬ AllOk env (ls.reverse ++ a) → ∃ e, casesLoop env (stateOf env a) ls = .error e ∧ e ≠ .panic) := by
  induction ls with
  | nil => intro a ha; exact ⟨fun _ => rfl, fun h => absurd ha h⟩
  | cons l ls ih =>
    intro a ha
    obtain ⟨h1, h2⟩ := casesStep_iff env ha l
    simp only [List.reverse_cons, List.append_assoc, List.cons_append, List.nil_append, casesLoop]
    by_cases hl : LineOk env a l
    · rw [h1 hl]
      exact ih (a := l :: a) ⟨hl, ha⟩
    · obtain ⟨e, he, hne⟩ := h2 hl
      rw [he]
      refine ⟨fun h => ?_, fun _ => ⟨e, rfl, hne⟩⟩
      have hsuf : ∀ x : List CLine, AllOk env (x ++ l :: a) → LineOk env a l := by
        intro x
        induction x with
        | nil => intro h; exact h.1
        | cons y x ih => intro h; exact ih h.2
      exact absurd (hsuf _ h) hl

theorem allOk_iff {env : CasesEnv} {lines : List CLine} : AllOk env lines.reverse ↔
    ∀ pre l post, lines = pre ++ l :: post → LineOk env pre.reverse l := by
  have key : ∀ a : List CLine, AllOk env a ↔
      ∀ post l pre, a = post ++ l :: pre → LineOk env pre l := by
    intro a
    induction a with
    | nil => simp [AllOk]
    | cons x a ih =>
      simp only [AllOk, ih]
      constructor
      · rintro ⟨h1, h2⟩ post l pre he
        cases post with
        | nil => cases he; exact h1
        | cons y post => cases he; exact h2 post l pre rfl
      · intro h
        exact ⟨h [] x a rfl, fun post l pre he => h (x :: post) l pre (by rw [he]; rfl)⟩
  rw [key]
  constructor
  · intro h pre l post he
    exact h post.reverse l pre.reverse (by rw [he]; simp)
  · intro h post l pre he
    have := h pre.reverse l post.reverse (by
      have := congrArg List.reverse he
      rw [List.reverse_reverse] at this
      rw [this]; simp)
    rwa [List.reverse_reverse] at this

end TM.Format
