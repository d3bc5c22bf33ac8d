import Verif.Format.CasesState

/-!
# The steps of the reader of `gen/cases.gen` follow the specification
-/
namespace TM.Format
open TM AMap

/-! ## How the parts of the specification grow -/

theorem nSubs_cons (l : CLine) (a : List CLine) : nSubs (l :: a) = (if isSub l then 1 else 0) + nSubs a := by
  unfold nSubs
  rw [List.filter_cons]
  split <;> simp <;> omega

theorem nTests_cons (l : CLine) (a : List CLine) :
    nTests (l :: a) = (if isTest l then 1 else 0) + nTests a := by
  unfold nTests
  rw [List.filter_cons]
  split <;> simp <;> omega

theorem nSubs_pos_iff {a : List CLine} : 0 < nSubs a ↔ ∃ l ∈ a, isSub l = true := by
  unfold nSubs
  rw [List.length_pos_iff_exists_mem]
  simp [List.mem_filter]

theorem sinceSub_cons (l : CLine) (a : List CLine) :
    sinceSub (l :: a) = if isSub l then [] else l :: sinceSub a := by
  unfold sinceSub
  rw [List.takeWhile_cons]
  cases isSub l <;> simp

theorem fromSub_cons (l : CLine) (a : List CLine) :
    fromSub (l :: a) = if isSub l then l :: a else fromSub a := by
  unfold fromSub
  rw [List.dropWhile_cons]
  cases isSub l <;> simp

theorem currentName_cons {l : CLine} (h : isSub l = false) (a : List CLine) :
    currentName (l :: a) = currentName a := by
  unfold currentName; rw [fromSub_cons, h]; rfl

theorem currentGen_cons {l : CLine} (h : isSub l = false) (hg : genSel l = none) (a : List CLine) :
    currentGen (l :: a) = currentGen a := by
  unfold currentGen
  rw [fromSub_cons, sinceSub_cons, h]
  simp [hg]

theorem takeWhile_all {α : Type} {p : α → Bool} {l : List α} (h : ∀ x ∈ l, p x = true) :
    l.takeWhile p = l := by
  have := List.takeWhile_append_of_pos (l₂ := []) h
  simpa using this

theorem takeWhile_sat {α : Type} {p : α → Bool} {l : List α} : ∀ x ∈ l.takeWhile p, p x = true := by
  induction l with
  | nil => intro x hx; simp at hx
  | cons a l ih =>
    intro x hx
    rw [List.takeWhile_cons] at hx
    split at hx
    · rename_i ha
      rcases List.mem_cons.1 hx with rfl | hx
      · exact ha
      · exact ih x hx
    · simp at hx

theorem globals_append {ls : List CLine} {l : CLine} :
    ((ls ++ [l]).takeWhile (fun l => !isSub l)) =
      if nSubs ls = 0 then (if isSub l then ls else ls ++ [l]) else ls.takeWhile (fun l => !isSub l) := by
  by_cases h : nSubs ls = 0
  · rw [if_pos h]
    have hall : ∀ x ∈ ls, (!isSub x) = true := by
      intro x hx
      cases hs : isSub x with
      | false => rfl
      | true =>
        have : 0 < nSubs ls := nSubs_pos_iff.2 ⟨x, hx, hs⟩
        omega
    rw [List.takeWhile_append_of_pos hall]
    cases hl : isSub l <;> simp [List.takeWhile_cons, hl]
  · rw [if_neg h]
    have : 0 < nSubs ls := by omega
    obtain ⟨x, hx, hs⟩ := nSubs_pos_iff.1 this
    rw [List.takeWhile_append]
    split
    · rename_i he
      have := List.takeWhile_prefix (p := fun l => !isSub l) (l := ls)
      have he2 := this.eq_of_length he
      have : x ∈ ls.takeWhile (fun l => !isSub l) := by rw [he2]; exact hx
      have := takeWhile_sat _ this
      simp [hs] at this
    · rfl

theorem nSubs_reverse (a : List CLine) : nSubs a.reverse = nSubs a := by
  unfold nSubs; rw [List.filter_reverse, List.length_reverse]

theorem constraints_cons (l : CLine) (a : List CLine) :
    (((l :: a).reverse.takeWhile (fun l => !isSub l)).filterMap constrOf) =
      if nSubs a = 0 then (a.reverse.takeWhile (fun l => !isSub l)).filterMap constrOf ++
          (constrOf l).toList
      else (a.reverse.takeWhile (fun l => !isSub l)).filterMap constrOf := by
  rw [List.reverse_cons, globals_append, nSubs_reverse]
  by_cases h : nSubs a = 0
  · rw [if_pos h, if_pos h]
    have hall : a.reverse.takeWhile (fun l => !isSub l) = a.reverse := by
      apply takeWhile_all
      intro x hx
      cases hs : isSub x with
      | false => rfl
      | true =>
        have : 0 < nSubs a := nSubs_pos_iff.2 ⟨x, List.mem_reverse.1 hx, hs⟩
        omega
    rw [hall]
    cases hs : isSub l with
    | true =>
      have : constrOf l = none := by
        cases l with
        | command c => cases c <;> first | rfl | cases hs
        | _ => rfl
      simp [this]
    | false =>
      simp only [Bool.false_eq_true, if_false, List.filterMap_append, List.filterMap_cons,
        List.filterMap_nil]
      cases constrOf l <;> rfl
  · rw [if_neg h, if_neg h]

theorem subC_zero {a : List CLine} (h : nSubs a = 0) : subC a = [] := by
  induction a with
  | nil => rfl
  | cons l a ih =>
    rw [nSubs_cons] at h
    have ih' := ih (by omega)
    cases l with
    | command c =>
      cases c with
      | subtask sc d => simp [isSub] at h
      | constraint x xs => simp only [subC, ih']
      | _ => exact ih'
    | _ => exact ih'

theorem subC_pos {a : List CLine} (h : 0 < nSubs a) : ∃ r,
    subC a = ((sinceSub a).reverse.filterMap constrOf).map toC :: r := by
  induction a with
  | nil => simp [nSubs] at h
  | cons l a ih =>
    rw [nSubs_cons] at h
    rw [sinceSub_cons]
    cases l with
    | command c =>
      cases c with
      | subtask sc d => exact ⟨subC a, rfl⟩
      | constraint x xs =>
        obtain ⟨r, hr⟩ := ih (by simpa [isSub] using h)
        exact ⟨r, by simp [subC, hr, isSub, constrOf]⟩
      | _ =>
        obtain ⟨r, hr⟩ := ih (by simpa [isSub] using h)
        exact ⟨r, by simp [subC, hr, isSub, constrOf]⟩
    | _ =>
      obtain ⟨r, hr⟩ := ih (by simpa [isSub] using h)
      exact ⟨r, by simp [subC, hr, isSub, constrOf]⟩

theorem constr_good {env : CasesEnv} {a : List CLine} (h : AllOk env a) :
    ∀ x xs, CLine.command (.constraint x xs) ∈ a → CGood (x, xs) := by
  induction a with
  | nil => intro x xs hx; simp at hx
  | cons l a ih =>
    intro x xs hx
    rcases List.mem_cons.1 hx with rfl | hx
    · have := h.1
      simp only [LineOk] at this
      exact ⟨this.1, this.2.1, this.2.2.1⟩
    · exact ih h.2 x xs hx

theorem constrOf_iff {l : CLine} {c : CTerm × List (CmpOp × CTerm)} :
    constrOf l = some c ↔ l = .command (.constraint c.1 c.2) := by
  cases l with
  | command k => cases k <;> simp [constrOf, Prod.ext_iff]
  | _ => simp [constrOf]

theorem gens_good {env : CasesEnv} {a : List CLine} (h : AllOk env a) :
    DefsGood env (a.filterMap genDef) ∧ DefsGood env (a.filterMap valDef) := by
  induction a with
  | nil => exact ⟨⟨by simp, by simp⟩, ⟨by simp, by simp⟩⟩
  | cons l a ih =>
    obtain ⟨h1, h2⟩ := ih h.2
    cases l with
    | command c =>
      cases c with
      | genDefine n p v => exact ⟨((define_step env h1 n p v).1 h.1).2, h2⟩
      | valDefine n p v => exact ⟨h1, ((define_step env h2 n p v).1 h.1).2⟩
      | _ => exact ⟨h1, h2⟩
    | _ => exact ⟨h1, h2⟩

/-- The entry made last. -/
theorem revEnt_head {env : CasesEnv} (a : List CLine) :
    (AfterSub a → ∃ s r, revEnt env a = .subtask s :: r ∧ s.id = nSubs a - 1 ∧ 0 < nSubs a) ∧
    (¬ AfterSub a → ∀ s r, revEnt env a ≠ .subtask s :: r) := by
  induction a with
  | nil =>
    refine ⟨?_, fun _ s r h => by simp [revEnt] at h⟩
    rintro ⟨l, rest, h, _⟩
    simp at h
  | cons l a ih =>
    have hskip : isSub l = false → isTest l = false → (AfterSub (l :: a) ↔ AfterSub a) := by
      intro h1 h2
      unfold AfterSub
      rw [List.dropWhile_cons]
      simp [h1, h2]
    have htest : isTest l = true → ¬ AfterSub (l :: a) := by
      intro ht
      unfold AfterSub
      rw [List.dropWhile_cons]
      have hs : isSub l = false := by
        cases l with
        | command c => cases c <;> first | rfl | cases ht
        | _ => rfl
      simp only [ht, hs, Bool.or_true, Bool.not_true, Bool.false_eq_true, if_false]
      rintro ⟨l', rest, he, hs'⟩
      cases he
      rw [hs] at hs'; cases hs'
    have hid : revEnt env (l :: a) = revEnt env a → isSub l = false → isTest l = false →
        (AfterSub (l :: a) → ∃ s r, revEnt env (l :: a) = .subtask s :: r ∧ s.id = nSubs (l :: a) - 1 ∧
          0 < nSubs (l :: a)) ∧
        (¬ AfterSub (l :: a) → ∀ s r, revEnt env (l :: a) ≠ .subtask s :: r) := by
      intro he h1 h2
      rw [hskip h1 h2, he, nSubs_cons, h1]
      simpa using ih
    cases l with
    | command c =>
      cases c with
      | subtask sc d =>
        refine ⟨fun _ => ⟨_, _, rfl, ?_, ?_⟩, fun hn => ?_⟩
        · rw [nSubs_cons]; simp [isSub]
        · rw [nSubs_cons]; simp [isSub]; omega
        · exfalso; apply hn
          exact ⟨.command (.subtask sc d), a, by simp [List.dropWhile_cons, isSub], rfl⟩
      | valSelect n =>
        rw [hskip rfl rfl, nSubs_cons]
        simp only [isSub, Bool.false_eq_true, if_false, Nat.zero_add, revEnt]
        refine ⟨fun h => ?_, fun h s r => ?_⟩
        · obtain ⟨s, r, h1, h2, h3⟩ := ih.1 h
          rw [h1]
          exact ⟨_, _, rfl, h2, h3⟩
        · have := ih.2 h
          cases hr : revEnt env a with
          | nil => simp
          | cons e es =>
            cases e with
            | subtask s' => exact absurd hr (this s' es)
            | testcase t => simp
      | run n args => exact ⟨fun h => absurd h (htest rfl), fun _ s r => by simp [revEnt, mkTest]⟩
      | copy p => exact ⟨fun h => absurd h (htest rfl), fun _ s r => by simp [revEnt]⟩
      | _ => exact hid rfl rfl rfl
    | testcase t => exact ⟨fun h => absurd h (htest rfl), fun _ s r => by simp [revEnt, mkTest]⟩
    | _ => exact hid rfl rfl rfl

theorem names_mem {a : List CLine} {n : Text} :
    (AMap.get? (namesOf a) n).isSome = true ↔ n ∈ a.filterMap subName := by
  induction a with
  | nil => simp [namesOf, AMap.get?]
  | cons l a ih =>
    simp only [namesOf, List.filterMap_cons]
    cases hl : subName l with
    | none => exact ih
    | some m =>
      simp only [AMap.get?_cons, List.mem_cons]
      by_cases h : m = n
      · subst h; simp
      · rw [if_neg h, ih]
        constructor
        · exact .inr
        · rintro (h' | h')
          · exact absurd h'.symm h
          · exact h'

theorem namesOf_cons_none {l : CLine} (h : subName l = none) (a : List CLine) :
    namesOf (l :: a) = namesOf a := by simp [namesOf, h]

/-! ## Testcases -/

theorem testcase_step (env : CasesEnv) {a : List CLine} (ha : AllOk env a) (text : Text)
    (gen : Option Text) :
    (TestOk env a gen text → parseTestcase env (stateOf env a) text gen =
      .ok { stateOf env a with rev := mkTest env a gen text :: revEnt env a, testcaseId := nTests a + 1 }) ∧
    (¬ TestOk env a gen text → ∃ e, parseTestcase env (stateOf env a) text gen = .error e ∧ e ≠ .panic) := by
  unfold parseTestcase
  have hgood := (gens_good ha).1
  by_cases h0 : (stateOf env a).subtaskId = 0
  · rw [if_pos h0]
    refine ⟨fun h => ?_, fun _ => ⟨_, rfl, by simp⟩⟩
    have := h.1
    change nSubs a = 0 at h0
    omega
  · rw [if_neg h0]
    have hpos : 0 < nSubs a := by change ¬ nSubs a = 0 at h0; omega
    cases gen with
    | none =>
      refine ⟨fun h => ?_, fun _ => ⟨_, rfl, by simp⟩⟩
      obtain ⟨_, g, m, args, h, _⟩ := h
      cases h
    | some g =>
      simp only
      cases hsp : env.split text with
      | none =>
        refine ⟨fun h => ?_, fun _ => ⟨_, rfl, by simp⟩⟩
        obtain ⟨_, g, m, args, _, _, h, _⟩ := h
        rw [hsp] at h; cases h
      | some args =>
        simp only
        have hget : (stateOf env a).generators.get? g = named env (a.filterMap genDef) g :=
          mgrs_get env hgood g
        rw [hget]
        cases hm : named env (a.filterMap genDef) g with
        | none =>
          refine ⟨fun h => ?_, fun _ => ⟨_, rfl, by simp⟩⟩
          obtain ⟨_, g', m, args, h1, h2, _⟩ := h
          cases h1
          rw [hm] at h2; cases h2
        | some m =>
          simp only
          obtain ⟨vars, hv1, hv2⟩ := getVariables_ok (st := stateOf env a) hpos m.args args
          rw [hv1]
          simp only
          obtain ⟨r, hr⟩ := subC_pos hpos
          have hr' : (stateOf env a).subConstraints =
              ((sinceSub a).reverse.filterMap constrOf).map toC :: r := hr
          rw [hr']
          simp only
          have hcs : (stateOf env a).constraints ++ ((sinceSub a).reverse.filterMap constrOf).map toC =
              (((a.reverse.takeWhile (fun l => !isSub l)).filterMap constrOf) ++
                ((sinceSub a).reverse.filterMap constrOf)).map toC := by
            rw [List.map_append]; rfl
          rw [hcs]
          have hmem : ∀ c, c ∈ ((a.reverse.takeWhile (fun l => !isSub l)).filterMap constrOf) ++
                ((sinceSub a).reverse.filterMap constrOf) ↔ InForce a c := by
            intro c
            simp only [List.mem_append, List.mem_filterMap, InForce, constrOf_iff, List.mem_reverse]
            constructor
            · rintro (⟨l, hl, rfl⟩ | ⟨l, hl, rfl⟩)
              · exact .inl hl
              · exact .inr hl
            · rintro (h | h)
              · exact .inl ⟨_, h, rfl⟩
              · exact .inr ⟨_, h, rfl⟩
          have hgoodc : ∀ c ∈ ((a.reverse.takeWhile (fun l => !isSub l)).filterMap constrOf) ++
                ((sinceSub a).reverse.filterMap constrOf), CGood c := by
            intro c hc
            rcases (hmem c).1 hc with h | h
            · exact constr_good ha c.1 c.2 (List.mem_reverse.1 ((List.takeWhile_subset _) h))
            · exact constr_good ha c.1 c.2 ((List.takeWhile_subset _) h)
          obtain ⟨k1, k2⟩ := checkAll_iff (vars := vars) hv2 _ hgoodc
          have hiff : TestOk env a (some g) text ↔
              ∀ c ∈ ((a.reverse.takeWhile (fun l => !isSub l)).filterMap constrOf) ++
                ((sinceSub a).reverse.filterMap constrOf),
                ¬ Violated (varValue m.args args (nSubs a - 1) (currentName a)) c.1 c.2 := by
            constructor
            · rintro ⟨_, g', m', args', h1, h2, h3, h4⟩ c hc
              cases h1
              rw [hm] at h2; cases h2
              rw [hsp] at h3; cases h3
              exact h4 c ((hmem c).1 hc)
            · intro h
              exact ⟨hpos, g, m, args, rfl, hm, hsp, fun c hc => h c ((hmem c).2 hc)⟩
          constructor
          · intro h
            rw [k1 (hiff.1 h)]
            simp only [mkTest, Option.bind_some, hm, hsp]
            rfl
          · intro h
            rw [k2 (fun hc => h (hiff.2 hc))]
            exact ⟨_, rfl, by simp⟩

end TM.Format
