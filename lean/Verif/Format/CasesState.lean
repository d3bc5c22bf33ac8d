import Verif.Format.CasesLemmas

/-!
# Each step of the reader of `gen/cases.gen`
-/
namespace TM.Format
open TM AMap

/-- The generators or the validators of some definitions. -/
def mgrs (env : CasesEnv) : List (Text × Text × Text) → AMap Text Manager
  | [] => []
  | d :: ds =>
    match managerOf env d.2.1 d.2.2 with
    | some m => (d.1, m) :: mgrs env ds
    | none => mgrs env ds

/-- The constraints of the subtasks. -/
def subC : List CLine → List (List Constraint)
  | [] => []
  | .command (.subtask _ _) :: a => [] :: subC a
  | .command (.constraint x xs) :: a =>
    match subC a with
    | [] => []
    | cs :: r => (cs ++ [toC (x, xs)]) :: r
  | _ :: a => subC a

/-- The numbers of the names. -/
def namesOf : List CLine → AMap Text Nat
  | [] => []
  | l :: a =>
    match subName l with
    | some n => (n, nSubs a) :: namesOf a
    | none => namesOf a

/-- The words of the dependencies. -/
def depsOf : List CLine → AMap Nat (List Text)
  | [] => []
  | .command (.stDep ws) :: a =>
    if ws.isEmpty then depsOf a
    else AMap.insert (depsOf a) (nSubs a - 1) (((depsOf a).get? (nSubs a - 1)).getD [] ++ ws)
  | _ :: a => depsOf a

/-- The testcase made by a generator. -/
def mkTest (env : CasesEnv) (above : List CLine) (gen : Option Text) (text : Text) : Entry :=
  .testcase ⟨nTests above,
    match gen.bind (named env (above.filterMap genDef)), env.split text with
    | some m, some args => .custom m.source args
    | _, _ => .staticFile [],
    env.outputGen (nTests above)⟩

/-- The entries, the last one first and without the dependencies. -/
def revEnt (env : CasesEnv) : List CLine → List Entry
  | [] => []
  | .testcase text :: a => mkTest env a (currentGen a) text :: revEnt env a
  | .command (.run n args) :: a => mkTest env a (some n) args :: revEnt env a
  | .command (.copy p) :: a =>
    .testcase ⟨nTests a, .staticFile (env.join p), env.outputGen (nTests a)⟩ :: revEnt env a
  | .command (.subtask sc d) :: a =>
    .subtask { id := nSubs a, name := d.map nameOf, description := d, maxScore := floatVal sc
               validator := (startValidator env a (d.map nameOf)).getD .assumeValid } :: revEnt env a
  | .command (.valSelect n) :: a =>
    match revEnt env a with
    | .subtask s :: r =>
      .subtask { s with validator :=
        (validatorOf env a (nSubs a - 1) (currentName a) n).getD .assumeValid } :: r
    | es => es
  | _ :: a => revEnt env a

def stateOf (env : CasesEnv) (above : List CLine) : CasesState where
  rev := revEnt env above
  constraints := ((above.reverse.takeWhile (fun l => !isSub l)).filterMap constrOf).map toC
  subConstraints := subC above
  generators := mgrs env (above.filterMap genDef)
  validators := mgrs env (above.filterMap valDef)
  defaultGen := defaultOf (above.filterMap genDef)
  defaultVal := defaultOf (above.filterMap valDef)
  currentGen := currentGen above
  subtaskId := nSubs above
  subtaskName := currentName above
  nameToId := namesOf above
  deps := depsOf above
  testcaseId := nTests above

/-- Every line is accepted below those above it. -/
def AllOk (env : CasesEnv) : List CLine → Prop
  | [] => True
  | l :: a => LineOk env a l ∧ AllOk env a

/-! ## Managers -/

def DefsGood (env : CasesEnv) (defs : List (Text × Text × Text)) : Prop :=
  (∀ d ∈ defs, (managerOf env d.2.1 d.2.2).isSome = true) ∧ (defs.map (·.1)).Nodup

theorem mgrs_get (env : CasesEnv) {defs : List (Text × Text × Text)} (h : DefsGood env defs)
    (n : Text) : (mgrs env defs).get? n = named env defs n := by
  induction defs with
  | nil => rfl
  | cons d ds ih =>
    obtain ⟨h1, h2⟩ := h
    have ih' := ih ⟨fun d hd => h1 d (by simp [hd]), (List.nodup_cons.1 h2).2⟩
    obtain ⟨m, hm⟩ := Option.isSome_iff_exists.1 (h1 d (by simp))
    simp only [mgrs, hm, AMap.get?_cons, named, List.find?_cons]
    by_cases hn : d.1 = n
    · subst hn; simp [hm]
    · have : (d.1 == n) = false := by simp [hn]
      rw [this]
      rw [if_neg (fun h => hn h), ih']
      rfl

theorem mgrs_contains (env : CasesEnv) {defs : List (Text × Text × Text)} (h : DefsGood env defs)
    (n : Text) : (mgrs env defs).contains n = true ↔ n ∈ defs.map (·.1) := by
  unfold AMap.contains
  rw [mgrs_get env h, named]
  cases hf : defs.find? (fun d => d.1 == n) with
  | none =>
    simp only [Option.isSome_none, Bool.false_eq_true, false_iff]
    rw [List.find?_eq_none] at hf
    rintro hm
    obtain ⟨d, hd, rfl⟩ := List.mem_map.1 hm
    exact hf d hd (by simp)
  | some d =>
    have hd := List.mem_of_find?_eq_some hf
    have he := List.find?_some hf
    simp only [beq_iff_eq] at he
    simp only [h.1 d hd, true_iff]
    exact List.mem_map.2 ⟨d, hd, he⟩

theorem named_iff (env : CasesEnv) {defs : List (Text × Text × Text)} (h : DefsGood env defs)
    (n : Text) : (named env defs n).isSome = true ↔ n ∈ defs.map (·.1) := by
  rw [← mgrs_contains env h, ← mgrs_get env h]; rfl

theorem erase_self {K V : Type} [DecidableEq K] {m : AMap K V} {k : K} (h : m.contains k = false) :
    AMap.erase m k = m := by
  unfold AMap.erase
  rw [List.filter_eq_self]
  intro p hp
  simp only [ne_eq, decide_not, Bool.not_eq_eq_eq_not, Bool.not_true, decide_eq_false_iff_not]
  intro he
  have := AMap.get?_isSome_of_mem (m := m) (k := p.1) (v := p.2) hp
  subst he
  unfold AMap.contains at h
  obtain ⟨v, hv⟩ := this
  rw [hv] at h
  cases h

theorem defaultOf_cons (n p v : Text) (defs : List (Text × Text × Text)) :
    defaultOf ((n, p, v) :: defs) =
      if (defaultOf defs).isNone || n == "default".toList then some n else defaultOf defs := by
  unfold defaultOf
  simp only [List.map_cons, List.contains_cons]
  by_cases hn : n = "default".toList
  · subst hn; simp
  · have h1 : (("default".toList : Text) == n) = false := by
      rw [beq_eq_false_iff_ne]; exact fun h => hn h.symm
    have h2 : (n == "default".toList) = false := by rw [beq_eq_false_iff_ne]; exact hn
    rw [h1, h2]
    simp only [Bool.false_or, Bool.or_false]
    by_cases hc : (defs.map (·.1)).contains "default".toList = true
    · rw [if_pos hc, if_pos hc]; simp
    · rw [if_neg hc, if_neg hc]
      cases defs with
      | nil => simp
      | cons d ds =>
        rw [List.getLast?_cons_cons]
        have : ((d :: ds).getLast?).isSome = true := by simp
        obtain ⟨x, hx⟩ := Option.isSome_iff_exists.1 this
        rw [hx]; simp

theorem define_step (env : CasesEnv) {defs : List (Text × Text × Text)} (h : DefsGood env defs)
    (n p v : Text) :
    (DefOk env defs n p v → defineManager env n p v (defaultOf defs) (mgrs env defs) =
      .ok (defaultOf ((n, p, v) :: defs), mgrs env ((n, p, v) :: defs)) ∧
      DefsGood env ((n, p, v) :: defs)) ∧
    (¬ DefOk env defs n p v → ∃ e, defineManager env n p v (defaultOf defs) (mgrs env defs) = .error e ∧
      e ≠ .panic) := by
  unfold defineManager DefOk managerOf
  simp only
  cases hp : env.pathExists (env.join p) with
  | false => exact ⟨fun h => by simp at h, fun _ => ⟨_, rfl, by simp⟩⟩
  | true =>
    cases hs : env.source (env.join p) with
    | none => exact ⟨fun h => by simp at h, fun _ => ⟨_, rfl, by simp⟩⟩
    | some s =>
      cases ha : env.split v with
      | none => exact ⟨fun h => by simp at h, fun _ => ⟨_, rfl, by simp⟩⟩
      | some args =>
        simp only [Bool.not_true, Bool.false_eq_true, if_false, Option.isSome_some, true_and]
        have hc := mgrs_contains env h n
        constructor
        · intro hn
          have hcf : (mgrs env defs).contains n = false := by
            cases hx : (mgrs env defs).contains n with
            | false => rfl
            | true => exact absurd (hc.1 hx) hn
          rw [hcf]
          refine ⟨?_, ?_⟩
          · simp only [Bool.false_eq_true, if_false]
            rw [defaultOf_cons]
            simp only [mgrs, managerOf, hs, ha, AMap.insert, erase_self hcf]
          · refine ⟨?_, ?_⟩
            · intro d hd
              rcases List.mem_cons.1 hd with rfl | hd
              · simp [managerOf, hs, ha]
              · exact h.1 d hd
            · rw [List.map_cons, List.nodup_cons]; exact ⟨hn, h.2⟩
        · intro hn
          rw [Classical.not_not] at hn
          rw [hc.2 hn]
          exact ⟨_, rfl, by simp⟩

/-! ## Variables -/

theorem insertAll_get (l : List (Text × Text)) : ∀ (vars : AMap Text Text) (x : Text),
    (insertAll vars l).get? x =
      match l.reverse.find? (fun p => p.1 == x) with
      | some p => some p.2
      | none => vars.get? x := by
  induction l with
  | nil => intro vars x; rfl
  | cons p l ih =>
    obtain ⟨k, v⟩ := p
    intro vars x
    simp only [insertAll, ih, List.reverse_cons, List.find?_append]
    cases hf : l.reverse.find? (fun p => p.1 == x) with
    | some p => simp
    | none =>
      simp only [Option.none_or, AMap.get?_insert]
      by_cases hk : k = x
      · subst hk; simp
      · have : (k == x) = false := by simp [hk]
        simp only [List.find?_cons, this, List.find?_nil]
        rw [if_neg (fun h => hk h.symm)]

theorem autoVars_ok {st : CasesState} (h : 0 < st.subtaskId) : ∃ vars, autoVars st = .ok vars ∧
    ∀ x, vars.get? x = varValue [] [] (st.subtaskId - 1) st.subtaskName x := by
  unfold autoVars
  cases hn : st.subtaskId with
  | zero => omega
  | succ n =>
    cases hs : st.subtaskName with
    | none =>
      refine ⟨_, rfl, ?_⟩
      intro x
      simp only [AMap.get?_insert, varValue, List.zip_nil_left, List.reverse_nil, List.find?_nil,
        Nat.add_sub_cancel]
      by_cases h1 : x = "ST_NUM".toList
      · subst h1; rfl
      · by_cases h2 : x = "INPUT".toList
        · subst h2; rfl
        · rw [if_neg h1, if_neg h2, if_neg h1, if_neg h2]
          simp [AMap.get?]
    | some nm =>
      refine ⟨_, rfl, ?_⟩
      intro x
      simp only [AMap.get?_insert, varValue, List.zip_nil_left, List.reverse_nil, List.find?_nil,
        Nat.add_sub_cancel]
      by_cases h3 : x = "ST_NAME".toList
      · subst h3; rfl
      · by_cases h1 : x = "ST_NUM".toList
        · subst h1; rfl
        · by_cases h2 : x = "INPUT".toList
          · subst h2; rfl
          · rw [if_neg h3, if_neg h1, if_neg h2, if_neg h3, if_neg h1, if_neg h2]
            simp [AMap.get?]

theorem getVariables_ok {st : CasesState} (h : 0 < st.subtaskId) (params args : List Text) :
    ∃ vars, getVariables st params args = .ok vars ∧
      ∀ x, vars.get? x = varValue params args (st.subtaskId - 1) st.subtaskName x := by
  obtain ⟨vars, h1, h2⟩ := autoVars_ok h
  unfold getVariables
  rw [h1]
  refine ⟨_, rfl, ?_⟩
  intro x
  rw [insertAll_get, h2]
  simp only [varValue, List.zip_nil_left, List.reverse_nil, List.find?_nil]
  cases List.find? (fun p => p.1 == x) (params.zip args).reverse <;> rfl

theorem substArgs_iff {vars : AMap Text Text} {value : Text → Option Text}
    (h : ∀ x, vars.get? x = value x) (as : List Text) :
    (∀ vs, as.mapM (fun a => value (match a with | '$' :: r => r | _ => a)) = some vs →
      substArgs vars as = .ok vs) ∧
    (as.mapM (fun a => value (match a with | '$' :: r => r | _ => a)) = none →
      substArgs vars as = .error .unknownVariable) := by
  induction as with
  | nil => exact ⟨fun vs hv => by simp at hv; subst hv; rfl, fun hv => by simp at hv⟩
  | cons a as ih =>
    obtain ⟨h1, h2⟩ := ih
    simp only [List.mapM_cons, substArgs, h]
    cases hv : value (match a with | '$' :: r => r | _ => a) with
    | none => exact ⟨fun vs hvs => by simp at hvs, fun _ => rfl⟩
    | some v =>
      cases hm : as.mapM (fun a => value (match a with | '$' :: r => r | _ => a)) with
      | none =>
        refine ⟨fun vs hvs => by simp at hvs, fun _ => ?_⟩
        simp only [h2 hm]
      | some vs' =>
        refine ⟨fun vs hvs => ?_, fun hn => by simp at hn⟩
        simp only [h1 vs' hm]
        simp at hvs
        rw [hvs]

theorem getValidator_some (env : CasesEnv) {st : CasesState} {above : List CLine}
    (hg : DefsGood env (above.filterMap valDef)) (hv : st.validators = mgrs env (above.filterMap valDef))
    {vars : AMap Text Text} {num : Nat} {nm : Option Text}
    (h : ∀ x, vars.get? x = varValue [] [] num nm x) (name : Text) :
    (∀ v, validatorOf env above num nm name = some v → getValidator st (some name) vars = .ok v) ∧
    (validatorOf env above num nm name = none →
      ∃ e, getValidator st (some name) vars = .error e ∧ e ≠ .panic) := by
  unfold getValidator validatorOf
  simp only
  rw [hv, mgrs_get env hg]
  cases hn : named env (above.filterMap valDef) name with
  | none => exact ⟨fun v hv => (by simp at hv), fun _ => ⟨_, rfl, by simp⟩⟩
  | some m =>
    simp only
    by_cases he : m.args.isEmpty = true
    · rw [if_pos he, if_pos he, h, h]
      have e1 : varValue [] [] num nm "INPUT".toList = some validationFile := rfl
      have e2 : varValue [] [] num nm "ST_NUM".toList = some (natText num) := rfl
      rw [e1, e2]
      refine ⟨fun v hv => ?_, fun hv => by simp at hv⟩
      simp only [Option.some.injEq] at hv
      rw [← hv]
    · rw [if_neg he, if_neg he]
      obtain ⟨h1, h2⟩ := substArgs_iff h m.args
      cases hm : m.args.mapM (fun a => varValue [] [] num nm (match a with | '$' :: r => r | _ => a)) with
      | none =>
        refine ⟨fun v hv => by simp at hv, fun _ => ?_⟩
        simp only [h2 hm]
        exact ⟨_, rfl, by simp⟩
      | some vs =>
        refine ⟨fun v hv => ?_, fun hv => by simp at hv⟩
        simp only [h1 vs hm]
        simp at hv
        rw [hv]

end TM.Format
