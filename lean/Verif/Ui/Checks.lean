import Verif.Ui.Lemmas
import Verif.Solution.PropsCheck
/-!
# The checks of the solutions (C72)
-/
namespace TM.Ui
open TM TM.Build

/-! ## Specification -/

/-- The text is what the pattern says: `?` is one character, `*` any number of them. -/
inductive Glob : List Char → List Char → Prop
  | nil : Glob [] []
  | one (p cs : List Char) (c : Char) : Glob p cs → Glob ('?' :: p) (c :: cs)
  | many (p a cs : List Char) : Glob p cs → Glob ('*' :: p) (a ++ cs)
  | same (p cs : List Char) (c : Char) : c ≠ '*' → Glob p cs → Glob (c :: p) (c :: cs)

/-- The result of a testcase shown with this status: none while the evaluation of the testcase is going
on, if it was skipped or if it could not be done. -/
def outcomeShown : EvalStatus → Option Solution.Outcome
  | .pending | .solving | .solved | .checking | .failed | .skipped => none
  | .accepted _ => some .accepted
  | .wrongAnswer _ => some .wrongAnswer
  | .partialScore _ => some .partialScore
  | .timeLimit => some .timeLimit
  | .wallTimeLimit => some .wallTimeLimit
  | .memoryLimit => some .memoryLimit
  | .runtimeError => some .runtimeError

/-- The result of the solution on the testcase, if it has one. -/
def resultOf (s : State) (sol tc : Nat) : Option Solution.Outcome :=
  (s.evaluations.get? sol).bind (fun e => (e.testcases.get? tc).bind (fun t => outcomeShown t.status))

theorem result_eq (t : EvalStatus) : t.result = outcomeShown t := by cases t <;> rfl

/-! ## Patterns -/

theorem wildMatch_iff (p s : List Char) : wildMatch p s = true ↔ Glob p s := by
  have star : ∀ ps cs c, Glob ('*' :: ps) (c :: cs) ↔ Glob ps (c :: cs) ∨ Glob ('*' :: ps) cs := by
    intro ps cs c
    constructor
    · intro h
      generalize hp : ('*' :: ps) = p at h
      generalize hs : (c :: cs) = s at h
      cases h with
      | nil => cases hp
      | one p cs c h => simp at hp
      | many p a cs' h =>
        cases hp
        cases a with
        | nil => left; exact h
        | cons d a =>
          right
          simp only [List.cons_append, List.cons.injEq] at hs
          rw [hs.2]
          exact .many _ _ _ h
      | same p cs c hc h => cases hp; exact absurd rfl hc
    · rintro (h | h)
      · exact .many ps [] _ h
      · generalize hp : ('*' :: ps) = p at h
        cases h with
        | nil => cases hp
        | one p cs c h => simp at hp
        | many p a cs' h =>
          cases hp
          exact .many ps (c :: a) cs' h
        | same p cs c hc h => cases hp; exact absurd rfl hc
  induction p generalizing s with
  | nil =>
    cases s with
    | nil => exact ⟨fun _ => .nil, fun _ => rfl⟩
    | cons c cs => exact ⟨(fun h => nomatch h), (fun h => nomatch h)⟩
  | cons p ps ih =>
    unfold wildMatch
    by_cases hp : p = '*'
    · subst hp
      rw [if_pos rfl]
      induction s with
      | nil =>
        simp only [anySuffix, ih]
        constructor
        · intro h; exact .many ps [] [] h
        · intro h
          generalize hs : ([] : List Char) = s at h
          generalize hq : '*' :: ps = q at h
          cases h with
          | nil => cases hq
          | one => cases hs
          | many p a cs h =>
            have := List.append_eq_nil_iff.1 hs.symm
            obtain ⟨rfl, rfl⟩ := this
            cases hq
            exact h
          | same => cases hs
      | cons c cs ihs => simp only [anySuffix, Bool.or_eq_true, ih, ihs, star]
    · rw [if_neg hp]
      cases s with
      | nil =>
        constructor
        · intro h; cases h
        · intro h
          generalize hs : ([] : List Char) = s at h
          cases h with
          | one => cases hs
          | many p a cs h => exact absurd rfl hp
          | same => cases hs
      | cons c cs =>
        simp only [Bool.and_eq_true, Bool.or_eq_true, beq_iff_eq, ih]
        constructor
        · rintro ⟨h1 | h1, h2⟩
          · subst h1; exact .one ps cs c h2
          · subst h1; exact .same ps cs p hp h2
        · intro h
          generalize hs : c :: cs = s at h
          cases h with
          | one p cs c h => cases hs; exact ⟨.inl rfl, h⟩
          | many p a cs h => exact absurd rfl hp
          | same p cs c hc h => cases hs; exact ⟨.inr rfl, h⟩

/-! ## The outcomes of the checks -/

theorem collect_some {α β : Type} {f : α → Option (List β)} {l : List α} {r : List β}
    (h : collect f l = some r) : ∃ g : α → List β, (∀ a ∈ l, f a = some (g a)) ∧ r = l.flatMap g := by
  induction l generalizing r with
  | nil => cases h; exact ⟨fun _ => [], by simp, rfl⟩
  | cons a l ih =>
    simp only [collect] at h
    split at h
    · cases h
    · next x hx =>
      cases hc : collect f l with
      | none => rw [hc] at h; cases h
      | some y =>
        rw [hc] at h
        simp only [Option.map_some, Option.some.injEq] at h
        obtain ⟨g, -, -⟩ := ih hc
        refine ⟨fun a => (f a).getD [], ?_, ?_⟩
        · intro b hb
          rcases List.mem_cons.1 hb with rfl | hb
          · simp [hx]
          · obtain ⟨g, h1, -⟩ := ih hc
            simp [h1 b hb]
        · rw [List.flatMap_cons, hx, ← h]
          obtain ⟨g, h1, h2⟩ := ih hc
          simp only [Option.getD_some, h2]
          congr 1
          clear ih h hc h2 hx
          induction l with
          | nil => rfl
          | cons b l ih =>
            rw [List.flatMap_cons, List.flatMap_cons, h1 b (List.mem_cons_self ..)]
            simp only [Option.getD_some]
            rw [ih (fun x hx => h1 x (List.mem_cons_of_mem _ hx))]

theorem collect_total {α β : Type} {f : α → Option (List β)} {l : List α} (h : ∀ a ∈ l, ∃ x, f a = some x) :
    ∃ r, collect f l = some r := by
  induction l with
  | nil => exact ⟨[], rfl⟩
  | cons a l ih =>
    obtain ⟨x, hx⟩ := h a (List.mem_cons_self ..)
    obtain ⟨r, hr⟩ := ih (fun b hb => h b (List.mem_cons_of_mem _ hb))
    exact ⟨x ++ r, by simp only [collect, hx, hr]; rfl⟩

theorem collect_mem {α β : Type} {f : α → Option (List β)} {l : List α} {r : List β}
    (h : collect f l = some r) (b : β) : b ∈ r ↔ ∃ a ∈ l, ∃ x, f a = some x ∧ b ∈ x := by
  obtain ⟨g, h1, rfl⟩ := collect_some h
  rw [List.mem_flatMap]
  constructor
  · rintro ⟨a, ha, hb⟩; exact ⟨a, ha, g a, h1 a ha, hb⟩
  · rintro ⟨a, ha, x, hx, hb⟩
    rw [h1 a ha] at hx
    cases hx
    exact ⟨a, ha, hb⟩

theorem testcaseResults_spec {e : SolEval} {tcs : List Nat} {rs : List (Option Solution.Outcome)}
    (h : testcaseResults e tcs = some rs) :
    rs = tcs.map (fun tc => (e.testcases.get? tc).bind (fun t => outcomeShown t.status)) := by
  unfold testcaseResults at h
  induction tcs generalizing rs with
  | nil => simp at h; subst h; rfl
  | cons k tcs ih =>
    rw [List.mapM_cons] at h
    cases hk : e.testcases.get? k with
    | none => rw [hk] at h; cases h
    | some t =>
      rw [hk] at h
      cases hm : List.mapM (fun tc => Option.map (fun x => x.status.result) (e.testcases.get? tc)) tcs with
      | none => rw [hm] at h; cases h
      | some rs' =>
        rw [hm] at h
        have hrs : rs = t.status.result :: rs' := (Option.some.inj h).symm
        rw [hrs, List.map_cons, ← ih hm, hk, result_eq]
        rfl

theorem all_some_iff {α : Type} (rs : List (Option α)) (os : List α) :
    (rs.any Option.isNone = false ∧ rs.filterMap id = os) ↔ rs = os.map some := by
  induction rs generalizing os with
  | nil => cases os <;> simp
  | cons r rs ih =>
    cases r with
    | none => cases os <;> simp
    | some a =>
      cases os with
      | nil => simp
      | cons o os =>
        simp only [List.any_cons, Option.isNone_some, Bool.false_or, List.filterMap_cons, id, List.map_cons,
          List.cons.injEq, Option.some.injEq, ← ih]
        constructor
        · rintro ⟨h1, h2, h3⟩; exact ⟨h2, h1, h3⟩
        · rintro ⟨h2, h1, h3⟩; exact ⟨h1, h2, h3⟩

/-- The task is as the loaders make it: the keys of the subtasks are their ids. -/
def Keyed (task : Task) : Prop :=
  task.subtasks.Wf ∧ ∀ st info, task.subtasks.get? st = some info → info.id = st

theorem keyed_values {task : Task} (h : Keyed task) {st : Subtask} :
    st ∈ task.subtasks.values ↔ task.subtasks.get? st.id = some st := by
  constructor
  · intro hm
    obtain ⟨p, hp, rfl⟩ := List.mem_map.1 hm
    have := AMap.get?_of_mem h.1 (k := p.1) (v := p.2) hp
    rw [h.2 _ _ this]; exact this
  · intro hm
    exact List.mem_map.2 ⟨_, AMap.mem_of_get? hm, rfl⟩

/-- **C72** The outcomes are exactly these: for each solution, each of its checks and each subtask whose
name is what the pattern of the check says, if the solution has a result on all the testcases of the
subtask; and the check succeeds if its condition holds of these results (C51). -/
theorem checks_exact {task : Task} (hk : Keyed task) {nfkc : List Char → List Char} {s : State}
    {r : List CheckOutcome} (h : runSolutionChecks task nfkc s = some r) (o : CheckOutcome) :
    o ∈ r ↔ ∃ checks st name outcomes, (o.solution, checks) ∈ s.solutions ∧ o.check ∈ checks ∧
      task.subtasks.get? o.subtask = some st ∧ st.name = some name ∧
      Glob (nfkc o.check.pattern) name.toList ∧ (s.evaluations.get? o.solution).isSome ∧
      st.testcases.map (resultOf s o.solution) = outcomes.map some ∧
      o.success = o.check.result.check outcomes := by
  have hsub : ∀ pat st, st ∈ subtasksByPattern task nfkc pat ↔ task.subtasks.get? st.id = some st ∧
      ∃ name, st.name = some name ∧ Glob (nfkc pat) name.toList := by
    intro pat st
    unfold subtasksByPattern
    rw [List.mem_filter, keyed_values hk]
    cases hn : st.name with
    | none => simp
    | some name => simp [wildMatch_iff]
  have hcheck : ∀ (sol : Nat) (check : SolCheck) (st : Subtask) (x : List CheckOutcome),
      task.subtasks.get? st.id = some st → checkSubtask task s sol check st = some x →
      ∀ o, (o ∈ x ↔ ∃ outcomes, (s.evaluations.get? sol).isSome ∧
        st.testcases.map (resultOf s sol) = outcomes.map some ∧
        o = ⟨sol, check, st.id, check.result.check outcomes⟩) := by
    intro sol check st x hst hx o
    unfold checkSubtask at hx
    split at hx
    · next he => cases hx; simp [he]
    · next e he =>
      rw [hst] at hx
      simp only at hx
      split at hx
      · cases hx
      · next rs hrs =>
        have hspec : rs = st.testcases.map (resultOf s sol) := by
          rw [testcaseResults_spec hrs]
          unfold resultOf
          rw [he]; rfl
        split at hx
        · next hany =>
          cases hx
          constructor
          · intro h; cases h
          · rintro ⟨os, -, h1, -⟩
            have := ((all_some_iff _ os).2 (hspec.trans h1)).1
            rw [hany] at this; cases this
        · next hany =>
          cases hx
          rw [List.mem_singleton]
          have hf : rs.any Option.isNone = false := (Bool.not_eq_true _).mp hany
          constructor
          · rintro rfl
            exact ⟨_, by simp [he], hspec.symm.trans ((all_some_iff _ _).1 ⟨hf, rfl⟩), rfl⟩
          · rintro ⟨os, -, h1, rfl⟩
            rw [((all_some_iff _ os).2 (hspec.trans h1)).2]
  unfold runSolutionChecks at h
  rw [collect_mem h]
  constructor
  · rintro ⟨⟨sol, checks⟩, hp, x, hx, ho⟩
    obtain ⟨check, hc, y, hy, ho⟩ := (collect_mem hx o).1 ho
    obtain ⟨st, hst, z, hz, ho⟩ := (collect_mem hy o).1 ho
    obtain ⟨h1, name, h2, h3⟩ := (hsub _ _).1 hst
    obtain ⟨os, h4, h5, rfl⟩ := (hcheck sol check st z h1 hz o).1 ho
    exact ⟨checks, st, name, os, hp, hc, h1, h2, h3, h4, h5, rfl⟩
  · rintro ⟨checks, st, name, os, hp, hc, h1, h2, h3, h4, h5, h6⟩
    obtain ⟨sol, check, sid, success⟩ := o
    simp only at *
    have hid := hk.2 _ _ h1
    subst hid
    obtain ⟨g, hg, -⟩ := collect_some h
    have hx := hg _ hp
    obtain ⟨g1, hg1, -⟩ := collect_some hx
    have hy := hg1 _ hc
    obtain ⟨g2, hg2, -⟩ := collect_some hy
    have hst := (hsub check.pattern st).2 ⟨h1, name, h2, h3⟩
    have hz := hg2 _ hst
    refine ⟨_, hp, _, hx, (collect_mem hx _).2 ⟨_, hc, _, hy, (collect_mem hy _).2 ⟨_, hst, _, hz, ?_⟩⟩⟩
    exact (hcheck sol check st _ h1 hz _).2 ⟨os, h4, h5, by rw [h6]⟩

theorem nodup_flatMap' {α β : Type} {l : List α} {f : α → List β} (h1 : ∀ a ∈ l, (f a).Nodup)
    (h2 : l.Pairwise (fun a b => ∀ x ∈ f a, ∀ y ∈ f b, x ≠ y)) : (l.flatMap f).Nodup :=
  List.pairwise_flatMap.2 ⟨h1, h2⟩

/-- **C72** ... each of them once. -/
theorem checks_once {task : Task} (hk : Keyed task) {nfkc : List Char → List Char} {s : State}
    {r : List CheckOutcome} (h : runSolutionChecks task nfkc s = some r)
    (hsol : (s.solutions.map (·.1)).Nodup) (hchecks : ∀ p ∈ s.solutions, p.2.Nodup) : r.Nodup := by
  have hone : ∀ sol check st x, checkSubtask task s sol check st = some x →
      x.Nodup ∧ ∀ o ∈ x, o.solution = sol ∧ o.check = check ∧ o.subtask = st.id := by
    intro sol check st x hx
    unfold checkSubtask at hx
    split at hx
    · cases hx; exact ⟨.nil, fun _ h => nomatch h⟩
    · split at hx
      · cases hx
      · split at hx
        · cases hx
        · split at hx
          · cases hx; exact ⟨.nil, fun _ h => nomatch h⟩
          · cases hx
            refine ⟨by simp, ?_⟩
            intro o ho
            rw [List.mem_singleton] at ho
            subst ho
            exact ⟨rfl, rfl, rfl⟩
  have hids : (task.subtasks.values.map (·.id)).Nodup := by
    have : task.subtasks.values.map (·.id) = task.subtasks.keys := by
      unfold AMap.values AMap.keys
      rw [List.map_map]
      refine List.map_congr_left ?_
      intro p hp
      exact hk.2 _ _ (AMap.get?_of_mem hk.1 hp)
    rw [this]; exact hk.1
  have htwo : ∀ sol check x,
      collect (checkSubtask task s sol check) (subtasksByPattern task nfkc check.pattern) = some x →
      x.Nodup ∧ ∀ o ∈ x, o.solution = sol ∧ o.check = check := by
    intro sol check x hx
    obtain ⟨g, hg, rfl⟩ := collect_some hx
    refine ⟨nodup_flatMap' (fun a ha => (hone _ _ _ _ (hg a ha)).1) ?_, ?_⟩
    · have hp : (subtasksByPattern task nfkc check.pattern).Pairwise (fun a b => a.id ≠ b.id) :=
        (List.pairwise_map.1 hids).filter _
      refine List.Pairwise.imp_of_mem ?_ hp
      intro a b ha hb hab u hu v hv huv
      have h1 := ((hone _ _ _ _ (hg a ha)).2 u hu).2.2
      have h2 := ((hone _ _ _ _ (hg b hb)).2 v hv).2.2
      exact hab (by rw [← h1, ← h2, huv])
    · intro o ho
      obtain ⟨a, ha, ho⟩ := List.mem_flatMap.1 ho
      have := (hone _ _ _ _ (hg a ha)).2 o ho
      exact ⟨this.1, this.2.1⟩
  have hthree : ∀ p ∈ s.solutions, ∀ x, collect (fun check =>
      collect (checkSubtask task s p.1 check) (subtasksByPattern task nfkc check.pattern)) p.2 = some x →
      x.Nodup ∧ ∀ o ∈ x, o.solution = p.1 := by
    intro p hp x hx
    obtain ⟨g, hg, rfl⟩ := collect_some hx
    refine ⟨nodup_flatMap' (fun a ha => (htwo _ _ _ (hg a ha)).1) ?_, ?_⟩
    · refine List.Pairwise.imp_of_mem ?_ (hchecks p hp)
      intro a b ha hb hab u hu v hv huv
      have h1 := ((htwo _ _ _ (hg a ha)).2 u hu).2
      have h2 := ((htwo _ _ _ (hg b hb)).2 v hv).2
      exact hab (by rw [← h1, ← h2, huv])
    · intro o ho
      obtain ⟨a, ha, ho⟩ := List.mem_flatMap.1 ho
      exact ((htwo _ _ _ (hg a ha)).2 o ho).1
  obtain ⟨g, hg, rfl⟩ := collect_some h
  refine nodup_flatMap' (fun p hp => (hthree p hp _ (hg p hp)).1) ?_
  refine List.Pairwise.imp_of_mem ?_ (List.pairwise_map.1 hsol)
  intro a b ha hb hab u hu v hv huv
  have h1 := (hthree a ha _ (hg a ha)).2 u hu
  have h2 := (hthree b hb _ (hg b hb)).2 v hv
  exact hab (by rw [← h1, ← h2, huv])

/-- **C72** `run_solution_checks` does not panic on a state the UI can reach. -/
theorem checks_total {task : Task} (hk : Keyed task)
    (htc : ∀ st ∈ task.subtasks.values, ∀ k ∈ st.testcases, k ∈ task.testcases.values.map (·.id))
    (nfkc : List Char → List Char) {ms : List Message} {s : State} (hm : ∀ m ∈ ms, m.Known task)
    (h : (State.new task).applyAll task ms = some s) : ∃ r, runSolutionChecks task nfkc s = some r := by
  obtain ⟨s', h1, hf⟩ := applyAll_full (new_full task) hm
  rw [h] at h1
  cases h1
  refine collect_total (fun p _ => collect_total (fun check _ => collect_total (fun st hst => ?_)))
  have hst : st ∈ task.subtasks.values := (List.mem_filter.1 hst).1
  unfold checkSubtask
  cases he : s.evaluations.get? p.1 with
  | none => exact ⟨[], rfl⟩
  | some e =>
    simp only [(keyed_values hk).1 hst]
    have : ∀ l : List Nat, (∀ k ∈ l, k ∈ task.testcases.values.map (·.id)) →
        ∃ rs, testcaseResults e l = some rs := by
      intro l hl
      unfold testcaseResults
      induction l with
      | nil => exact ⟨[], rfl⟩
      | cons k l ih =>
        obtain ⟨rs, hrs⟩ := ih (fun x hx => hl x (List.mem_cons_of_mem _ hx))
        obtain ⟨t, ht⟩ := hf.tcs p.1 k (hl k (List.mem_cons_self ..))
        unfold State.tc State.evalOf at ht
        rw [he] at ht
        simp only [Option.getD_some] at ht
        exact ⟨t.status.result :: rs, by rw [List.mapM_cons, ht, hrs]; rfl⟩
    obtain ⟨rs, hrs⟩ := this st.testcases (htc st hst)
    rw [hrs]
    simp only
    split
    · exact ⟨_, rfl⟩
    · exact ⟨_, rfl⟩

end TM.Ui
