import Verif.Ui.Model
/-!
# How the messages change the state of the UI
-/
namespace TM.Ui
open TM TM.Build

/-- The state of a testcase of a solution, as a message about it would find it. -/
def State.tc (task : Task) (s : State) (sol tc : Nat) : Option TcEval :=
  (s.evalOf task sol).testcases.get? tc

/-- The solution and the testcase a message is about. -/
def Message.about : Message → Option (Nat × Nat)
  | .progress (.evaluation _ tc sol _ _) _ => some (sol, tc)
  | .progress (.checker _ tc sol) _ => some (sol, tc)
  | .testcaseScore _ tc sol _ _ => some (sol, tc)
  | _ => none

/-- What it does to the state of the testcase. -/
def Message.effect : Message → TcEval → Option TcEval
  | .progress (.evaluation _ _ _ part parts) p, t => t.onEvaluation part parts p
  | .progress (.checker _ _ _) p, t => some (t.onChecker p)
  | .testcaseScore _ _ _ score message, t => some (t.onScore score message)
  | _, t => some t

theorem onTc_tc {task : Task} {s s' : State} {sol tc : Nat} {f : TcEval → Option TcEval}
    (h : s.onTc task sol tc f = some s') (sol' tc' : Nat) :
    s'.tc task sol' tc' = if (sol, tc) = (sol', tc') then (s.tc task sol' tc').bind f
      else s.tc task sol' tc' := by
  unfold State.onTc at h
  simp only at h
  split at h
  · cases h
  · next t ht =>
    split at h
    · cases h
    · next t' ht' =>
      cases h
      unfold State.tc State.evalOf
      simp only [AMap.get?_insert]
      by_cases h1 : sol' = sol
      · subst h1
        simp only [if_true, Option.getD_some, AMap.get?_insert]
        by_cases h2 : tc' = tc
        · subst h2
          have : (((s.evaluations.get? sol').getD (SolEval.new task)).testcases.get? tc') = some t := ht
          simp [this, ht']
        · rw [if_neg h2, if_neg (by simp; exact fun h => h2 h.symm)]
      · rw [if_neg h1, if_neg (by simp; intro h; exact absurd h.symm h1)]

theorem onGen_tc {s s' : State} {st tc : Nat} {f : GenState → GenState}
    (h : s.onGen st tc f = some s') : s'.evaluations = s.evaluations ∧ s'.solutions = s.solutions := by
  unfold State.onGen at h
  split at h
  · cases h
  · split at h
    · cases h
    · cases h; exact ⟨rfl, rfl⟩

theorem evalOf_congr {task : Task} {s s' : State} (h : s'.evaluations = s.evaluations) (sol : Nat) :
    s'.evalOf task sol = s.evalOf task sol := by
  unfold State.evalOf; rw [h]

theorem tc_congr {task : Task} {s s' : State} (h : s'.evaluations = s.evaluations) (sol tc : Nat) :
    s'.tc task sol tc = s.tc task sol tc := by
  unfold State.tc; rw [evalOf_congr h]

/-- One message. -/
theorem apply_tc {task : Task} {s s' : State} {m : Message} (h : s.apply task m = some s')
    (sol tc : Nat) :
    s'.tc task sol tc = if m.about = some (sol, tc) then (s.tc task sol tc).bind m.effect
      else s.tc task sol tc := by
  cases m with
  | other => cases h; simp [Message.about]
  | solutions l => cases h; simp [Message.about]; exact tc_congr rfl sol tc
  | progress t p =>
    cases t with
    | compilation path => cases h; simp [Message.about]; exact tc_congr rfl sol tc
    | generation st k =>
      simp only [Message.about, reduceCtorEq, if_false]
      exact tc_congr (onGen_tc h).1 sol tc
    | validation st k =>
      simp only [Message.about, reduceCtorEq, if_false]
      simp only [State.apply] at h
      split at h
      · cases h
      · split at h
        · cases h; rfl
        · exact tc_congr (onGen_tc h).1 sol tc
    | officialOutput st k =>
      simp only [Message.about, reduceCtorEq, if_false]
      exact tc_congr (onGen_tc h).1 sol tc
    | evaluation st k j part parts =>
      simp only [State.apply] at h
      rw [onTc_tc h sol tc]
      simp only [Message.about, Option.some.injEq]
      rfl
    | checker st k j =>
      simp only [State.apply] at h
      rw [onTc_tc h sol tc]
      simp only [Message.about, Option.some.injEq]
      rfl
    | booklet name => cases h; simp [Message.about]; exact tc_congr rfl sol tc
    | bookletDependency booklet name step =>
      simp only [State.apply] at h
      split at h
      · cases h; simp [Message.about]; exact tc_congr rfl sol tc
      · cases h
  | testcaseScore st k j score message =>
    simp only [State.apply] at h
    rw [onTc_tc h sol tc]
    simp only [Message.about, Option.some.injEq]
    rfl
  | subtaskScore st j score normalized =>
    simp only [Message.about, reduceCtorEq, if_false]
    simp only [State.apply] at h
    split at h
    · cases h
    · cases h
      unfold State.tc State.evalOf
      simp only [AMap.get?_insert]
      by_cases h1 : sol = j
      · subst h1; simp
      · simp [h1]
  | taskScore j score =>
    simp only [Message.about, reduceCtorEq, if_false]
    simp only [State.apply] at h
    cases h
    unfold State.tc State.evalOf
    simp only [AMap.get?_insert]
    by_cases h1 : sol = j
    · subst h1; simp
    · simp [h1]

/-- The changes of the state of a testcase, one after the other. -/
def effects : List Message → TcEval → Option TcEval
  | [], t => some t
  | m :: ms, t => (m.effect t).bind (effects ms)

theorem effects_append (a b : List Message) (t : TcEval) :
    effects (a ++ b) t = (effects a t).bind (effects b) := by
  induction a generalizing t with
  | nil => rfl
  | cons m a ih =>
    simp only [List.cons_append, effects]
    cases m.effect t with
    | none => rfl
    | some t' => exact ih t'

/-- All the messages: only those about the testcase matter. -/
theorem applyAll_tc {task : Task} {ms : List Message} {s s' : State}
    (h : s.applyAll task ms = some s') (sol tc : Nat) :
    s'.tc task sol tc =
      (s.tc task sol tc).bind (effects (ms.filter (fun m => m.about = some (sol, tc)))) := by
  induction ms generalizing s with
  | nil => cases h; simp [effects]
  | cons m ms ih =>
    simp only [State.applyAll] at h
    split at h
    · cases h
    · next s1 h1 =>
      rw [ih h, apply_tc h1, List.filter_cons]
      by_cases hm : m.about = some (sol, tc)
      · simp only [hm, if_true, decide_true]
        cases s.tc task sol tc with
        | none => rfl
        | some t => rfl
      · simp [hm]

/-! ## The scores -/

/-- The scores a message is about. -/
def Message.subtaskOf : Message → Option (Nat × Nat)
  | .subtaskScore st sol _ _ => some (sol, st)
  | _ => none

/-! ## No panic -/

/-- What the UI expects of a message: that the subtasks and the testcases it is about are of the task. -/
def Message.Known (task : Task) : Message → Prop
  | .progress (.generation st tc) _ => ∃ s, task.subtasks.get? st = some s ∧ tc ∈ s.owned
  | .progress (.validation st _) _ => ∃ s, task.subtasks.get? st = some s
  | .progress (.officialOutput st tc) _ => ∃ s, task.subtasks.get? st = some s ∧ tc ∈ s.owned
  | .progress (.evaluation _ tc _ part parts) _ => tc ∈ task.testcases.values.map (·.id) ∧ part < parts
  | .progress (.checker _ tc _) _ => tc ∈ task.testcases.values.map (·.id)
  | .progress (.bookletDependency _ _ step) _ => step < 2
  | .testcaseScore _ tc _ _ _ => tc ∈ task.testcases.values.map (·.id)
  | .subtaskScore st _ _ _ => st ∈ task.subtasks.values.map (·.id)
  | _ => True

/-- The entries of the maps that are there from the beginning are never removed. -/
structure Full (task : Task) (s : State) : Prop where
  gens : ∀ st info, task.subtasks.get? st = some info → ∃ m, s.generations.get? st = some m ∧
    ∀ k ∈ info.owned, ∃ g, m.get? k = some g
  tcs : ∀ sol, ∀ k ∈ task.testcases.values.map (·.id), ∃ t, s.tc task sol k = some t
  sts : ∀ sol, ∀ k ∈ task.subtasks.values.map (·.id), ∃ t, (s.evalOf task sol).subtasks.get? k = some t
  deps : ∀ b name, ((s.bookletOf b).steps name).length = 2

theorem get?_map_keys {α β : Type} (l : List α) (key : α → Nat) (v : β) (k : Nat) (h : k ∈ l.map key) :
    ∃ x, AMap.get? (l.map (fun a => (key a, v))) k = some x := by
  obtain ⟨a, ha, rfl⟩ := List.mem_map.1 h
  have := AMap.get?_isSome_of_mem (m := l.map (fun a => (key a, v))) (k := key a) (v := v)
    (List.mem_map.2 ⟨a, ha, rfl⟩)
  exact this

theorem get?_map_values {α β : Type} (m : AMap Nat α) (f : α → β) (k : Nat) :
    AMap.get? (m.map (fun p => (p.1, f p.2))) k = (m.get? k).map f := by
  induction m with
  | nil => rfl
  | cons p m ih =>
    obtain ⟨a, b⟩ := p
    rw [List.map_cons, AMap.get?_cons, AMap.get?_cons]
    split
    · rfl
    · exact ih

theorem new_full (task : Task) : Full task (State.new task) := by
  refine ⟨?_, ?_, ?_, fun _ _ => rfl⟩
  · intro st info h
    refine ⟨info.owned.map (fun k => (k, {})), ?_, ?_⟩
    · unfold State.new
      simp only
      rw [get?_map_values task.subtasks (fun i => i.owned.map (fun k => (k, ({} : GenState)))), h]
      rfl
    · intro k hk
      exact get?_map_keys info.owned id _ k (by simpa using hk)
  · intro sol k hk
    unfold State.tc State.evalOf State.new
    simp only [AMap.get?_nil, Option.getD_none, SolEval.new]
    exact get?_map_keys _ _ _ _ hk
  · intro sol k hk
    unfold State.evalOf State.new
    simp only [AMap.get?_nil, Option.getD_none, SolEval.new]
    exact get?_map_keys _ _ _ _ hk

theorem onGen_full {task : Task} {s : State} (hf : Full task s) {st tc : Nat} {f : GenState → GenState}
    (h : ∃ i, task.subtasks.get? st = some i ∧ tc ∈ i.owned) :
    ∃ s', s.onGen st tc f = some s' ∧ Full task s' := by
  obtain ⟨i, h1, h2⟩ := h
  obtain ⟨m, h3, h4⟩ := hf.gens st i h1
  obtain ⟨g, h5⟩ := h4 tc h2
  refine ⟨{ s with generations := s.generations.insert st (m.insert tc (f g)) },
    by simp only [State.onGen, h3, h5], ?_⟩
  refine ⟨?_, fun sol k hk => ?_, fun sol k hk => ?_, hf.deps⟩
  · intro st' info hi
    simp only [AMap.get?_insert]
    by_cases hs : st' = st
    · subst hs
      rw [h1] at hi; cases hi
      refine ⟨_, by rw [if_pos rfl], ?_⟩
      intro k hk
      rw [AMap.get?_insert]
      split
      · exact ⟨_, rfl⟩
      · exact h4 k hk
    · rw [if_neg hs]; exact hf.gens st' info hi
  · exact hf.tcs sol k hk
  · exact hf.sts sol k hk

theorem onTc_full {task : Task} {s : State} (hf : Full task s) {sol tc : Nat} {f : TcEval → Option TcEval}
    (h : tc ∈ task.testcases.values.map (·.id)) (hsome : ∀ t, ∃ t', f t = some t') :
    ∃ s', s.onTc task sol tc f = some s' ∧ Full task s' := by
  obtain ⟨t, h1⟩ := hf.tcs sol tc h
  obtain ⟨t', h2⟩ := hsome t
  have h1' : (s.evalOf task sol).testcases.get? tc = some t := h1
  have hs : ∃ s', s.onTc task sol tc f = some s' := by
    simp only [State.onTc, h1', h2]
    exact ⟨_, rfl⟩
  obtain ⟨s', hs⟩ := hs
  refine ⟨s', hs, ?_⟩
  have hshape : s'.generations = s.generations ∧ s'.booklets = s.booklets ∧
      ∀ j, (s'.evalOf task j).subtasks = (s.evalOf task j).subtasks := by
    simp only [State.onTc, h1', h2] at hs
    cases hs
    refine ⟨rfl, rfl, fun j => ?_⟩
    unfold State.evalOf
    simp only [AMap.get?_insert]
    by_cases hj : j = sol
    · subst hj; simp
    · simp [hj]
  refine ⟨?_, fun j k hk => ?_, fun j k hk => ?_, by unfold State.bookletOf; rw [hshape.2.1]; exact hf.deps⟩
  · rw [hshape.1]; exact hf.gens
  · rw [onTc_tc hs]
    split
    · next he =>
      obtain ⟨t1, h3⟩ := hf.tcs j k hk
      rw [h3]
      exact hsome t1
    · exact hf.tcs j k hk
  · rw [hshape.2.2]; exact hf.sts j k hk

theorem onEvaluation_some (t : TcEval) {part parts : Nat} (p : Phase) (h : part < parts) :
    ∃ t', t.onEvaluation part parts p = some t' := by
  unfold TcEval.onEvaluation
  simp only
  cases p with
  | pending => exact ⟨_, rfl⟩
  | told p =>
    cases p with
    | started => exact ⟨_, rfl⟩
    | skipped => exact ⟨_, rfl⟩
    | done r =>
      have : part < (if t.results.length ≠ parts then { t with results := List.replicate parts none }
        else t).results.length := by
        split
        · simpa using h
        · next hn => simp only [ne_eq, Decidable.not_not] at hn; omega
      simp only
      rw [if_pos this]
      exact ⟨_, rfl⟩

theorem apply_full {task : Task} {s : State} (hf : Full task s) {m : Message} (hk : m.Known task) :
    ∃ s', s.apply task m = some s' ∧ Full task s' := by
  cases m with
  | other => exact ⟨s, rfl, hf⟩
  | solutions l => exact ⟨_, rfl, ⟨hf.gens, hf.tcs, hf.sts, hf.deps⟩⟩
  | progress t p =>
    cases t with
    | compilation path => exact ⟨_, rfl, ⟨hf.gens, hf.tcs, hf.sts, hf.deps⟩⟩
    | generation st k => exact onGen_full hf hk
    | validation st k =>
      obtain ⟨i, hi⟩ := hk
      obtain ⟨m, h1, h2⟩ := hf.gens st i hi
      simp only [State.apply, h1]
      cases hg : m.get? k with
      | none => exact ⟨s, rfl, hf⟩
      | some g =>
        simp only
        refine ⟨{ s with generations := s.generations.insert st (m.insert k (g.onValidation p)) },
          by simp only [State.onGen, h1, hg], ?_⟩
        refine ⟨?_, hf.tcs, hf.sts, hf.deps⟩
        intro st' info hi'
        simp only [AMap.get?_insert]
        by_cases hs : st' = st
        · subst hs
          rw [hi] at hi'; cases hi'
          refine ⟨_, by rw [if_pos rfl], ?_⟩
          intro k' hk'
          rw [AMap.get?_insert]
          split
          · exact ⟨_, rfl⟩
          · exact h2 k' hk'
        · rw [if_neg hs]; exact hf.gens st' info hi'
    | officialOutput st k => exact onGen_full hf hk
    | evaluation st k j part parts =>
      exact onTc_full hf hk.1 (fun t => onEvaluation_some t p hk.2)
    | checker st k j => exact onTc_full hf hk (fun t => ⟨_, rfl⟩)
    | booklet name =>
      refine ⟨_, rfl, hf.gens, hf.tcs, hf.sts, fun b x => ?_⟩
      have := hf.deps b x
      unfold State.bookletOf at this ⊢
      simp only [AMap.get?_insert]
      split
      · rename_i e; subst e; exact this
      · exact this
    | bookletDependency booklet name step =>
      have hk : step < 2 := hk
      simp only [State.apply]
      rw [if_pos (by rw [hf.deps]; exact hk)]
      refine ⟨_, rfl, hf.gens, hf.tcs, hf.sts, fun b x => ?_⟩
      have h1 := hf.deps b x
      have h2 := hf.deps booklet name
      unfold State.bookletOf at h1 ⊢
      simp only [AMap.get?_insert]
      split
      · rename_i e
        subst e
        simp only [Option.getD_some]
        unfold BookletState.steps at h1 ⊢
        simp only [AMap.get?_insert]
        split
        · simp only [Option.getD_some, List.length_set]; exact h2
        · exact h1
      · exact h1
  | testcaseScore st k j score message => exact onTc_full hf hk (fun t => ⟨_, rfl⟩)
  | subtaskScore st j score normalized =>
    obtain ⟨x, hx⟩ := hf.sts j st hk
    simp only [State.apply, hx]
    refine ⟨_, rfl, ?_⟩
    refine ⟨hf.gens, fun i k hk => ?_, fun i k hk => ?_, hf.deps⟩
    · have := hf.tcs i k hk
      unfold State.tc State.evalOf at this ⊢
      simp only [AMap.get?_insert]
      by_cases hj : i = j
      · subst hj; simpa using this
      · simpa [hj] using this
    · have := hf.sts i k hk
      unfold State.evalOf at this ⊢
      simp only [AMap.get?_insert]
      by_cases hj : i = j
      · subst hj
        simp only [if_true, Option.getD_some, AMap.get?_insert]
        split
        · exact ⟨_, rfl⟩
        · exact this
      · simpa [hj] using this
  | taskScore j score =>
    refine ⟨_, rfl, hf.gens, fun i k hk => ?_, fun i k hk => ?_, hf.deps⟩
    · have := hf.tcs i k hk
      unfold State.tc State.evalOf at this ⊢
      simp only [AMap.get?_insert]
      by_cases hj : i = j
      · subst hj; simpa using this
      · simpa [hj] using this
    · have := hf.sts i k hk
      unfold State.evalOf at this ⊢
      simp only [AMap.get?_insert]
      by_cases hj : i = j
      · subst hj; simpa using this
      · simpa [hj] using this

theorem applyAll_full {task : Task} {ms : List Message} {s : State} (hf : Full task s)
    (hk : ∀ m ∈ ms, m.Known task) : ∃ s', s.applyAll task ms = some s' ∧ Full task s' := by
  induction ms generalizing s with
  | nil => exact ⟨s, rfl, hf⟩
  | cons m ms ih =>
    obtain ⟨s1, h1, h2⟩ := apply_full hf (hk m (List.mem_cons_self ..))
    obtain ⟨s2, h3, h4⟩ := ih h2 (fun x hx => hk x (List.mem_cons_of_mem _ hx))
    exact ⟨s2, by simp only [State.applyAll, h1, h3], h4⟩

end TM.Ui
