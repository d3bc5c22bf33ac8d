import Verif.Report.Table
/-!
# The generations and the evaluations
-/
namespace TM.Report
open TM TM.Build TM.Ui Report.Spec

variable {task : Task} {v : View} {s : State}

/-! ## A line of the generations -/

theorem bars_filter (p : Seg → Bool) (hp : ∀ t, p (say t) = false) : ∀ l : List Seg, (bars l).filter p = l.filter p := by
  intro l
  induction l with
  | nil => rfl
  | cons a l ih =>
    cases l with
    | nil => rfl
    | cons b l =>
      rw [bars, List.filter_cons, List.filter_cons, hp, ih, List.filter_cons (x := a)]
      simp

theorem bars_mem {l : List Seg} {x : Seg} (h : x ∈ bars l) : x ∈ l ∨ x = say " | ".toList := by
  induction l with
  | nil => exact .inl h
  | cons a l ih =>
    cases l with
    | nil => exact .inl h
    | cons b l =>
      rw [bars] at h
      rcases List.mem_cons.1 h with rfl | h
      · exact .inl (by simp)
      · rcases List.mem_cons.1 h with rfl | h
        · exact .inr rfl
        · rcases ih h with h | h
          · exact .inl (List.mem_cons_of_mem _ h)
          · exact .inr h

theorem genStep_green (good bad : String) (o : Option ExecutionStatus) :
    ((genStep v good bad o).filter (fun x => x.color = .green)).map (·.text) =
      if o = some .success then [good.toList] else [] := by
  unfold genStep
  cases o with
  | none => simp
  | some r =>
    by_cases h : r = .success
    · simp [h]
    · simp [h]

/-- The yellow pieces of a step. -/
def yellowOf (bad : String) : Option ExecutionStatus → List (Text × ExecutionStatus)
  | none => []
  | some r => if r = .success then [] else [(bad.toList ++ " failed: ".toList, r)]

theorem genStep_yellow (good bad : String) (o : Option ExecutionStatus) :
    ((genStep v good bad o).filter (fun x => x.color = .yellow)).map (·.text) =
      (yellowOf bad o).map (fun p => p.1 ++ v.debug p.2) := by
  unfold genStep yellowOf
  cases o with
  | none => simp
  | some r =>
    by_cases h : r = .success
    · simp [h]
    · simp [h]

theorem genStep_color (good bad : String) (o : Option ExecutionStatus) {x : Seg} (hx : x ∈ genStep v good bad o) :
    x.color = .green ∨ x.color = .yellow := by
  unfold genStep at hx
  split at hx
  · cases hx
  · split at hx <;> rw [List.mem_singleton] at hx <;> subst hx <;> simp

theorem genLine_row (k : Nat) (g : GenState) : GenRow v k g (genLine v k g) := by
  refine ⟨⟨_, rfl⟩, ?_, ⟨_, rfl, ?_⟩, ?_⟩
  · unfold genLine
    rw [List.filter_cons_of_neg (by simp [say]), bars_filter _ (by intro t; simp [say]), List.filter_append, List.filter_append,
      List.map_append, List.map_append, genStep_green, genStep_green, genStep_green]
    unfold done steps
    generalize ("Generated".toList : List Char) = a
    generalize ("Validated".toList : List Char) = b
    generalize ("Solved".toList : List Char) = c
    by_cases h1 : g.generation = some .success <;> by_cases h2 : g.validation = some .success <;>
      by_cases h3 : g.solution = some .success <;> simp [h1, h2, h3]
  · have hy : ((genLine v k g).filter (fun x => x.color = .yellow)).map (·.text) =
        (yellowOf "Generation" g.generation ++ yellowOf "Validation" g.validation ++
          yellowOf "Solution" g.solution).map (fun p => p.1 ++ v.debug p.2) := by
      unfold genLine
      rw [List.filter_cons_of_neg (by simp [say]), bars_filter _ (by intro t; simp [say]), List.filter_append,
        List.filter_append, List.map_append, List.map_append, genStep_yellow, genStep_yellow, genStep_yellow,
        List.map_append, List.map_append]
    have hone : ∀ (bad : String) (o : Option ExecutionStatus), (yellowOf bad o).map (·.2) =
        (o.bind (fun r => if r = .success then none else some r)).toList := by
      intro bad o
      unfold yellowOf
      cases o with
      | none => rfl
      | some r => by_cases h : r = .success <;> simp [h]
    have hw : (yellowOf "Generation" g.generation ++ yellowOf "Validation" g.validation ++
          yellowOf "Solution" g.solution).map (·.2) = wrong g := by
      rw [List.map_append, List.map_append, hone, hone, hone]
      unfold wrong steps
      cases hA : g.generation.bind (fun r => if r = .success then none else some r) <;>
        cases hB : g.validation.bind (fun r => if r = .success then none else some r) <;>
        cases hC : g.solution.bind (fun r => if r = .success then none else some r) <;>
        simp [hA, hB, hC]
    rw [hy, ← hw]
    refine ⟨by simp, fun i r hr => ?_⟩
    rw [List.getElem?_map] at hr ⊢
    cases hp : (yellowOf "Generation" g.generation ++ yellowOf "Validation" g.validation ++
          yellowOf "Solution" g.solution)[i]? with
    | none => rw [hp] at hr; cases hr
    | some p => rw [hp] at hr; cases hr; exact ⟨p.1, rfl⟩
  · intro x hx
    unfold genLine at hx
    rcases List.mem_cons.1 hx with rfl | hx
    · exact .inr (.inr rfl)
    · rcases bars_mem hx with hx | rfl
      · rcases List.mem_append.1 hx with hx | hx
        · rcases List.mem_append.1 hx with hx | hx
          · exact (genStep_color _ _ _ hx).imp id .inl
          · exact (genStep_color _ _ _ hx).imp id .inl
        · exact (genStep_color _ _ _ hx).imp id .inl
      · exact .inr (.inr rfl)

/-! ## The generations -/

theorem filterMap_map {α β : Type} {f : α → Option β} {g : α → β} {l : List α} (h : ∀ a ∈ l, f a = some (g a)) :
    l.filterMap f = l.map g := by
  induction l with
  | nil => rfl
  | cons a l ih => rw [List.filterMap_cons, h a (by simp), ih (fun b hb => h b (by simp [hb]))]; rfl

theorem genSubtask_eq (hx : Exact task s) {st : Nat} {m : AMap Nat GenState} (hm : s.generations.get? st = some m) :
    ∃ block, genSubtask task v st m = some block ∧ GenBlock task v s st block := by
  obtain ⟨info, hi, hs⟩ := hx.gen st m hm
  unfold genSubtask
  simp only [hi]
  rw [filterMap_map (g := fun k => genLine v k (genOf s st k))]
  · refine ⟨_, rfl, _, sortedNats m.keys, _, rfl, ⟨lineText (bracketed info.name ++ [say (": ".toList ++ pointsText v st ++ " points".toList)]), by
      simp [lineText]⟩, ⟨sortedNats_lt hs.wf, fun k => ?_⟩, by simp, ?_⟩
    · rw [mem_sortedNats, hs.keys]
      simp [ownedBy, hi]
    · intro i k hk
      exact ⟨_, by rw [List.getElem?_map, hk]; rfl, genLine_row k _⟩
  · intro k hk
    obtain ⟨g, hg⟩ := AMap.mem_keys_iff.1 (mem_sortedNats.1 hk)
    simp only [hg, Option.map_some, genOf, hm, Option.bind_some, Option.getD_some]

theorem generations_eq (hk : Keyed task) (hx : Exact task s) :
    ∃ blocks : List (List Line), generations task v s = some ([⟨.blue, "Generations".toList⟩] :: blocks.flatten) ∧
      blocks.length = (sortedNats task.subtasks.keys).length ∧
      ∀ (i : Nat) st, (sortedNats task.subtasks.keys)[i]? = some st → ∃ b, blocks[i]? = some b ∧ GenBlock task v s st b := by
  have hone : ∀ st ∈ sortedNats task.subtasks.keys, ∃ b, (s.generations.get? st).bind (genSubtask task v st) = some b ∧
      GenBlock task v s st b := by
    intro st hst
    obtain ⟨m, hm⟩ := AMap.mem_keys_iff.1 ((hx.gens st).2 (mem_sortedNats.1 hst))
    obtain ⟨b, h1, h2⟩ := genSubtask_eq (v := v) hx hm
    exact ⟨b, by rw [hm]; exact h1, h2⟩
  obtain ⟨blocks, hb⟩ := mapM_total (fun st hst => let ⟨b, h, _⟩ := hone st hst; ⟨b, h⟩)
  refine ⟨blocks, by unfold generations; rw [gens_subtasks hk hx, hb]; rfl, (mapM_get hb).1, ?_⟩
  intro i st hi
  obtain ⟨b, h1, h2⟩ := (mapM_get hb).2 i st hi
  obtain ⟨b', h3, h4⟩ := hone st (List.mem_of_getElem? hi)
  rw [h2] at h3
  cases h3
  exact ⟨b, h1, h4⟩

/-! ## The evaluations -/

theorem said (m : String) (d : Text) : (if m.toList = [] then d else m.toList) = if m = "" then d else m.toList := by
  have h : m.toList = [] ↔ m = "" := by simp
  by_cases hm : m = ""
  · rw [if_pos (h.2 hm), if_pos hm]
  · rw [if_neg (fun c => hm (h.1 c)), if_neg hm]

theorem message_eq (st : EvalStatus) : message st = messageOf st := by
  unfold message messageOf
  cases st with
  | accepted m => exact said m _
  | wrongAnswer m => exact said m _
  | partialScore m => exact said m _
  | _ => rfl

theorem tcScore_eq (o : Option Score.Score) : tcScore v o = testcaseScore v o := by
  have h1 : ("[".toList : List Char) = ['['] := rfl
  have h2 : ("]".toList : List Char) = [']'] := rfl
  have h3 : ("[X.".toList : List Char) = ['[', 'X', '.'] := rfl
  unfold tcScore testcaseScore
  cases o with
  | none => simp only [h2, h3, say]
  | some x =>
    simp only [h1, h2]
    by_cases a : x = .num 1
    · have : x ≠ .num 0 := by rw [a]; simp
      simp [a]
    · by_cases b : x = .num 0
      · simp [b]
      · simp [a, b]

theorem zipIdx_get {α : Type} (l : List α) (i : Nat) : l.zipIdx[i]? = l[i]?.map (fun a => (a, i)) := by
  simp

theorem mem_doneParts {x : TcEval} {i : Nat} {r : ExecutionStatus} : (i, r) ∈ doneParts x ↔ x.results[i]? = some (some r) := by
  unfold doneParts
  rw [List.mem_filterMap]
  constructor
  · rintro ⟨⟨o, k⟩, h1, h2⟩
    obtain ⟨n, hn⟩ := List.mem_iff_getElem?.1 h1
    rw [zipIdx_get] at hn
    cases ho : x.results[n]? with
    | none => rw [ho] at hn; cases hn
    | some o' =>
      rw [ho] at hn
      cases hn
      cases o with
      | none => cases h2
      | some r' => cases h2; exact ho
  · intro h
    refine ⟨(some r, i), List.mem_iff_getElem?.2 ⟨i, by rw [zipIdx_get, h]; rfl⟩, rfl⟩

theorem doneParts_map (x : TcEval) : (doneParts x).map (·.2) = x.results.filterMap id := by
  unfold doneParts
  rw [List.map_filterMap]
  generalize x.results = l
  have : ∀ (l : List (Option ExecutionStatus)) n, (l.zipIdx n).filterMap
      (fun r => (r.1.map (fun st => (r.2, st))).map (·.2)) = l.filterMap id := by
    intro l
    induction l with
    | nil => intro n; rfl
    | cons a l ih =>
      intro n
      rw [List.zipIdx_cons, List.filterMap_cons, List.filterMap_cons, ih]
      cases a <;> rfl
  exact this l 0

theorem tcLine_row (j k : Nat) (x : TcEval) : TcRow v j k x (tcLine v j k x) := by
  refine ⟨x.results.zipIdx.map (fun r => match r.1 with
    | none => say " [???]".toList
    | some _ => say (" [".toList ++ (v.part j k r.2).usage ++ "]".toList)), (doneParts x).map (fun r => say (v.detail r.2)),
    (doneParts x).any (fun r => (v.part j k r.1).killed), (doneParts x).all (fun r => (v.part j k r.1).cached),
    ?_, by simp, ?_, ?_, ?_, ?_⟩
  · unfold tcLine
    rw [tcScore_eq, message_eq]
    have h1 : (") ".toList : List Char) = [')', ' '] := rfl
    rw [h1]
    generalize (" (killed)".toList : List Char) = a
    generalize (" (from cache)".toList : List Char) = b
    simp only [say, List.append_assoc, List.cons_append, List.nil_append]
    rfl
  · intro i r hi
    rw [List.getElem?_map, zipIdx_get, hi]
    cases r <;> rfl
  · rw [List.map_map, ← doneParts_map, List.map_map]; rfl
  · rw [List.any_eq_true]
    constructor
    · rintro ⟨⟨i, r⟩, h1, h2⟩; exact ⟨i, r, mem_doneParts.1 h1, h2⟩
    · rintro ⟨i, r, h1, h2⟩; exact ⟨(i, r), mem_doneParts.2 h1, h2⟩
  · rw [List.all_eq_false]
    constructor
    · rintro ⟨⟨i, r⟩, h1, h2⟩; exact ⟨i, r, mem_doneParts.1 h1, by simpa using h2⟩
    · rintro ⟨i, r, h1, h2⟩; exact ⟨(i, r), mem_doneParts.2 h1, by simpa using h2⟩

theorem frac_eq (n x : Option Score.Score) (m : Rat) : frac v n x m =
    match x.bind (fun a => n.map (fun b => (a, b))) with
    | some (x, n) => ⟨scoredColor n, v.fixed v.precision x ++ [' ', '/', ' '] ++ v.fixed v.precision (.num m)⟩
    | none => ⟨.plain, noScore v ++ [' ', '/', ' '] ++ v.fixed v.precision (.num m)⟩ := by
  have hnone : ∀ n' x', (n' = none ∨ x' = none) → frac v n' x' m =
      ⟨.plain, noScore v ++ [' ', '/', ' '] ++ v.fixed v.precision (.num m)⟩ := by
    intro n' x' h
    have : frac v n' x' m = frac v none none m := by
      rcases h with rfl | rfl
      · cases x' <;> rfl
      · cases n' <;> rfl
    rw [this]
    have h1 : ("X / ".toList : List Char) = ['X', ' ', '/', ' '] := rfl
    have h2 : ("X.".toList : List Char) = ['X', '.'] := rfl
    have h3 : (" / ".toList : List Char) = [' ', '/', ' '] := rfl
    unfold frac noScore
    simp only [h1, h2, h3]
    by_cases hp : v.precision = 0
    · simp [hp, say]
    · simp [hp, say]
  cases x with
  | none => exact hnone _ _ (.inr rfl)
  | some a => cases n with
    | none => exact hnone _ _ (.inl rfl)
    | some b => simp only [frac, scoreColor_eq, Option.bind_some, Option.map_some]; rfl

theorem evalSubtask_eq (hk : Keyed task) (hin : Inside task) {j : Nat} {e : SolEval} (hj : s.evaluations.get? j = some e)
    (he : Shape task e) {st : Nat} (hst : ∃ info, task.subtasks.get? st = some info) :
    ∃ b, evalSubtask task v j e st = some b ∧ EvalBlock task v s j st b := by
  obtain ⟨info, hi⟩ := hst
  obtain ⟨x, hx⟩ := shape_get hk he hi
  unfold evalSubtask
  simp only [hi, hx]
  rw [mapM_map (g := fun k => tcLine v j k (tcOf s j k))]
  · have hown : ownedBy task st = info.owned := by simp [ownedBy, hi]
    refine ⟨_, rfl, _, _, rfl, by simp [hown], fun i k hk => ?_,
      ⟨lineText (bracketed info.name ++ [say ": ".toList, frac v x.normalized x.score (v.points st)]),
      by simp [lineText]⟩, ?_⟩
    · rw [hown] at hk
      exact ⟨_, by rw [List.getElem?_map, hk]; rfl, tcLine_row j k _⟩
    · rw [List.getLast?_append, frac_eq]
      simp only [subtaskScore, hj, Option.bind_some, hx, List.getLast?_cons_cons, List.getLast?_singleton, Option.some_or]
      rfl
  · intro k hkk
    obtain ⟨y, hy⟩ := inside_get hin hi he hkk
    simp only [hy, Option.map_some, tcOf, hj, Option.bind_some, Option.getD_some]

theorem evaluation_eq (hk : Keyed task) (hin : Inside task) {j : Nat} {e : SolEval} (hj : s.evaluations.get? j = some e)
    (he : Shape task e) :
    ∃ b, evaluation task v j e = some b ∧ SolBlock task v s (sortedNats task.subtasks.keys) j b := by
  have hone := fun st (hst : st ∈ sortedNats task.subtasks.keys) =>
    evalSubtask_eq (v := v) hk hin hj he (((subtasks_sorted hk).2 st).1 hst)
  obtain ⟨blocks, hb⟩ := mapM_total (fun st hst => let ⟨b, h, _⟩ := hone st hst; ⟨b, h⟩)
  unfold evaluation
  rw [eval_keys hk he, hb]
  refine ⟨_, rfl, _, blocks, rfl, ⟨lineText [say ": ".toList, frac v (e.score.map (ratio · v.total)) e.score v.total],
    by simp [lineText]⟩, ?_, (mapM_get hb).1, ?_⟩
  · rw [frac_eq]
    simp only [solutionScore, hj, Option.bind_some]
    cases e.score with
    | none => rfl
    | some x => rfl
  · intro i st hi
    obtain ⟨b, h1, h2⟩ := (mapM_get hb).2 i st hi
    obtain ⟨b', h3, h4⟩ := hone st (List.mem_of_getElem? hi)
    rw [h2] at h3
    cases h3
    exact ⟨b, h1, h4⟩

theorem evaluations_eq (hk : Keyed task) (hin : Inside task) (hle : TotalLe v.le) (hx : Exact task s) :
    ∃ (sols : List Nat) (blocks : List (List Line)), evaluations task v s = some ([⟨.blue, "Evaluations".toList⟩] :: blocks.flatMap (· ++ [[]])) ∧
      Spec.Ordered v (fun j => ∃ e, s.evaluations.get? j = some e) sols ∧ blocks.length = sols.length ∧
      ∀ (i : Nat) j, sols[i]? = some j → ∃ b, blocks[i]? = some b ∧
        SolBlock task v s (sortedNats task.subtasks.keys) j b := by
  have hone : ∀ j ∈ isort v.le s.evaluations.keys, ∃ b, (s.evaluations.get? j).bind (evaluation task v j) = some b ∧
      SolBlock task v s (sortedNats task.subtasks.keys) j b := by
    intro j hj
    obtain ⟨e, he⟩ := ((ordered_keys hle hx.evalWf).2.2 j).1 hj
    obtain ⟨b, h1, h2⟩ := evaluation_eq (v := v) hk hin he (hx.eval j e he)
    exact ⟨b, by rw [he]; exact h1, h2⟩
  obtain ⟨blocks, hb⟩ := mapM_total (fun j hj => let ⟨b, h, _⟩ := hone j hj; ⟨b, h⟩)
  refine ⟨_, blocks, by unfold evaluations; rw [hb, List.flatMap_def]; rfl, ordered_keys hle hx.evalWf, (mapM_get hb).1, ?_⟩
  intro i j hi
  obtain ⟨b, h1, h2⟩ := (mapM_get hb).2 i j hi
  obtain ⟨b', h3, h4⟩ := hone j (List.mem_of_getElem? hi)
  rw [h2] at h3
  cases h3
  exact ⟨b, h1, h4⟩

end TM.Report
