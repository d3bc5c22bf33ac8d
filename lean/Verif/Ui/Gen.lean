import Verif.Ui.Props
/-!
# The progress of the executions, as the UI gets it
-/
namespace TM.Ui
open TM TM.Build DagSpec Build.Spec Ui.Spec

/-- The progress in a message. -/
def progressPart : Message → Option (Topic × Phase)
  | .progress t p => some (t, p)
  | _ => none

theorem progress_ofScore (j : Nat) (text : String) (l : List Score.Msg) :
    (l.map (ofScore j text)).filterMap progressPart = [] := by
  rw [List.filterMap_eq_nil_iff]
  intro m hm
  obtain ⟨x, -, rfl⟩ := List.mem_map.1 hm
  cases x <;> rfl

theorem progress_ofTold (l : List (Topic × Progress)) :
    (l.map ofTold).filterMap progressPart = l.map (fun p => (p.1, .told p.2)) := by
  induction l with
  | nil => rfl
  | cons p l ih =>
    rw [List.map_cons, List.filterMap_cons]
    simp only [ofTold, progressPart, List.map_cons]
    rw [← ih]

section
variable {pick : Live → List Nat}

theorem score_progress {l l' : Live} {g : Given} (h : l.score pick g = some l') :
    l'.sent.filterMap progressPart = l.sent.filterMap progressPart ∧ l'.client = l.client := by
  unfold Live.score at h
  split at h
  · cases h
  · split at h
    · cases h
    · cases h
      simp only [List.filterMap_append, progress_ofScore, List.append_nil, and_self]

theorem scores_progress : ∀ {gs : List Given} {l l' : Live}, l.scores pick gs = some l' →
    l'.sent.filterMap progressPart = l.sent.filterMap progressPart ∧ l'.client = l.client := by
  intro gs
  induction gs with
  | nil => intro l l' h; cases h; exact ⟨rfl, rfl⟩
  | cons g gs ih =>
    intro l l' h
    simp only [Live.scores] at h
    split at h
    · cases h
    · next l1 h1 =>
      obtain ⟨a, b⟩ := score_progress h1
      obtain ⟨c, d⟩ := ih h
      exact ⟨c.trans a, d.trans b⟩

theorem invoke_progress (begun : List (Topic × Phase)) : ∀ {xs : List (Notice × Handler)} {l l' : Live},
    l.sent.filterMap progressPart = begun ++ l.client.told.map (fun p => (p.1, .told p.2)) →
    l.invoke pick xs = some l' →
    l'.sent.filterMap progressPart = begun ++ l'.client.told.map (fun p => (p.1, .told p.2)) := by
  intro xs
  induction xs with
  | nil => intro l l' hi h; cases h; exact hi
  | cons x xs ih =>
    intro l l' hi h
    obtain ⟨nt, hd⟩ := x
    simp only [Live.invoke] at h
    split at h
    · cases h
    · next l1 h1 =>
      refine ih ?_ h
      unfold Live.callOne at h1
      split at h1
      · cases h1
      · next c hc =>
        obtain ⟨a, b⟩ := scores_progress h1
        have hgrow := (callOne_grows (x := (nt, hd)) hc).2
        rw [a, b]
        simp only [List.filterMap_append, hi, progress_ofTold, List.append_assoc]
        rw [← List.map_append, ← hgrow]

/-- The UI gets the progress of everything, after it was told that everything is pending. -/
theorem follow_progress {ev : Eval} {ms : AMap Nat Score.Manager} {checks : List (Nat × List SolCheck)}
    {ns : List Notice} {l : Live} (hl : Live.follow pick ev ms checks ns = some l) :
    l.sent.filterMap progressPart = ev.pending.map (fun t => (t, .pending)) ++
      (firsts ns).flatMap (fun x => (reportsOn ev x.exec).map (fun t => (t, .told (progressOf x)))) := by
  have htold := told_exactly (live_client hl)
  unfold Live.follow at hl
  rw [live_notifyAll] at hl
  have := invoke_progress (ev.pending.map (fun t => (t, .pending))) (l := Live.start ev ms checks) (by
    unfold Live.start Eval.client
    simp only [List.cons_append, List.filterMap_cons, progressPart, List.filterMap_append, List.map_nil,
      List.append_nil, List.filterMap_map]
    have h1 : (ms.flatMap (fun p => p.2.sent.map (ofScore p.1 ""))).filterMap progressPart = [] := by
      rw [List.filterMap_eq_nil_iff]
      intro m hm
      obtain ⟨p, -, hm⟩ := List.mem_flatMap.1 hm
      obtain ⟨x, -, rfl⟩ := List.mem_map.1 hm
      cases x <;> rfl
    rw [h1, List.nil_append]
    generalize ev.pending = l
    induction l with
    | nil => rfl
    | cons t l ih => rw [List.filterMap_cons, List.map_cons, ← ih]; rfl) hl
  rw [this, htold, List.map_flatMap]
  simp only [List.map_map]
  rfl
end

/-! ## The generation of a testcase -/

/-- What the UI knows about the generation of a testcase. -/
def State.gen (s : State) (st k : Nat) : Option GenState := (s.generations.get? st).bind (·.get? k)

/-- The effect of the progress of an execution. -/
def genStep (st k : Nat) (g : GenState) (p : Topic × Phase) : GenState :=
  match p.1 with
  | .generation a b => if a = st ∧ b = k then g.onGeneration p.2 else g
  | .validation a b => if a = st ∧ b = k then g.onValidation p.2 else g
  | .officialOutput a b => if a = st ∧ b = k then g.onSolution p.2 else g
  | _ => g

theorem onGen_gen {s s' : State} {a b : Nat} {f : GenState → GenState} (h : s.onGen a b f = some s')
    {st k : Nat} {g : GenState} (hg : s.gen st k = some g) :
    s'.gen st k = some (if a = st ∧ b = k then f g else g) := by
  unfold State.onGen at h
  split at h
  · cases h
  · next m hm =>
    split at h
    · cases h
    · next g0 hg0 =>
      cases h
      unfold State.gen at hg ⊢
      simp only [AMap.get?_insert]
      by_cases ha : a = st
      · subst ha
        rw [hm, Option.bind_some] at hg
        rw [if_pos rfl, Option.bind_some, AMap.get?_insert]
        by_cases hb : b = k
        · subst hb
          rw [hg] at hg0; cases hg0
          simp
        · rw [if_neg (Ne.symm hb), if_neg (by simp [hb]), hg]
      · rw [if_neg (Ne.symm ha), if_neg (by simp [ha]), hg]

theorem onTc_gen {task : Task} {s s' : State} {j tc : Nat} {f : TcEval → Option TcEval}
    (h : s.onTc task j tc f = some s') (st k : Nat) : s'.gen st k = s.gen st k := by
  unfold State.onTc at h
  simp only at h
  split at h
  · cases h
  · split at h <;> cases h; rfl

theorem apply_gen {task : Task} {s s' : State} {m : Message} (h : s.apply task m = some s') {st k : Nat}
    {g : GenState} (hg : s.gen st k = some g) :
    s'.gen st k = some (match progressPart m with | none => g | some p => genStep st k g p) := by
  cases m with
  | other => cases h; exact hg
  | solutions x => cases h; exact hg
  | progress tp p =>
    cases tp with
    | compilation path => cases h; exact hg
    | generation a b => exact onGen_gen h hg
    | validation a b =>
      simp only [State.apply] at h
      split at h
      · cases h
      · next m hm =>
        split at h
        · next hb =>
          cases h
          simp only [progressPart, genStep]
          rw [if_neg, hg]
          rintro ⟨rfl, rfl⟩
          unfold State.gen at hg
          rw [hm, Option.bind_some, hb] at hg
          cases hg
        · exact onGen_gen h hg
    | officialOutput a b => exact onGen_gen h hg
    | evaluation a b j part parts => simp only [State.apply] at h; rw [onTc_gen h]; exact hg
    | checker a b j => simp only [State.apply] at h; rw [onTc_gen h]; exact hg
    | booklet name => cases h; exact hg
    | bookletDependency booklet name step =>
      simp only [State.apply] at h
      split at h <;> cases h; exact hg
  | testcaseScore => simp only [State.apply] at h; rw [onTc_gen h]; exact hg
  | subtaskScore =>
    simp only [State.apply] at h
    split at h <;> cases h; exact hg
  | taskScore => simp only [State.apply] at h; cases h; exact hg

theorem applyAll_gen {task : Task} {st k : Nat} : ∀ {ms : List Message} {s s' : State} {g : GenState},
    s.applyAll task ms = some s' → s.gen st k = some g →
    s'.gen st k = some ((ms.filterMap progressPart).foldl (genStep st k) g) := by
  intro ms
  induction ms with
  | nil => intro s s' g h hg; cases h; exact hg
  | cons m ms ih =>
    intro s s' g h hg
    simp only [State.applyAll] at h
    split at h
    · cases h
    · next s1 h1 =>
      rw [ih h (apply_gen h1 hg), List.filterMap_cons]
      cases progressPart m with
      | none => rfl
      | some p => rfl

theorem new_gen {task : Task} (hk : Keyed task) {st : Subtask} (hst : st ∈ task.subtasks.values) {k : Nat}
    (hown : k ∈ st.owned) : (State.new task).gen st.id k = some {} := by
  unfold State.gen State.new
  simp only
  rw [get?_map_values task.subtasks (fun i => i.owned.map (fun k => (k, ({} : GenState)))),
    (keyed_values hk).1 hst]
  simp only [Option.map_some, Option.bind_some]
  obtain ⟨x, hx⟩ := get?_map_keys st.owned id ({} : GenState) k (by simpa using hown)
  simp only [id] at hx
  rw [hx, get?_const st.owned id _ hx]

theorem pending_gen {st k : Nat} : ∀ (l : List Topic) , (l.map (fun t => (t, Phase.pending))).foldl (genStep st k) {} = {} := by
  intro l
  induction l with
  | nil => rfl
  | cons t l ih =>
    rw [List.map_cons, List.foldl_cons]
    have : genStep st k {} (t, .pending) = {} := by
      unfold genStep
      cases t <;> simp only <;> split <;> rfl
    rw [this, ih]

/-! ## The compilations -/

/-- The effect of the progress of an execution on the status of a compilation. -/
def compStep (path : String) (c : Option CompStatus) (p : Topic × Phase) : Option CompStatus :=
  if p.1 = .compilation path then some (compStatus p.2) else c

theorem apply_comp {task : Task} {s s' : State} {m : Message} (h : s.apply task m = some s') (path : String) :
    s'.compilations.get? path = match progressPart m with
      | none => s.compilations.get? path
      | some p => compStep path (s.compilations.get? path) p := by
  have gen : ∀ {s s' : State} {a b : Nat} {f : GenState → GenState}, s.onGen a b f = some s' →
      s'.compilations = s.compilations := by
    intro s s' a b f h
    unfold State.onGen at h
    split at h
    · cases h
    · split at h <;> cases h; rfl
  have tcs : ∀ {s s' : State} {sol tc : Nat} {f : TcEval → Option TcEval},
      s.onTc task sol tc f = some s' → s'.compilations = s.compilations := by
    intro s s' sol tc f h
    unfold State.onTc at h
    simp only at h
    split at h
    · cases h
    · split at h <;> cases h; rfl
  cases m with
  | other => cases h; rfl
  | solutions x => cases h; rfl
  | progress tp p =>
    cases tp with
    | compilation q =>
      cases h
      simp only [progressPart, compStep, AMap.get?_insert, Topic.compilation.injEq, eq_comm]
    | generation a b => simp only [progressPart, compStep, reduceCtorEq, if_false]; rw [gen h]
    | validation a b =>
      simp only [progressPart, compStep, reduceCtorEq, if_false]
      simp only [State.apply] at h
      split at h
      · cases h
      · split at h
        · cases h; rfl
        · rw [gen h]
    | officialOutput a b => simp only [progressPart, compStep, reduceCtorEq, if_false]; rw [gen h]
    | evaluation a b j part parts =>
      simp only [progressPart, compStep, reduceCtorEq, if_false]
      simp only [State.apply] at h; rw [tcs h]
    | checker a b j =>
      simp only [progressPart, compStep, reduceCtorEq, if_false]
      simp only [State.apply] at h; rw [tcs h]
    | booklet name =>
      simp only [progressPart, compStep, reduceCtorEq, if_false]
      cases h; rfl
    | bookletDependency booklet name step =>
      simp only [progressPart, compStep, reduceCtorEq, if_false]
      simp only [State.apply] at h
      split at h <;> cases h; rfl
  | testcaseScore => simp only [State.apply] at h; rw [tcs h]; rfl
  | subtaskScore =>
    simp only [State.apply] at h
    split at h <;> cases h; rfl
  | taskScore => simp only [State.apply] at h; cases h; rfl

theorem applyAll_comp {task : Task} (path : String) : ∀ {ms : List Message} {s s' : State},
    s.applyAll task ms = some s' → s'.compilations.get? path =
      (ms.filterMap progressPart).foldl (compStep path) (s.compilations.get? path) := by
  intro ms
  induction ms with
  | nil => intro s s' h; cases h; rfl
  | cons m ms ih =>
    intro s s' h
    simp only [State.applyAll] at h
    split at h
    · cases h
    · next s1 h1 =>
      rw [ih h, apply_comp h1 path, List.filterMap_cons]
      cases progressPart m with
      | none => rfl
      | some p => rfl

end TM.Ui
