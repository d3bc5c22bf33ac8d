import Verif.Report.Model
import Verif.Ui.Props
/-!
# The keys of the maps of the UI state

They are those of the task, from the beginning to the end.
-/
namespace TM.Report
open TM TM.Build TM.Ui

/-- The evaluation of a solution is about the subtasks and the testcases of the task. -/
structure Shape (task : Task) (e : SolEval) : Prop where
  wf : e.subtasks.Wf
  sts : ∀ k, k ∈ e.subtasks.keys ↔ k ∈ task.subtasks.values.map (·.id)
  tcs : ∀ k, k ∈ e.testcases.keys ↔ k ∈ task.testcases.values.map (·.id)

/-- The generation of a subtask is about its own testcases. -/
structure GenShape (info : Subtask) (m : AMap Nat GenState) : Prop where
  wf : m.Wf
  keys : ∀ k, k ∈ m.keys ↔ k ∈ info.owned

/-- The keys are those of the task. -/
structure Exact (task : Task) (s : State) : Prop where
  genWf : s.generations.Wf
  gens : ∀ st, st ∈ s.generations.keys ↔ st ∈ task.subtasks.keys
  gen : ∀ st m, s.generations.get? st = some m → ∃ info, task.subtasks.get? st = some info ∧ GenShape info m
  evalWf : s.evaluations.Wf
  eval : ∀ j e, s.evaluations.get? j = some e → Shape task e
  solWf : s.solutions.Wf

theorem mem_keys_insert {V : Type} {m : AMap Nat V} {k k' : Nat} {v : V} :
    k' ∈ (m.insert k v).keys ↔ k' = k ∨ k' ∈ m.keys := by
  rw [AMap.mem_keys_iff, AMap.get?_insert, AMap.mem_keys_iff]
  by_cases h : k' = k
  · simp [h]
  · simp [h]

theorem mem_keys_update {V : Type} {m : AMap Nat V} {k k' : Nat} {v w : V} (h : m.get? k = some w) :
    k' ∈ (m.insert k v).keys ↔ k' ∈ m.keys := by
  rw [mem_keys_insert]
  refine ⟨fun h1 => ?_, .inr⟩
  rcases h1 with rfl | h1
  · exact AMap.mem_keys_iff.2 ⟨w, h⟩
  · exact h1

theorem new_shape {task : Task} (hk : Keyed task) : Shape task (SolEval.new task) := by
  refine ⟨?_, fun k => ?_, fun k => ?_⟩
  · have := keyed_ids hk
    unfold AMap.Wf AMap.keys SolEval.new
    simpa [List.map_map, Function.comp_def] using this
  · simp [SolEval.new, AMap.keys]
  · simp [SolEval.new, AMap.keys]

theorem new_exact {task : Task} (hk : Keyed task) (hown : ∀ st ∈ task.subtasks.values, st.owned.Nodup) :
    Exact task (State.new task) := by
  have hkeys : (State.new task).generations.keys = task.subtasks.keys := by
    simp [State.new, AMap.keys]
  refine ⟨?_, fun st => (by rw [hkeys]), fun st m h => ?_, AMap.wf_nil, (fun j e h => nomatch h), AMap.wf_nil⟩
  · unfold AMap.Wf; rw [hkeys]; exact hk.1
  · unfold State.new at h
    simp only at h
    rw [get?_map_values task.subtasks (fun i => i.owned.map (fun k => (k, ({} : GenState))))] at h
    cases hi : task.subtasks.get? st with
    | none => rw [hi] at h; cases h
    | some info =>
      rw [hi] at h
      cases h
      refine ⟨info, rfl, ?_, fun k => ?_⟩
      · have := hown info (List.mem_map.2 ⟨(st, info), AMap.mem_of_get? hi, rfl⟩)
        unfold AMap.Wf AMap.keys
        simpa [List.map_map, Function.comp_def] using this
      · simp [AMap.keys]

theorem evalOf_shape {task : Task} {s : State} (hk : Keyed task) (hx : Exact task s) (j : Nat) :
    Shape task (s.evalOf task j) := by
  unfold State.evalOf
  cases h : s.evaluations.get? j with
  | none => exact new_shape hk
  | some e => exact hx.eval j e h

theorem set_eval {task : Task} {s : State} (hx : Exact task s) {j : Nat} {e : SolEval} (he : Shape task e) :
    Exact task { s with evaluations := s.evaluations.insert j e } := by
  refine ⟨hx.genWf, hx.gens, hx.gen, AMap.wf_insert hx.evalWf _ _, ?_, hx.solWf⟩
  intro i e' h
  simp only [AMap.get?_insert] at h
  split at h
  · cases h; exact he
  · exact hx.eval i e' h

theorem onGen_exact {task : Task} {s s' : State} (hx : Exact task s) {st k : Nat} {f : GenState → GenState}
    (h : s.onGen st k f = some s') : Exact task s' := by
  unfold State.onGen at h
  split at h
  · cases h
  · next m hm =>
    split at h
    · cases h
    · next g hg =>
      cases h
      refine ⟨AMap.wf_insert hx.genWf _ _, fun a => ?_, ?_, hx.evalWf, hx.eval, hx.solWf⟩
      · simp only
        rw [mem_keys_update hm]; exact hx.gens a
      · intro a m' h
        simp only [AMap.get?_insert] at h
        split at h
        · next ha =>
          subst ha
          cases h
          obtain ⟨info, h1, h2⟩ := hx.gen _ m hm
          exact ⟨info, h1, AMap.wf_insert h2.wf _ _, fun b => by rw [mem_keys_update hg]; exact h2.keys b⟩
        · exact hx.gen a m' h

theorem onTc_exact {task : Task} {s s' : State} (hk : Keyed task) (hx : Exact task s) {j k : Nat}
    {f : TcEval → Option TcEval} (h : s.onTc task j k f = some s') : Exact task s' := by
  unfold State.onTc at h
  simp only at h
  split at h
  · cases h
  · next t ht =>
    split at h
    · cases h
    · next t' _ =>
      cases h
      have he := evalOf_shape hk hx j
      refine set_eval hx ⟨he.wf, he.sts, fun a => ?_⟩
      simp only
      rw [mem_keys_update ht]; exact he.tcs a

theorem insertAll_wf {α V : Type} (key : α → Nat) (val : α → V) :
    ∀ (l : List α) (m : AMap Nat V), m.Wf → (l.foldl (fun m p => m.insert (key p) (val p)) m).Wf := by
  intro l
  induction l with
  | nil => exact fun _ h => h
  | cons p l ih => exact fun m h => ih _ (AMap.wf_insert h _ _)

theorem apply_exact {task : Task} {s s' : State} (hk : Keyed task) (hx : Exact task s) {m : Message}
    (h : s.apply task m = some s') : Exact task s' := by
  cases m with
  | other => cases h; exact hx
  | solutions l =>
    cases h
    exact ⟨hx.genWf, hx.gens, hx.gen, hx.evalWf, hx.eval, insertAll_wf _ _ l [] AMap.wf_nil⟩
  | progress t p =>
    cases t with
    | compilation path => cases h; exact ⟨hx.genWf, hx.gens, hx.gen, hx.evalWf, hx.eval, hx.solWf⟩
    | generation st k => exact onGen_exact hx h
    | validation st k =>
      simp only [State.apply] at h
      split at h
      · cases h
      · split at h
        · cases h; exact hx
        · exact onGen_exact hx h
    | officialOutput st k => exact onGen_exact hx h
    | evaluation st k j part parts => exact onTc_exact hk hx h
    | checker st k j => simp only [State.apply] at h; exact onTc_exact hk hx h
    | booklet name => cases h; exact ⟨hx.genWf, hx.gens, hx.gen, hx.evalWf, hx.eval, hx.solWf⟩
    | bookletDependency booklet name step =>
      simp only [State.apply] at h
      split at h
      · cases h; exact ⟨hx.genWf, hx.gens, hx.gen, hx.evalWf, hx.eval, hx.solWf⟩
      · cases h
  | testcaseScore st k j score message => simp only [State.apply] at h; exact onTc_exact hk hx h
  | subtaskScore st j score normalized =>
    simp only [State.apply] at h
    split at h
    · cases h
    · next x hget =>
      cases h
      have he := evalOf_shape hk hx j
      refine set_eval hx ⟨AMap.wf_insert he.wf _ _, fun a => ?_, he.tcs⟩
      simp only
      rw [mem_keys_update hget]; exact he.sts a
  | taskScore j score =>
    cases h
    have he := evalOf_shape hk hx j
    exact set_eval hx ⟨he.wf, he.sts, he.tcs⟩

theorem applyAll_exact {task : Task} (hk : Keyed task) : ∀ {ms : List Message} {s s' : State}, Exact task s →
    s.applyAll task ms = some s' → Exact task s' := by
  intro ms
  induction ms with
  | nil => intro s s' hx h; cases h; exact hx
  | cons m ms ih =>
    intro s s' hx h
    simp only [State.applyAll] at h
    split at h
    · cases h
    · next s1 h1 => exact ih (apply_exact hk hx h1) h

end TM.Report
