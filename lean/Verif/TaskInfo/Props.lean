import Verif.TaskInfo.Model
import Verif.Score.PropsBounds
/-!
# C138: the information on the scores of a task is right
-/
namespace TM.TaskInfo
open TM TM.Score

/-! ## Lemmas -/

theorem mem_insertById {p x : SubtaskId × Subtask} {l : List (SubtaskId × Subtask)} : x ∈ insertById p l ↔ x = p ∨ x ∈ l := by
  induction l with
  | nil => simp [insertById]
  | cons q l ih =>
    simp only [insertById]
    split
    · simp
    · rw [List.mem_cons, ih, List.mem_cons]
      constructor
      · rintro (h | h | h)
        · exact .inr (.inl h)
        · exact .inl h
        · exact .inr (.inr h)
      · rintro (h | h | h)
        · exact .inr (.inl h)
        · exact .inl h
        · exact .inr (.inr h)

theorem mem_sortById {x : SubtaskId × Subtask} {l : List (SubtaskId × Subtask)} : x ∈ sortById l ↔ x ∈ l := by
  induction l with
  | nil => exact Iff.rfl
  | cons p l ih =>
    have : sortById (p :: l) = insertById p (sortById l) := rfl
    rw [this, mem_insertById, ih, List.mem_cons]

theorem insertById_sorted {p : SubtaskId × Subtask} {l : List (SubtaskId × Subtask)} (h : l.Pairwise (fun a b => a.1 < b.1))
    (hp : ∀ q ∈ l, q.1 ≠ p.1) : (insertById p l).Pairwise (fun a b => a.1 < b.1) := by
  induction l with
  | nil => exact List.pairwise_singleton _ _
  | cons q l ih =>
    rw [List.pairwise_cons] at h
    simp only [insertById]
    have hq := hp q (by simp)
    split
    · next hle =>
      have hlt : p.1 < q.1 := Nat.lt_of_le_of_ne hle (fun e => hq e.symm)
      rw [List.pairwise_cons]
      refine ⟨fun r hr => ?_, List.pairwise_cons.2 h⟩
      rcases List.mem_cons.1 hr with rfl | hr
      · exact hlt
      · exact Nat.lt_trans hlt (h.1 r hr)
    · next hle =>
      rw [List.pairwise_cons]
      refine ⟨fun r hr => ?_, ih h.2 (fun r hr => hp r (by simp [hr]))⟩
      rcases mem_insertById.1 hr with rfl | hr
      · exact Nat.not_le.1 hle
      · exact h.1 r hr

theorem sortById_sorted {l : List (SubtaskId × Subtask)} (h : (l.map (·.1)).Nodup) :
    (sortById l).Pairwise (fun a b => a.1 < b.1) := by
  induction l with
  | nil => exact List.Pairwise.nil
  | cons p l ih =>
    rw [List.map_cons, List.nodup_cons] at h
    refine insertById_sorted (ih h.2) (fun q hq e => h.1 ?_)
    rw [← e]
    exact List.mem_map_of_mem (mem_sortById.1 hq)

theorem sum_fold (l : List (SubtaskId × Subtask)) (a : Rat) :
    l.foldl (fun sum p => sum + p.2.maxScore) a = a + total (l.map (fun p => p.2.maxScore)) := by
  induction l generalizing a with
  | nil => simp only [List.foldl_nil, List.map_nil, total]; grind
  | cons p l ih =>
    rw [List.foldl_cons, ih, List.map_cons, total]
    grind

theorem total_le : ∀ {l : List (SubtaskId × Subtask)} {f g : SubtaskId × Subtask → Rat}, (∀ p ∈ l, f p ≤ g p) →
    total (l.map f) ≤ total (l.map g)
  | [], _, _, _ => by simp only [List.map_nil, total]; grind
  | p :: l, f, g, h => by
    have h1 := h p (by simp)
    have h2 := total_le (l := l) (f := f) (g := g) (fun q hq => h q (by simp [hq]))
    simp only [List.map_cons, total]
    grind

/-! ## C138 -/

/-- **C138** The subtasks are all there, each once, in the order of their numbers, with their maximum scores and how many
testcases they have. -/
theorem subtasks_exact {t : Ioi} (ht : t.task.Valid) :
    ∃ l : List (SubtaskId × Subtask), (∀ p, p ∈ l ↔ p ∈ t.task.subtasks) ∧ l.Pairwise (fun a b => a.1 < b.1) ∧
      (ioiInfo t).subtasks = l.map (fun p => ⟨p.2.maxScore, p.2.testcases.length⟩) :=
  ⟨sortById t.task.subtasks, fun _ => mem_sortById, sortById_sorted ht.subtasks, rfl⟩

/-- **C138** The information does not depend on the order of the maps of the task. -/
theorem order_free {t t' : Ioi} (ht : t.task.Valid) (hp : t.task.subtasks.Perm t'.task.subtasks) :
    (ioiInfo t).subtasks = (ioiInfo t').subtasks ∧ (ioiInfo t).maxScore = (ioiInfo t').maxScore := by
  have hn' : (t'.task.subtasks.map (·.1)).Nodup := (hp.map _).nodup_iff.1 ht.subtasks
  constructor
  · have h1 := sortById_sorted ht.subtasks
    have h2 := sortById_sorted hn'
    have h3 : (sortById t.task.subtasks).Perm (sortById t'.task.subtasks) := by
      refine (List.perm_ext_iff_of_nodup ?_ ?_).2 (fun x => ?_)
      · exact h1.imp (fun h e => by rw [e] at h; exact Nat.lt_irrefl _ h)
      · exact h2.imp (fun h e => by rw [e] at h; exact Nat.lt_irrefl _ h)
      · rw [mem_sortById, mem_sortById]
        exact hp.mem_iff
    have h4 : sortById t.task.subtasks = sortById t'.task.subtasks :=
      h3.eq_of_pairwise (le := fun a b => a.1 < b.1) (fun a b _ _ h h' => absurd h' (Nat.lt_asymm h)) h1 h2
    simp only [ioiInfo, h4]
  · simp only [ioiInfo, sum_fold]
    rw [total_perm (hp.map _)]

/-- **C138** The maximum score is the greatest score of a solution: whatever the scores of the testcases, between 0 and 1,
and the order they come in, the score of the task is between 0 and it, and is it when all the testcases score 1. -/
theorem max_reached {t : Ioi} (ht : t.task.Valid) (hmax : ∀ p ∈ t.task.subtasks, 0 ≤ p.2.maxScore) {order : List SubtaskId}
    (ho : t.task.Order order) {calls : List Call} (hcs : t.task.Calls calls)
    (hb : ∀ c ∈ calls, ∃ q, c.score = .num q ∧ 0 ≤ q ∧ q ≤ 1) {m : Manager} (h : run t.task order calls = some m) {s : Score}
    (hmsg : .taskScore s ∈ m.sent) :
    ∃ v, s = .num v ∧ 0 ≤ v ∧ v ≤ (ioiInfo t).maxScore ∧
      ((∀ c ∈ calls, c.score = .num 1) → v = (ioiInfo t).maxScore) := by
  have hnum : Numeric calls := fun c hc => by
    obtain ⟨q, hq, _⟩ := hb c hc; exact ⟨q, hq⟩
  obtain ⟨v, hv, hs⟩ := task_score_value ht ho hcs hnum h hmsg
  have hmx : (ioiInfo t).maxScore = total (t.task.subtasks.map (fun p => p.2.maxScore)) := by
    simp only [ioiInfo, sum_fold]
    grind
  have hbnd : ∀ p ∈ t.task.subtasks, 0 ≤ v p.1 ∧ v p.1 ≤ p.2.maxScore := by
    intro p hp
    obtain ⟨n, hn⟩ := hv p hp
    obtain ⟨-, x, hx, h1, h2, -⟩ := subtask_score_bounds ht ho hcs hb h (st := p.1) (info := p.2) hp (hmax p hp) hn
    cases hx
    exact ⟨h1, h2⟩
  refine ⟨_, hs, ?_, ?_, fun hall => ?_⟩
  · have := total_le (l := t.task.subtasks) (f := fun _ => 0) (g := fun p => v p.1) (fun p hp => (hbnd p hp).1)
    have h0 : ∀ l : List (SubtaskId × Subtask), total (l.map (fun _ => (0 : Rat))) = 0 := by
      intro l
      induction l with
      | nil => rfl
      | cons p l ih => rw [List.map_cons, total, ih]; grind
    rw [h0] at this
    exact this
  · rw [hmx]
    exact total_le (fun p hp => (hbnd p hp).2)
  · rw [hmx]
    congr 1
    refine List.map_congr_left (fun p hp => ?_)
    obtain ⟨n, hn⟩ := hv p hp
    obtain ⟨pre, x, hx, -, h2, h3, h4⟩ := subtask_score_bounds ht ho hcs hb h (st := p.1) (info := p.2) hp (hmax p hp) hn
    cases hx
    have hb2 := hbnd p hp
    by_cases hz : p.2.maxScore = 0
    · rw [hz] at hb2 ⊢
      grind
    · refine (h4 hz).2 (fun tc htc => ?_)
      obtain ⟨pre', f, q, k1, k2, -⟩ := subtask_score_value ht ho hcs hnum h (st := p.1) (info := p.2) hp hn
      obtain ⟨c, hc, hct⟩ := h3.2.1 tc htc
      have hl : ∃ y, lastScore pre tc = some y := by
        have key : ∀ (l : List Call), (∃ c ∈ l, c.testcase = tc) → ∃ y, lastScore l tc = some y := by
          intro l
          induction l with
          | nil => rintro ⟨c, h, -⟩; cases h
          | cons c' l ih =>
            rintro ⟨c, h, e⟩
            simp only [lastScore]
            cases hl : lastScore l tc with
            | some y => exact ⟨y, rfl⟩
            | none =>
              rcases List.mem_cons.1 h with rfl | h
              · exact ⟨c.score, by simp [e]⟩
              · obtain ⟨y, hy⟩ := ih ⟨c, h, e⟩
                rw [hl] at hy
                cases hy
        exact key pre ⟨c, hc, hct⟩
      obtain ⟨y, hy⟩ := hl
      obtain ⟨c', hc', -, hs'⟩ := lastScore_mem hy
      rw [hy, ← hs', hall c' (h3.1.subset hc')]

/-- **C138** The rest is that of the task. -/
theorem fields_exact (t : Ioi) : (ioiInfo t).name = t.name ∧ (ioiInfo t).title = t.title ∧ (ioiInfo t).time = t.timeLimit ∧
    (ioiInfo t).memory = t.memoryLimit := ⟨rfl, rfl, rfl, rfl⟩

/-! ## Examples -/

def demo : Ioi := ⟨"t".toList, "Task".toList, some 1, some 256, demoTask⟩

example : (ioiInfo demo).subtasks = [⟨40, 2⟩, ⟨50, 2⟩, ⟨10, 0⟩] ∧ (ioiInfo demo).maxScore = 100 := by decide +kernel

/-- The same task with its map in another order. -/
example : (ioiInfo { demo with task := { demoTask with subtasks := [(2, ⟨10, []⟩), (0, ⟨40, [0, 1]⟩), (1, ⟨50, [1, 2]⟩)] } }).subtasks =
    [⟨40, 2⟩, ⟨50, 2⟩, ⟨10, 0⟩] := by decide +kernel

example : demo.task.subtasks.Perm [(2, ⟨10, []⟩), (0, ⟨40, [0, 1]⟩), (1, ⟨50, [1, 2]⟩)] := by decide +kernel

example : demo.task.Valid := demo_valid

/-- All the testcases of the demo score 1. -/
def perfect : List Call :=
  [⟨1, 2, .num 1, [0, 1, 2]⟩, ⟨0, 0, .num 1, [2, 1, 0]⟩, ⟨0, 1, .num 1, [1, 2, 0]⟩]

theorem perfect_calls : demoTask.Calls perfect := by
  intro c hc
  simp only [perfect, List.mem_cons, List.not_mem_nil, or_false] at hc
  rcases hc with rfl | rfl | rfl <;> exact ⟨by decide, by intro st; simp [demoTask] <;> grind⟩

/-- The hypotheses of `max_reached` hold of them, and the message is there. -/
example : (∀ p ∈ demo.task.subtasks, 0 ≤ p.2.maxScore) ∧ demo.task.Order [1, 0, 2] ∧ demo.task.Calls perfect ∧
    (∀ c ∈ perfect, ∃ q, c.score = .num q ∧ 0 ≤ q ∧ q ≤ 1) ∧ (∀ c ∈ perfect, c.score = .num 1) ∧
    ∃ m, run demo.task [1, 0, 2] perfect = some m ∧ .taskScore (.num (ioiInfo demo).maxScore) ∈ m.sent := by
  have hone : ∀ c ∈ perfect, c.score = .num 1 := by decide +kernel
  refine ⟨by decide +kernel, demo_order, perfect_calls, fun c hc => ⟨1, hone c hc, by decide +kernel, by decide +kernel⟩, hone, ?_⟩
  obtain ⟨m, hm⟩ := numeric_never_panics demo_valid demo_order perfect_calls (fun c hc => ⟨1, hone c hc⟩)
  refine ⟨m, hm, ?_⟩
  have h : (run demoTask [1, 0, 2] perfect).map (fun m => decide (.taskScore (.num (ioiInfo demo).maxScore) ∈ m.sent)) =
    some true := by decide +kernel
  rw [hm] at h
  simpa using h

/-- A solution that is not perfect gets less. -/
example : (run demo.task [1, 0, 2] demoCalls).map (fun m => decide (.taskScore (.num 80) ∈ m.sent)) = some true := by decide +kernel

end TM.TaskInfo
