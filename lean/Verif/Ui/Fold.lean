import Verif.Ui.Says
import Verif.Ui.Spec
/-!
# How the messages of a notice change the state of a testcase
-/
namespace TM.Ui
open TM TM.Build DagSpec Build.Spec Ui.Spec

theorem runStatus_failedAs (r : ExecutionStatus) : runStatus r = failedAs r := by cases r <;> rfl

theorem failed_completed {r : ExecutionStatus} (h : r ≠ .success) : (failedAs r).hasCompleted = true := by
  cases r <;> first | rfl | exact absurd rfl h

theorem scoreStatus_scoredAs (s : Score.Score) (text : String) : scoreStatus s text = scoredAs (s, text) := by
  cases s with
  | nan => rfl
  | num x =>
    unfold scoreStatus Score.ScoreStatus.fromScore scoredAs
    simp only
    by_cases h0 : x = 0
    · simp [h0]
    · simp only [h0, if_false]
      have hiff : Score.absRat (x - 1) < 1 / 1000 ↔ (-(1/1000) < x - 1 ∧ x - 1 < 1/1000) := by
        unfold Score.absRat
        split
        · constructor
          · intro h; constructor <;> grind
          · intro h; grind
        · constructor
          · intro h; constructor <;> grind
          · intro h; exact h.2
      by_cases h1 : Score.absRat (x - 1) < 1 / 1000
      · rw [if_pos h1, if_pos (hiff.1 h1)]
      · rw [if_neg h1, if_neg (fun h => h1 (hiff.2 h))]

theorem scored_completed (p : Score.Score × String) : (scoredAs p).hasCompleted = true := by
  obtain ⟨s, text⟩ := p
  cases s with
  | nan => rfl
  | num x =>
    unfold scoredAs
    simp only
    split
    · rfl
    · split <;> rfl

theorem fold_inv {P : TcEval → Prop} {l : List Message}
    (hstep : ∀ m ∈ l, ∀ t, P t → ∃ t', m.effect t = some t' ∧ P t') {t : TcEval} (h : P t) :
    ∃ t', effects l t = some t' ∧ P t' := by
  induction l generalizing t with
  | nil => exact ⟨t, rfl, h⟩
  | cons m l ih =>
    obtain ⟨t1, h1, h2⟩ := hstep m (by simp) t h
    obtain ⟨t2, h3, h4⟩ := ih (fun m hm => hstep m (by simp [hm])) h2
    exact ⟨t2, by rw [effects, h1]; exact h3, h4⟩

theorem fold_reach {P Q : TcEval → Prop} {l : List Message}
    (hstep : ∀ m ∈ l, ∀ t, P t → ∃ t', m.effect t = some t' ∧ P t' ∧ (Q t → Q t')) {a : Message} (ha : a ∈ l)
    (hq : ∀ t t', P t → a.effect t = some t' → Q t') {t : TcEval} (h : P t) :
    ∃ t', effects l t = some t' ∧ P t' ∧ Q t' := by
  induction l generalizing t with
  | nil => cases ha
  | cons m l ih =>
    obtain ⟨t1, h1, h2, h5⟩ := hstep m (by simp) t h
    rcases List.mem_cons.1 ha with rfl | ha
    · obtain ⟨t2, h3, h4⟩ := fold_inv (P := fun t => P t ∧ Q t) (l := l) (fun m hm t ht => by
        obtain ⟨t', g1, g2, g3⟩ := hstep m (by simp [hm]) t ht.1
        exact ⟨t', g1, g2, g3 ht.2⟩) ⟨h2, hq t t1 h h1⟩
      exact ⟨t2, by rw [effects, h1]; exact h3, h4.1, h4.2⟩
    · obtain ⟨t2, h3, h4⟩ := ih (fun m hm => hstep m (by simp [hm])) ha h2
      exact ⟨t2, by rw [effects, h1]; exact h3, h4⟩

/-- The effect of the progress of the only part of an evaluation. -/
theorem effect_run (st k j : Nat) (p : Progress) (t : TcEval) :
    ∃ t', (Message.progress (.evaluation st k j 0 1) (.told p)).effect t = some t' ∧ t'.score = t.score ∧
      t'.status = match p with
        | .started => .solving
        | .done r => failedAs r
        | .skipped => .skipped := by
  simp only [Message.effect, TcEval.onEvaluation]
  have key : ∀ t : TcEval, (if t.results.length ≠ 1 then
      ({ t with results := List.replicate 1 none } : TcEval) else t).results.length = 1 ∧
      (if t.results.length ≠ 1 then
      ({ t with results := List.replicate 1 none } : TcEval) else t).score = t.score := by
    intro t
    split
    · exact ⟨rfl, rfl⟩
    · next h => exact ⟨by simpa using h, rfl⟩
  obtain ⟨h1, h2⟩ := key t
  generalize (if t.results.length ≠ 1 then
      ({ t with results := List.replicate 1 none } : TcEval) else t) = t1 at h1 h2
  cases p with
  | started => exact ⟨_, rfl, h2, rfl⟩
  | done r =>
    rw [h1]
    exact ⟨_, rfl, h2, runStatus_failedAs r⟩
  | skipped => exact ⟨_, rfl, h2, rfl⟩

theorem effect_check (st k j : Nat) (p : Progress) (t : TcEval) :
    ∃ t', (Message.progress (.checker st k j) (.told p)).effect t = some t' ∧ t'.score = t.score ∧
      t'.status = match p with
        | .started => .checking
        | _ => t.status := by
  cases p <;> exact ⟨_, rfl, rfl, rfl⟩

theorem effect_score (st k j : Nat) (s : Score.Score) (text : String) (t : TcEval) :
    ∃ t', (Message.testcaseScore st k j s text).effect t = some t' ∧ t'.score = some s ∧
      t'.status = if t.status.hasCompleted then t.status else scoredAs (s, text) :=
  ⟨_, rfl, rfl, by simp only [TcEval.onScore, scoreStatus_scoredAs]⟩

theorem outcomeOf_snoc (ns : List Notice) (x : Notice) (u : ExecutionUuid) :
    outcomeOf (ns ++ [x]) u = (outcomeOf ns u).or (outcomeOf [x] u) := by
  simp only [outcomeOf, List.findSome?_append]

theorem outcomeOf_other {x : Notice} {u : ExecutionUuid} (h : x.exec ≠ u) : outcomeOf [x] u = none := by
  cases x with
  | started v => rfl
  | skipped v => rfl
  | done v o =>
    have : v ≠ u := h
    simp [outcomeOf, this]

theorem outcomeOf_one (u : ExecutionUuid) (o : Outcome) : outcomeOf [.done u o] u = some o := by
  simp [outcomeOf]

/-! ## Order -/

variable {d : DagData} {ns : List Notice}

theorem ordered_prefix {a b : List Notice} (h : Ordered d (a ++ b)) : Ordered d a where
  start := fun pre u post he => h.start pre u (post ++ b) (by rw [he]; simp)
  done := fun pre u o post he => h.done pre u o (post ++ b) (by rw [he]; simp)
  skip := fun pre u post he => h.skip pre u (post ++ b) (by rw [he]; simp)

theorem ordered_done_unique (h : Ordered d ns) {u : ExecutionUuid} {o o' : Outcome} (h1 : .done u o ∈ ns)
    (h2 : .done u o' ∈ ns) : o = o' := by
  obtain ⟨a, b, rfl⟩ := List.append_of_mem h1
  rcases List.mem_append.1 h2 with h3 | h3
  · exact absurd h3 ((h.done a u o b rfl).1 o')
  · rcases List.mem_cons.1 h3 with h3 | h3
    · cases h3; rfl
    · obtain ⟨b1, b2, rfl⟩ := List.append_of_mem h3
      have := (h.done (a ++ .done u o :: b1) u o' b2 (by simp)).1 o
      exact absurd (by simp) this

theorem ordered_outcome (h : Ordered d ns) {u : ExecutionUuid} {o : Outcome} (h1 : .done u o ∈ ns) :
    outcomeOf ns u = some o := by
  cases hx : outcomeOf ns u with
  | none => exact absurd h1 (outcome_none hx)
  | some o' => rw [ordered_done_unique h h1 (outcome_mem hx)]

theorem no_done_outcome {u : ExecutionUuid} (h : ∀ o, .done u o ∉ ns) : outcomeOf ns u = none := by
  cases hx : outcomeOf ns u with
  | none => rfl
  | some o => exact absurd (outcome_mem hx) (h o)

theorem firsts_split : ∀ {ns : List Notice} {dr : List (Kind × ExecutionUuid)} {a b : List Notice} {x : Notice},
    firstsFrom dr ns = a ++ x :: b → ∃ pre post, ns = pre ++ x :: post ∧ firstsFrom dr pre = a := by
  intro ns
  induction ns with
  | nil => intro dr a b x h; cases a <;> cases h
  | cons m ns ih =>
    intro dr a b x h
    simp only [firstsFrom] at h
    by_cases hm : (m.kind, m.exec) ∈ dr
    · rw [if_pos hm] at h
      obtain ⟨pre, post, h1, h2⟩ := ih h
      exact ⟨m :: pre, post, by rw [h1]; rfl, by simp only [firstsFrom, if_pos hm]; exact h2⟩
    · rw [if_neg hm] at h
      cases a with
      | nil =>
        simp only [List.nil_append, List.cons.injEq] at h
        obtain ⟨rfl, -⟩ := h
        exact ⟨[], ns, rfl, rfl⟩
      | cons y a =>
        simp only [List.cons_append, List.cons.injEq] at h
        obtain ⟨rfl, h⟩ := h
        obtain ⟨pre, post, h1, h2⟩ := ih h
        exact ⟨m :: pre, post, by rw [h1]; rfl, by simp only [firstsFrom, if_neg hm]; rw [h2]⟩

theorem ordered_firsts (h : Ordered d ns) : Ordered d (firsts ns) := by
  have fed : ∀ {pre : List Notice} {u}, Ordered d pre → Fed d pre u → Fed d (firsts pre) u := by
    intro pre u ho hf e he heu p hp f hfd hfo
    obtain ⟨o, h1, h2⟩ := hf e he heu p hp f hfd hfo
    have := ordered_outcome ho h1
    rw [← outcomeOf_firsts] at this
    exact ⟨o, outcome_mem this, h2⟩
  refine ⟨?_, ?_, ?_⟩
  · intro a u b he
    obtain ⟨pre, post, rfl, rfl⟩ := firsts_split he
    obtain ⟨h1, h2, h3⟩ := h.start pre u post rfl
    exact ⟨fun o ho => h1 o (mem_of_firsts ho), fun ho => h2 (mem_of_firsts ho), fed (ordered_prefix h) h3⟩
  · intro a u o b he
    obtain ⟨pre, post, rfl, rfl⟩ := firsts_split he
    obtain ⟨h1, h2, h3⟩ := h.done pre u o post rfl
    exact ⟨fun o ho => h1 o (mem_of_firsts ho), fun ho => h2 (mem_of_firsts ho), fed (ordered_prefix h) h3⟩
  · intro a u b he
    obtain ⟨pre, post, rfl, rfl⟩ := firsts_split he
    obtain ⟨h1, h2, h3⟩ := h.skip pre u post rfl
    exact ⟨fun o ho => h1 o (mem_of_firsts ho), fun ho => h2 (mem_of_firsts ho), fun ho => h3 (mem_of_firsts ho)⟩

end TM.Ui
