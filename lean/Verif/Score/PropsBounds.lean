import Verif.Score.Props
/-!
# Bounds on the scores (C32), the score of a communication testcase (C50), the status of a score (C33)
-/
namespace TM.Score

theorem total_bounds {l : List Rat} (h : ∀ x ∈ l, 0 ≤ x ∧ x ≤ 1) :
    0 ≤ total l ∧ total l ≤ (l.length : Rat) := by
  induction l with
  | nil => simp [total]
  | cons x l ih =>
    have h1 := h x (by simp)
    have h2 := ih (fun y hy => h y (by simp [hy]))
    simp only [total, List.length_cons]
    have : ((l.length + 1 : Nat) : Rat) = (l.length : Rat) + 1 := by norm_cast
    rw [this]
    constructor <;> grind

theorem total_full {l : List Rat} (h : ∀ x ∈ l, x ≤ 1) :
    total l ≤ (l.length : Rat) ∧ (total l = (l.length : Rat) ↔ ∀ x ∈ l, x = 1) := by
  induction l with
  | nil => simp [total]
  | cons x l ih =>
    have h1 := h x (by simp)
    have h2 := ih (fun y hy => h y (by simp [hy]))
    simp only [total, List.length_cons]
    have : ((l.length + 1 : Nat) : Rat) = (l.length : Rat) + 1 := by norm_cast
    rw [this]
    constructor
    · grind
    · constructor
      · intro he y hy
        have hx : x = 1 := by grind
        have hl : total l = (l.length : Rat) := by grind
        rcases List.mem_cons.1 hy with rfl | hy
        · exact hx
        · exact h2.2.1 hl y hy
      · intro hall
        have := h2.2.2 (fun y hy => hall y (by simp [hy]))
        have := hall x (by simp)
        grind

theorem aggregate_bounds {g : Aggregator} {l : List Rat} {q : Rat} (hq : IsAggregate g l q)
    (h : ∀ x ∈ l, 0 ≤ x ∧ x ≤ 1) : 0 ≤ q ∧ q ≤ 1 ∧ (q = 1 ↔ ∀ x ∈ l, x = 1) := by
  cases g with
  | min =>
    rcases hq with ⟨rfl, rfl⟩ | ⟨h1, h2⟩
    · exact ⟨by grind, by grind, by simp⟩
    · have := h q h1
      refine ⟨this.1, this.2, ?_⟩
      constructor
      · intro hq x hx; have := h2 x hx; have := (h x hx).2; grind
      · intro hall; exact hall q h1
  | sum =>
    rcases hq with ⟨rfl, rfl⟩ | ⟨h1, h2⟩
    · exact ⟨by grind, by grind, by simp⟩
    · have hb := total_bounds h
      have hf := total_full (fun x hx => (h x hx).2)
      have hpos : (0 : Rat) < (l.length : Rat) := by
        have : 0 < l.length := List.length_pos_iff.2 h1
        exact_mod_cast this
      rw [← h2] at hb hf
      refine ⟨?_, ?_, ?_⟩
      · apply Classical.byContradiction
        intro hneg
        have : q * (l.length : Rat) < 0 := by
          have := Rat.mul_lt_mul_of_pos_right (show q < 0 by grind) hpos
          grind
        grind
      · apply Classical.byContradiction
        intro hneg
        have := Rat.mul_lt_mul_of_pos_right (show (1 : Rat) < q by grind) hpos
        grind
      · rw [← hf.2]
        constructor
        · intro h; rw [h]; grind
        · intro h
          have h3 : (q - 1) * (l.length : Rat) = 0 := by grind
          rcases Rat.mul_eq_zero.1 h3 with h | h <;> grind

/-- If the testcases are scored between 0 and 1, a subtask is scored between 0 and its maximum, and
it gets its maximum (if that is not zero) exactly when all its testcases got 1. -/
theorem subtask_score_bounds {t : Task} (ht : t.Valid) {order : List SubtaskId} (ho : t.Order order)
    {calls : List Call} (hcs : t.Calls calls)
    (hb : ∀ c ∈ calls, ∃ q, c.score = .num q ∧ 0 ≤ q ∧ q ≤ 1) {m : Manager}
    (h : run t order calls = some m) {st : SubtaskId} {info : Subtask}
    (hst : (st, info) ∈ t.subtasks) (hmax : 0 ≤ info.maxScore) {s n : Score}
    (hmsg : .subtaskScore st s n ∈ m.sent) :
    ∃ (pre : List Call) (v : Rat), s = .num v ∧ 0 ≤ v ∧ v ≤ info.maxScore ∧
      FirstComplete calls pre info ∧
      (info.maxScore ≠ 0 →
        (v = info.maxScore ↔ ∀ tc ∈ info.testcases, lastScore pre tc = some (.num 1))) := by
  have hnum : Numeric calls := fun c hc => by
    obtain ⟨q, hq, _⟩ := hb c hc; exact ⟨q, hq⟩
  obtain ⟨pre, f, q, h1, h2, h3, h4, h5⟩ := subtask_score_value ht ho hcs hnum h hst hmsg
  have hf : ∀ x ∈ info.testcases.map f, 0 ≤ x ∧ x ≤ 1 := by
    intro x hx
    obtain ⟨tc, htc, rfl⟩ := List.mem_map.1 hx
    obtain ⟨c, hc, _, hs⟩ := lastScore_mem (h2 tc htc)
    obtain ⟨y, hy, hy2⟩ := hb c (h1.1.subset hc)
    rw [hy] at hs
    simp only [Score.num.injEq] at hs
    rw [← hs]; exact hy2
  obtain ⟨b1, b2, b3⟩ := aggregate_bounds h3 hf
  refine ⟨pre, _, h5, Rat.mul_nonneg hmax b1, ?_, h1, ?_⟩
  · have := Rat.mul_le_mul_of_nonneg_left b2 hmax; grind
  · intro hne
    have : info.maxScore * q = info.maxScore ↔ q = 1 := by
      constructor
      · intro h
        have h3 : info.maxScore * (q - 1) = 0 := by grind
        rcases Rat.mul_eq_zero.1 h3 with h | h <;> grind
      · intro h; rw [h]; grind
    rw [this, b3]
    constructor
    · intro hall tc htc
      rw [h2 tc htc, hall (f tc) (List.mem_map_of_mem htc)]
    · intro hall x hx
      obtain ⟨tc, htc, rfl⟩ := List.mem_map.1 hx
      have := hall tc htc
      rw [h2 tc htc] at this
      simpa using this

/-- Non-vacuity: subtask 1 of the demo gets its maximum, subtask 0 does not. -/
example : ∃ m, run demoTask [1, 0, 2] demoCalls = some m ∧
    .subtaskScore 1 (.num 50) (.num 1) ∈ m.sent ∧
    .subtaskScore 0 (.num 20) (.num (1/2)) ∈ m.sent := by
  obtain ⟨m, hm⟩ := numeric_never_panics demo_valid demo_order demo_calls demo_numeric
  refine ⟨m, hm, ?_⟩
  have h : (run demoTask [1, 0, 2] demoCalls).map (fun m => decide
    (.subtaskScore 1 (.num 50) (.num 1) ∈ m.sent ∧
      .subtaskScore 0 (.num 20) (.num (1/2)) ∈ m.sent)) = some true := by decide +kernel
  rw [hm] at h
  simpa using h

/-! ## Communication tasks -/

/-- The scores among the answers. -/
def sends : List Answer → List (Score × String)
  | [] => []
  | .send s m :: as => (s, m) :: sends as
  | .skip :: as => sends as

/-- What the sender knows. -/
structure SInv (n : Nat) (as : List Answer) (s : Sender) : Prop where
  missing : s.missing + as.length = n
  none : s.answer = none ↔ sends as = []
  mem : ∀ a, s.answer = some a → a ∈ sends as
  le : ∀ a, s.answer = some a → ∃ q, a.1 = .num q ∧ ∀ b ∈ sends as, ∃ q', b.1 = .num q' ∧ q ≤ q'
  flushed : s.flushed = if s.missing = 0 ∧ 0 < n then s.answer.toList else []

theorem sends_append (a b : List Answer) : sends (a ++ b) = sends a ++ sends b := by
  induction a with
  | nil => rfl
  | cons x a ih => cases x <;> simp [sends, ih]

theorem maybeFlush_missing (s : Sender) : s.maybeFlush.missing = s.missing ∧
    s.maybeFlush.answer = s.answer := by
  unfold Sender.maybeFlush; split
  · exact ⟨rfl, rfl⟩
  · split <;> exact ⟨rfl, rfl⟩

theorem maybeFlush_flushed {s : Sender} (h : s.flushed = []) :
    s.maybeFlush.flushed = if s.missing = 0 then s.answer.toList else [] := by
  unfold Sender.maybeFlush
  split
  · rw [if_neg (by omega), h]
  · rw [if_pos (by omega)]
    split
    · rename_i a ha; simp [h, ha]
    · rename_i ha; simp [h, ha]

theorem answered_inv {n : Nat} {as : List Answer} {s s' : Sender} (hi : SInv n as s) {a : Answer}
    (hnum : ∀ sc m, a = .send sc m → ∃ q, sc = .num q) (h : s.answered a = some s') :
    SInv n (as ++ [a]) s' := by
  have hpos : s.missing > 0 := by
    cases a <;> (simp only [Sender.answered] at h; split at h <;> first | assumption | cases h)
  have hn : 0 < n := by have := hi.missing; omega
  have hfl : s.flushed = [] := by rw [hi.flushed, if_neg (by omega)]
  cases a with
  | skip =>
    simp only [Sender.answered, if_pos hpos, Option.some.injEq] at h
    subst h
    have h1 := maybeFlush_missing { s with missing := s.missing - 1 }
    have h2 := @maybeFlush_flushed { s with missing := s.missing - 1 } hfl
    have h3 : sends (as ++ [.skip]) = sends as := by simp [sends_append, sends]
    refine ⟨?_, ?_, ?_, ?_, ?_⟩
    · rw [h1.1]; have := hi.missing; simp; omega
    · rw [h1.2, h3]; exact hi.none
    · rw [h1.2, h3]; exact hi.mem
    · rw [h1.2, h3]; exact hi.le
    · rw [h2, h1.1, h1.2]; simp [hn]
  | send sc msg =>
    obtain ⟨q, rfl⟩ := hnum sc msg rfl
    simp only [Sender.answered, if_pos hpos, Option.some.injEq] at h
    subst h
    have h3 : sends (as ++ [.send (.num q) msg]) = sends as ++ [(.num q, msg)] := by
      simp [sends_append, sends]
    generalize hb : better s.answer (.num q) = better
    unfold TM.Score.better at hb
    have h1 := maybeFlush_missing { s with
      missing := s.missing - 1, answer := if better then some (.num q, msg) else s.answer }
    have h2 := @maybeFlush_flushed { s with
      missing := s.missing - 1, answer := if better then some (.num q, msg) else s.answer } hfl
    have hnone : (if better = true then some (Score.num q, msg) else s.answer) ≠ none := by
      cases better with
      | true => simp
      | false =>
        simp only [Bool.false_eq_true, if_false]
        intro h
        rw [h] at hb
        cases hb
    refine ⟨?_, ?_, ?_, ?_, ?_⟩
    · rw [h1.1]; have := hi.missing; simp; omega
    · rw [h1.2, h3]
      simp only [List.append_eq_nil_iff, List.cons_ne_nil, and_false, iff_false]
      exact hnone
    · rw [h1.2, h3]
      intro a ha
      cases better with
      | true => simp at ha; simp [← ha]
      | false => simp at ha; simp [hi.mem a ha]
    · rw [h1.2, h3]
      intro a ha
      cases hans : s.answer with
      | none =>
        rw [hans] at hb
        subst hb
        have := hi.none.1 hans
        simp at ha
        refine ⟨q, by rw [← ha], ?_⟩
        intro b hbm
        rw [this] at hbm
        simp at hbm
        exact ⟨q, by rw [hbm], by grind⟩
      | some a0 =>
        obtain ⟨q0, h4, h5⟩ := hi.le a0 hans
        rw [hans] at hb
        simp only [h4, Score.gt] at hb
        by_cases hlt : q < q0
        · simp only [hlt, decide_true] at hb
          subst hb
          simp at ha
          refine ⟨q, by rw [← ha], ?_⟩
          intro b hbm
          rcases List.mem_append.1 hbm with hbm | hbm
          · obtain ⟨q', h6, h7⟩ := h5 b hbm
            exact ⟨q', h6, by grind⟩
          · simp at hbm; exact ⟨q, by rw [hbm], by grind⟩
        · simp only [hlt, decide_false] at hb
          subst hb
          simp only [Bool.false_eq_true, if_false, hans, Option.some.injEq] at ha
          subst ha
          refine ⟨q0, h4, ?_⟩
          intro b hbm
          rcases List.mem_append.1 hbm with hbm | hbm
          · exact h5 b hbm
          · simp at hbm; exact ⟨q, by rw [hbm], by grind⟩
    · rw [h2, h1.1, h1.2]; simp [hn]

theorem sender_run_inv {n : Nat} {as bs : List Answer} {s s' : Sender} (hi : SInv n as s)
    (hnum : ∀ sc m, .send sc m ∈ bs → ∃ q, sc = .num q) (h : s.run bs = some s') :
    SInv n (as ++ bs) s' := by
  induction bs generalizing as s with
  | nil =>
    simp only [Sender.run, Option.some.injEq] at h
    subst h; simpa using hi
  | cons a bs ih =>
    simp only [Sender.run] at h
    cases ha : s.answered a with
    | none => simp [ha] at h
    | some s1 =>
      simp only [ha] at h
      have := ih (answered_inv hi (fun sc m he => hnum sc m (by simp [he])) ha)
        (fun sc m hm => hnum sc m (by simp [hm])) h
      simpa using this

theorem sender_start (n : Nat) : SInv n [] { missing := n } := by
  refine ⟨by simp, by simp [sends], by simp, by simp, ?_⟩
  split <;> rfl

/-- A testcase of a communication task with `n` answers to come (one for each process and one for
the manager): nothing is scored before the last answer, whatever their order; with the last one the
minimum of the scores answered is given once to the score manager, with its message. -/
theorem communication_score {n : Nat} {as : List Answer} {s : Sender}
    (hnum : ∀ sc m, .send sc m ∈ as → ∃ q, sc = .num q)
    (h : Sender.run { missing := n } as = some s) :
    (as.length < n → s.flushed = []) ∧
    (as.length = n → sends as = [] → s.flushed = []) ∧
    (as.length = n → sends as ≠ [] → ∃ q msg, s.flushed = [(.num q, msg)] ∧
      (.num q, msg) ∈ sends as ∧ ∀ b ∈ sends as, ∃ q', b.1 = .num q' ∧ q ≤ q') := by
  have hi := sender_run_inv (sender_start n) hnum h
  simp only [List.nil_append] at hi
  have hm := hi.missing
  refine ⟨?_, ?_, ?_⟩
  · intro hl; rw [hi.flushed, if_neg (by omega)]
  · intro hl hs
    rw [hi.flushed, hi.none.2 hs]
    split <;> rfl
  · intro hl hs
    have hn : 0 < n := by
      cases as with
      | nil => simp [sends] at hs
      | cons a as => simp at hl; omega
    obtain ⟨a, ha⟩ : ∃ a, s.answer = some a := by
      cases ha : s.answer with
      | none => exact absurd (hi.none.1 ha) hs
      | some a => exact ⟨a, rfl⟩
    obtain ⟨q, h1, h2⟩ := hi.le a ha
    refine ⟨q, a.2, ?_, ?_, h2⟩
    · rw [hi.flushed, if_pos ⟨by omega, hn⟩, ha, ← h1]; rfl
    · rw [← h1]; exact hi.mem a ha

/-- Up to `n` answers the assertions hold; one more answer makes the sender panic. -/
theorem communication_answers {n : Nat} (as : List Answer) :
    (∃ s, Sender.run { missing := n } as = some s) ↔ as.length ≤ n := by
  have key : ∀ (as : List Answer) (s : Sender),
      (∃ s', s.run as = some s') ↔ as.length ≤ s.missing := by
    intro as
    induction as with
    | nil => intro s; simp [Sender.run]
    | cons a as ih =>
      intro s
      simp only [Sender.run, List.length_cons]
      by_cases hpos : s.missing > 0
      · have : ∃ s1, s.answered a = some s1 ∧ s1.missing = s.missing - 1 := by
          cases a with
          | send sc m =>
            simp only [Sender.answered, if_pos hpos]
            exact ⟨_, rfl, (maybeFlush_missing _).1⟩
          | skip =>
            simp only [Sender.answered, if_pos hpos]
            exact ⟨_, rfl, (maybeFlush_missing _).1⟩
        obtain ⟨s1, h1, h2⟩ := this
        simp only [h1, ih s1, h2]
        omega
      · have : s.answered a = none := by
          cases a <;> simp only [Sender.answered, if_neg hpos]
        simp only [this]
        constructor
        · rintro ⟨_, h⟩; cases h
        · omega
  exact key as _

/-- Non-vacuity: two processes, one of which fails, and the manager: the failure wins, in any
order. -/
example :
    (Sender.run { missing := 3 } [.skip, .send (.num 0) "Signal", .send (.num 1) "ok"]).map
      (·.flushed) = some [(.num 0, "Signal")] ∧
    (Sender.run { missing := 3 } [.send (.num 1) "ok", .skip, .send (.num 0) "Signal"]).map
      (·.flushed) = some [(.num 0, "Signal")] ∧
    (Sender.run { missing := 3 } [.send (.num 1) "ok", .skip]).map (·.flushed) = some [] := by
  decide +kernel

/-- Without the hypothesis on the scores: a manager that answers NaN before a process fails hides
the failure. -/
theorem nan_hides_failure :
    (Sender.run { missing := 2 } [.send .nan "ok", .send (.num 0) "Signal"]).map (·.flushed) =
      some [(.nan, "ok")] := by decide +kernel

/-! ## The status of a score -/

/-- Accepted, partial and wrong are told apart as documented, with a tolerance of 0.001 on the
maximum; a score of zero is never accepted. -/
theorem score_status (s m : Rat) :
    (ScoreStatus.fromScore (.num s) (.num m) = .wrongAnswer ↔ s = 0) ∧
    (ScoreStatus.fromScore (.num s) (.num m) = .accepted ↔
      s ≠ 0 ∧ m - 1/1000 < s ∧ s < m + 1/1000) ∧
    (ScoreStatus.fromScore (.num s) (.num m) = .partialScore ↔
      s ≠ 0 ∧ (s ≤ m - 1/1000 ∨ m + 1/1000 ≤ s)) := by
  have habs : absRat (s - m) < 1/1000 ↔ m - 1/1000 < s ∧ s < m + 1/1000 := by
    unfold absRat; split <;> constructor <;> grind
  simp only [ScoreStatus.fromScore]
  by_cases h0 : s = 0
  · simp [h0]
  · by_cases h1 : absRat (s - m) < 1/1000
    · have := habs.1 h1
      simp [h0, h1, this]
      grind
    · have h2 : ¬ (m - 1/1000 < s ∧ s < m + 1/1000) := fun h => h1 (habs.2 h)
      simp only [h0, h1, if_false]
      refine ⟨by simp, by simp [h2], by simp; grind⟩

/-- How good a status is. -/
def ScoreStatus.rank : ScoreStatus → Nat
  | .wrongAnswer => 0
  | .partialScore => 1
  | .accepted => 2

/-- Between zero and the maximum, a better score does not get a worse status; the maximum is
accepted unless it is zero. -/
theorem score_status_monotone {s s' m : Rat} (h0 : 0 ≤ s) (h1 : s ≤ s') (h2 : s' ≤ m) :
    (ScoreStatus.fromScore (.num s) (.num m)).rank ≤ (ScoreStatus.fromScore (.num s') (.num m)).rank ∧
    (m ≠ 0 → ScoreStatus.fromScore (.num m) (.num m) = .accepted) := by
  obtain ⟨a1, a2, a3⟩ := score_status s m
  obtain ⟨b1, b2, b3⟩ := score_status s' m
  constructor
  · cases hs : ScoreStatus.fromScore (.num s) (.num m) with
    | wrongAnswer => simp [ScoreStatus.rank]
    | accepted =>
      have := a2.1 hs
      rw [b2.2 ⟨by grind, by grind, by grind⟩]; simp
    | partialScore =>
      have := a3.1 hs
      cases hs' : ScoreStatus.fromScore (.num s') (.num m) with
      | wrongAnswer => have := b1.1 hs'; grind
      | accepted => simp [ScoreStatus.rank]
      | partialScore => simp
  · intro hm
    exact (score_status m m).2.1.2 ⟨hm, by grind, by grind⟩

/-- Non-vacuity, and the corner cases: the maximum of a subtask worth zero is a wrong answer, and a
score above the maximum is partial. -/
example : ScoreStatus.fromScore (.num 0) (.num 1) = .wrongAnswer ∧
    ScoreStatus.fromScore (.num (1/2)) (.num 1) = .partialScore ∧
    ScoreStatus.fromScore (.num (9995/10000)) (.num 1) = .accepted := by decide +kernel

theorem zero_maximum_is_wrong : ScoreStatus.fromScore (.num 0) (.num 0) = .wrongAnswer ∧
    ScoreStatus.fromScore (.num 2) (.num 1) = .partialScore := by decide +kernel

end TM.Score
