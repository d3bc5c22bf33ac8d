import Verif.Build.CallLemmas
import Verif.Build.Final
/-!
# Which executions decide which scores
-/
namespace TM.Build
open TM DagSpec Spec

/-! ## Outcomes -/

theorem outcome_mem {ns : List Notice} {u : ExecutionUuid} {o : Outcome} (h : outcomeOf ns u = some o) :
    .done u o ∈ ns := by
  obtain ⟨n, hn, hx⟩ := List.exists_of_findSome?_eq_some h
  cases n with
  | done v o' =>
    simp only at hx
    split at hx
    · next hv => cases hx; rw [← hv]; exact hn
    · cases hx
  | started _ => cases hx
  | skipped _ => cases hx

theorem outcome_of_mem {ns : List Notice} (ho : Once ns) {u : ExecutionUuid} {o : Outcome}
    (h : .done u o ∈ ns) : outcomeOf ns u = some o := by
  cases hx : outcomeOf ns u with
  | none =>
    rw [outcomeOf, List.findSome?_eq_none_iff] at hx
    have := hx _ h
    simp at this
  | some o' =>
    have h1 := outcome_mem hx
    have := map_inj_of_nodup ho h h1 rfl
    cases this
    rfl

theorem outcome_none {ns : List Notice} {u : ExecutionUuid} (h : outcomeOf ns u = none) {o : Outcome} :
    .done u o ∉ ns := by
  intro hm
  rw [outcomeOf, List.findSome?_eq_none_iff] at h
  have := h _ hm
  simp at this

theorem Once.tail {n : Notice} {ns : List Notice} (h : Once (n :: ns)) : Once ns := by
  simp only [Once, List.map_cons, List.nodup_cons] at h
  exact h.2

/-- Something done only when `u` ends is done at most once. -/
theorem flatMap_done {β : Type} {g : Notice → List β} {u : ExecutionUuid}
    (hg : ∀ n, g n ≠ [] → ∃ o, n = .done u o) : ∀ {ns : List Notice}, Once ns →
    ns.flatMap g = match outcomeOf ns u with
      | some o => g (.done u o)
      | none => [] := by
  intro ns
  induction ns with
  | nil => intro _; rfl
  | cons n ns ih =>
    intro ho
    rw [List.flatMap_cons, ih ho.tail]
    by_cases hn : ∃ o, n = .done u o
    · obtain ⟨o, rfl⟩ := hn
      rw [outcome_of_mem ho (o := o) (by simp)]
      cases hx : outcomeOf ns u with
      | none => simp
      | some o' =>
        exfalso
        have h1 := outcome_mem hx
        simp only [Once, List.map_cons, List.nodup_cons] at ho
        exact ho.1 (List.mem_map.2 ⟨_, h1, rfl⟩)
    · have h1 : g n = [] := by
        cases hgn : g n with
        | nil => rfl
        | cons x l => exact absurd (hg n (by rw [hgn]; simp)) hn
      have h2 : outcomeOf (n :: ns) u = outcomeOf ns u := by
        unfold outcomeOf
        rw [List.findSome?_cons]
        cases n with
        | done v o =>
          have : v ≠ u := fun hv => hn ⟨o, by rw [hv]⟩
          simp [this]
        | started _ => rfl
        | skipped _ => rfl
      rw [h1, h2]
      rfl

/-! ## The handlers of a key -/

/-- The evaluation a handler gives a score for, without a sender. -/
def handlerKey : Handler → Option (Nat × Nat × Nat)
  | .scoreZeroOnFailure st tc sol => some (st, tc, sol)
  | .whiteDiff st tc sol => some (st, tc, sol)
  | .customChecker st tc sol => some (st, tc, sol)
  | _ => none

/-- The sender a handler answers to. -/
def handlerSender : Handler → Option Nat
  | .processOutcome k => some k
  | .managerOutcome k => some k
  | _ => none

theorem givenBy_key {x : Notice × Handler} {g : Given} (h : g ∈ givenBy x) :
    handlerKey x.2 = some g.key := by
  obtain ⟨n, hd⟩ := x
  cases n with
  | started _ => cases hd <;> cases h
  | skipped _ => cases hd <;> cases h
  | done u o =>
    cases hd <;> simp only [givenBy] at h
    all_goals (try (cases h; done))
    · split at h
      · cases h
      · rw [List.mem_singleton] at h; subst h; rfl
    · split at h <;> (rw [List.mem_singleton] at h; subst h; rfl)
    · split at h
      · obtain ⟨x, -, rfl⟩ := List.mem_map.1 h; rfl
      · cases h

theorem filter_filterMap_scoring (hs : List (ExecutionUuid × Handler)) {q : Handler → Bool}
    (hq : ∀ h, q h = true → handlerKey h ≠ none ∨ handlerSender h ≠ none) :
    (hs.filter (fun p => q p.2)).map (·.2) = (hs.filterMap scoringOf).filter q := by
  induction hs with
  | nil => rfl
  | cons p hs ih =>
    obtain ⟨u, h⟩ := p
    rw [List.filter_cons, List.filterMap_cons]
    cases hqh : q h with
    | true =>
      have : scoringOf (u, h) = some h := by
        rcases hq h hqh with h1 | h1 <;> (cases h <;> first | rfl | (simp [handlerKey, handlerSender] at h1))
      simp only [if_true, List.map_cons, ih, this, List.filter_cons, hqh]
    | false =>
      simp only [Bool.false_eq_true, if_false, ih]
      cases hsc : scoringOf (u, h) with
      | none => rfl
      | some h' =>
        have : h' = h := by cases h <;> simp [scoringOf] at hsc <;> exact hsc.symm
        subst this
        simp [hqh]

theorem evaluations_nodup {n : Uuid} {task : Task} {sols : List Src} (h : Fits n task sols) :
    (task.evaluations sols.length).Nodup := by
  have hown := h.owned
  rw [List.Nodup, List.pairwise_flatMap] at hown
  refine nodup_flatMap ?_ ?_
  · intro st hst
    refine nodup_flatMap ?_ ?_
    · intro k _
      rw [List.Nodup, List.pairwise_map]
      refine List.Pairwise.imp ?_ List.nodup_range
      intro a b hab he
      simp at he
      exact hab he
    · refine List.Pairwise.imp ?_ (hown.1 st hst)
      intro a b hab x hx y hy he
      obtain ⟨_, -, rfl⟩ := List.mem_map.1 hx
      obtain ⟨_, -, rfl⟩ := List.mem_map.1 hy
      simp at he
      exact hab he.1
  · refine List.Pairwise.imp ?_ hown.2
    intro a b hab x hx y hy he
    obtain ⟨k, hk, hx⟩ := List.mem_flatMap.1 hx
    obtain ⟨l, hl, hy⟩ := List.mem_flatMap.1 hy
    obtain ⟨_, -, rfl⟩ := List.mem_map.1 hx
    obtain ⟨_, -, rfl⟩ := List.mem_map.1 hy
    simp at he
    exact hab k hk l hl he.2.1

theorem mem_evaluations {task : Task} {m st tc sol : Nat} : (st, tc, sol) ∈ task.evaluations m ↔
    sol < m ∧ ∃ s ∈ task.subtasks.values, s.id = st ∧ tc ∈ s.owned := by
  simp only [Task.evaluations, Subtask.evaluations, List.mem_flatMap, List.mem_map, List.mem_range,
    Prod.mk.injEq]
  grind

/-! ## Batch tasks -/

theorem batch_scoring {checker : Checker} {l : List (Nat × Nat × Nat)} : ∀ k,
    (TaskType.batch checker).scoringFrom k l =
      l.flatMap (fun e => [.scoreZeroOnFailure e.1 e.2.1 e.2.2, checker.handler e.1 e.2.1 e.2.2]) := by
  induction l with
  | nil => intro k; rfl
  | cons e l ih => intro k; simp only [TaskType.scoringFrom, ih, List.flatMap_cons]; rfl

theorem handler_key (checker : Checker) (st tc sol : Nat) :
    handlerKey (checker.handler st tc sol) = some (st, tc, sol) := by
  cases checker <;> rfl

theorem batch_key_handlers {checker : Checker} {l : List (Nat × Nat × Nat)} (hl : l.Nodup)
    {st tc sol : Nat} :
    (l.flatMap (fun e => [Handler.scoreZeroOnFailure e.1 e.2.1 e.2.2,
        checker.handler e.1 e.2.1 e.2.2])).filter (fun h => handlerKey h = some (st, tc, sol)) =
      if (st, tc, sol) ∈ l then [.scoreZeroOnFailure st tc sol, checker.handler st tc sol] else [] := by
  induction l with
  | nil => rfl
  | cons e l ih =>
    obtain ⟨a, b, c⟩ := e
    rw [List.nodup_cons] at hl
    rw [List.flatMap_cons, List.filter_append, ih hl.2]
    have z : handlerKey (.scoreZeroOnFailure a b c) = some (a, b, c) := rfl
    have y := handler_key checker a b c
    simp only [List.filter_cons, List.filter_nil, z, y]
    by_cases he : (a, b, c) = (st, tc, sol)
    · cases he
      rw [if_neg hl.1, if_pos (List.mem_cons_self)]
      simp
    · have : ¬ (some (a, b, c) = some (st, tc, sol)) := fun h => he (Option.some.inj h)
      have h2 : ¬ ((st, tc, sol) = (a, b, c)) := fun h => he h.symm
      simp only [this, decide_false, Bool.false_eq_true, if_false, List.nil_append, List.mem_cons, h2,
        false_or]

theorem flatMap_filter_key {hs : List (ExecutionUuid × Handler)} {ns : List Notice}
    {key : Nat × Nat × Nat} :
    ((invocations hs ns).flatMap givenBy).filter (fun g => g.key = key) =
      (invocations (hs.filter (fun p => handlerKey p.2 = some key)) ns).flatMap givenBy := by
  have h1 : ∀ x : Notice × Handler, (givenBy x).filter (fun g => decide (g.key = key)) =
      if handlerKey x.2 = some key then givenBy x else [] := by
    intro x
    split
    · next h =>
      rw [List.filter_eq_self]
      intro g hg
      have := givenBy_key hg
      rw [h] at this
      simpa using (Option.some.inj this).symm
    · next h =>
      rw [List.filter_eq_nil_iff]
      intro g hg
      have := givenBy_key hg
      simp only [decide_eq_true_eq]
      intro he
      rw [he] at this
      exact h this
  have h2 : ∀ (n : Notice) (l : List (ExecutionUuid × Handler)),
      (((l.filter (fun p => decide (p.1 = n.exec))).map (fun p => (n, p.2))).flatMap givenBy).filter
        (fun g => decide (g.key = key)) =
      ((((l.filter (fun p => decide (handlerKey p.2 = some key))).filter
        (fun p => decide (p.1 = n.exec))).map (fun p => (n, p.2))).flatMap givenBy) := by
    intro n l
    induction l with
    | nil => rfl
    | cons p l ih =>
      by_cases hp : p.1 = n.exec <;> by_cases hk : handlerKey p.2 = some key
      · simp only [List.filter_cons, hp, hk, decide_true, if_true, List.map_cons, List.flatMap_cons,
          List.filter_append, h1, ih]
      · simp only [List.filter_cons, hp, hk, decide_true, decide_false, Bool.false_eq_true, if_false,
          if_true, List.map_cons, List.flatMap_cons, List.filter_append, h1, ih, List.nil_append]
      · simp only [List.filter_cons, hp, hk, decide_true, decide_false, Bool.false_eq_true, if_false,
          if_true, ih]
      · simp only [List.filter_cons, hp, hk, decide_false, Bool.false_eq_true, if_false, ih]
  unfold invocations
  induction ns with
  | nil => rfl
  | cons n ns ih =>
    simp only [List.flatMap_cons, List.flatMap_append, List.filter_append]
    rw [ih, h2]

/-- The scores given by the handlers of a batch task, one by one. -/
theorem batch_pieces {ev : Eval} {ns : List Notice} {c : Client} {checker : Checker}
    {l : List (Nat × Nat × Nat)} (ho : Once ns)
    (hsc : ev.handlers.filterMap scoringOf = l.flatMap (fun e =>
      [.scoreZeroOnFailure e.1 e.2.1 e.2.2, checker.handler e.1 e.2.1 e.2.2]))
    (hc : ev.follow ns = .ok c) :
    c.given = (invocations ev.handlers ns).flatMap givenBy := by
  rw [follow_invoke ho] at hc
  have hq : ∀ x ∈ invocations ev.handlers ns, answerBy x = none := by
    intro x hx
    obtain ⟨n, -, hx⟩ := List.mem_flatMap.1 hx
    obtain ⟨p, hp, rfl⟩ := List.mem_map.1 hx
    have hp := (List.mem_filter.1 hp).1
    have key : handlerSender p.2 = none := by
      cases hs : scoringOf p with
      | none => obtain ⟨u, h⟩ := p; cases h <;> first | rfl | cases hs
      | some h =>
        have h1 : h ∈ ev.handlers.filterMap scoringOf := List.mem_filterMap.2 ⟨p, hp, hs⟩
        have h2 : p.2 = h := by obtain ⟨u, h'⟩ := p; cases h' <;> simp [scoringOf] at hs <;> exact hs
        rw [hsc] at h1
        obtain ⟨e, -, he⟩ := List.mem_flatMap.1 h1
        rw [h2]
        simp only [List.mem_cons, List.not_mem_nil, or_false] at he
        rcases he with rfl | rfl
        · rfl
        · cases checker <;> rfl
    obtain ⟨u, h⟩ := p
    cases n <;> cases h <;> simp [answerBy, handlerSender] at key ⊢
  have := invoke_given hq hc
  simpa [Eval.client] using this

theorem filter_two {hs : List (ExecutionUuid × Handler)} {q : Handler → Bool} {x y : Handler}
    {a b : ExecutionUuid} (hxy : x ≠ y) (h : (hs.filter (fun p => q p.2)).map (·.2) = [x, y])
    (ha : (a, x) ∈ hs) (hb : (b, y) ∈ hs) : hs.filter (fun p => q p.2) = [(a, x), (b, y)] := by
  have hq : ∀ z, z ∈ [x, y] → q z = true := by
    intro z hz
    rw [← h] at hz
    obtain ⟨p, hp, rfl⟩ := List.mem_map.1 hz
    exact (List.mem_filter.1 hp).2
  have ha' : (a, x) ∈ hs.filter (fun p => q p.2) := List.mem_filter.2 ⟨ha, hq x (by simp)⟩
  have hb' : (b, y) ∈ hs.filter (fun p => q p.2) := List.mem_filter.2 ⟨hb, hq y (by simp)⟩
  generalize hs.filter (fun p => q p.2) = L at h ha' hb'
  match L, h with
  | [p, r], h =>
    simp only [List.map_cons, List.map_nil, List.cons.injEq, and_true] at h
    obtain ⟨h1, h2⟩ := h
    simp only [List.mem_cons, List.not_mem_nil, or_false] at ha' hb'
    have e1 : (a, x) = p := by
      rcases ha' with e | e
      · exact e
      · exfalso; rw [← e] at h2; exact hxy h2
    have e2 : (b, y) = r := by
      rcases hb' with e | e
      · exfalso; rw [← e] at h1; exact hxy h1.symm
      · exact e
    rw [e1, e2]

theorem invocations_two {a b : ExecutionUuid} {x y : Handler} {ns : List Notice} :
    (invocations [(a, x), (b, y)] ns).flatMap givenBy =
      ns.flatMap (fun n => (if a = n.exec then givenBy (n, x) else []) ++
        (if b = n.exec then givenBy (n, y) else [])) := by
  unfold invocations
  rw [List.flatMap_assoc]
  congr 1
  funext n
  by_cases h1 : a = n.exec <;> by_cases h2 : b = n.exec <;> simp [List.filter_cons, h1, h2]

theorem givenBy_done {n : Notice} {u : ExecutionUuid} {h : Handler}
    (hn : (if u = n.exec then givenBy (n, h) else []) ≠ []) : ∃ o, n = .done u o := by
  split at hn
  · next hu =>
    cases n with
    | done v o => exact ⟨o, by rw [hu]; rfl⟩
    | started _ => exact absurd (by cases h <;> rfl) hn
    | skipped _ => exact absurd (by cases h <;> rfl) hn
  · exact absurd rfl hn

/-- The handlers of one evaluation of a batch task. -/
theorem batch_two {ev : Eval} {checker : Checker}
    {l : List (Nat × Nat × Nat)} (hl : l.Nodup)
    (hsc : ev.handlers.filterMap scoringOf = l.flatMap (fun e =>
      [.scoreZeroOnFailure e.1 e.2.1 e.2.2, checker.handler e.1 e.2.1 e.2.2]))
    {st tc sol : Nat} (hm : (st, tc, sol) ∈ l) {a b : ExecutionUuid}
    (ha : (a, .scoreZeroOnFailure st tc sol) ∈ ev.handlers)
    (hb : (b, checker.handler st tc sol) ∈ ev.handlers) :
    ev.handlers.filter (fun p => decide (handlerKey p.2 = some (st, tc, sol))) =
      [(a, .scoreZeroOnFailure st tc sol), (b, checker.handler st tc sol)] := by
  have hxy : Handler.scoreZeroOnFailure st tc sol ≠ checker.handler st tc sol := by
    cases checker <;> simp [Checker.handler]
  refine filter_two (q := fun h => decide (handlerKey h = some (st, tc, sol))) hxy ?_ ha hb
  have h0 := filter_filterMap_scoring ev.handlers
      (q := fun h => decide (handlerKey h = some (st, tc, sol))) (by
        intro h hq
        left
        simp only [decide_eq_true_eq] at hq
        rw [hq]; simp)
  rw [hsc, batch_key_handlers hl, if_pos hm] at h0
  exact h0

/-- The scores of one evaluation of a batch task. -/
theorem batch_key_scores {ev : Eval} {ns : List Notice} {c : Client} {checker : Checker}
    {l : List (Nat × Nat × Nat)} (ho : Once ns) (hl : l.Nodup)
    (hsc : ev.handlers.filterMap scoringOf = l.flatMap (fun e =>
      [.scoreZeroOnFailure e.1 e.2.1 e.2.2, checker.handler e.1 e.2.1 e.2.2]))
    (hc : ev.follow ns = .ok c) {st tc sol : Nat} (hm : (st, tc, sol) ∈ l) {a b : ExecutionUuid}
    (ha : (a, .scoreZeroOnFailure st tc sol) ∈ ev.handlers)
    (hb : (b, checker.handler st tc sol) ∈ ev.handlers)
    (hab : ∀ o, outcomeOf ns a = some o → o.success = false → outcomeOf ns b = none)
    (hba : outcomeOf ns a = none → outcomeOf ns b = none) :
    scoresGiven c st tc sol = batchScores checker (outcomeOf ns a) (outcomeOf ns b) := by
  have h1 := batch_two hl hsc hm ha hb
  have h2 : c.given.filter (fun g => decide (g.key = (st, tc, sol))) =
      ns.flatMap (fun n => (if a = n.exec then givenBy (n, .scoreZeroOnFailure st tc sol) else []) ++
        (if b = n.exec then givenBy (n, checker.handler st tc sol) else [])) := by
    rw [batch_pieces ho hsc hc, flatMap_filter_key, h1, invocations_two]
  have hgA : ns.flatMap (fun n => if a = n.exec then givenBy (n, .scoreZeroOnFailure st tc sol) else []) =
      match outcomeOf ns a with
      | some o => givenBy (.done a o, .scoreZeroOnFailure st tc sol)
      | none => [] := by
    rw [flatMap_done (u := a) (fun n hn => givenBy_done hn) ho]
    cases outcomeOf ns a <;> simp [Notice.exec]
  have hgB : ns.flatMap (fun n => if b = n.exec then givenBy (n, checker.handler st tc sol) else []) =
      match outcomeOf ns b with
      | some o => givenBy (.done b o, checker.handler st tc sol)
      | none => [] := by
    rw [flatMap_done (u := b) (fun n hn => givenBy_done hn) ho]
    cases outcomeOf ns b <;> simp [Notice.exec]
  have hdrop : ∀ {β : Type} {f g : Notice → List β}, ns.flatMap f = [] →
      ns.flatMap (fun n => f n ++ g n) = ns.flatMap g := by
    intro β f g hf
    rw [List.flatMap_eq_nil_iff] at hf
    clear h2 hgA hgB hab hba hc ho
    induction ns with
    | nil => rfl
    | cons n ns ih =>
      rw [List.flatMap_cons, List.flatMap_cons, hf n (by simp), ih (fun m hm => hf m (by simp [hm]))]
      rfl
  have hdrop' : ∀ {β : Type} {f g : Notice → List β}, ns.flatMap g = [] →
      ns.flatMap (fun n => f n ++ g n) = ns.flatMap f := by
    intro β f g hf
    rw [List.flatMap_eq_nil_iff] at hf
    clear h2 hgA hgB hab hba hc ho hdrop
    induction ns with
    | nil => rfl
    | cons n ns ih =>
      rw [List.flatMap_cons, List.flatMap_cons, hf n (by simp), ih (fun m hm => hf m (by simp [hm]))]
      simp
  have h3 : scoresGiven c st tc sol =
      (c.given.filter (fun g => decide (g.key = (st, tc, sol)))).map (fun g => (g.score, g.message)) := rfl
  rw [h3, h2]
  cases hoa : outcomeOf ns a with
  | none =>
    rw [hoa] at hgA
    have hb' := hba hoa
    rw [hb'] at hgB
    rw [hdrop hgA, hgB]
    rfl
  | some o =>
    rw [hoa] at hgA
    cases hs : o.success with
    | true =>
      have hs' : o.status = .success := by simpa [Outcome.success] using hs
      have : ns.flatMap (fun n => if a = n.exec then givenBy (n, .scoreZeroOnFailure st tc sol) else []) = [] := by
        rw [hgA]; simp [givenBy, hs]
      rw [hdrop this, hgB]
      simp only [batchScores, hs', if_true]
      cases outcomeOf ns b with
      | none => rfl
      | some o' =>
        cases checker with
        | whiteDiff =>
          by_cases h' : o'.status = .success <;>
            simp [Checker.handler, givenBy, verdict, Outcome.success, h']
        | custom src =>
          by_cases h' : o'.status = .success <;>
            simp [Checker.handler, givenBy, verdict, Outcome.success, h', Function.comp_def]
    | false =>
      have hs' : o.status ≠ .success := by simpa [Outcome.success] using hs
      have hb' := hab o hoa hs
      rw [hb'] at hgB
      rw [hdrop' hgB, hgA]
      simp [givenBy, hs, batchScores, hs']

theorem batch_given_known {ev : Eval} {ns : List Notice} {c : Client} {checker : Checker}
    {l : List (Nat × Nat × Nat)} (ho : Once ns)
    (hsc : ev.handlers.filterMap scoringOf = l.flatMap (fun e =>
      [.scoreZeroOnFailure e.1 e.2.1 e.2.2, checker.handler e.1 e.2.1 e.2.2]))
    (hc : ev.follow ns = .ok c) {g : Given} (hg : g ∈ c.given) : g.key ∈ l := by
  rw [batch_pieces ho hsc hc] at hg
  obtain ⟨x, hx, hg⟩ := List.mem_flatMap.1 hg
  have hk := givenBy_key hg
  obtain ⟨n, -, hx⟩ := List.mem_flatMap.1 hx
  obtain ⟨p, hp, rfl⟩ := List.mem_map.1 hx
  have hp := (List.mem_filter.1 hp).1
  simp only at hk
  have hs : scoringOf p = some p.2 := by
    obtain ⟨u, h⟩ := p
    cases h <;> first | rfl | cases hk
  have h1 : p.2 ∈ ev.handlers.filterMap scoringOf := List.mem_filterMap.2 ⟨p, hp, hs⟩
  rw [hsc] at h1
  obtain ⟨e, he, h2⟩ := List.mem_flatMap.1 h1
  simp only [List.mem_cons, List.not_mem_nil, or_false] at h2
  rcases h2 with h2 | h2
  · rw [h2] at hk
    simp only [handlerKey, Option.some.injEq] at hk
    rw [← hk]; exact he
  · rw [h2, handler_key, Option.some.injEq] at hk
    rw [← hk]; exact he

end TM.Build
