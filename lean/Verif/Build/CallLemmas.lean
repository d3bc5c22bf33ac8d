import Verif.Build.ScoreSpec
import Verif.Score.PropsBounds
/-!
# Lemmas about the callbacks
-/
namespace TM.Build
open TM Spec

/-- Closures called one after the other, with their notices. -/
def Client.invoke (c : Client) : List (Notice × Handler) → Except Fatal Client
  | [] => .ok c
  | (n, h) :: l => match c.callOne n h with
    | .error e => .error e
    | .ok c => c.invoke l

/-- The closures called for the notices, each list of closures used once. -/
def invocations (handlers : List (ExecutionUuid × Handler)) (ns : List Notice) : List (Notice × Handler) :=
  ns.flatMap (fun n => (handlers.filter (fun p => p.1 = n.exec)).map (fun p => (n, p.2)))

theorem invoke_append {l l' : List (Notice × Handler)} : ∀ {c : Client}, c.invoke (l ++ l') =
    (match c.invoke l with | .error e => .error e | .ok c => c.invoke l') := by
  induction l with
  | nil => intro c; rfl
  | cons x l ih =>
    intro c
    obtain ⟨n, h⟩ := x
    simp only [List.cons_append, Client.invoke]
    cases c.callOne n h with
    | error e => rfl
    | ok c' => exact ih

theorem callAll_invoke {n : Notice} : ∀ {hs : List Handler} {c : Client},
    c.callAll n hs = c.invoke (hs.map (fun h => (n, h))) := by
  intro hs
  induction hs with
  | nil => intro c; rfl
  | cons h hs ih =>
    intro c
    simp only [Client.callAll, List.map_cons, Client.invoke]
    cases c.callOne n h with
    | error e => rfl
    | ok c' => exact ih

/-- No notice of a kind about an execution is repeated. -/
def Once (ns : List Notice) : Prop := (ns.map (fun n => (n.kind, n.exec))).Nodup

theorem firstsFrom_new : ∀ {ns : List Notice} {d : List (Kind × ExecutionUuid)}, ∀ n ∈ firstsFrom d ns,
    (n.kind, n.exec) ∉ d ∧ n ∈ ns := by
  intro ns
  induction ns with
  | nil => intro d n hn; cases hn
  | cons m ns ih =>
    intro d n hn
    simp only [firstsFrom] at hn
    split at hn
    · exact ⟨(ih n hn).1, by simp [(ih n hn).2]⟩
    · next hm =>
      rcases List.mem_cons.1 hn with rfl | hn
      · exact ⟨hm, by simp⟩
      · obtain ⟨h1, h2⟩ := ih n hn
        exact ⟨fun h => h1 (by simp [h]), by simp [h2]⟩

theorem firstsFrom_once : ∀ {ns : List Notice} {d : List (Kind × ExecutionUuid)}, Once (firstsFrom d ns) := by
  intro ns
  induction ns with
  | nil => intro d; simp [firstsFrom, Once]
  | cons m ns ih =>
    intro d
    simp only [firstsFrom]
    split
    · exact ih
    · have h1 := ih (d := (m.kind, m.exec) :: d)
      unfold Once at h1 ⊢
      rw [List.map_cons, List.nodup_cons]
      refine ⟨?_, h1⟩
      intro h
      obtain ⟨n, hn, he⟩ := List.mem_map.1 h
      exact (firstsFrom_new n hn).1 (by simp [he])

theorem firsts_once (ns : List Notice) : Once (firsts ns) := firstsFrom_once

theorem mem_of_firsts {ns : List Notice} {n : Notice} (h : n ∈ firsts ns) : n ∈ ns := (firstsFrom_new n h).2

theorem outcomeOf_firstsFrom {u : ExecutionUuid} : ∀ {ns : List Notice} {d : List (Kind × ExecutionUuid)},
    (Kind.done, u) ∉ d → outcomeOf (firstsFrom d ns) u = outcomeOf ns u := by
  intro ns
  induction ns with
  | nil => intro d _; rfl
  | cons m ns ih =>
    intro d hd
    simp only [firstsFrom]
    split
    · next hm =>
      rw [ih hd]
      unfold outcomeOf
      rw [List.findSome?_cons]
      cases m with
      | done v o =>
        by_cases hv : v = u
        · subst hv; exact absurd hm hd
        · simp [hv]
      | started v => rfl
      | skipped v => rfl
    · next hm =>
      unfold outcomeOf at ih ⊢
      rw [List.findSome?_cons, List.findSome?_cons]
      cases m with
      | done v o =>
        by_cases hv : v = u
        · simp [hv]
        · have : (if v = u then some o else none) = none := if_neg hv
          simp only [this]
          exact ih (by simp [hd, Notice.kind, Notice.exec]; exact fun h => hv h.symm)
      | started v => exact ih (by simp [hd, Notice.kind])
      | skipped v => exact ih (by simp [hd, Notice.kind])

theorem outcomeOf_firsts (ns : List Notice) (u : ExecutionUuid) : outcomeOf (firsts ns) u = outcomeOf ns u :=
  outcomeOf_firstsFrom (by simp)

theorem notifyAll_firstsFrom {hs : List (ExecutionUuid × Handler)} : ∀ {ns : List Notice} {c : Client}
    {d d' : List (Kind × ExecutionUuid)}, (∀ k, k ∈ d ↔ k ∈ d') →
    c.notifyAll hs d' (firstsFrom d ns) = c.notifyAll hs d ns := by
  intro ns
  induction ns with
  | nil => intro c d d' _; rfl
  | cons n ns ih =>
    intro c d d' hd
    simp only [firstsFrom]
    split
    · next hn =>
      have : c.notify hs d n = .ok c := by simp only [Client.notify, if_pos hn]
      rw [Client.notifyAll, this]
      show _ = c.notifyAll hs ((n.kind, n.exec) :: d) ns
      rw [← ih (d := (n.kind, n.exec) :: d) (d' := d')]
      · congr 1
        clear ih
        have : ∀ (ns : List Notice) (d d' : List (Kind × ExecutionUuid)), (∀ k, k ∈ d ↔ k ∈ d') →
            firstsFrom d ns = firstsFrom d' ns := by
          intro ns
          induction ns with
          | nil => intros; rfl
          | cons m ns ih =>
            intro d d' h
            simp only [firstsFrom, h]
            rw [ih d d' h, ih ((m.kind, m.exec) :: d) ((m.kind, m.exec) :: d') (fun k => by simp only [List.mem_cons, h])]
        exact this _ _ _ (fun k => by
          constructor
          · intro h; simp [h]
          · intro h
            rcases List.mem_cons.1 h with rfl | h
            · exact hn
            · exact h)
      · intro k
        rw [← hd]
        constructor
        · intro h
          rcases List.mem_cons.1 h with rfl | h
          · exact hn
          · exact h
        · intro h; simp [h]
    · next hn =>
      simp only [Client.notifyAll, Client.notify, if_neg hn, if_neg (fun h => hn ((hd _).2 h))]
      cases c.callAll n ((hs.filter (fun p => decide (p.1 = n.exec))).map (·.2)) with
      | error e => rfl
      | ok c' => exact ih (fun k => by simp [hd])

theorem follow_firsts (ev : Eval) (ns : List Notice) : ev.follow (firsts ns) = ev.follow ns :=
  notifyAll_firstsFrom (fun _ => Iff.rfl)

theorem history_firsts {d : DagData} {ns : List Notice} (h : History d ns) : History d (firsts ns) := by
  refine ⟨fun e he o ho p hp f hf hfo => ?_⟩
  rw [outcomeOf_firsts]
  exact h.inputs e he o (mem_of_firsts ho) p hp f hf hfo

theorem numbers_firsts {ns : List Notice} (h : Numbers ns) : Numbers (firsts ns) :=
  fun u o x hm hx => h u o x (mem_of_firsts hm) hx


theorem notifyAll_invoke {hs : List (ExecutionUuid × Handler)} : ∀ {ns : List Notice} {c : Client}
    {d : List (Kind × ExecutionUuid)}, Once ns → (∀ n ∈ ns, (n.kind, n.exec) ∉ d) →
    c.notifyAll hs d ns = c.invoke (invocations hs ns) := by
  intro ns
  induction ns with
  | nil => intro c d _ _; rfl
  | cons n ns ih =>
    intro c d ho hd
    simp only [Once, List.map_cons, List.nodup_cons] at ho
    simp only [Client.notifyAll, Client.notify, if_neg (hd n (by simp)), invocations, List.flatMap_cons]
    rw [invoke_append, callAll_invoke, List.map_map]
    have : (hs.filter (fun p => decide (p.1 = n.exec))).map ((fun h => (n, h)) ∘ fun x => x.2) =
        (hs.filter (fun p => decide (p.1 = n.exec))).map (fun p => (n, p.2)) := rfl
    rw [this]
    cases c.invoke ((hs.filter (fun p => decide (p.1 = n.exec))).map (fun p => (n, p.2))) with
    | error e => rfl
    | ok c' =>
      refine ih ho.2 ?_
      intro m hm hmem
      rcases List.mem_cons.1 hmem with h1 | h1
      · exact ho.1 (List.mem_map.2 ⟨m, hm, h1⟩)
      · exact hd m (by simp [hm]) h1

theorem follow_invoke {ev : Eval} {ns : List Notice} (h : Once ns) :
    ev.follow ns = ev.client.invoke (invocations ev.handlers ns) :=
  notifyAll_invoke h (by simp)

/-! ## What one closure does -/

/-- What a closure tells the UI. -/
def toldBy : Notice × Handler → List (Topic × Progress)
  | (.started _, .report t) => [(t, .started)]
  | (.done _ o, .report t) => [(t, .done o.status)]
  | (.skipped _, .report t) => [(t, .skipped)]
  | _ => []

/-- The error a closure shows. -/
def errorBy : Notice × Handler → List Topic
  | (.done _ o, .failureDiagnostic t) => if o.success then [] else [t]
  | (.done _ o, .customChecker st tc sol) =>
    if o.success ∧ o.score.isSome then [] else [.checker st tc sol]
  | _ => []

/-- The score a closure gives itself, without a sender. -/
def givenBy : Notice × Handler → List Given
  | (.done _ o, .scoreZeroOnFailure st tc sol) =>
    if o.success then [] else [⟨st, tc, sol, .num 0, o.shown⟩]
  | (.done _ o, .whiteDiff st tc sol) =>
    if o.success then [⟨st, tc, sol, .num 1, "Output is correct"⟩]
    else [⟨st, tc, sol, .num 0, "Output is incorrect"⟩]
  | (.done _ o, .customChecker st tc sol) =>
    if o.success then o.score.toList.map (fun x => ⟨st, tc, sol, x, o.message⟩) else []
  | _ => []

/-- The answer a closure gives to a sender. -/
def answerBy : Notice × Handler → Option (Nat × Score.Answer)
  | (.done _ o, .processOutcome k) =>
    some (k, if o.success then .skip else .send (.num 0) o.shown)
  | (.done _ o, .managerOutcome k) =>
    if o.success then o.score.map (fun x => (k, .send x o.message))
    else some (k, .send (.num 0) "Checker failed")
  | _ => none

/-- The closure aborts the evaluation, whatever the state. -/
def aborts : Notice × Handler → Bool
  | (.done _ o, .whiteDiff _ _ _) => o.status != .success && o.status != .returnCode 1
  | (.done _ o, .customChecker _ _ _) => !o.captured
  | (.done _ o, .managerOutcome _) => o.success && (!o.captured || o.score.isNone)
  | (.done _ o, .sample (.diff _)) => o.status != .success && o.status != .returnCode 1
  | (.done _ o, .sample (.checker _)) => !o.captured
  | _ => false

theorem callOne_eq (c : Client) (x : Notice × Handler) : c.callOne x.1 x.2 =
    (if aborts x then c.callOne x.1 x.2 else
      match answerBy x with
      | some (k, a) => c.answer k a
      | none => .ok { c with
          told := c.told ++ toldBy x, errors := c.errors ++ errorBy x, given := c.given ++ givenBy x }) ∧
    (aborts x = true → ∃ e, c.callOne x.1 x.2 = .error e) := by
  obtain ⟨n, h⟩ := x
  cases n with
  | started u =>
    cases h <;> simp [Client.callOne, aborts, answerBy, toldBy, errorBy, givenBy]
  | skipped u =>
    cases h <;> simp [Client.callOne, aborts, answerBy, toldBy, errorBy, givenBy]
  | done u o =>
    cases h with
    | report t => simp [Client.callOne, Client.callDone, aborts, answerBy, toldBy, errorBy, givenBy]
    | failureDiagnostic t =>
      cases hs : o.success <;>
        simp [Client.callOne, Client.callDone, aborts, answerBy, toldBy, errorBy, givenBy, hs]
    | scoreZeroOnFailure st tc sol =>
      cases hs : o.success <;>
        simp [Client.callOne, Client.callDone, aborts, answerBy, toldBy, errorBy, givenBy, hs,
          Client.give]
    | whiteDiff st tc sol =>
      simp only [Client.callOne, Client.callDone, aborts, answerBy, toldBy, errorBy, givenBy,
        Client.give, Outcome.success]
      split
      · next h => simp [h]
      · next h => simp [h]
      · next h1 h2 =>
        have a : (o.status != ExecutionStatus.success) = true := by simpa using h1
        have b : (o.status != ExecutionStatus.returnCode 1) = true := by simpa using h2
        simp [a, b]
    | customChecker st tc sol =>
      cases hs : o.success <;> cases hx : o.score <;> cases hcap : o.captured <;>
        simp [Client.callOne, Client.callDone, aborts, answerBy, toldBy, errorBy, givenBy, hs, hx,
          hcap, Client.give]
    | processOutcome k =>
      cases hs : o.success <;>
        simp [Client.callOne, Client.callDone, aborts, answerBy, hs]
    | managerOutcome k =>
      cases hs : o.success <;> cases hx : o.score <;> cases hcap : o.captured <;>
        simp [Client.callOne, Client.callDone, aborts, answerBy, hs, hx, hcap]
    | latexErrors b => simp [Client.callOne, Client.callDone, aborts, answerBy, toldBy, errorBy, givenBy]
    | sample s =>
      cases s with
      | invalid f => simp [Client.callOne, Client.callDone, aborts, answerBy, toldBy, errorBy, givenBy]
      | failed f => simp [Client.callOne, Client.callDone, aborts, answerBy, toldBy, errorBy, givenBy]
      | checker f =>
        cases hcap : o.captured <;>
          simp [Client.callOne, Client.callDone, aborts, answerBy, toldBy, errorBy, givenBy, hcap]
      | diff f =>
        simp only [Client.callOne, Client.callDone, aborts, answerBy, toldBy, errorBy, givenBy]
        split
        · next h => simp [h]
        · next h => simp [h]
        · next h1 h2 =>
          have a : (o.status != ExecutionStatus.success) = true := by simpa using h1
          have b : (o.status != ExecutionStatus.returnCode 1) = true := by simpa using h2
          simp [a, b]

/-- An answer that is accepted. -/
theorem answer_ok {c c' : Client} {k : Nat} {a : Score.Answer} (h : c.answer k a = .ok c') :
    ∃ i s s', c.senders[k]? = some (i, s) ∧ s.answered a = some s' ∧
      c' = { c with
        senders := c.senders.set k (i, s')
        given := c.given ++ (s'.flushed.drop s.flushed.length).map
          (fun p => ⟨i.subtask, i.testcase, i.solution, p.1, p.2⟩) } := by
  unfold Client.answer at h
  split at h
  · cases h
  · next i s hk =>
    split at h
    · cases h
    · next s' hs =>
      cases h
      exact ⟨i, s, s', hk, hs, rfl⟩

/-- A closure that does not abort. -/
theorem callOne_ok {c c' : Client} {x : Notice × Handler} (h : c.callOne x.1 x.2 = .ok c') :
    aborts x = false ∧
    ((∃ k a, answerBy x = some (k, a) ∧ c.answer k a = .ok c') ∨
     (answerBy x = none ∧ c' = { c with
        told := c.told ++ toldBy x, errors := c.errors ++ errorBy x, given := c.given ++ givenBy x })) := by
  obtain ⟨h1, h2⟩ := callOne_eq c x
  cases ha : aborts x with
  | true =>
    obtain ⟨e, he⟩ := h2 ha
    rw [he] at h; cases h
  | false =>
    refine ⟨rfl, ?_⟩
    rw [h1, ha] at h
    simp only [Bool.false_eq_true, if_false] at h
    split at h
    · next k a hk => exact .inl ⟨k, a, hk, h⟩
    · next hk => cases h; exact .inr ⟨hk, rfl⟩

theorem answering_quiet {x : Notice × Handler} {k : Nat} {a : Score.Answer}
    (h : answerBy x = some (k, a)) : toldBy x = [] ∧ errorBy x = [] ∧ givenBy x = [] := by
  obtain ⟨n, hd⟩ := x
  cases n <;> cases hd <;> simp_all [answerBy, toldBy, errorBy, givenBy]

/-- The UI is told exactly what the closures say, in order. -/
theorem invoke_told : ∀ {l : List (Notice × Handler)} {c c' : Client}, c.invoke l = .ok c' →
    c'.told = c.told ++ l.flatMap toldBy ∧ c'.errors = c.errors ++ l.flatMap errorBy := by
  intro l
  induction l with
  | nil => intro c c' h; cases h; simp
  | cons x l ih =>
    intro c c' h
    simp only [Client.invoke] at h
    split at h
    · cases h
    · next c1 h1 =>
      obtain ⟨h2, h3⟩ := ih h
      obtain ⟨-, ⟨k, a, h4, h5⟩ | ⟨h4, h5⟩⟩ := callOne_ok h1
      · obtain ⟨i, s, s', -, -, rfl⟩ := answer_ok h5
        obtain ⟨q1, q2, -⟩ := answering_quiet h4
        rw [h2, h3, List.flatMap_cons, List.flatMap_cons, q1, q2]
        simp
      · subst h5
        rw [h2, h3, List.flatMap_cons, List.flatMap_cons]
        simp

/-- Without senders the scores are exactly those the closures give, in order. -/
theorem invoke_given : ∀ {l : List (Notice × Handler)} {c c' : Client},
    (∀ x ∈ l, answerBy x = none) → c.invoke l = .ok c' → c'.given = c.given ++ l.flatMap givenBy := by
  intro l
  induction l with
  | nil => intro c c' _ h; cases h; simp
  | cons x l ih =>
    intro c c' hq h
    simp only [Client.invoke] at h
    split at h
    · cases h
    · next c1 h1 =>
      have h2 := ih (fun y hy => hq y (by simp [hy])) h
      obtain ⟨-, ⟨k, a, h4, h5⟩ | ⟨h4, h5⟩⟩ := callOne_ok h1
      · rw [hq x (by simp)] at h4; cases h4
      · subst h5
        rw [h2, List.flatMap_cons]
        simp

/-- No closure aborts in an evaluation that goes on. -/
theorem invoke_aborts : ∀ {l : List (Notice × Handler)} {c c' : Client}, c.invoke l = .ok c' →
    ∀ x ∈ l, aborts x = false := by
  intro l
  induction l with
  | nil => intro c c' _ x hx; cases hx
  | cons y l ih =>
    intro c c' h x hx
    simp only [Client.invoke] at h
    split at h
    · cases h
    · next c1 h1 =>
      rcases List.mem_cons.1 hx with h2 | h2
      · rw [h2]; exact (callOne_ok h1).1
      · exact ih h x h2

/-! ## Senders -/

/-- The answers given to a sender. -/
def answersTo (k : Nat) (l : List (Notice × Handler)) : List Score.Answer :=
  l.filterMap (fun x => match answerBy x with | some (j, a) => if j = k then some a else none | none => none)

theorem run_append {s s' : Score.Sender} {as : List Score.Answer} {a : Score.Answer}
    (h : s.run as = some s') : s.run (as ++ [a]) = s'.answered a := by
  induction as generalizing s with
  | nil =>
    simp only [Score.Sender.run, Option.some.injEq] at h
    subst h
    simp only [List.nil_append, Score.Sender.run]
    cases s.answered a <;> rfl
  | cons b as ih =>
    simp only [List.cons_append, Score.Sender.run] at h ⊢
    cases hb : s.answered b with
    | none => rw [hb] at h; cases h
    | some s1 => rw [hb] at h; simp only at h ⊢; exact ih h

theorem answered_flushed {s s' : Score.Sender} {a : Score.Answer} (h : s.answered a = some s') :
    s'.flushed = s.flushed ++ s'.flushed.drop s.flushed.length := by
  have key : ∀ t : Score.Sender, t.flushed = s.flushed →
      t.maybeFlush.flushed = s.flushed ++ t.maybeFlush.flushed.drop s.flushed.length := by
    intro t ht
    unfold Score.Sender.maybeFlush
    repeat' split
    all_goals simp [ht]
  cases a with
  | send x m =>
    simp only [Score.Sender.answered] at h
    split at h
    · cases h; exact key _ rfl
    · cases h
  | skip =>
    simp only [Score.Sender.answered] at h
    split at h
    · cases h; exact key _ rfl
    · cases h

/-- The key of a score. -/
def Given.key (g : Given) : Nat × Nat × Nat := (g.subtask, g.testcase, g.solution)
def _root_.TM.Build.SenderInfo.key (i : SenderInfo) : Nat × Nat × Nat :=
  (i.subtask, i.testcase, i.solution)

/-- The state of the senders after some closures. -/
structure Sent (infos : List SenderInfo) (l : List (Notice × Handler)) (c : Client) : Prop where
  senders : ∀ (k : Nat) (i : SenderInfo), infos[k]? = some i →
    ∃ s, c.senders[k]? = some (i, s) ∧ Score.Sender.run { missing := i.answers } (answersTo k l) = some s
  length : c.senders.length = infos.length
  given : ∀ (k : Nat) (i : SenderInfo) (s : Score.Sender), c.senders[k]? = some (i, s) →
    (c.given.filter (fun g => g.key = i.key)).map (fun g => (g.score, g.message)) = s.flushed
  known : ∀ g ∈ c.given, ∃ i ∈ infos, g.key = i.key

theorem start_sent (infos : List SenderInfo) :
    Sent infos [] { senders := infos.map (fun i => (i, { missing := i.answers })) } := by
  refine ⟨?_, by simp, ?_, by simp⟩
  · intro k i hk
    exact ⟨{ missing := i.answers }, by simp [hk], rfl⟩
  · intro k i s hk
    simp only [List.getElem?_map, Option.map_eq_some_iff] at hk
    obtain ⟨j, -, hj⟩ := hk
    cases hj
    rfl

theorem Sent.step {infos : List SenderInfo} {l : List (Notice × Handler)} {c c' : Client}
    (h : Sent infos l c) (hk : (infos.map SenderInfo.key).Nodup) {x : Notice × Handler}
    (hg : givenBy x = []) (hc : c.callOne x.1 x.2 = .ok c') : Sent infos (l ++ [x]) c' := by
  obtain ⟨-, ⟨k, a, h4, h5⟩ | ⟨h4, h5⟩⟩ := callOne_ok hc
  · obtain ⟨i, s, s', e1, e2, rfl⟩ := answer_ok h5
    have hlen : k < c.senders.length := (List.getElem?_eq_some_iff.1 e1).1
    have hki : infos[k]? = some i := by
      cases hi : infos[k]? with
      | none =>
        have := h.length
        rw [List.getElem?_eq_none_iff] at hi
        omega
      | some j =>
        obtain ⟨t, ht, -⟩ := h.senders k j hi
        rw [e1] at ht
        cases ht; rfl
    have hfl := answered_flushed e2
    have uniq : ∀ (j : Nat) (i' : SenderInfo), infos[j]? = some i' → i'.key = i.key → j = k := by
      intro j i' hj he
      have h1 : (infos.map SenderInfo.key)[j]? = (infos.map SenderInfo.key)[k]? := by
        simp [hj, hki, he]
      have h2 : j < (infos.map SenderInfo.key).length := by
        simpa using (List.getElem?_eq_some_iff.1 hj).1
      exact (List.getElem?_inj h2 hk).1 h1
    refine ⟨?_, by simpa using h.length, ?_, ?_⟩
    · intro j i' hj
      obtain ⟨t, ht, hrun⟩ := h.senders j i' hj
      by_cases hjk : j = k
      · subst hjk
        rw [e1] at ht
        cases ht
        refine ⟨s', by simp [List.getElem?_set, hlen], ?_⟩
        have : answersTo j (l ++ [x]) = answersTo j l ++ [a] := by
          simp [answersTo, List.filterMap_append, h4]
        rw [this, run_append hrun, e2]
      · refine ⟨t, by simp [List.getElem?_set, Ne.symm hjk, ht], ?_⟩
        have : answersTo j (l ++ [x]) = answersTo j l := by
          simp [answersTo, List.filterMap_append, h4, Ne.symm hjk]
        rw [this, hrun]
    · intro j i' t ht
      simp only [List.filter_append, List.map_append]
      by_cases hjk : j = k
      · subst hjk
        simp only [List.getElem?_set, hlen, if_true, Option.some.injEq, Prod.mk.injEq] at ht
        obtain ⟨rfl, rfl⟩ := ht
        rw [h.given j i s e1]
        have : ((s'.flushed.drop s.flushed.length).map
            (fun p => (⟨i.subtask, i.testcase, i.solution, p.1, p.2⟩ : Given))).filter
              (fun g => decide (g.key = i.key)) = (s'.flushed.drop s.flushed.length).map
            (fun p => (⟨i.subtask, i.testcase, i.solution, p.1, p.2⟩ : Given)) := by
          rw [List.filter_eq_self]
          intro g hg
          obtain ⟨p, -, rfl⟩ := List.mem_map.1 hg
          simp [Given.key, SenderInfo.key]
        rw [this, List.map_map]
        have e : ((fun g : Given => (g.score, g.message)) ∘
            fun p : Score.Score × String => (⟨i.subtask, i.testcase, i.solution, p.1, p.2⟩ : Given)) = id := by
          funext p; rfl
        rw [e, List.map_id]
        exact hfl.symm
      · simp only [List.getElem?_set, Ne.symm hjk, if_false] at ht
        rw [h.given j i' t ht]
        have hj' : infos[j]? = some i' := by
          cases hi : infos[j]? with
          | none =>
            have := (List.getElem?_eq_some_iff.1 ht).1
            have := h.length
            rw [List.getElem?_eq_none_iff] at hi
            omega
          | some j' =>
            obtain ⟨t', ht', -⟩ := h.senders j j' hi
            rw [ht] at ht'
            cases ht'; rfl
        have : ((s'.flushed.drop s.flushed.length).map
            (fun p => (⟨i.subtask, i.testcase, i.solution, p.1, p.2⟩ : Given))).filter
              (fun g => decide (g.key = i'.key)) = [] := by
          rw [List.filter_eq_nil_iff]
          intro g hg
          obtain ⟨p, -, rfl⟩ := List.mem_map.1 hg
          simp only [decide_eq_true_eq]
          intro he
          exact hjk (uniq j i' hj' he.symm)
        rw [this]
        simp
    · intro g hg
      rcases List.mem_append.1 hg with hg | hg
      · exact h.known g hg
      · obtain ⟨p, -, rfl⟩ := List.mem_map.1 hg
        exact ⟨i, List.mem_of_getElem? hki, rfl⟩
  · subst h5
    have ha : ∀ k, answersTo k (l ++ [x]) = answersTo k l := by
      intro k; simp [answersTo, List.filterMap_append, h4]
    refine ⟨?_, h.length, ?_, ?_⟩
    · intro k i hi
      rw [ha]
      exact h.senders k i hi
    · intro k i s hs
      simp only [hg, List.append_nil]
      exact h.given k i s hs
    · intro g hgm
      simp only [hg, List.append_nil] at hgm
      exact h.known g hgm

theorem Sent.invoke {infos : List SenderInfo} (hk : (infos.map SenderInfo.key).Nodup) :
    ∀ {l l' : List (Notice × Handler)} {c c' : Client}, Sent infos l c →
    (∀ x ∈ l', givenBy x = []) → c.invoke l' = .ok c' → Sent infos (l ++ l') c' := by
  intro l l'
  induction l' generalizing l with
  | nil => intro c c' h _ hc; cases hc; simpa using h
  | cons x l' ih =>
    intro c c' h hg hc
    simp only [Client.invoke] at hc
    split at hc
    · cases hc
    · next c1 h1 =>
      have := ih (h.step hk (hg x (by simp)) h1) (fun y hy => hg y (by simp [hy])) hc
      simpa using this

/-- The senders never get too many answers if each has enough to come. -/
theorem invoke_total {infos : List SenderInfo} (hk : (infos.map SenderInfo.key).Nodup) :
    ∀ {l l' : List (Notice × Handler)} {c : Client}, Sent infos l c →
    (∀ x ∈ l', aborts x = false) →
    (∀ x ∈ l', ∀ k a, answerBy x = some (k, a) → k < infos.length) →
    (∀ x ∈ l', givenBy x = []) →
    (∀ k i, infos[k]? = some i → (answersTo k (l ++ l')).length ≤ i.answers) →
    ∃ c', c.invoke l' = .ok c' := by
  intro l l'
  induction l' generalizing l with
  | nil => intro c _ _ _ _ _; exact ⟨c, rfl⟩
  | cons x l' ih =>
    intro c h hab hkn hgb hle
    have hstep : ∃ c1, c.callOne x.1 x.2 = .ok c1 := by
      rw [(callOne_eq c x).1, hab x (by simp)]
      simp only [Bool.false_eq_true, if_false]
      split
      · next k a ha =>
        have hlt := hkn x (by simp) k a ha
        obtain ⟨s, h1, h2⟩ := h.senders k infos[k] (by simp [hlt])
        have hlen := hle k infos[k] (by simp [hlt])
        have : answersTo k (l ++ x :: l') = answersTo k l ++ a :: answersTo k l' := by
          simp [answersTo, List.filterMap_append, ha]
        rw [this] at hlen
        unfold Client.answer
        rw [h1]
        simp only
        have hm : ∃ s', s.answered a = some s' := by
          have h3 : ∃ s', Score.Sender.run { missing := infos[k].answers } (answersTo k l ++ [a]) = some s' := by
            refine (Score.communication_answers _).2 ?_
            simp at hlen ⊢; omega
          rw [run_append h2] at h3
          exact h3
        obtain ⟨s', hs'⟩ := hm
        rw [hs']
        exact ⟨_, rfl⟩
      · exact ⟨_, rfl⟩
    obtain ⟨c1, h1⟩ := hstep
    simp only [Client.invoke, h1]
    refine ih (h.step hk (hgb x (by simp)) h1)
      (fun y hy => hab y (by simp [hy])) (fun y hy => hkn y (by simp [hy])) 
      (fun y hy => hgb y (by simp [hy])) ?_
    intro k i hi
    have := hle k i hi
    simpa using this

end TM.Build
