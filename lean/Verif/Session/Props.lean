import Verif.Session.Lemmas
/-!
# C125, C126: the threads of an evaluation

For every interleaving of the main thread, the UI, the executor and ctrl-C.
-/

namespace TM.Session
variable {α ε : Type}

/-! ## Specification -/

/-- All the messages of an evaluation: those of the sanity checks at its end come only if the client has not failed. -/
def allMessages (sc : Script α ε) : List α :=
  match sc.clientResult with
  | .ok () => sc.client ++ sc.hook
  | .error _ => sc.client

/-- The result of an evaluation. -/
def outcome (sc : Script α ε) : Except (Failure ε) Unit :=
  match sc.clientResult, sc.hookResult with
  | .error e, _ => .error (.client e)
  | .ok (), .error e => .error (.hook e)
  | .ok (), .ok () => .ok ()

/-- The messages the UI has shown. -/
def messagesOf (es : List (Event α)) : List α :=
  es.filterMap (fun
    | .message m => some m
    | .finish => none)

/-- The UI never panics. -/
def Calm (sc : Script α ε) : Prop := (∀ l m, sc.uiPanics l m = false) ∧ ∀ l, sc.finishPanics l = false

/-- The executor, if it is local, ends well. -/
def ExecutorOk (sc : Script α ε) : Prop := sc.executor = none ∨ sc.executor = some .ok

/-- `s` is a state some interleaving leads to. -/
def Reachable (sc : Script α ε) (s : St α ε) : Prop := ∃ as, run sc as (start sc) = some s

/-! ## C125 -/

theorem messagesOf_map (l : List α) : messagesOf (l.map Event.message) = l := by
  induction l with
  | nil => rfl
  | cons x xs ih => simpa [messagesOf] using ih

theorem messagesOf_append (a b : List (Event α)) : messagesOf (a ++ b) = messagesOf a ++ messagesOf b := by
  simp [messagesOf]

/-- **C125** At any time the UI has shown, in the order they were sent, the first messages of the evaluation; it is
finished at most once and shows nothing after it. -/
theorem shown_in_order {sc : Script α ε} {s : St α ε} (h : Reachable sc s) :
    ∃ l, (s.events = l.map .message ∨ s.events = l.map .message ++ [.finish]) ∧ l <+: sc.client ++ sc.hook := by
  obtain ⟨as, h⟩ := h
  obtain ⟨⟨sent, hm, hu⟩, -, -⟩ := inv_reach h
  have hp : sent <+: sc.client ++ sc.hook := by
    unfold MainOk at hm
    split at hm
    · rw [← hm, List.append_assoc]; exact List.prefix_append _ _
    · rw [← hm.1]; exact List.prefix_append _ _
    · exact Ends.prefix hm
    · exact Ends.prefix hm
    · exact Ends.prefix hm
    · exact Ends.prefix hm
    · exact hm
  unfold UiOk at hu
  refine ⟨s.shown, ?_⟩
  cases hui : s.ui with
  | running =>
    rw [hui] at hu
    obtain ⟨h1, ⟨tail, h2, h3⟩, -⟩ := hu
    refine ⟨.inl h1, List.IsPrefix.trans ?_ hp⟩
    have htail : tail = [] ∨ tail = [none] := by
      rcases h2 with h2 | ⟨-, h2⟩
      · rw [h2]; cases s.main <;> simp [waiting]
      · exact .inl h2
    cases hq : s.queue with
    | nil =>
      rw [hq, List.append_nil] at h3
      rcases htail with rfl | rfl
      · rw [List.append_nil] at h3
        rw [map_some_inj h3]
        exact List.prefix_rfl
      · exfalso
        have : (none : Option α) ∈ s.shown.map some := by rw [h3]; simp
        simp at this
    | cons x q =>
      rw [hq] at h3
      cases x with
      | none => rw [(split_none htail h3).1]; exact List.prefix_rfl
      | some m => exact prefix_some htail h3
  | done =>
    rw [hui] at hu
    exact ⟨.inr hu.1, hu.2.1 ▸ hp⟩
  | panicked =>
    rw [hui] at hu
    exact ⟨.inl hu.1, hu.2.1.trans hp⟩

/-- **C125** When `execute` returns the UI has shown all the messages, those of the final sanity checks included, and then has
been finished; the result is that of the evaluation. -/
theorem returned_complete {sc : Script α ε} {s : St α ε} {r : Except (Failure ε) Unit} (h : Reachable sc s)
    (hr : s.main = .returned r) :
    s.events = (allMessages sc).map .message ++ [.finish] ∧ r = outcome sc := by
  obtain ⟨as, h⟩ := h
  obtain ⟨⟨sent, hm, hu⟩, hd, -⟩ := inv_reach h
  rw [hr] at hm
  have hui : s.ui = .done := by
    unfold UiOk at hu
    cases hui : s.ui with
    | done => rfl
    | running => rw [hui] at hu; exact absurd hr (hu.2.2 r)
    | panicked => rw [hui] at hu; exact absurd hr (hu.2.2 r)
  unfold UiOk at hu
  rw [hui] at hu
  have hs : r ≠ .error .clientSend := by
    have := (hd (by rw [hui]; simp)).2.2.2
    rw [hr] at this
    simpa using this
  rw [hu.1, hu.2.1]
  unfold MainOk Ends at hm
  unfold allMessages outcome
  rcases r with ⟨e | _ | e⟩ | u
  · simp only at hm
    rw [hm.1, hm.2]
    exact ⟨rfl, rfl⟩
  · exact absurd rfl hs
  · simp only at hm
    rw [hm.1, hm.2.1, hm.2.2]
    exact ⟨rfl, rfl⟩
  · cases u
    simp only at hm
    rw [hm.1, hm.2.1, hm.2.2]
    exact ⟨rfl, rfl⟩

/-- **C125** `execute` does not panic when the executor ends well and the UI does not panic. -/
theorem no_panic {sc : Script α ε} {s : St α ε} (h : Reachable sc s) (hc : Calm sc) (hx : ExecutorOk sc) :
    s.main ≠ .panicked := by
  obtain ⟨as, h⟩ := h
  have hui : s.ui ≠ .panicked := by
    have : ∀ (as : List Agent) (t u : St α ε), t.ui ≠ .panicked → run sc as t = some u → u.ui ≠ .panicked := by
      intro as
      induction as with
      | nil => intro t u h1 h2; simp only [run, Option.some.injEq] at h2; exact h2 ▸ h1
      | cons a as ih =>
        intro t u h1 h2
        simp only [run, Option.bind_eq_some_iff] at h2
        obtain ⟨v, h3, h4⟩ := h2
        refine ih v u ?_ h4
        cases a with
        | main =>
          simp only [next, nextMain, send] at h3
          repeat' split at h3
          all_goals first | (simp only [Option.some.injEq] at h3; subst h3; exact h1) | simp at h3
        | mainFail =>
          simp only [next, nextMainFail] at h3
          repeat' split at h3
          all_goals first | (simp only [Option.some.injEq] at h3; subst h3; exact h1) | simp at h3
        | ui =>
          simp only [next, nextUi, finish, hc.1, hc.2, Bool.false_eq_true, if_false] at h3
          repeat' split at h3
          all_goals first | (simp only [Option.some.injEq] at h3; subst h3; first | exact h1 | simp) | simp at h3
        | exec =>
          simp only [next, nextExec] at h3
          repeat' split at h3
          all_goals first | (simp only [Option.some.injEq] at h3; subst h3; exact h1) | simp at h3
        | ctrlC =>
          simp only [next, nextCtrlC] at h3
          repeat' split at h3
          all_goals first | (simp only [Option.some.injEq] at h3; subst h3; exact h1) | simp at h3
    exact this as _ _ (by simp [start]) h
  obtain ⟨-, -, ht⟩ := inv_reach h
  intro hp
  unfold ToldOk at ht
  rw [hp] at ht
  rcases ht with ⟨-, ht⟩ | ht
  · rcases hx with hx | hx <;> rw [hx] at ht <;> simp at ht
  · exact hui ht

/-- **C125** If the local executor fails `execute` never returns: it panics instead. -/
theorem executor_failure {sc : Script α ε} {s : St α ε} (h : Reachable sc s) (hx : ¬ ExecutorOk sc)
    (r : Except (Failure ε) Unit) : s.main ≠ .returned r := by
  obtain ⟨as, h⟩ := h
  obtain ⟨-, -, ht⟩ := inv_reach h
  intro hp
  unfold ToldOk at ht
  rw [hp] at ht
  rcases ht with ht | ⟨-, ht⟩
  · exact hx (.inl ht)
  · exact hx (.inr ht)

/-! ## C126 -/

/-- **C126** No deadlock: until `execute` returns or panics, a thread can go on. -/
theorem never_stuck {sc : Script α ε} {s : St α ε} (h : Reachable sc s)
    (hr : ∀ r, s.main ≠ .returned r) (hp : s.main ≠ .panicked) :
    ∃ a ∈ [Agent.main, .ui, .exec], (next sc a s).isSome = true := by
  obtain ⟨as, h⟩ := h
  obtain ⟨⟨sent, hm, hu⟩, -, -⟩ := inv_reach h
  cases hmain : s.main with
  | evaluating rest =>
    refine ⟨.main, by simp, ?_⟩
    simp only [next, nextMain, hmain]
    cases rest with
    | cons m ms => rfl
    | nil => cases hc : sc.clientResult <;> rfl
  | hooking rest =>
    refine ⟨.main, by simp, ?_⟩
    simp only [next, nextMain, hmain]
    cases rest with
    | cons m ms => rfl
    | nil => cases hc : sc.hookResult <;> rfl
  | joinExecutor r =>
    cases hx : sc.executor with
    | none =>
      refine ⟨.main, by simp, ?_⟩
      simp only [next, nextMain, hmain, hx]
      rfl
    | some how =>
      cases he : s.execDone with
      | true =>
        refine ⟨.main, by simp, ?_⟩
        simp only [next, nextMain, hmain, hx, he, if_true]
        cases how <;> rfl
      | false =>
        refine ⟨.exec, by simp, ?_⟩
        simp [next, nextExec, hx, he]
  | stopUi r =>
    refine ⟨.main, by simp, ?_⟩
    simp only [next, nextMain, hmain]
    rfl
  | joinUi r =>
    cases hui : s.ui with
    | done =>
      refine ⟨.main, by simp, ?_⟩
      simp only [next, nextMain, hmain, hui]
      rfl
    | panicked =>
      refine ⟨.main, by simp, ?_⟩
      simp only [next, nextMain, hmain, hui]
      rfl
    | running =>
      refine ⟨.ui, by simp, ?_⟩
      unfold UiOk at hu
      rw [hui] at hu
      obtain ⟨-, ⟨tail, h2, h3⟩, -⟩ := hu
      rw [hmain] at h2
      have : tail = [none] := by simpa [waiting] using h2
      subst this
      simp only [next, nextUi, hui]
      cases hq : s.queue with
      | nil =>
        exfalso
        rw [hq, List.append_nil] at h3
        have : (none : Option α) ∈ s.shown.map some := by rw [h3]; simp
        simp at this
      | cons x q =>
        cases x with
        | none => rfl
        | some m => simp only; split <;> rfl
  | returned r => exact absurd hmain (hr r)
  | panicked => exact absurd hmain hp

/-- How many steps are left: an upper bound. -/
def left (sc : Script α ε) (s : St α ε) : Nat :=
  (match s.main with
    | .evaluating rest => 2 * rest.length + 2 * sc.hook.length + 7
    | .hooking rest => 2 * rest.length + 6
    | .joinExecutor _ => 5
    | .stopUi _ => 4
    | .joinUi _ => 1
    | .returned _ => 0
    | .panicked => 0) +
  (if s.ui = .running then s.queue.length + 1 else 0) + (if s.execDone then 0 else 1)

theorem left_main {sc : Script α ε} {s s' : St α ε} (hs : nextMain sc s = some s') : left sc s' < left sc s := by
  unfold nextMain send at hs
  unfold left
  repeat' split at hs
  all_goals first
    | (simp only [Option.some.injEq] at hs; subst hs; simp_all; try omega)
    | simp at hs

theorem left_mainFail {sc : Script α ε} {s s' : St α ε} (hs : nextMainFail s = some s') : left sc s' < left sc s := by
  unfold nextMainFail at hs
  unfold left
  repeat' split at hs
  all_goals first
    | (simp only [Option.some.injEq] at hs; subst hs; simp_all; try omega)
    | simp at hs

theorem left_ui {sc : Script α ε} {s s' : St α ε} (hs : nextUi sc s = some s') : left sc s' < left sc s := by
  unfold nextUi finish at hs
  unfold left
  repeat' split at hs
  all_goals first
    | (simp only [Option.some.injEq] at hs; subst hs; simp_all; try omega)
    | simp at hs

theorem left_exec {sc : Script α ε} {s s' : St α ε} (hs : nextExec sc s = some s') : left sc s' < left sc s := by
  unfold nextExec at hs
  unfold left
  split at hs
  · simp only [Option.some.injEq] at hs
    subst hs
    simp_all
  · simp at hs

theorem left_ctrlC {sc : Script α ε} {s s' : St α ε} (hs : nextCtrlC s = some s') : left sc s' = left sc s := by
  unfold nextCtrlC at hs
  unfold left
  split at hs
  · simp only [Option.some.injEq] at hs
    subst hs
    simp_all
  · simp only [Option.some.injEq] at hs
    subst hs
    rfl

theorem run_left {sc : Script α ε} (as : List Agent) (s s' : St α ε) (hs : run sc as s = some s') :
    (as.filter (fun a => a ≠ .ctrlC)).length + left sc s' ≤ left sc s := by
  induction as generalizing s with
  | nil => simp only [run, Option.some.injEq] at hs; subst hs; simp
  | cons a as ih =>
    simp only [run, Option.bind_eq_some_iff] at hs
    obtain ⟨t, h1, h2⟩ := hs
    have h3 := ih t h2
    cases a with
    | ctrlC =>
      rw [← left_ctrlC (sc := sc) h1]
      simpa using h3
    | main => have := left_main h1; simp at h3 ⊢; omega
    | mainFail => have := left_mainFail (sc := sc) h1; simp at h3 ⊢; omega
    | ui => have := left_ui h1; simp at h3 ⊢; omega
    | exec => have := left_exec h1; simp at h3 ⊢; omega

/-- **C126** Every interleaving is finite: besides the ctrl-C of the user, the threads make at most this many steps, so
`execute` ends once the client and the executor do. -/
theorem terminates {sc : Script α ε} {as : List Agent} {s : St α ε} (h : run sc as (start sc) = some s) :
    (as.filter (fun a => a ≠ .ctrlC)).length ≤ 2 * sc.client.length + 2 * sc.hook.length + 9 := by
  have := run_left as _ _ h
  simp only [start, left] at this
  simp at this ⊢
  omega

/-- **C126** so `execute` can always be brought to its end, whatever has happened so far. -/
theorem can_end {sc : Script α ε} {s : St α ε} (h : Reachable sc s) :
    ∃ t, Reachable sc t ∧ ((∃ r, t.main = .returned r) ∨ t.main = .panicked) ∧ ∃ as, run sc as s = some t := by
  have key : ∀ (n : Nat) (s : St α ε), Reachable sc s → left sc s ≤ n →
      ∃ as t, run sc as s = some t ∧ ((∃ r, t.main = .returned r) ∨ t.main = .panicked) := by
    intro n
    induction n with
    | zero =>
      intro s hs hn
      cases hmain : s.main with
      | returned r => exact ⟨[], s, rfl, .inl ⟨r, hmain⟩⟩
      | panicked => exact ⟨[], s, rfl, .inr hmain⟩
      | _ => unfold left at hn; rw [hmain] at hn; simp at hn
    | succ n ih =>
      intro s hs hn
      by_cases hf : (∃ r, s.main = .returned r) ∨ s.main = .panicked
      · exact ⟨[], s, rfl, hf⟩
      · obtain ⟨a, ha, h2⟩ := never_stuck hs (fun r hr => hf (.inl ⟨r, hr⟩)) (fun hp => hf (.inr hp))
        obtain ⟨t, ht⟩ := Option.isSome_iff_exists.mp h2
        have hlt : left sc t < left sc s := by
          simp only [List.mem_cons, List.not_mem_nil, or_false] at ha
          rcases ha with rfl | rfl | rfl
          · exact left_main ht
          · exact left_ui ht
          · exact left_exec ht
        obtain ⟨bs, hb⟩ := hs
        have hrt : Reachable sc t := by
          refine ⟨bs ++ [a], ?_⟩
          have : ∀ (bs : List Agent) (u : St α ε), run sc bs u = some s → run sc (bs ++ [a]) u = some t := by
            intro bs
            induction bs with
            | nil =>
              intro u hu
              simp only [run, Option.some.injEq] at hu
              subst hu
              simp [run, ht]
            | cons b bs ih2 =>
              intro u hu
              simp only [run, Option.bind_eq_some_iff, List.cons_append] at hu ⊢
              obtain ⟨v, h3, h4⟩ := hu
              exact ⟨v, h3, ih2 v h4⟩
          exact this bs _ hb
        obtain ⟨as, u, h5, h6⟩ := ih t hrt (by omega)
        exact ⟨a :: as, u, by simp [run, ht, h5], h6⟩
  obtain ⟨as, t, h1, h2⟩ := key _ s h (Nat.le_refl _)
  obtain ⟨bs, hb⟩ := h
  refine ⟨t, ⟨bs ++ as, ?_⟩, h2, as, h1⟩
  have : ∀ (bs : List Agent) (u : St α ε), run sc bs u = some s → run sc (bs ++ as) u = some t := by
    intro bs
    induction bs with
    | nil =>
      intro u hu
      simp only [run, Option.some.injEq] at hu
      subst hu
      exact h1
    | cons b bs ih2 =>
      intro u hu
      simp only [run, Option.bind_eq_some_iff, List.cons_append] at hu ⊢
      obtain ⟨v, h3, h4⟩ := hu
      exact ⟨v, h3, ih2 v h4⟩
  exact this bs _ hb

/-- **C126** Before it is waited for, the executor has been told to stop or has seen the channel of the client closed. -/
theorem told_before_wait {sc : Script α ε} {s : St α ε} {r : Except (Failure ε) Unit} (h : Reachable sc s)
    (hr : s.main = .joinExecutor r) : 0 < s.stops ∨ s.clientSender = false := by
  obtain ⟨as, h⟩ := h
  obtain ⟨-, -, ht⟩ := inv_reach h
  unfold ToldOk at ht
  rw [hr] at ht
  exact ht

/-- **C126** ctrl-C stops an evaluation that is going on. -/
theorem ctrlC_stops {sc : Script α ε} {s t : St α ε} {rest : List α} (h : Reachable sc s)
    (he : s.main = .evaluating rest) (hn : next sc .ctrlC s = some t) : t = { s with stops := s.stops + 1 } := by
  obtain ⟨as, h⟩ := h
  obtain ⟨-, -, ht⟩ := inv_reach h
  unfold ToldOk at ht
  rw [he] at ht
  simp only [next, nextCtrlC, ht, if_true, Option.some.injEq] at hn
  rw [ht]
  exact hn.symm

/-- **C126** The executor is told to stop only by ctrl-C or by a client that failed. -/
theorem no_spurious_stop {sc : Script α ε} {as : List Agent} {s : St α ε} (h : run sc as (start sc) = some s)
    (h1 : .ctrlC ∉ as) (h2 : .mainFail ∉ as) (hc : sc.clientResult = .ok ()) : s.stops = 0 := by
  have : ∀ (as : List Agent) (t u : St α ε), .ctrlC ∉ as → .mainFail ∉ as → t.stops = 0 → run sc as t = some u →
      u.stops = 0 := by
    intro as
    induction as with
    | nil => intro t u _ _ h3 h4; simp only [run, Option.some.injEq] at h4; exact h4 ▸ h3
    | cons a as ih =>
      intro t u h5 h6 h3 h4
      simp only [run, Option.bind_eq_some_iff] at h4
      obtain ⟨v, h7, h8⟩ := h4
      refine ih v u (fun h => h5 (List.mem_cons_of_mem _ h)) (fun h => h6 (List.mem_cons_of_mem _ h)) ?_ h8
      cases a with
      | ctrlC => simp at h5
      | mainFail => simp at h6
      | main =>
        simp only [next, nextMain, send, hc] at h7
        repeat' split at h7
        all_goals first | (simp only [Option.some.injEq] at h7; subst h7; exact h3) | simp at h7 | simp_all
      | ui =>
        simp only [next, nextUi, finish] at h7
        repeat' split at h7
        all_goals first | (simp only [Option.some.injEq] at h7; subst h7; exact h3) | simp at h7
      | exec =>
        simp only [next, nextExec] at h7
        split at h7
        all_goals first | (simp only [Option.some.injEq] at h7; subst h7; exact h3) | simp at h7
  exact this as _ _ h1 h2 rfl h

/-! ## Concrete evaluations -/

namespace Sample

/-- Two messages from the client and one from the sanity checks. -/
def good : Script Nat String := ⟨[1, 2], .ok (), [3], .ok (), some .ok, fun _ _ => false, fun _ => false⟩
/-- The executor fails. -/
def bad : Script Nat String := { good with executor := some .err }
/-- The UI lags behind. -/
def slow : List Agent := [.main, .main, .ctrlC, .ui, .main, .main, .exec, .ctrlC, .main, .main, .ui, .main, .ui, .ui, .main]
/-- The executor is found to have failed. -/
def crash : List Agent := [.main, .main, .ui, .main, .main, .main, .exec, .main]

end Sample

/-- All is shown, once. -/
example : ∃ s, run Sample.good Sample.slow (start Sample.good) = some s ∧ s.main = .returned (.ok ()) ∧
    s.events = [.message 1, .message 2, .message 3, .finish] ∧ s.stops = 1 := ⟨_, rfl, rfl, rfl, rfl⟩

example : Calm Sample.good ∧ ExecutorOk Sample.good ∧ ¬ ExecutorOk Sample.bad :=
  ⟨⟨fun _ _ => rfl, fun _ => rfl⟩, .inr rfl, (by simp [ExecutorOk, Sample.bad])⟩

/-- **C125** What a user expects does not always hold: when the executor fails the program can end without the final
report, and with messages that were never shown. -/
theorem report_not_always : ¬ ∀ (sc : Script Nat String) (s : St Nat String), Reachable sc s →
    (s.main = .panicked ∨ ∃ r, s.main = .returned r) → Calm sc → .finish ∈ s.events := by
  intro h
  have := h Sample.bad _ ⟨Sample.crash, rfl⟩ (.inl rfl) ⟨fun _ _ => rfl, fun _ => rfl⟩
  revert this
  decide

/-- **C125** With an executor that ends well and a UI that does not panic, the final report is always there at the end. -/
theorem report_at_end_partial {sc : Script α ε} {s : St α ε} (h : Reachable sc s) (hc : Calm sc) (hx : ExecutorOk sc)
    (he : s.main = .panicked ∨ ∃ r, s.main = .returned r) :
    s.events = (allMessages sc).map .message ++ [.finish] ∧ s.main = .returned (outcome sc) := by
  rcases he with he | ⟨r, he⟩
  · exact absurd he (no_panic h hc hx)
  · obtain ⟨h1, h2⟩ := returned_complete h he
    exact ⟨h1, h2 ▸ he⟩

end TM.Session
