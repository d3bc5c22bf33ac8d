import Verif.Session.Model
/-! The invariant of the threads of an evaluation. -/

namespace TM.Session
variable {α ε : Type}

/-- What has been sent when `execute` is about to give `r`. -/
def Ends (sc : Script α ε) (r : Except (Failure ε) Unit) (sent : List α) : Prop :=
  match r with
  | .ok () => sc.clientResult = .ok () ∧ sc.hookResult = .ok () ∧ sent = sc.client ++ sc.hook
  | .error (.client e) => sc.clientResult = .error e ∧ sent = sc.client
  | .error (.hook e) => sc.clientResult = .ok () ∧ sc.hookResult = .error e ∧ sent = sc.client ++ sc.hook
  | .error .clientSend => sent <+: sc.client

def MainOk (sc : Script α ε) (m : Main α ε) (sent : List α) : Prop :=
  match m with
  | .evaluating rest => sent ++ rest = sc.client
  | .hooking rest => sent ++ rest = sc.client ++ sc.hook ∧ sc.clientResult = .ok ()
  | .joinExecutor r => Ends sc r sent
  | .stopUi r => Ends sc r sent
  | .joinUi r => Ends sc r sent
  | .returned r => Ends sc r sent
  | .panicked => sent <+: sc.client ++ sc.hook

def waiting : Main α ε → List (Option α)
  | .joinUi _ => [none]
  | _ => []

def UiOk (s : St α ε) (sent : List α) : Prop :=
  match s.ui with
  | .running => s.events = s.shown.map .message ∧ (∃ tail, (tail = waiting s.main ∨ (s.main matches .panicked) ∧ tail = []) ∧
      s.shown.map some ++ s.queue = sent.map some ++ tail) ∧ (∀ r, s.main ≠ .returned r)
  | .done => s.events = s.shown.map .message ++ [.finish] ∧ s.shown = sent ∧
      ((∃ r, s.main = .joinUi r) ∨ (∃ r, s.main = .returned r) ∨ s.main = .panicked)
  | .panicked => s.events = s.shown.map .message ∧ s.shown <+: sent ∧ (∀ r, s.main ≠ .returned r)

/-- The result `clientSend` only comes from a UI that panicked. -/
def SendOk (s : St α ε) : Prop :=
  s.ui ≠ .panicked → s.main ≠ .joinExecutor (.error .clientSend) ∧ s.main ≠ .stopUi (.error .clientSend) ∧
    s.main ≠ .joinUi (.error .clientSend) ∧ s.main ≠ .returned (.error .clientSend)

/-- What the executor knows. -/
def ToldOk (sc : Script α ε) (s : St α ε) : Prop :=
  match s.main with
  | .evaluating _ => s.clientSender = true
  | .hooking _ => s.clientSender = false
  | .joinExecutor _ => 0 < s.stops ∨ s.clientSender = false
  | .stopUi _ | .joinUi _ | .returned _ => sc.executor = none ∨ (s.execDone = true ∧ sc.executor = some .ok)
  | .panicked => (s.execDone = true ∧ (sc.executor = some .err ∨ sc.executor = some .panic)) ∨ s.ui = .panicked

def Inv (sc : Script α ε) (s : St α ε) : Prop :=
  (∃ sent, MainOk sc s.main sent ∧ UiOk s sent) ∧ SendOk s ∧ ToldOk sc s

theorem inv_start (sc : Script α ε) : Inv sc (start sc) := by
  refine ⟨⟨[], ?_, ?_⟩, ?_, ?_⟩
  · simp [MainOk, start]
  · simp [UiOk, start, waiting]
  · simp [SendOk, start]
  · simp [ToldOk, start]

theorem UiOk.send {s : St α ε} {sent : List α} {m : α} {main : Main α ε} (h : UiOk s sent)
    (h1 : waiting s.main = []) (h2 : waiting main = []) (h3 : ¬ s.main matches .panicked)
    (h4 : ∀ r, main ≠ .returned r) (h5 : s.ui ≠ .done) :
    UiOk { TM.Session.send (some m) s with main := main } (sent ++ [m]) := by
  unfold UiOk at h ⊢
  unfold TM.Session.send
  cases hu : s.ui with
  | running =>
    rw [hu] at h
    simp only [if_true, hu]
    obtain ⟨h6, ⟨tail, h7, h8⟩, -⟩ := h
    refine ⟨h6, ⟨[], .inl h2.symm, ?_⟩, h4⟩
    have ht : tail = [] := by
      rcases h7 with h7 | ⟨-, h7⟩
      · rw [h7, h1]
      · exact h7
    subst ht
    rw [← List.append_assoc, h8]
    simp
  | done => exact absurd hu h5
  | panicked =>
    rw [hu] at h
    simp only [reduceCtorEq, if_false, hu]
    exact ⟨h.1, h.2.1.trans (List.prefix_append _ _), h4⟩

theorem UiOk.move {s : St α ε} {sent : List α} {main : Main α ε} {b : Bool} {n : Nat} (h : UiOk s sent)
    (h1 : waiting s.main = []) (h2 : waiting main = []) (h4 : ∀ r, main ≠ .returned r) (h5 : s.ui ≠ .done) :
    UiOk { s with main := main, clientSender := b, stops := n } sent := by
  unfold UiOk at h ⊢
  cases hu : s.ui with
  | running =>
    rw [hu] at h
    simp only [hu]
    obtain ⟨h6, ⟨tail, h7, h8⟩, -⟩ := h
    have ht : tail = [] := by
      rcases h7 with h7 | ⟨-, h7⟩
      · rw [h7, h1]
      · exact h7
    subst ht
    exact ⟨h6, ⟨[], .inl h2.symm, h8⟩, h4⟩
  | done => exact absurd hu h5
  | panicked =>
    rw [hu] at h
    simp only [hu]
    exact ⟨h.1, h.2.1, h4⟩

theorem UiOk.notDone {s : St α ε} {sent : List α} (h : UiOk s sent)
    (h1 : ∀ r, s.main ≠ .joinUi r) (h2 : ∀ r, s.main ≠ .returned r) (h3 : s.main ≠ .panicked) : s.ui ≠ .done := by
  intro hu
  unfold UiOk at h
  rw [hu] at h
  rcases h.2.2 with ⟨r, h⟩ | ⟨r, h⟩ | h
  · exact h1 r h
  · exact h2 r h
  · exact h3 h

theorem Ends.prefix {sc : Script α ε} {r : Except (Failure ε) Unit} {sent : List α} (h : Ends sc r sent) :
    sent <+: sc.client ++ sc.hook := by
  unfold Ends at h
  split at h
  · rw [h.2.2]; exact List.prefix_rfl
  · rw [h.2]; exact List.prefix_append _ _
  · rw [h.2.2]; exact List.prefix_rfl
  · exact List.IsPrefix.trans h (List.prefix_append _ _)

theorem inv_main {sc : Script α ε} {s s' : St α ε} (h : Inv sc s) (hs : nextMain sc s = some s') : Inv sc s' := by
  obtain ⟨⟨sent, hm, hu⟩, hd, ht⟩ := h
  unfold nextMain at hs
  cases hmain : s.main with
  | evaluating rest =>
    rw [hmain] at hs hm
    have hnd : s.ui ≠ .done := hu.notDone (by simp [hmain]) (by simp [hmain]) (by simp [hmain])
    simp only [ToldOk, hmain] at ht
    cases rest with
    | cons m ms =>
      simp only [Option.some.injEq] at hs
      subst hs
      refine ⟨⟨sent ++ [m], ?_, hu.send (by simp [hmain, waiting]) (by simp [waiting]) (by simp [hmain]) (by simp) hnd⟩, ?_, ?_⟩
      · simpa [MainOk] using hm
      · intro _; simp
      · simp only [ToldOk]
        unfold send
        split <;> exact ht
    | nil =>
      simp only [MainOk, List.append_nil] at hm
      subst hm
      cases hc : sc.clientResult with
      | ok u =>
        simp only [hc, Option.some.injEq] at hs
        subst hs
        refine ⟨⟨sc.client, ?_, hu.move (b := false) (n := s.stops) (by simp [hmain, waiting]) (by simp [waiting]) (by simp) hnd⟩, ?_, ?_⟩
        · simp [MainOk, hc]
        · intro _; simp
        · simp [ToldOk]
      | error e =>
        simp only [hc, Option.some.injEq] at hs
        subst hs
        refine ⟨⟨sc.client, ?_, hu.move (b := s.clientSender) (by simp [hmain, waiting]) (by simp [waiting]) (by simp) hnd⟩, ?_, ?_⟩
        · simp [MainOk, Ends, hc]
        · intro _; simp
        · simp [ToldOk, ht]
  | hooking rest =>
    rw [hmain] at hs hm
    have hnd : s.ui ≠ .done := hu.notDone (by simp [hmain]) (by simp [hmain]) (by simp [hmain])
    simp only [ToldOk, hmain] at ht
    cases rest with
    | cons m ms =>
      simp only [Option.some.injEq] at hs
      subst hs
      refine ⟨⟨sent ++ [m], ?_, hu.send (by simp [hmain, waiting]) (by simp [waiting]) (by simp [hmain]) (by simp) hnd⟩, ?_, ?_⟩
      · simpa [MainOk] using hm
      · intro _; simp
      · simp only [ToldOk]
        unfold send
        split <;> exact ht
    | nil =>
      simp only [MainOk, List.append_nil] at hm
      obtain ⟨hm, hc⟩ := hm
      subst hm
      cases hk : sc.hookResult with
      | ok u =>
        simp only [hk, Option.some.injEq] at hs
        subst hs
        refine ⟨⟨sc.client ++ sc.hook, ?_, hu.move (b := s.clientSender) (n := s.stops) (by simp [hmain, waiting]) (by simp [waiting]) (by simp) hnd⟩, ?_, ?_⟩
        · simp [MainOk, Ends, hc, hk]
        · intro _; simp
        · simp [ToldOk, ht]
      | error e =>
        simp only [hk, Option.some.injEq] at hs
        subst hs
        refine ⟨⟨sc.client ++ sc.hook, ?_, hu.move (b := s.clientSender) (n := s.stops) (by simp [hmain, waiting]) (by simp [waiting]) (by simp) hnd⟩, ?_, ?_⟩
        · simp [MainOk, Ends, hc, hk]
        · intro _; simp
        · simp [ToldOk, ht]
  | joinExecutor r =>
    rw [hmain] at hs hm
    have hnd : s.ui ≠ .done := hu.notDone (by simp [hmain]) (by simp [hmain]) (by simp [hmain])
    have hd' : s.ui ≠ .panicked → r ≠ .error .clientSend := fun h => by
      have := (hd h).1
      rw [hmain] at this
      simpa using this
    cases hx : sc.executor with
    | none =>
      simp only [hx, Option.some.injEq] at hs
      subst hs
      refine ⟨⟨sent, hm, hu.move (b := s.clientSender) (n := s.stops) (by simp [hmain, waiting]) (by simp [waiting]) (by simp) hnd⟩, ?_, ?_⟩
      · intro h; simpa using hd' h
      · simp [ToldOk, hx]
    | some how =>
      simp only [hx] at hs
      by_cases he : s.execDone = true
      · rw [if_pos he] at hs
        cases how with
        | ok =>
          simp only [Option.some.injEq] at hs
          subst hs
          refine ⟨⟨sent, hm, hu.move (b := s.clientSender) (n := s.stops) (by simp [hmain, waiting]) (by simp [waiting]) (by simp) hnd⟩, ?_, ?_⟩
          · intro h; simpa using hd' h
          · simp [ToldOk, hx, he]
        | err =>
          simp only [Option.some.injEq] at hs
          subst hs
          refine ⟨⟨sent, Ends.prefix hm, hu.move (b := s.clientSender) (n := s.stops) (by simp [hmain, waiting]) (by simp [waiting]) (by simp) hnd⟩, ?_, ?_⟩
          · intro h; simp
          · simp [ToldOk, hx, he]
        | panic =>
          simp only [Option.some.injEq] at hs
          subst hs
          refine ⟨⟨sent, Ends.prefix hm, hu.move (b := s.clientSender) (n := s.stops) (by simp [hmain, waiting]) (by simp [waiting]) (by simp) hnd⟩, ?_, ?_⟩
          · intro h; simp
          · simp [ToldOk, hx, he]
      · rw [if_neg he] at hs; simp at hs
  | stopUi r =>
    rw [hmain] at hs hm
    have hnd : s.ui ≠ .done := hu.notDone (by simp [hmain]) (by simp [hmain]) (by simp [hmain])
    simp only [Option.some.injEq] at hs
    subst hs
    have hd' : s.ui ≠ .panicked → r ≠ .error .clientSend := fun h => by
      have := (hd h).2.1
      rw [hmain] at this
      simpa using this
    refine ⟨⟨sent, hm, ?_⟩, ?_, ?_⟩
    · unfold UiOk at hu ⊢
      unfold send
      cases hui : s.ui with
      | running =>
        rw [hui] at hu
        simp only [if_true, hui]
        obtain ⟨h6, ⟨tail, h7, h8⟩, -⟩ := hu
        have htl : tail = [] := by
          rcases h7 with h7 | ⟨-, h7⟩
          · rw [h7, hmain]; rfl
          · exact h7
        subst htl
        refine ⟨h6, ⟨[none], .inl rfl, ?_⟩, by simp⟩
        rw [← List.append_assoc, h8]
        simp
      | done => exact absurd hui hnd
      | panicked =>
        rw [hui] at hu
        simp only [reduceCtorEq, if_false, hui]
        exact ⟨hu.1, hu.2.1, by simp⟩
    · intro h
      have : s.ui ≠ .panicked := by
        intro hp
        apply h
        simp [send, hp]
      simpa using hd' this
    · simp only [ToldOk, hmain] at ht ⊢
      unfold send
      split <;> exact ht
  | joinUi r =>
    rw [hmain] at hs hm
    simp only [ToldOk, hmain] at ht
    cases hui : s.ui with
    | running => simp [hui] at hs
    | done =>
      simp only [hui, Option.some.injEq] at hs
      subst hs
      refine ⟨⟨sent, hm, ?_⟩, ?_, ?_⟩
      · unfold UiOk at hu ⊢
        rw [hui] at hu
        simp only [hui]
        exact ⟨hu.1, hu.2.1, .inr (.inl ⟨r, rfl⟩)⟩
      · intro h
        have := (hd (by rw [hui]; simp)).2.2.1
        rw [hmain] at this
        simpa using this
      · simpa [ToldOk] using ht
    | panicked =>
      simp only [hui, Option.some.injEq] at hs
      subst hs
      refine ⟨⟨sent, Ends.prefix hm, ?_⟩, ?_, ?_⟩
      · unfold UiOk at hu ⊢
        rw [hui] at hu
        simp only [hui]
        exact ⟨hu.1, hu.2.1, by simp⟩
      · intro h; simp
      · simp [ToldOk, hui]
  | returned r => rw [hmain] at hs; simp at hs
  | panicked => rw [hmain] at hs; simp at hs

theorem inv_mainFail {sc : Script α ε} {s s' : St α ε} (h : Inv sc s) (hs : nextMainFail s = some s') : Inv sc s' := by
  obtain ⟨⟨sent, hm, hu⟩, hd, ht⟩ := h
  unfold nextMainFail at hs
  cases hmain : s.main with
  | evaluating rest =>
    cases rest with
    | nil => simp [hmain] at hs
    | cons m ms =>
      simp only [hmain] at hs
      split at hs
      · rename_i hp
        simp only [Option.some.injEq] at hs
        subst hs
        rw [hmain] at hm
        refine ⟨⟨sent, ?_, hu.move (b := s.clientSender) (by simp [hmain, waiting]) (by simp [waiting]) (by simp) (by simp [hp])⟩, ?_, ?_⟩
        · exact ⟨_, hm⟩
        · intro h; exact absurd hp h
        · simp only [ToldOk, hmain] at ht
          simp [ToldOk, ht]
      · simp at hs
  | _ => simp [hmain] at hs

theorem told_ui {sc : Script α ε} {s s' : St α ε} (ht : ToldOk sc s) (hm : s'.main = s.main)
    (he : s'.execDone = s.execDone) (hc : s'.clientSender = s.clientSender) (hst : s'.stops = s.stops)
    (hp : s.ui = .panicked → s'.ui = .panicked) : ToldOk sc s' := by
  unfold ToldOk at ht ⊢
  rw [hm, he, hc, hst]
  cases h : s.main with
  | panicked =>
    rw [h] at ht
    rcases ht with ht | ht
    · exact .inl ht
    · exact .inr (hp ht)
  | _ => rw [h] at ht; exact ht

theorem send_ui {s s' : St α ε} (hd : SendOk s) (hm : s'.main = s.main) (hp : s'.ui ≠ .panicked → s.ui ≠ .panicked) :
    SendOk s' := by
  intro h
  rw [hm]
  exact hd (hp h)

/-- All that had to be shown has been, when the UI gets `StopUI` or a closed channel. -/
theorem inv_finish {sc : Script α ε} {s : St α ε} {q : List (Option α)} {sent : List α} (hm : MainOk sc s.main sent)
    (hd : SendOk s) (ht : ToldOk sc s) (hr : s.ui = .running) (h1 : s.events = s.shown.map .message)
    (h2 : s.shown = sent) (h3 : (∃ r, s.main = .joinUi r) ∨ s.main = .panicked) :
    Inv sc (finish sc { s with queue := q }) := by
  unfold finish
  split
  · refine ⟨⟨sent, hm, ?_⟩, send_ui hd rfl (by simp [hr]), told_ui ht rfl rfl rfl rfl (by simp)⟩
    simp only [UiOk]
    refine ⟨h1, by rw [h2]; exact List.prefix_rfl, ?_⟩
    rcases h3 with ⟨r, h3⟩ | h3 <;> simp [h3]
  · refine ⟨⟨sent, hm, ?_⟩, send_ui hd rfl (by simp [hr]), told_ui ht rfl rfl rfl rfl (by simp [hr])⟩
    simp only [UiOk]
    refine ⟨by rw [h1], h2, ?_⟩
    rcases h3 with ⟨r, h3⟩ | h3
    · exact .inl ⟨r, h3⟩
    · exact .inr (.inr h3)

theorem waiting_joinUi {m : Main α ε} (h : waiting m = [none]) : ∃ r, m = .joinUi r := by
  cases m <;> simp [waiting] at h
  exact ⟨_, rfl⟩

theorem split_none {shown sent : List α} {q tail : List (Option α)} (ht : tail = [] ∨ tail = [none])
    (h : shown.map some ++ none :: q = sent.map some ++ tail) : shown = sent ∧ tail = [none] ∧ q = [] := by
  induction shown generalizing sent with
  | nil =>
    cases sent with
    | nil =>
      rcases ht with rfl | rfl
      · simp at h
      · simp at h; simp [h]
    | cons x xs => simp at h
  | cons y ys ih =>
    cases sent with
    | nil => rcases ht with rfl | rfl <;> simp at h
    | cons x xs =>
      simp only [List.map_cons, List.cons_append, List.cons.injEq, Option.some.injEq] at h
      obtain ⟨rfl, h⟩ := h
      obtain ⟨rfl, h2⟩ := ih h
      exact ⟨rfl, h2⟩

theorem map_some_inj {a b : List α} (h : a.map some = b.map some) : a = b := by
  have := congrArg (List.filterMap id) h
  simpa [List.filterMap_map] using this

theorem prefix_some {shown sent : List α} {q tail : List (Option α)} {m : α} (ht : tail = [] ∨ tail = [none])
    (h : shown.map some ++ some m :: q = sent.map some ++ tail) : shown <+: sent := by
  induction shown generalizing sent with
  | nil => exact List.nil_prefix
  | cons y ys ih =>
    cases sent with
    | nil => rcases ht with rfl | rfl <;> simp at h
    | cons x xs =>
      simp only [List.map_cons, List.cons_append, List.cons.injEq, Option.some.injEq] at h
      obtain ⟨rfl, h⟩ := h
      obtain ⟨t, rfl⟩ := ih h
      exact ⟨t, rfl⟩

theorem inv_ui {sc : Script α ε} {s s' : St α ε} (h : Inv sc s) (hs : nextUi sc s = some s') : Inv sc s' := by
  obtain ⟨⟨sent, hm, hu⟩, hd, ht⟩ := h
  unfold nextUi at hs
  cases hui : s.ui with
  | done => simp [hui] at hs
  | panicked => simp [hui] at hs
  | running =>
    have hu0 := hu
    unfold UiOk at hu
    rw [hui] at hu hs
    obtain ⟨h1, ⟨tail, h2, h3⟩, h4⟩ := hu
    have htail : tail = [] ∨ tail = [none] := by
      rcases h2 with h2 | ⟨-, h2⟩
      · rw [h2]; cases s.main <;> simp [waiting]
      · exact .inl h2
    cases hq : s.queue with
    | nil =>
      simp only [hq] at hs
      cases hmain : s.main with
      | panicked =>
        simp only [hmain, Option.some.injEq] at hs
        subst hs
        have htl : tail = [] := by
          rcases h2 with h2 | ⟨-, h2⟩
          · rw [h2, hmain]; rfl
          · exact h2
        subst htl
        rw [hq, List.append_nil, List.append_nil] at h3
        exact inv_finish (q := s.queue) hm hd ht hui h1 (map_some_inj h3) (.inr hmain)
      | _ => simp [hmain] at hs
    | cons x q =>
      cases x with
      | none =>
        simp only [hq, Option.some.injEq] at hs
        subst hs
        rw [hq] at h3
        obtain ⟨h5, h6, -⟩ := split_none htail h3
        refine inv_finish hm hd ht hui h1 h5 (.inl ?_)
        rcases h2 with h2 | ⟨-, h2⟩
        · exact waiting_joinUi (h2.symm.trans h6)
        · rw [h6] at h2; simp at h2
      | some m =>
        simp only [hq] at hs
        rw [hq] at h3
        split at hs
        · simp only [Option.some.injEq] at hs
          subst hs
          refine ⟨⟨sent, hm, ?_⟩, send_ui hd rfl (by simp), told_ui ht rfl rfl rfl rfl (by simp)⟩
          simp only [UiOk]
          exact ⟨h1, prefix_some htail h3, h4⟩
        · simp only [Option.some.injEq] at hs
          subst hs
          refine ⟨⟨sent, hm, ?_⟩, send_ui hd rfl (by simp [hui]), told_ui ht rfl rfl rfl rfl (by simp [hui])⟩
          simp only [UiOk, hui]
          refine ⟨by simp [h1], ⟨tail, h2, ?_⟩, h4⟩
          simpa using h3

theorem inv_exec {sc : Script α ε} {s s' : St α ε} (h : Inv sc s) (hs : nextExec sc s = some s') : Inv sc s' := by
  obtain ⟨⟨sent, hm, hu⟩, hd, ht⟩ := h
  unfold nextExec at hs
  split at hs
  · rename_i hc
    simp only [Option.some.injEq] at hs
    subst hs
    refine ⟨⟨sent, hm, hu⟩, hd, ?_⟩
    simp only [Bool.and_eq_true, Bool.not_eq_true', Option.isSome_iff_ne_none] at hc
    unfold ToldOk at ht ⊢
    cases hmain : s.main <;> rw [hmain] at ht <;> simp_all
  · simp at hs

theorem inv_ctrlC {sc : Script α ε} {s s' : St α ε} (h : Inv sc s) (hs : nextCtrlC s = some s') : Inv sc s' := by
  obtain ⟨⟨sent, hm, hu⟩, hd, ht⟩ := h
  unfold nextCtrlC at hs
  split at hs
  · simp only [Option.some.injEq] at hs
    subst hs
    refine ⟨⟨sent, hm, hu⟩, hd, ?_⟩
    unfold ToldOk at ht ⊢
    cases hmain : s.main <;> rw [hmain] at ht <;> simp_all
  · simp only [Option.some.injEq] at hs
    subst hs
    exact ⟨⟨sent, hm, hu⟩, hd, ht⟩

theorem inv_next {sc : Script α ε} {a : Agent} {s s' : St α ε} (h : Inv sc s) (hs : next sc a s = some s') : Inv sc s' := by
  cases a with
  | main => exact inv_main h hs
  | mainFail => exact inv_mainFail h hs
  | ui => exact inv_ui h hs
  | exec => exact inv_exec h hs
  | ctrlC => exact inv_ctrlC h hs

theorem inv_run {sc : Script α ε} {as : List Agent} {s s' : St α ε} (h : Inv sc s) (hs : run sc as s = some s') : Inv sc s' := by
  induction as generalizing s with
  | nil => simp only [run, Option.some.injEq] at hs; exact hs ▸ h
  | cons a as ih =>
    simp only [run, Option.bind_eq_some_iff] at hs
    obtain ⟨t, h1, h2⟩ := hs
    exact ih (inv_next h h1) h2

theorem inv_reach {sc : Script α ε} {as : List Agent} {s : St α ε} (hs : run sc as (start sc) = some s) : Inv sc s :=
  inv_run (inv_start sc) hs

end TM.Session
