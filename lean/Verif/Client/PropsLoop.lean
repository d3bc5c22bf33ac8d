import Verif.Client.LoopLemmas
/-!
# C45: the client gets every file of the evaluation once, and calls every callback once
-/
namespace TM.Client
open TM.Proto

variable (canon : Path → Path) (fetch : Nat → Option (List Bytes)) (keyOf : Nat → Nat)

/-- The files announced at the end of the evaluation which are not in the local store. -/
def remoteFiles (files : List (Nat × Nat × Bool)) : List (Nat × Nat × Bool) :=
  files.filter (fun f => (fetch f.2.1).isNone)

/-- At the end of the evaluation the client asks the server exactly for the announced files that are
not in the local store, each once, and it stops waiting iff there are none. -/
theorem done_asks_missing (c : Client) (hc : c.ended = false) (files : List (Nat × Nat × Bool)) :
    ((c.handle canon fetch keyOf (.done files, [])).loopTest).sent = c.sent ++
      (remoteFiles fetch files).map (fun f => .askFile f.1 f.2.1 f.2.2) ∧
    (((c.handle canon fetch keyOf (.done files, [])).loopTest).ended = true ↔
      remoteFiles fetch files = []) := by
  obtain ⟨a, b, d, e, _⟩ := onDone_spec canon fetch files c 0
  refine ⟨?_, ?_⟩
  · simp only [Client.handle, Client.loopTest]
    exact d
  · simp only [Client.handle, Client.loopTest, e, hc, Bool.false_or, Option.getD_some, a]
    simp [remoteFiles]

/-- After the end of the evaluation, if the server answers the requests in order (interleaved with
any other messages), the client processes every announced file exactly once, with its content, and
leaves the loop exactly when it has got the last one. -/
theorem client_gets_every_file (contentOf : Nat → Bytes)
    (hfetch : ∀ k chunks, fetch k = some chunks → chunks.flatten = contentOf k)
    (c : Client) (hc : c.ended = false) (files : List (Nat × Nat × Bool))
    (ms : List (ServerMsg Nat Unit × List Bytes)) (hq : ∀ m ∈ ms, Quiet m)
    (hans : ms.filterMap provided <+:
      (remoteFiles fetch files).map (fun f => ⟨f.1, f.2.2, contentOf f.2.1⟩)) :
    let c' := c.run canon fetch keyOf ((.done files, []) :: ms)
    (c'.ended = true ↔ ms.filterMap provided =
      (remoteFiles fetch files).map (fun f => ⟨f.1, f.2.2, contentOf f.2.1⟩)) ∧
    (c'.ended = true → List.Perm c'.delivered (c.delivered ++
      files.map (fun f => ⟨f.1, f.2.2, contentOf f.2.1⟩))) := by
  obtain ⟨a, b, d, e, g⟩ := onDone_spec canon fetch files c 0
  have hb : (c.handle canon fetch keyOf (.done files, [])).loopTest.delivered = c.delivered ++
      files.filterMap (fun f => (fetch f.2.1).map (fun ch => ⟨f.1, f.2.2, ch.flatten⟩)) := b
  have hm : (c.handle canon fetch keyOf (.done files, [])).loopTest.missing =
      some (remoteFiles fetch files).length := by
    simp only [Client.handle, Client.loopTest, a, remoteFiles, Nat.zero_add]
  have hperm : List.Perm (files.filterMap
        (fun f => (fetch f.2.1).map (fun ch => (⟨f.1, f.2.2, ch.flatten⟩ : Delivery))) ++
        (remoteFiles fetch files).map (fun f => ⟨f.1, f.2.2, contentOf f.2.1⟩))
      (files.map (fun f => ⟨f.1, f.2.2, contentOf f.2.1⟩)) := by
    unfold remoteFiles
    clear hans a b d e g hb hm
    induction files with
    | nil => simp
    | cons f files ih =>
      cases hf : fetch f.2.1 with
      | some ch =>
        simp only [List.filterMap_cons, hf, Option.map_some, List.filter_cons, Option.isNone_some,
          Bool.false_eq_true, if_false, List.cons_append, List.map_cons, hfetch _ _ hf]
        exact ih.cons _
      | none =>
        simp only [List.filterMap_cons, hf, Option.map_none, List.filter_cons, Option.isNone_none,
          if_true, List.map_cons]
        exact List.perm_middle.trans (ih.cons _)
  simp only
  have hrun : c.run canon fetch keyOf ((.done files, []) :: ms) =
      ((c.handle canon fetch keyOf (.done files, [])).loopTest).run canon fetch keyOf ms := by
    conv => lhs; unfold Client.run
    rw [hc]; rfl
  rw [hrun]
  by_cases hz : remoteFiles fetch files = []
  · have hend := (done_asks_missing canon fetch keyOf c hc files).2.2 hz
    have hstop : ((c.handle canon fetch keyOf (.done files, [])).loopTest).run canon fetch keyOf ms
        = (c.handle canon fetch keyOf (.done files, [])).loopTest := by
      cases ms with
      | nil => rfl
      | cons x l => simp [Client.run, hend]
    rw [hstop, hb]
    rw [hz] at hans hperm ⊢
    refine ⟨⟨fun _ => by simpa using hans, fun _ => hend⟩, fun _ => ?_⟩
    exact (by simpa using hperm : List.Perm _ _).append_left _
  · have hpos : 0 < (remoteFiles fetch files).length := List.length_pos_iff.2 hz
    have hne : (c.handle canon fetch keyOf (.done files, [])).loopTest.ended = false := by
      cases hh : (c.handle canon fetch keyOf (.done files, [])).loopTest.ended with
      | false => rfl
      | true => exact absurd ((done_asks_missing canon fetch keyOf c hc files).2.1 hh) hz
    have hle := hans.length_le
    rw [List.length_map] at hle
    obtain ⟨r1, r2⟩ := run_quiet canon fetch keyOf ms _ _ hne hm hpos hq hle
    have hiff : (ms.filterMap provided).length = (remoteFiles fetch files).length ↔
        ms.filterMap provided =
          (remoteFiles fetch files).map (fun f => ⟨f.1, f.2.2, contentOf f.2.1⟩) := by
      constructor
      · intro h
        exact hans.eq_of_length (by rw [h, List.length_map])
      · intro h; rw [h, List.length_map]
    refine ⟨r2.trans hiff, fun hend => ?_⟩
    have heq := hiff.1 (r2.1 hend)
    rw [r1, hb, heq, List.append_assoc]
    exact hperm.append_left _

/-- C45 fails if the server announces the end of the evaluation twice (see the scheduler): the files
still to arrive for the first announcement are lost. -/
theorem second_done_loses_files :
    ∃ (c : Client), c.ended = false ∧ c.missing = none ∧
      let c' := c.run id (fun _ => none) id
        [(.done [(1, 10, true)], []), (.done [], []), (.provideFile 1 true, [[5]])]
      c'.ended = true ∧ c'.sent = [.askFile 1 10 true] ∧ c'.delivered = [] := by
  exact ⟨{ fileCallbacks := [], execCallbacks := [], disk := fun _ => none }, rfl, rfl, rfl, rfl, rfl⟩

/-! ## Execution callbacks -/

/-- The kinds of callbacks of an execution: start, end, skip. -/
inductive Kind where
  | start
  | done
  | skip
  deriving DecidableEq

/-- The call of the `i`-th callback of a kind, with the worker, the result or nothing. -/
def Kind.call : Kind → Nat → Nat → Nat → Call
  | .start, e, i, arg => .start e i arg
  | .done, e, i, arg => .done e i arg
  | .skip, e, i, _ => .skip e i

/-- Whether a call is a call of a callback of that kind of that execution. -/
def Kind.isCall (k : Kind) (e : Nat) : Call → Bool
  | .start e' _ _ => k = .start && e' == e
  | .done e' _ _ => k = .done && e' == e
  | .skip e' _ => k = .skip && e' == e
  | _ => false

/-- The calls of the callbacks of a kind of an execution. -/
def kindCalls (k : Kind) (e : Nat) (calls : List Call) : List Call := calls.filter (k.isCall e)

/-- What the server says about an execution: the workers it started on, the results, the skips. -/
def Kind.notice (k : Kind) (e : Nat) : ServerMsg Nat Unit × List Bytes → Option Nat
  | (.notifyStart e' w, _) => if k = .start ∧ e' = e then some w else none
  | (.notifyDone e' r, _) => if k = .done ∧ e' = e then some r else none
  | (.notifySkip e', _) => if k = .skip ∧ e' = e then some 0 else none
  | _ => none

/-- How many callbacks of a kind an execution has. -/
def Kind.count : Kind → ExecCallbacks → Nat
  | .start, cb => cb.onStart
  | .done, cb => cb.onDone
  | .skip, cb => cb.onSkip

/-- How many callbacks of a kind of an execution the client has. -/
def callbacksLeft (k : Kind) (e : Nat) (c : Client) : Nat :=
  ((c.execCallbacks.get? e).map k.count).getD 0

theorem kindCalls_append (k : Kind) (e : Nat) (a b : List Call) :
    kindCalls k e (a ++ b) = kindCalls k e a ++ kindCalls k e b := List.filter_append ..

/-- The calls of the callbacks of the files. -/
def FileCall : Call → Prop
  | .content _ _ => True
  | .chunk _ _ _ => True
  | _ => False

theorem processFile_fileCalls (disk : Disk) (uuid : Nat) (cb : FileCallbacks)
    (success : Bool) (chunks : List Bytes) (source : Option Path) :
    ∀ x ∈ (processFile canon disk uuid cb success chunks source).2.2, FileCall x := by
  rw [processFile_eq]
  have h1 : ∀ b, ∀ x ∈ chunkCalls uuid cb.chunked b, FileCall x := by
    intro b x hx
    obtain ⟨i, _, rfl⟩ := List.mem_map.1 hx
    trivial
  intro x hx
  simp only [List.mem_append, List.mem_flatMap] at hx
  rcases hx with (⟨b, _, hb⟩ | hb) | hb
  · exact h1 b x hb
  · exact h1 [] x hb
  · cases hg : cb.getContent with
    | none => rw [hg] at hb; cases hb
    | some n => rw [hg] at hb; simp only [List.mem_singleton] at hb; subst hb; trivial

theorem kindCalls_fileCalls (k : Kind) (e : Nat) (l : List Call) (h : ∀ x ∈ l, FileCall x) :
    kindCalls k e l = [] := by
  unfold kindCalls
  rw [List.filter_eq_nil_iff]
  intro x hx
  have := h x hx
  cases x <;> simp_all [FileCall, Kind.isCall]

theorem process_kindCalls (k : Kind) (c : Client) (uuid : Nat) (success : Bool)
    (chunks : List Bytes) (source : Option Path) (e : Nat) :
    kindCalls k e (c.process canon uuid success chunks source).calls = kindCalls k e c.calls := by
  unfold Client.process
  simp only
  split
  · next cb _ =>
    simp only
    rw [kindCalls_append, kindCalls_fileCalls k e _ (processFile_fileCalls canon _ _ _ _ _ _)]
    simp
  · rfl

theorem onDone_kindCalls (k : Kind) (e : Nat) (files : List (Nat × Nat × Bool)) :
    ∀ (c : Client) (n : Nat),
    kindCalls k e (c.onDone canon fetch files n).1.calls = kindCalls k e c.calls := by
  induction files with
  | nil => intro c n; rfl
  | cons f files ih =>
    intro c n
    obtain ⟨uuid, key, success⟩ := f
    unfold Client.onDone
    cases fetch key with
    | some chunks => simp only; rw [ih, process_kindCalls]
    | none => simp only; rw [ih]

theorem kindCalls_range (k k' : Kind) (e x n arg : Nat) :
    kindCalls k e ((List.range n).map (fun i => k'.call x i arg)) =
      if k = k' ∧ x = e then (List.range n).map (fun i => k.call e i arg) else [] := by
  unfold kindCalls
  split
  · next h =>
    obtain ⟨rfl, rfl⟩ := h
    rw [List.filter_eq_self]
    intro y hy
    obtain ⟨i, _, rfl⟩ := List.mem_map.1 hy
    cases k <;> simp [Kind.isCall, Kind.call]
  · next h =>
    rw [List.filter_eq_nil_iff]
    intro y hy
    obtain ⟨i, _, rfl⟩ := List.mem_map.1 hy
    cases k <;> cases k' <;> simp_all [Kind.isCall, Kind.call]

theorem handle_kindCalls (k : Kind) (c : Client) (m : ServerMsg Nat Unit × List Bytes) (e : Nat) :
    kindCalls k e (c.handle canon fetch keyOf m).calls = kindCalls k e c.calls ++
      (k.notice e m).toList.flatMap
        (fun arg => (List.range (callbacksLeft k e c)).map (fun i => k.call e i arg)) ∧
    callbacksLeft k e (c.handle canon fetch keyOf m) =
      if k.notice e m = none then callbacksLeft k e c else 0 := by
  obtain ⟨msg, chunks⟩ := m
  have main : ∀ (k' : Kind) (x arg : Nat) (cb cb' : ExecCallbacks),
      c.execCallbacks.get? x = some cb → k'.count cb' = 0 →
      (∀ k'', k'' ≠ k' → k''.count cb' = k''.count cb) →
      kindCalls k e (c.calls ++ (List.range (k'.count cb)).map (fun i => k'.call x i arg)) =
        kindCalls k e c.calls ++ (if k = k' ∧ x = e then some arg else none).toList.flatMap
          (fun arg => (List.range (callbacksLeft k e c)).map (fun i => k.call e i arg)) ∧
      (((c.execCallbacks.insert x cb').get? e).map k.count).getD 0 =
        if (if k = k' ∧ x = e then some arg else none) = none then callbacksLeft k e c else 0 := by
    intro k' x arg cb cb' hg h0 hne
    refine ⟨?_, ?_⟩
    · rw [kindCalls_append, kindCalls_range]
      by_cases h : k = k' ∧ x = e
      · obtain ⟨rfl, rfl⟩ := h
        simp [callbacksLeft, hg]
      · simp [h]
    · rw [AMap.get?_insert]
      by_cases hx : x = e
      · subst hx
        by_cases hk : k = k'
        · subst hk; simp [h0]
        · simp [hk, callbacksLeft, hg, hne k hk]
      · have : ¬ e = x := fun h => hx h.symm
        simp [hx, this, callbacksLeft]
  have absent : ∀ (k' : Kind) (x arg : Nat), c.execCallbacks.get? x = none →
      kindCalls k e c.calls =
        kindCalls k e c.calls ++ (if k = k' ∧ x = e then some arg else none).toList.flatMap
          (fun arg => (List.range (callbacksLeft k e c)).map (fun i => k.call e i arg)) ∧
      callbacksLeft k e c =
        if (if k = k' ∧ x = e then some arg else none) = none then callbacksLeft k e c else 0 := by
    intro k' x arg hg
    by_cases h : k = k' ∧ x = e
    · obtain ⟨rfl, rfl⟩ := h
      simp [callbacksLeft, hg]
    · simp [h]
  cases msg with
  | askFile u => simp [Client.handle, Kind.notice, callbacksLeft]
  | provideFile u s =>
    simp only [Client.handle, Kind.notice, callbacksLeft]
    rw [process_kindCalls, process_execCallbacks]
    simp
  | notifyStart x w =>
    cases hg : c.execCallbacks.get? x with
    | none => simp only [Client.handle, hg]; exact absent .start x w hg
    | some cb =>
      simp only [Client.handle, hg]
      exact main .start x w cb { cb with onStart := 0 } hg rfl
        (by intro k'' h; cases k'' <;> first | exact absurd rfl h | rfl)
  | notifyDone x r =>
    cases hg : c.execCallbacks.get? x with
    | none => simp only [Client.handle, hg]; exact absent .done x r hg
    | some cb =>
      simp only [Client.handle, hg]
      exact main .done x r cb { cb with onDone := 0 } hg rfl
        (by intro k'' h; cases k'' <;> first | exact absurd rfl h | rfl)
  | notifySkip x =>
    cases hg : c.execCallbacks.get? x with
    | none => simp only [Client.handle, hg]; exact absent .skip x 0 hg
    | some cb =>
      simp only [Client.handle, hg]
      exact main .skip x 0 cb { cb with onSkip := 0 } hg rfl
        (by intro k'' h; cases k'' <;> first | exact absurd rfl h | rfl)
  | error s => simp [Client.handle, Kind.notice, callbacksLeft]
  | status s => simp [Client.handle, Kind.notice, callbacksLeft]
  | done f =>
    simp only [Client.handle, Kind.notice, callbacksLeft]
    rw [onDone_kindCalls, (onDone_spec canon fetch f c 0).2.2.2.2]
    simp

theorem run_kindCalls_zero (k : Kind) (e : Nat) (ms : List (ServerMsg Nat Unit × List Bytes)) :
    ∀ (c : Client), callbacksLeft k e c = 0 →
    kindCalls k e (c.run canon fetch keyOf ms).calls = kindCalls k e c.calls := by
  induction ms with
  | nil => intro c _; rfl
  | cons m ms ih =>
    intro c h
    unfold Client.run
    cases c.ended with
    | true => rfl
    | false =>
      simp only [Bool.false_eq_true, if_false]
      obtain ⟨a, b⟩ := handle_kindCalls canon fetch keyOf k c m e
      rw [ih]
      · show kindCalls k e (c.handle canon fetch keyOf m).calls = _
        rw [a, h]; simp
      · show callbacksLeft k e (c.handle canon fetch keyOf m) = 0
        rw [b, h]; simp

/-- The callbacks for the start, the end or the skip of an execution are called exactly once, at the
first such notification and with its worker or result, whatever the server sends (a scheduler that
runs an execution twice included): `handled` are the messages handled before leaving the loop. -/
theorem execution_callbacks_once (k : Kind) (e : Nat)
    (ms : List (ServerMsg Nat Unit × List Bytes)) (c : Client) :
    ∃ handled, handled <+: ms ∧ ((c.run canon fetch keyOf ms).ended = false → handled = ms) ∧
      kindCalls k e (c.run canon fetch keyOf ms).calls = kindCalls k e c.calls ++
        match (handled.filterMap (k.notice e)).head? with
        | some arg => (List.range (callbacksLeft k e c)).map (fun i => k.call e i arg)
        | none => [] := by
  induction ms generalizing c with
  | nil => exact ⟨[], List.prefix_rfl, fun _ => rfl, by simp [Client.run]⟩
  | cons m ms ih =>
    by_cases hc : c.ended = true
    · have hr : c.run canon fetch keyOf (m :: ms) = c := by simp [Client.run, hc]
      rw [hr]
      exact ⟨[], List.nil_prefix, fun h => by (rw [hc] at h; cases h), by simp⟩
    · have hr : c.run canon fetch keyOf (m :: ms) =
          (c.handle canon fetch keyOf m).loopTest.run canon fetch keyOf ms := by
        conv => lhs; unfold Client.run
        rw [if_neg hc]
      rw [hr]
      obtain ⟨a, b⟩ := handle_kindCalls canon fetch keyOf k c m e
      obtain ⟨handled, h1, h2, h3⟩ := ih (c.handle canon fetch keyOf m).loopTest
      refine ⟨m :: handled, List.cons_prefix_cons.2 ⟨rfl, h1⟩, fun h => by rw [h2 h], ?_⟩
      have ha : kindCalls k e (c.handle canon fetch keyOf m).loopTest.calls = _ := a
      have hb : callbacksLeft k e (c.handle canon fetch keyOf m).loopTest = _ := b
      cases hn : k.notice e m with
      | none =>
        rw [h3, ha, hb, List.filterMap_cons, hn]
        simp
      | some arg =>
        rw [run_kindCalls_zero canon fetch keyOf k e ms _ (by rw [hb, hn]; simp), ha,
          List.filterMap_cons, hn]
        simp

/-! ## Content callbacks over the whole evaluation -/

/-- The first time a file is handed over. -/
def firstDelivery (u : Nat) (c : Client) : Option Delivery := c.delivered.find? (·.uuid == u)

/-- The content callback (with limit `n`) of file `u` has been called exactly for the first delivery
of the file. -/
def ContentInv (u n : Nat) (c : Client) : Prop :=
  match firstDelivery u c with
  | some d => contentArgs u c.calls = [d.content.take n] ∧
      ∃ cb, c.fileCallbacks.get? u = some cb ∧ cb.getContent = none
  | none => contentArgs u c.calls = [] ∧
      ∃ cb, c.fileCallbacks.get? u = some cb ∧ cb.getContent = some n

theorem ContentInv.congr {u n : Nat} {c c' : Client} (h : ContentInv u n c)
    (h1 : c'.delivered = c.delivered) (h2 : contentArgs u c'.calls = contentArgs u c.calls)
    (h3 : c'.fileCallbacks = c.fileCallbacks) : ContentInv u n c' := by
  unfold ContentInv firstDelivery at *
  rw [h1, h2, h3]; exact h

theorem contentArgs_other (u uuid : Nat) (disk : Disk) (cb : FileCallbacks)
    (success : Bool) (chunks : List Bytes) (source : Option Path) (h : uuid ≠ u) :
    contentArgs u (processFile canon disk uuid cb success chunks source).2.2 = [] := by
  rw [processFile_eq]
  simp only [contentArgs_append, contentArgs_flatMap, contentArgs_chunkCalls]
  cases cb.getContent <;> simp [contentArgs, h]

theorem ContentInv.process {u n : Nat} {c : Client} (h : ContentInv u n c) (uuid : Nat)
    (success : Bool) (chunks : List Bytes) (source : Option Path) :
    ContentInv u n (c.process canon uuid success chunks source) := by
  by_cases hu : uuid = u
  · subst hu
    have hcb : ∃ cb, c.fileCallbacks.get? uuid = some cb := by
      unfold ContentInv at h
      split at h
      · exact ⟨_, h.2.choose_spec.1⟩
      · exact ⟨_, h.2.choose_spec.1⟩
    obtain ⟨cb, hcb⟩ := hcb
    have hfd : firstDelivery uuid (c.process canon uuid success chunks source) =
        (firstDelivery uuid c).or (some ⟨uuid, success, chunks.flatten⟩) := by
      unfold firstDelivery
      rw [process_delivered, List.find?_append]
      simp
    have hcalls : (c.process canon uuid success chunks source).calls =
        c.calls ++ (processFile canon c.disk uuid cb success chunks source).2.2 := by
      unfold Client.process; simp only [hcb]
    have hcbs : (c.process canon uuid success chunks source).fileCallbacks.get? uuid =
        some (processFile canon c.disk uuid cb success chunks source).2.1 := by
      unfold Client.process; simp only [hcb]; rw [AMap.get?_insert]; simp
    unfold ContentInv at h ⊢
    rw [hfd]
    cases hf : firstDelivery uuid c with
    | some d =>
      rw [hf] at h
      obtain ⟨h1, cb', h2, h3⟩ := h
      rw [hcb] at h2; cases h2
      simp only [Option.or_some]
      refine ⟨?_, _, hcbs, ?_⟩
      · rw [hcalls, contentArgs_append, content_callback_absent _ _ _ _ _ _ _ h3, h1,
          List.append_nil]
        rfl
      · rw [processFile_eq]
    | none =>
      rw [hf] at h
      obtain ⟨h1, cb', h2, h3⟩ := h
      rw [hcb] at h2; cases h2
      simp only [Option.none_or]
      refine ⟨?_, _, hcbs, ?_⟩
      · rw [hcalls, contentArgs_append, (content_callback_exact _ _ _ _ _ _ _ n h3).1, h1]
        rfl
      · rw [processFile_eq]
  · have hfd : firstDelivery u (c.process canon uuid success chunks source) =
        firstDelivery u c := by
      unfold firstDelivery
      rw [process_delivered, List.find?_append]
      simp [hu]
    have hcalls : contentArgs u (c.process canon uuid success chunks source).calls =
        contentArgs u c.calls := by
      unfold Client.process
      simp only
      split
      · simp only
        rw [contentArgs_append, contentArgs_other canon u uuid _ _ _ _ _ hu, List.append_nil]
      · rfl
    have hcbs : (c.process canon uuid success chunks source).fileCallbacks.get? u =
        c.fileCallbacks.get? u := by
      unfold Client.process
      simp only
      split
      · simp only
        rw [AMap.get?_insert_ne _ _ (fun e => hu e.symm)]
      · rfl
    unfold ContentInv at h ⊢
    rw [hfd, hcalls, hcbs]
    exact h

theorem ContentInv.onDone {u n : Nat} (files : List (Nat × Nat × Bool)) : ∀ {c : Client} (k : Nat),
    ContentInv u n c → ContentInv u n (c.onDone canon fetch files k).1 := by
  induction files with
  | nil => intro c k h; exact h
  | cons f files ih =>
    intro c k h
    obtain ⟨uuid, key, success⟩ := f
    unfold Client.onDone
    cases fetch key with
    | some chunks => exact ih k (h.process canon uuid success chunks none)
    | none => exact ih (k + 1) (h.congr rfl rfl rfl)

theorem contentArgs_kind (u : Nat) (k : Kind) (x m arg : Nat) :
    contentArgs u ((List.range m).map (fun i => k.call x i arg)) = [] := by
  unfold contentArgs
  rw [List.filterMap_eq_nil_iff]
  intro y hy
  obtain ⟨i, _, rfl⟩ := List.mem_map.1 hy
  cases k <;> rfl

theorem ContentInv.handle {u n : Nat} {c : Client} (h : ContentInv u n c)
    (m : ServerMsg Nat Unit × List Bytes) : ContentInv u n (c.handle canon fetch keyOf m) := by
  obtain ⟨msg, chunks⟩ := m
  cases msg with
  | askFile x => exact h.congr rfl rfl rfl
  | provideFile x s =>
    exact ContentInv.process canon (c := { c with missing := c.missing.map (· - 1) })
      (h.congr rfl rfl rfl) x s chunks none
  | notifyStart x w =>
    simp only [Client.handle]
    split
    · refine h.congr rfl (by
        rw [contentArgs_append]
        exact (congrArg (_ ++ ·) (contentArgs_kind u .start x _ w)).trans
          (List.append_nil _)) rfl
    · exact h
  | notifyDone x r =>
    simp only [Client.handle]
    split
    · refine h.congr rfl (by
        rw [contentArgs_append]
        exact (congrArg (_ ++ ·) (contentArgs_kind u .done x _ r)).trans
          (List.append_nil _)) rfl
    · exact h
  | notifySkip x =>
    simp only [Client.handle]
    split
    · refine h.congr rfl (by
        rw [contentArgs_append]
        exact (congrArg (_ ++ ·) (contentArgs_kind u .skip x _ 0)).trans
          (List.append_nil _)) rfl
    · exact h
  | error s => exact h.congr rfl rfl rfl
  | status s => exact h
  | done f => exact (ContentInv.onDone canon fetch f 0 h).congr rfl rfl rfl

theorem ContentInv.run {u n : Nat} (ms : List (ServerMsg Nat Unit × List Bytes)) :
    ∀ {c : Client}, ContentInv u n c → ContentInv u n (c.run canon fetch keyOf ms) := by
  induction ms with
  | nil => intro c h; exact h
  | cons m ms ih =>
    intro c h
    unfold Client.run
    split
    · exact h
    · exact ih ((h.handle canon fetch keyOf m).congr rfl rfl rfl)

theorem ContentInv.start {u n : Nat} (files : List (Nat × Option Path × List Bytes)) :
    ∀ {c : Client}, ContentInv u n c → ContentInv u n (c.start canon files) := by
  induction files with
  | nil => intro c h; exact h.congr rfl rfl rfl
  | cons f files ih =>
    intro c h
    obtain ⟨uuid, source, chunks⟩ := f
    exact ih (h.process canon uuid true chunks source)

/-- Over a whole evaluation (the provided files, then any messages of the server) the content
callback of a file is called exactly once if the file is ever handed over, with the beginning of the
content it had the first time, and not at all otherwise. -/
theorem content_callback_once (u n : Nat) (c : Client) (hcalls : c.calls = [])
    (hdel : c.delivered = []) (cb : FileCallbacks) (hcb : c.fileCallbacks.get? u = some cb)
    (hn : cb.getContent = some n) (files : List (Nat × Option Path × List Bytes))
    (ms : List (ServerMsg Nat Unit × List Bytes)) :
    let c' := (c.start canon files).run canon fetch keyOf ms
    contentArgs u c'.calls =
      ((c'.delivered.find? (·.uuid == u)).map (fun d => d.content.take n)).toList := by
  have h0 : ContentInv u n c := by
    unfold ContentInv firstDelivery
    rw [hdel, hcalls]
    exact ⟨rfl, cb, hcb, hn⟩
  have h := (h0.start canon files).run canon fetch keyOf ms
  unfold ContentInv firstDelivery at h
  simp only
  split at h
  · next d hd => rw [hd]; exact h.1
  · next hd => rw [hd]; exact h.1

/-- A concrete run: the result of execution 3 is announced twice. -/
example : (Client.run id (fun k => if k = 10 then some [[1], [2]] else none) id
      { fileCallbacks := [(1, { getContent := some 5 }), (2, { getContent := some 1 })]
        execCallbacks := [(3, { onStart := 1, onDone := 2 })]
        disk := fun _ => none }
      [(.notifyStart 3 9, []), (.notifyDone 3 0, []), (.notifyDone 3 1, []),
        (.done [(1, 10, true), (2, 20, false)], []), (.status (), []),
        (.provideFile 2 false, [[7, 8]])]).calls =
    [.start 3 0 9, .done 3 0 0, .done 3 1 0, .content 1 [1, 2], .content 2 [7]] := rfl

example : ∃ (files : List (Nat × Nat × Bool)) (ms : List (ServerMsg Nat Unit × List Bytes)),
    (∀ m ∈ ms, Quiet m) ∧ remoteFiles (fun k => if k = 10 then some [[1], [2]] else none) files ≠ []
    ∧ ms.filterMap provided =
      (remoteFiles (fun k => if k = 10 then some [[1], [2]] else none) files).map
        (fun f => ⟨f.1, f.2.2, (fun k => if k = 10 then [1, 2] else [7, 8]) f.2.1⟩) := by
  refine ⟨[(1, 10, true), (2, 20, false)], [(.status (), []), (.provideFile 2 false, [[7], [8]])],
    ?_, by decide, rfl⟩
  intro m hm
  simp only [List.mem_cons, List.not_mem_nil, or_false] at hm
  rcases hm with rfl | rfl <;> trivial

end TM.Client
