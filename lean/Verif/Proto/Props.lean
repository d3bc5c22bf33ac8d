import Verif.Proto.ShareLemmas
import Verif.Proto.Messages
/-!
# C27: file transfer is lossless.  C44: concurrent senders do not disturb the transfers.
-/
namespace TM.Proto

variable {M : Type}

/-! ## C27 -/

/-- A file sent from the disk in any chunks arrives exactly, and the receiver takes from the channel
exactly the frames of the transfer. -/
theorem file_transfer_lossless (answers : List (Option Nat)) (hok : none ∉ answers)
    (content : Bytes) (rest : List (Frame M)) :
    ∃ chunks, recvFile (sendFile answers content ++ rest) = some (chunks, rest) ∧
      chunks.flatten = content ∧ ∀ c ∈ chunks, c ≠ [] ∧ c.length ≤ 8192 := by
  refine ⟨readChunks answers content, ?_, readChunks_flatten _ hok,
    (readChunks_spec _ answers content (Nat.le_refl _)).1⟩
  unfold sendFile
  rw [List.append_assoc]
  exact recvFile_chunks _ _ (fun c hc => readChunks_ne_nil hc)

/-- A content sent from memory arrives exactly, the empty one included. -/
theorem data_transfer_lossless (content : Bytes) (rest : List (Frame M)) :
    ∃ chunks, recvFile (sendData content ++ rest) = some (chunks, rest) ∧
      chunks.flatten = content := by
  by_cases h : content = []
  · subst h
    exact ⟨[], by simp [sendData, recvFile], rfl⟩
  · refine ⟨[content], ?_, by simp⟩
    have := recvFile_chunks (M := M) [content] rest (by simpa using h)
    simpa [sendData, h] using this

/-- Any sequence of messages and transfers sent on a channel is received as the same sequence, with
the same contents. -/
theorem session_lossless (announces : M → Bool) (as : List (Action M))
    (h : ∀ a ∈ as, a.Ok announces) :
    receive announces (as.flatMap Action.frames) = .idle (as.map Action.meaning) := by
  have := run_actions announces as h [] []
  simpa [receive, Rx.run] using this

theorem cut_actions (as : List (Action M)) : ∀ (fs : List (Frame M)),
    fs <+: as.flatMap Action.frames →
    ∃ done pre, fs = done.flatMap Action.frames ++ pre ∧ done <+: as ∧
      (pre = [] ∨ ∃ a more, as = done ++ a :: more ∧ ∃ suf, suf ≠ [] ∧ a.frames = pre ++ suf) := by
  induction as with
  | nil =>
    intro fs hfs
    have : fs = [] := by simpa using hfs
    subst this
    exact ⟨[], [], rfl, List.prefix_rfl, .inl rfl⟩
  | cons a as ih =>
    intro fs hfs
    obtain ⟨t, ht⟩ := hfs
    rw [List.flatMap_cons] at ht
    rcases List.append_eq_append_iff.1 ht with ⟨u, h1, h2⟩ | ⟨u, h1, h2⟩
    · rcases u with _ | ⟨x, u⟩
      · rw [List.append_nil] at h1
        exact ⟨[a], [], by simp [h1], by simp, .inl rfl⟩
      · exact ⟨[], fs, by simp, List.nil_prefix, .inr ⟨a, as, rfl, x :: u, by simp, h1⟩⟩
    · obtain ⟨done, pre, e1, e2, e3⟩ := ih u ⟨t, h2.symm⟩
      refine ⟨a :: done, pre, ?_, (List.cons_prefix_cons).2 ⟨rfl, e2⟩, ?_⟩
      · rw [h1, e1]; simp
      · rcases e3 with e3 | ⟨b, more, e3, e4⟩
        · exact .inl e3
        · exact .inr ⟨b, more, by rw [e3]; rfl, e4⟩

/-- The same when the sender stops at any point: the receiver has seen the first actions, exactly,
and possibly the beginning of the content of the next one, without ever taking a part of a file for
a message or a message for a part of a file. -/
theorem interrupted_session (announces : M → Bool) (as : List (Action M))
    (h : ∀ a ∈ as, a.Ok announces) (fs : List (Frame M))
    (hfs : fs <+: as.flatMap Action.frames) :
    ∃ done, done <+: as ∧
      (receive announces fs = .idle (done.map Action.meaning) ∨
        ∃ a m content got, done ++ [a] <+: as ∧ a.meaning = .transfer m content ∧
          receive announces fs = .midway (done.map Action.meaning) m got ∧ got <+: content) := by
  obtain ⟨done, pre, e1, e2, e3⟩ := cut_actions as fs hfs
  refine ⟨done, e2, ?_⟩
  have hd : ∀ a ∈ done, a.Ok announces := fun a ha => h a (e2.subset ha)
  have hrun := run_actions announces done hd [] pre
  subst e1
  rw [receive, hrun, List.nil_append]
  rcases e3 with rfl | ⟨a, more, e3, suf, hsuf, hfr⟩
  · exact .inl rfl
  · by_cases hp : pre = []
    · subst hp; exact .inl rfl
    · right
      have ha : a.Ok announces := h a (by rw [e3]; simp)
      obtain ⟨m, content, got, g1, g2, g3⟩ :=
        run_prefix_action announces a ha (done.map Action.meaning) pre suf hfr hp hsuf
      exact ⟨a, m, content, got, ⟨more, by rw [e3]; simp⟩, g1, g2, g3⟩

/-- Not covered by the above: if reading the file fails the sender goes on as if the file ended
there, so the receiver is given a truncated file which it cannot tell from a complete one. -/
theorem read_error_truncates :
    ∃ (answers : List (Option Nat)) (content : Bytes) (m : ClientMsg Unit),
      m.announces = true ∧ content = [1, 2, 3, 4] ∧
      receive ClientMsg.announces (Action.frames (.file m answers content)) =
        .idle [.transfer m [1, 2]] := by
  refine ⟨[some 2, none], [1, 2, 3, 4], .provideFile 7 8, rfl, rfl, ?_⟩
  simp only [Action.frames, sendFile, readChunks_some, readChunks_error]
  rfl

/-- In general what arrives is a prefix of the file. -/
theorem read_error_prefix (announces : M → Bool) (m : M) (hm : announces m = true)
    (answers : List (Option Nat)) (content : Bytes) :
    ∃ got, receive announces (Action.frames (.file m answers content)) =
      .idle [.transfer m got] ∧ got <+: content := by
  refine ⟨(readChunks answers content).flatten, ?_,
    (readChunks_spec _ answers content (Nat.le_refl _)).2.1⟩
  have := run_sendFile announces answers content [] m []
  simp only [List.append_nil, List.nil_append] at this
  simp only [receive, Action.frames, Rx.run, Rx.step, hm, if_true]
  rw [this]
  rfl

/-- A concrete session: a message, a file read in two pieces, an empty file, an empty content and a
message. -/
def demoSession : List (Action (ClientMsg Unit)) :=
  [.message .status, .file (.provideFile 1 10) [some 2, some 9000] [5, 6, 7],
    .file (.provideFile 2 20) [] [], .data (.provideFile 3 30) [], .message .stop]

example : ∀ a ∈ demoSession, a.Ok ClientMsg.announces := by
  simp [demoSession, Action.Ok, ClientMsg.announces]

example : demoSession.flatMap Action.frames =
    [.msg .status, .msg (.provideFile 1 10), .raw [5, 6], .raw [7], .raw [],
      .msg (.provideFile 2 20), .raw [], .msg (.provideFile 3 30), .raw [], .msg .stop] := by
  simp [demoSession, Action.frames, sendFile, sendData, readChunks_some, readChunks_nil, readSize,
    readBufferSize]

example : receive ClientMsg.announces (demoSession.flatMap Action.frames) =
    .idle [.message .status, .transfer (.provideFile 1 10) [5, 6, 7],
      .transfer (.provideFile 2 20) [], .transfer (.provideFile 3 30) [], .message .stop] :=
  session_lossless _ _ (by simp [demoSession, Action.Ok, ClientMsg.announces])

/-! ## C44 -/

/-- With the locking discipline, whatever the interleaving of the threads, the receiver never sees a
frame of the wrong kind. -/
theorem disciplined_never_broken (announces : M → Bool) (init : Nat → List (Bool × Action M))
    (hok : ∀ i l a, (l, a) ∈ init i → a.Ok announces) (hd : Disciplined init) (s : Shared M)
    (hs : Shared.Reach init s) : ∀ ev, receive announces s.out ≠ .broken ev := by
  obtain ⟨L, pre, hi⟩ := shInv_reach hd hs
  have hL : ∀ a ∈ L.map (·.2), a.Ok announces := by
    intro a ha
    obtain ⟨⟨i, b⟩, hb, rfl⟩ := List.mem_map.1 ha
    have : b ∈ (init i).map (·.2) := by
      rw [hi.hist i]
      refine List.mem_append_left _ (List.mem_append_left _ ?_)
      exact List.mem_map.2 ⟨(i, b), List.mem_filter.2 ⟨hb, by simp⟩, rfl⟩
    obtain ⟨⟨l, c⟩, hc, rfl⟩ := List.mem_map.1 this
    exact hok i l c hc
  intro ev
  rw [hi.out, receive, run_actions announces _ hL]
  by_cases hp : pre = []
  · subst hp; simp [Rx.run]
  · obtain ⟨i, l, a, fs, h1, h2, h3, h4, h5⟩ := hi.dirty hp
    obtain ⟨m, content, got, _, g2, _⟩ := run_prefix_action announces a
      (hok i l a (hi.curFlag i l a fs h1).1) _ pre fs h3 hp h2
    rw [g2]
    simp

/-- With the locking discipline, once the threads are done the receiver has got an interleaving of
what each of them sent, every file whole. -/
theorem disciplined_delivers (announces : M → Bool) (init : Nat → List (Bool × Action M))
    (hok : ∀ i l a, (l, a) ∈ init i → a.Ok announces) (hd : Disciplined init) (s : Shared M)
    (hs : Shared.Reach init s) (hfin : s.Finished) :
    ∃ merged : List (Nat × Event M),
      Interleaving merged (fun i => (init i).map (fun p => p.2.meaning)) ∧
      receive announces s.out = .idle (merged.map (·.2)) := by
  obtain ⟨L, pre, hi⟩ := shInv_reach hd hs
  have hL : ∀ a ∈ L.map (·.2), a.Ok announces := by
    intro a ha
    obtain ⟨⟨i, b⟩, hb, rfl⟩ := List.mem_map.1 ha
    have : b ∈ (init i).map (·.2) := by
      rw [hi.hist i]
      refine List.mem_append_left _ (List.mem_append_left _ ?_)
      exact List.mem_map.2 ⟨(i, b), List.mem_filter.2 ⟨hb, by simp⟩, rfl⟩
    obtain ⟨⟨l, c⟩, hc, rfl⟩ := List.mem_map.1 this
    exact hok i l c hc
  have hp : pre = [] := by
    apply Classical.byContradiction
    intro hp
    obtain ⟨i, l, a, fs, h1, _⟩ := hi.dirty hp
    rw [(hfin i).2] at h1; cases h1
  subst hp
  refine ⟨L.map (fun p => (p.1, p.2.meaning)), ?_, ?_⟩
  · intro i
    have := hi.hist i
    rw [(hfin i).1, (hfin i).2] at this
    simp only [List.append_nil, List.map_nil] at this
    have h2 := congrArg (List.map Action.meaning) this
    simp only [List.map_map] at h2
    rw [List.filter_map, List.map_map]
    have e1 : (fun p : Bool × Action M => p.2.meaning) = Action.meaning ∘ (fun x => x.2) := rfl
    show _ = List.map (fun p : Bool × Action M => p.2.meaning) (init i)
    rw [e1, h2]
    rfl
  · have h3 := run_actions announces _ hL [] []
    rw [hi.out, List.append_nil, receive]
    rw [List.append_nil] at h3
    rw [h3]
    simp [Rx.run, List.map_map, Function.comp_def]

/-- What the client sends, `task-maker-exec/src/client.rs`: the main thread (0) makes all the
transfers while holding the mutex (`client.rs:105-111`) and sends its other messages without it
(`client.rs:198`), the status poller (1) takes it for each message (`client.rs:281-286`). -/
def clientThreads {D : Type} (main : List (Action (ClientMsg D))) (polls : Nat) :
    Nat → List (Bool × Action (ClientMsg D))
  | 0 => main.map (fun a => (a.isTransfer, a))
  | 1 => List.replicate polls (true, .message .status)
  | _ => []

/-- The client alone (its main thread and the status poller) follows the discipline. -/
theorem client_disciplined {D : Type} (main : List (Action (ClientMsg D))) (polls : Nat) :
    Disciplined (clientThreads main polls) := by
  constructor
  · intro i l a hm ht
    match i with
    | 0 =>
      obtain ⟨b, _, hb⟩ := List.mem_map.1 hm
      cases hb; exact ht
    | 1 => have := List.eq_of_mem_replicate hm; cases this; rfl
    | i + 2 => cases hm
  · intro i j hij ⟨l0, a0, hm0, ht0⟩ l a hm
    match i, j with
    | 0, 0 => exact absurd rfl hij
    | 0, 1 => have := List.eq_of_mem_replicate hm; cases this; rfl
    | 0, j + 2 => cases hm
    | 1, _ => have := List.eq_of_mem_replicate hm0; cases this; cases ht0
    | i + 2, _ => cases hm0

/-- So the status poller never disturbs the files the client sends to the server. -/
theorem client_status_poller_safe_partial {D : Type} (main : List (Action (ClientMsg D))) (polls : Nat)
    (hok : ∀ a ∈ main, a.Ok ClientMsg.announces) (s : Shared (ClientMsg D))
    (hs : Shared.Reach (clientThreads main polls) s) (hfin : s.Finished) :
    ∃ merged : List (Nat × Event (ClientMsg D)),
      (merged.filter (fun p => p.1 == 0)).map (·.2) = main.map Action.meaning ∧
      (merged.filter (fun p => p.1 == 1)).map (·.2) = List.replicate polls (.message .status) ∧
      receive ClientMsg.announces s.out = .idle (merged.map (·.2)) := by
  obtain ⟨merged, h1, h2⟩ := disciplined_delivers ClientMsg.announces (clientThreads main polls)
    (by
      intro i l a hm
      match i with
      | 0 =>
        obtain ⟨b, hb, he⟩ := List.mem_map.1 hm
        cases he; exact hok _ hb
      | 1 => have := List.eq_of_mem_replicate hm; cases this; rfl
      | i + 2 => cases hm) (client_disciplined main polls) s hs hfin
  refine ⟨merged, ?_, ?_, h2⟩
  · have := h1 0
    simpa [clientThreads, List.map_map, Function.comp_def] using this
  · have := h1 1
    simpa [clientThreads, Action.meaning] using this

/-- The threads that send without the mutex: `other` with its own messages, while `main` makes a
transfer.  For the client the control-C handler (`src/context.rs:244-251`), for the server the
scheduler binder (`executor.rs:323`) against the client manager (`executor.rs:417-422`), for the
worker manager its main thread (`worker_manager.rs:121-127`, `KillJob`) against the thread of the
worker. -/
def unlockedThreads (main other : Action M) : Nat → List (Bool × Action M)
  | 0 => [(true, main)]
  | 1 => [(false, other)]
  | _ => []

/-- A message sent without the mutex may fall in the middle of a transfer: the receiver panics. -/
theorem unlocked_breaks (announces : M → Bool) (m m2 : M) (hm : announces m = true)
    (b : Nat) :
    ∃ s, Shared.Reach (unlockedThreads (.data m [b]) (.message m2)) s ∧ s.Finished ∧
      receive announces s.out = .broken [] := by
  have s0 := Shared.Reach.start (init := unlockedThreads (.data m [b]) (.message m2))
  have s1 := s0.step (.acquire 0 (.data m [b]) [] rfl rfl rfl)
  have s2 := s1.step (.send 0 true (.data m [b]) (.msg m) [.raw [b], .raw []] rfl)
  have s3 := s2.step (.send 0 true (.data m [b]) (.raw [b]) [.raw []] rfl)
  have s4 := s3.step (.begin 1 (.message m2) [] rfl rfl)
  have s5 := s4.step (.send 1 false (.message m2) (.msg m2) [] rfl)
  have s6 := s5.step (.send 0 true (.data m [b]) (.raw []) [] rfl)
  have s7 := s6.step (.finish 0 true (.data m [b]) rfl)
  have s8 := s7.step (.finish 1 false (.message m2) rfl)
  refine ⟨_, s8, ?_, ?_⟩
  · intro i
    match i with
    | 0 => exact ⟨rfl, rfl⟩
    | 1 => exact ⟨rfl, rfl⟩
    | i + 2 => exact ⟨rfl, rfl⟩
  · simp [receive, Rx.run, Rx.step, hm, Shared.set]

/-- C44 fails: a control-C (`Stop`) while the client is sending a file makes the server panic. -/
theorem stop_breaks_client_transfer {D : Type} :
    ∃ s : Shared (ClientMsg D),
      Shared.Reach (unlockedThreads (.data (.provideFile 1 2) [3]) (.message .stop)) s ∧
        receive ClientMsg.announces s.out = .broken [] := by
  obtain ⟨s, h, _, h2⟩ := unlocked_breaks (M := ClientMsg D) ClientMsg.announces
    (.provideFile 1 2) .stop rfl 3
  exact ⟨s, h, h2⟩

/-- C44 fails: the status requested by the poller may be sent in the middle of a file asked by the
client after the end of the evaluation, which makes the client panic. -/
theorem status_breaks_server_transfer {R S : Type} (st : S) :
    ∃ s : Shared (ServerMsg R S),
      Shared.Reach (unlockedThreads (.data (.provideFile 1 true) [3]) (.message (.status st))) s ∧
        receive ServerMsg.announces s.out = .broken [] := by
  obtain ⟨s, h, _, h2⟩ := unlocked_breaks (M := ServerMsg R S) ServerMsg.announces
    (.provideFile 1 true) (.status st) rfl 3
  exact ⟨s, h, h2⟩

/-- C44 fails: the request to kill a job may be sent in the middle of a file asked by the worker. -/
theorem kill_breaks_worker_transfer {J : Type} (group : Nat) :
    ∃ s : Shared (ToWorkerMsg J),
      Shared.Reach (unlockedThreads (.data (.provideFile 1) [3]) (.message (.killJob group))) s ∧
        receive ToWorkerMsg.announces s.out = .broken [] := by
  obtain ⟨s, h, _, h2⟩ := unlocked_breaks (M := ToWorkerMsg J) ToWorkerMsg.announces
    (.provideFile 1) (.killJob group) rfl 3
  exact ⟨s, h, h2⟩

/-- A concrete run of the client: the poller gets the mutex between two transfers. -/
example : ∃ s, Shared.Reach (clientThreads (D := Unit)
    [.data (.provideFile 1 2) [3], .message (.askFile 4 5 true)] 1) s ∧ s.Finished := by
  have s0 := Shared.Reach.start (init := clientThreads (D := Unit)
    [.data (.provideFile 1 2) [3], .message (.askFile 4 5 true)] 1)
  have s1 := s0.step (.acquire 0 (.data (.provideFile 1 2) [3]) _ rfl rfl rfl)
  have s2 := s1.step (.send 0 true _ (.msg (.provideFile 1 2)) [.raw [3], .raw []] rfl)
  have s3 := s2.step (.send 0 true _ (.raw [3]) [.raw []] rfl)
  have s4 := s3.step (.send 0 true _ (.raw []) [] rfl)
  have s5 := s4.step (.finish 0 true _ rfl)
  have s6 := s5.step (.acquire 1 (.message .status) [] rfl rfl rfl)
  have s7 := s6.step (.begin 0 (.message (.askFile 4 5 true)) [] rfl rfl)
  have s8 := s7.step (.send 0 false _ (.msg (.askFile 4 5 true)) [] rfl)
  have s9 := s8.step (.send 1 true _ (.msg .status) [] rfl)
  have s10 := s9.step (.finish 0 false _ rfl)
  have s11 := s10.step (.finish 1 true _ rfl)
  refine ⟨_, s11, ?_⟩
  intro i
  match i with
  | 0 => exact ⟨rfl, rfl⟩
  | 1 => exact ⟨rfl, rfl⟩
  | i + 2 => exact ⟨rfl, rfl⟩

end TM.Proto
