import Verif.Exec.Model
import Verif.CheckDag.Props
/-!
# C29: the executor delivers every ready file exactly once.  C47: the client manager.
-/
namespace TM.Exec
open TM.CheckDag

/-! ## C29: specification -/

/-- The messages of the scheduler for a client. -/
def messagesFor (c : ClientUuid) (ins : List BinderIn) : List Sched.Out :=
  ins.filterMap fun
    | .message m => if recipient m = some c then some m else none
    | .connect _ => none

/-- What was sent to a client, in order. -/
def sentTo (c : ClientUuid) (b : Binder) : List ToClient :=
  (b.sent.filter (fun p => p.1 == c)).map (·.2)

/-- The non-urgent files announced in a list of messages. -/
def lateFiles (ms : List Sched.Out) : List (FileUuid × FileStoreKey × Bool) :=
  ms.filterMap fun
    | .fileReady _ f key ok false => some (f, key, ok)
    | _ => none

/-- The messages since the last end of an evaluation. -/
def sinceDone (ms : List Sched.Out) : List Sched.Out :=
  (ms.reverse.takeWhile (fun
    | .evaluationDone _ => false
    | _ => true)).reverse

/-- What the client must see of each message, the lists of files at the end of the evaluations
apart: a notification, an urgent file, the end of the evaluation. -/
def visible : Sched.Out → Option ToClient
  | .started _ e w => some (.notifyStart e w)
  | .done _ e r => some (.notifyDone e r)
  | .skipped _ e => some (.notifySkip e)
  | .fileReady _ f key ok urgent => if urgent then some (.provideFile f ok key) else none
  | .evaluationDone _ => some (.done [])
  | .status _ w r n => some (.status w r n)
  | .workerJob _ _ _ _ => none
  | .stopJob _ _ => none

/-- Forgets the list of files of the end of an evaluation. -/
def forgetFiles : ToClient → ToClient
  | .done _ => .done []
  | m => m

/-- The files listed at the end of the evaluations. -/
def listedFiles (out : List ToClient) : List (FileUuid × FileStoreKey × Bool) :=
  out.flatMap fun
    | .done files => files
    | _ => []

/-! ## C29: proofs -/

theorem sentTo_send (c c' : ClientUuid) (b : Binder) (m : ToClient) :
    sentTo c (b.send c' m) = sentTo c b ++ if c' = c then [m] else [] := by
  unfold sentTo Binder.send
  by_cases h : c' = c <;> simp [h]

theorem sinceDone_append (ms : List Sched.Out) (m : Sched.Out) :
    sinceDone (ms ++ [m]) = match m with
      | .evaluationDone _ => []
      | m => sinceDone ms ++ [m] := by
  unfold sinceDone
  rw [List.reverse_append]
  cases m <;> simp

theorem lateFiles_append (a b : List Sched.Out) : lateFiles (a ++ b) = lateFiles a ++ lateFiles b :=
  List.filterMap_append

theorem listedFiles_append (a b : List ToClient) :
    listedFiles (a ++ b) = listedFiles a ++ listedFiles b := by
  unfold listedFiles; rw [List.flatMap_append]

/-- The invariant for a client that is connected. -/
structure BInv (c : ClientUuid) (ms : List Sched.Out) (b : Binder) : Prop where
  known : c ∈ b.clients
  pending : (b.readyFiles.get? c).getD [] = lateFiles (sinceDone ms)
  shape : (sentTo c b).map forgetFiles = ms.filterMap visible
  files : listedFiles (sentTo c b) ++ (b.readyFiles.get? c).getD [] = lateFiles ms

theorem binder_step {c : ClientUuid} {ms : List Sched.Out} {b : Binder} (h : BInv c ms b)
    (i : BinderIn) : BInv c (ms ++ messagesFor c [i]) (b.step i) := by
  obtain ⟨h1, h2, h3, h4⟩ := h
  cases i with
  | connect c' =>
    simp only [messagesFor, List.filterMap_cons, List.filterMap_nil, List.append_nil, Binder.step]
    exact ⟨List.mem_cons_of_mem _ h1, h2, h3, h4⟩
  | message m =>
    by_cases hr : recipient m = some c
    · have hm : messagesFor c [.message m] = [m] := by simp [messagesFor, hr]
      rw [hm]
      simp only [Binder.step, hr, h1, if_true]
      cases m with
      | started c' e w =>
        cases hr
        refine ⟨h1, ?_, ?_, ?_⟩
        · rw [sinceDone_append]; simp only [lateFiles_append]
          simpa [Binder.forward, Binder.send, lateFiles] using h2
        · rw [Binder.forward, sentTo_send]; simp [h3, visible, forgetFiles]
        · rw [Binder.forward, sentTo_send, listedFiles_append, lateFiles_append]
          simpa [Binder.send, lateFiles, listedFiles] using h4
      | done c' e r =>
        cases hr
        refine ⟨h1, ?_, ?_, ?_⟩
        · rw [sinceDone_append]; simp only [lateFiles_append]
          simpa [Binder.forward, Binder.send, lateFiles] using h2
        · rw [Binder.forward, sentTo_send]; simp [h3, visible, forgetFiles]
        · rw [Binder.forward, sentTo_send, listedFiles_append, lateFiles_append]
          simpa [Binder.send, lateFiles, listedFiles] using h4
      | skipped c' e =>
        cases hr
        refine ⟨h1, ?_, ?_, ?_⟩
        · rw [sinceDone_append]; simp only [lateFiles_append]
          simpa [Binder.forward, Binder.send, lateFiles] using h2
        · rw [Binder.forward, sentTo_send]; simp [h3, visible, forgetFiles]
        · rw [Binder.forward, sentTo_send, listedFiles_append, lateFiles_append]
          simpa [Binder.send, lateFiles, listedFiles] using h4
      | status c' w r n =>
        cases hr
        refine ⟨h1, ?_, ?_, ?_⟩
        · rw [sinceDone_append]; simp only [lateFiles_append]
          simpa [Binder.forward, Binder.send, lateFiles] using h2
        · rw [Binder.forward, sentTo_send]; simp [h3, visible, forgetFiles]
        · rw [Binder.forward, sentTo_send, listedFiles_append, lateFiles_append]
          simpa [Binder.send, lateFiles, listedFiles] using h4
      | fileReady c' f key ok urgent =>
        cases hr
        cases urgent with
        | true =>
          refine ⟨h1, ?_, ?_, ?_⟩
          · rw [sinceDone_append]; simp only [lateFiles_append]
            simpa [Binder.forward, Binder.send, lateFiles] using h2
          · simp only [Binder.forward, if_true]; rw [sentTo_send]; simp [h3, visible, forgetFiles]
          · simp only [Binder.forward, if_true]
            rw [sentTo_send, listedFiles_append, lateFiles_append]
            simpa [Binder.send, lateFiles, listedFiles] using h4
        | false =>
          refine ⟨h1, ?_, ?_, ?_⟩
          · rw [sinceDone_append]
            simp only [lateFiles_append, Binder.forward, Bool.false_eq_true, if_false]
            rw [AMap.get?_insert]
            simp [h2, lateFiles]
          · simp only [Binder.forward, Bool.false_eq_true, if_false]
            simpa [visible, sentTo] using h3
          · simp only [Binder.forward, Bool.false_eq_true, if_false]
            rw [AMap.get?_insert, lateFiles_append, ← h4]
            simp [lateFiles, sentTo]
      | evaluationDone c' =>
        cases hr
        refine ⟨h1, ?_, ?_, ?_⟩
        · rw [sinceDone_append]
          simp [Binder.forward, Binder.send, lateFiles]
        · rw [Binder.forward, sentTo_send]; simp [sentTo] at h3 ⊢; simp [h3, visible, forgetFiles]
        · rw [Binder.forward, sentTo_send, listedFiles_append, lateFiles_append, ← h4]
          simp [Binder.send, lateFiles, listedFiles, sentTo]
      | workerJob w c' g d => cases hr
      | stopJob w g => cases hr
    · have hm : messagesFor c [.message m] = [] := by simp [messagesFor, hr]
      rw [hm, List.append_nil]
      cases hr2 : recipient m with
      | none => simp only [Binder.step, hr2]; exact ⟨h1, h2, h3, h4⟩
      | some c' =>
        have hne : c' ≠ c := by intro e; rw [hr2, e] at hr; exact hr rfl
        simp only [Binder.step, hr2]
        split
        · have key : c ∈ (b.forward m).clients ∧ sentTo c (b.forward m) = sentTo c b ∧
              (b.forward m).readyFiles.get? c = b.readyFiles.get? c := by
            cases m with
            | started x e w => cases hr2; exact ⟨h1, by rw [Binder.forward, sentTo_send]; simp [hne], rfl⟩
            | done x e r => cases hr2; exact ⟨h1, by rw [Binder.forward, sentTo_send]; simp [hne], rfl⟩
            | skipped x e => cases hr2; exact ⟨h1, by rw [Binder.forward, sentTo_send]; simp [hne], rfl⟩
            | status x w r n => cases hr2; exact ⟨h1, by rw [Binder.forward, sentTo_send]; simp [hne], rfl⟩
            | fileReady x f key ok urgent =>
              cases hr2
              cases urgent with
              | true =>
                simp only [Binder.forward, if_true]
                exact ⟨h1, by rw [sentTo_send]; simp [hne], rfl⟩
              | false =>
                simp only [Binder.forward, Bool.false_eq_true, if_false]
                exact ⟨h1, rfl, by rw [AMap.get?_insert_ne _ _ (fun e => hne e.symm)]⟩
            | evaluationDone x =>
              cases hr2
              refine ⟨h1, ?_, ?_⟩
              · rw [Binder.forward, sentTo_send]; simp [hne, sentTo]
              · simp only [Binder.forward, Binder.send]
                rw [AMap.get?_erase_ne _ (fun e => hne e.symm)]
            | workerJob w x g d => cases hr2
            | stopJob w g => cases hr2
          obtain ⟨k1, k2, k3⟩ := key
          exact ⟨k1, by rw [k3]; exact h2, by rw [k2]; exact h3, by rw [k2, k3]; exact h4⟩
        · exact ⟨h1, h2, h3, h4⟩

theorem binder_run {c : ClientUuid} (ins : List BinderIn) : ∀ {ms : List Sched.Out} {b : Binder},
    BInv c ms b → BInv c (ms ++ messagesFor c ins) (b.run ins) := by
  induction ins with
  | nil => intro ms b h; simpa [messagesFor, Binder.run] using h
  | cons i ins ih =>
    intro ms b h
    have := ih (binder_step h i)
    have e : messagesFor c (i :: ins) = messagesFor c [i] ++ messagesFor c ins := by
      rw [messagesFor, messagesFor, messagesFor, ← List.filterMap_append]; rfl
    rw [e, ← List.append_assoc]
    exact this

/-- A client that just connected to a binder which knows nothing about it. -/
theorem binder_fresh (c : ClientUuid) (b : Binder) (h1 : b.readyFiles.get? c = none)
    (h2 : sentTo c b = []) : BInv c [] (b.step (.connect c)) := by
  refine ⟨by simp [Binder.step], ?_, ?_, ?_⟩
  · simp [Binder.step, h1, lateFiles, sinceDone]
  · have : sentTo c (b.step (.connect c)) = sentTo c b := rfl
    rw [this, h2]; rfl
  · have : sentTo c (b.step (.connect c)) = sentTo c b := rfl
    rw [this, h2]
    simp [Binder.step, h1, lateFiles, listedFiles]

/-- A client is sent, in order and immediately, every notification, every urgent file and every end
of an evaluation the scheduler has for it, and nothing else. -/
theorem forwarded_in_order (c : ClientUuid) (b : Binder) (h1 : b.readyFiles.get? c = none)
    (h2 : sentTo c b = []) (ins : List BinderIn) :
    (sentTo c (b.run (.connect c :: ins))).map forgetFiles =
      (messagesFor c ins).filterMap visible := by
  have := (binder_run ins (binder_fresh c b h1 h2)).shape
  rw [List.nil_append] at this
  exact this

/-- No file is lost, duplicated or reordered: at any moment the non-urgent files the scheduler
announced for a client are those listed at the ends of its evaluations followed by those announced
since the last end; so each end of an evaluation lists exactly the files announced since the
previous one. -/
theorem late_files_delivered (c : ClientUuid) (b : Binder) (h1 : b.readyFiles.get? c = none)
    (h2 : sentTo c b = []) (ins : List BinderIn) :
    listedFiles (sentTo c (b.run (.connect c :: ins))) ++
      lateFiles (sinceDone (messagesFor c ins)) = lateFiles (messagesFor c ins) := by
  have := binder_run ins (binder_fresh c b h1 h2)
  have h := this.files
  rw [this.pending, List.nil_append] at h
  exact h

/-- When an evaluation ends the client is told at once, with all the non-urgent files announced since
the previous end, in order. -/
theorem done_lists_files (c : ClientUuid) (b : Binder) (h1 : b.readyFiles.get? c = none)
    (h2 : sentTo c b = []) (ins : List BinderIn) :
    sentTo c (b.run (.connect c :: (ins ++ [.message (.evaluationDone c)]))) =
      sentTo c (b.run (.connect c :: ins)) ++
        [.done (lateFiles (sinceDone (messagesFor c ins)))] := by
  have := binder_run ins (binder_fresh c b h1 h2)
  rw [List.nil_append] at this
  have e : b.run (.connect c :: (ins ++ [.message (.evaluationDone c)])) =
      (b.run (.connect c :: ins)).step (.message (.evaluationDone c)) := by
    simp [Binder.run, List.foldl_append]
  have hk : c ∈ (b.run (.connect c :: ins)).clients := this.known
  have hp : ((b.run (.connect c :: ins)).readyFiles.get? c).getD [] = _ := this.pending
  rw [e, Binder.step]
  simp only [recipient, hk, if_true, Binder.forward]
  rw [sentTo_send, hp]
  simp [sentTo]

/-- Messages for a client that is not connected are dropped: nothing is sent to it. -/
theorem unknown_client_ignored (c : ClientUuid) (b : Binder) (h : c ∉ b.clients) (m : Sched.Out)
    (hm : recipient m = some c) : b.step (.message m) = b := by
  simp [Binder.step, hm, h]

/-- Two clients, an urgent file, two late ones. -/
def demoIns : List BinderIn :=
  [.connect 2, .message (.started 1 10 5), .message (.fileReady 1 3 ⟨"a"⟩ true false),
    .message (.fileReady 2 3 ⟨"x"⟩ true false), .message (.fileReady 1 4 ⟨"b"⟩ false true),
    .message (.fileReady 1 5 ⟨"c"⟩ false false), .message (.skipped 1 11),
    .message (.evaluationDone 1), .message (.fileReady 1 6 ⟨"d"⟩ true false)]

example : sentTo 1 (({} : Binder).run (.connect 1 :: demoIns)) =
    [.notifyStart 10 5, .provideFile 4 false ⟨"b"⟩, .notifySkip 11,
      .done [(3, ⟨"a"⟩, true), (5, ⟨"c"⟩, false)]] := rfl

example : lateFiles (sinceDone (messagesFor 1 demoIns)) = [(6, ⟨"d"⟩, true)] ∧
    lateFiles (messagesFor 1 demoIns) =
      [(3, ⟨"a"⟩, true), (5, ⟨"c"⟩, false), (6, ⟨"d"⟩, true)] := ⟨rfl, rfl⟩

/-! ## C47: the client manager -/

/-- The ends of the connection announced to the scheduler. -/
def isDisconnect : Sched.Event → Bool
  | .clientDisconnected _ => true
  | _ => false

/-- The invariant of a client manager. -/
structure MInv (m : Manager) : Prop where
  attached : m.attached = true → m.phase = .running ∧ m.toSched.all (fun e => !isDisconnect e) = true
  detached : m.attached = false → ∃ pre, m.toSched = pre ++ [.clientDisconnected m.client] ∧
    pre.all (fun e => !isDisconnect e) = true

theorem leave_inv {m : Manager} (h : MInv m) : MInv m.leave ∧ m.leave.attached = false := by
  unfold Manager.leave
  split
  · next ha =>
    exact ⟨⟨fun h => (by cases h), fun _ => ⟨m.toSched, rfl, (h.attached ha).2⟩⟩, rfl⟩
  · next ha =>
    have ha : m.attached = false := by simpa using ha
    exact ⟨⟨fun h => by (simp only at h; rw [ha] at h; cases h), fun _ => h.detached ha⟩, ha⟩

theorem tell_inv {m : Manager} (h : MInv m) (es : List Sched.Event)
    (hes : es.all (fun e => !isDisconnect e) = true) : MInv (m.tell es) := by
  unfold Manager.tell
  split
  · next ha =>
    obtain ⟨h1, h2⟩ := h.attached ha
    refine ⟨fun _ => ⟨h1, ?_⟩, fun hd => ?_⟩
    · simp only [List.all_append, h2, hes, Bool.and_self]
    · simp only at hd; rw [ha] at hd; cases hd
  · next ha =>
    have ha : m.attached = false := by simpa using ha
    exact ⟨fun hd => by (simp only at hd; rw [ha] at hd; cases hd), fun _ => h.detached ha⟩

theorem MInv.congr {m m' : Manager} (h : MInv m) (h1 : m'.attached = m.attached)
    (h2 : m'.phase = m.phase) (h3 : m'.toSched = m.toSched) (h4 : m'.client = m.client) :
    MInv m' := by
  refine ⟨fun ha => ?_, fun ha => ?_⟩
  · rw [h2, h3]; exact h.attached (h1 ▸ ha)
  · rw [h3, h4]; exact h.detached (h1 ▸ ha)

theorem handle_inv {m : Manager} (h : MInv m) (x : FromClient) : MInv (m.handle x) := by
  cases x with
  | evaluate dag cb =>
    simp only [Manager.handle]
    cases checkDag dag cb with
    | error e => exact (leave_inv (h.congr (m' := { m with
        toClient := m.toClient ++ [.error (some e)] }) rfl rfl rfl rfl)).1
    | ok _ =>
      apply tell_inv
      · exact h.congr rfl rfl rfl rfl
      · simp [isDisconnect]
  | provideFile u k =>
    simp only [Manager.handle]
    apply tell_inv
    · exact h.congr rfl rfl rfl rfl
    · rfl
  | askFile u k s =>
    simp only [Manager.handle]
    split
    · exact h.congr rfl rfl rfl rfl
    · exact h.congr rfl rfl rfl rfl
  | status =>
    simp only [Manager.handle]
    split
    · next ha =>
      obtain ⟨h1, h2⟩ := h.attached ha
      refine ⟨fun _ => ⟨h1, ?_⟩, fun hd => ?_⟩
      · simp only [List.all_append, h2, Bool.true_and]; rfl
      · simp only at hd; rw [ha] at hd; cases hd
    · exact h
  | stop =>
    simp only [Manager.handle]
    split
    · next ha =>
      obtain ⟨h1, h2⟩ := h.attached ha
      exact ⟨fun hd => (by cases hd), fun _ => ⟨m.toSched, rfl, h2⟩⟩
    · exact h

theorem run_inv (xs : List FromClient) : ∀ {m : Manager}, MInv m → MInv (m.run xs) := by
  induction xs with
  | nil => intro m h; exact h
  | cons x xs ih =>
    intro m h
    unfold Manager.run
    cases m.phase with
    | running => exact ih (handle_inv h x)
    | ended => exact h
    | failed => exact h

theorem start_inv (c : ClientUuid) (store : List FileStoreKey) :
    MInv { client := c, store := store } :=
  ⟨fun _ => ⟨rfl, rfl⟩, fun h => by cases h⟩

theorem handle_client (m : Manager) (x : FromClient) : (m.handle x).client = m.client := by
  cases x with
  | evaluate dag cb =>
    simp only [Manager.handle]
    cases checkDag dag cb with
    | error e => simp only [Manager.leave]; split <;> rfl
    | ok _ => simp only [Manager.tell]; split <;> rfl
  | provideFile u k => simp only [Manager.handle, Manager.tell]; split <;> rfl
  | askFile u k s => simp only [Manager.handle]; split <;> rfl
  | status => simp only [Manager.handle]; split <;> rfl
  | stop => simp only [Manager.handle]; split <;> rfl

theorem run_client (xs : List FromClient) : ∀ (m : Manager), (m.run xs).client = m.client := by
  induction xs with
  | nil => intro m; rfl
  | cons x xs ih =>
    intro m
    unfold Manager.run
    cases m.phase with
    | running => simp only; rw [ih, handle_client]
    | ended => rfl
    | failed => rfl

theorem ended_detached {m : Manager} (h : MInv m) (he : m.phase ≠ .running) :
    m.attached = false := by
  cases ha : m.attached with
  | false => rfl
  | true => exact absurd (h.attached ha).1 he

/-- Whatever the client sends, and however its manager ends, the scheduler is told exactly once that
the client is gone, after everything else the manager has to say. -/
theorem disconnect_told_once (c : ClientUuid) (store : List FileStoreKey) (xs : List FromClient) :
    ∃ pre, (Manager.life { client := c, store := store } xs).toSched =
      pre ++ [.clientDisconnected c] ∧ ∀ e ∈ pre, ∀ c', e ≠ .clientDisconnected c' := by
  have hi := run_inv xs (start_inv c store)
  have hc := run_client xs { client := c, store := store }
  have fin : ∀ m : Manager, MInv m → m.attached = false → m.client = c →
      ∃ pre, m.toSched = pre ++ [.clientDisconnected c] ∧
        ∀ e ∈ pre, ∀ c', e ≠ .clientDisconnected c' := by
    intro m hm ha hcl
    obtain ⟨pre, h1, h2⟩ := hm.detached ha
    refine ⟨pre, by rw [h1, hcl], ?_⟩
    intro e he c' hec
    have := List.all_eq_true.1 h2 e he
    subst hec
    simp [isDisconnect] at this
  unfold Manager.life
  cases hp : (Manager.run { client := c, store := store } xs).phase with
  | running =>
    simp only
    obtain ⟨h1, h2⟩ := leave_inv hi
    refine fin _ h1 h2 ?_
    unfold Manager.leave
    split <;> exact hc
  | ended => simp only; exact fin _ hi (ended_detached hi (by simp [hp])) hc
  | failed => simp only; exact fin _ hi (ended_detached hi (by simp [hp])) hc

/-- The DAGs evaluated by the scheduler have passed the validation. -/
theorem scheduler_gets_valid_dags (c : ClientUuid) (store : List FileStoreKey)
    (xs : List FromClient) (c' : ClientUuid) (dag : DagData) (cb : WatchSet)
    (h : Sched.Event.evaluateDag c' dag cb ∈
      (Manager.life { client := c, store := store } xs).toSched) :
    checkDag dag cb = .ok () := by
  have hstep : ∀ (m : Manager) (x : FromClient),
      (∀ c' dag cb, Sched.Event.evaluateDag c' dag cb ∈ m.toSched → checkDag dag cb = .ok ()) →
      ∀ c' dag cb, Sched.Event.evaluateDag c' dag cb ∈ (m.handle x).toSched →
        checkDag dag cb = .ok () := by
    intro m x hm c' dag cb hin
    cases x with
    | evaluate dag' cb' =>
      simp only [Manager.handle] at hin
      cases hcd : checkDag dag' cb' with
      | error e =>
        rw [hcd] at hin
        simp only [Manager.leave] at hin
        split at hin
        · simp only [List.mem_append, List.mem_singleton] at hin
          rcases hin with hin | hin
          · exact hm _ _ _ hin
          · cases hin
        · exact hm _ _ _ hin
      | ok u =>
        rw [hcd] at hin
        simp only [Manager.tell] at hin
        split at hin
        · simp only [List.mem_append, List.mem_cons, List.mem_map] at hin
          rcases hin with hin | hin | ⟨_, _, hin⟩
          · exact hm _ _ _ hin
          · cases hin; exact hcd
          · cases hin
        · exact hm _ _ _ hin
    | provideFile u k =>
      simp only [Manager.handle, Manager.tell] at hin
      split at hin
      · simp only [List.mem_append, List.mem_singleton] at hin
        rcases hin with hin | hin
        · exact hm _ _ _ hin
        · cases hin
      · exact hm _ _ _ hin
    | askFile u k s =>
      simp only [Manager.handle] at hin
      split at hin <;> exact hm _ _ _ hin
    | status =>
      simp only [Manager.handle] at hin
      split at hin
      · simp only [List.mem_append, List.mem_singleton] at hin
        rcases hin with hin | hin
        · exact hm _ _ _ hin
        · cases hin
      · exact hm _ _ _ hin
    | stop =>
      simp only [Manager.handle] at hin
      split at hin
      · simp only [List.mem_append, List.mem_singleton] at hin
        rcases hin with hin | hin
        · exact hm _ _ _ hin
        · cases hin
      · exact hm _ _ _ hin
  have hrun : ∀ (xs : List FromClient) (m : Manager),
      (∀ c' dag cb, Sched.Event.evaluateDag c' dag cb ∈ m.toSched → checkDag dag cb = .ok ()) →
      ∀ c' dag cb, Sched.Event.evaluateDag c' dag cb ∈ (m.run xs).toSched →
        checkDag dag cb = .ok () := by
    intro xs
    induction xs with
    | nil => intro m hm; exact hm
    | cons x xs ih =>
      intro m hm
      unfold Manager.run
      cases m.phase with
      | running => exact ih _ (hstep m x hm)
      | ended => exact hm
      | failed => exact hm
  have h0 := hrun xs { client := c, store := store } (by intro _ _ _ h; cases h)
  unfold Manager.life at h
  cases hp : (Manager.run { client := c, store := store } xs).phase with
  | running =>
    rw [hp] at h
    simp only [Manager.leave] at h
    split at h
    · simp only [List.mem_append, List.mem_singleton] at h
      rcases h with h | h
      · exact h0 _ _ _ h
      · cases h
    · exact h0 _ _ _ h
  | ended => rw [hp] at h; exact h0 _ _ _ h
  | failed => rw [hp] at h; exact h0 _ _ _ h

/-- A valid DAG is handed to the scheduler followed by its provided files that are in the store;
the client is asked for the others; each provided file is in exactly one of the two groups. -/
theorem evaluate_provided_files (m : Manager) (ha : m.attached = true) (dag : DagData)
    (cb : WatchSet) (hv : checkDag dag cb = .ok ()) :
    ∃ ready missing : List (FileUuid × ProvidedFile), (ready ++ missing).Perm dag.providedFiles ∧
      (∀ p ∈ ready, p.2.key ∈ m.store) ∧ (∀ p ∈ missing, p.2.key ∉ m.store) ∧
      (m.handle (.evaluate dag cb)).toSched = m.toSched ++ .evaluateDag m.client dag cb ::
        ready.map (fun p => .fileReady m.client p.1 p.2.key) ∧
      (m.handle (.evaluate dag cb)).toClient = m.toClient ++ missing.map (fun p => .askFile p.1) := by
  refine ⟨dag.providedFiles.filter (fun p => decide (p.2.key ∈ m.store)),
    dag.providedFiles.filter (fun p => decide (p.2.key ∉ m.store)), ?_, ?_, ?_, ?_, ?_⟩
  · have := List.filter_append_perm (fun p : FileUuid × ProvidedFile => decide (p.2.key ∈ m.store))
      dag.providedFiles
    simpa using this
  · intro p hp; simpa using (List.mem_filter.1 hp).2
  · intro p hp; simpa using (List.mem_filter.1 hp).2
  · simp only [Manager.handle, hv, Manager.tell, ha, if_true]
  · simp only [Manager.handle, hv, Manager.tell, ha, if_true]

/-- When the client provides an asked file the scheduler is told that it is ready. -/
theorem provided_file_forwarded (m : Manager) (ha : m.attached = true) (uuid : FileUuid)
    (key : FileStoreKey) :
    (m.handle (.provideFile uuid key)).toSched = m.toSched ++ [.fileReady m.client uuid key] ∧
      key ∈ (m.handle (.provideFile uuid key)).store := by
  simp [Manager.handle, Manager.tell, ha]

/-- A file of the store asked by the client is sent to it, with the same outcome. -/
theorem asked_file_sent (m : Manager) (uuid : FileUuid) (key : FileStoreKey) (success : Bool)
    (h : key ∈ m.store) :
    (m.handle (.askFile uuid key success)).toClient =
      m.toClient ++ [.provideFile uuid success key] := by
  simp [Manager.handle, h]

/-- As long as the client sends neither files nor DAGs after `Stop`, its manager does not fail and
in the end a local executor is told to exit.  (The full property, C47, has no such hypothesis.) -/
theorem local_executor_exits_partial (c : ClientUuid) (store : List FileStoreKey)
    (before after : List FromClient) (h : ∀ x ∈ before, x ≠ .stop)
    (h2 : ∀ x ∈ after, (∀ u k, x ≠ .provideFile u k) ∧ (∀ d cb, x ≠ .evaluate d cb)) :
    tellsExit false (Manager.life { client := c, store := store } (before ++ .stop :: after)) = true ∧
    tellsExit false (Manager.life { client := c, store := store } before) = true := by
  have hA : ∀ (xs : List FromClient) (m : Manager), m.phase ≠ .failed →
      (m.phase = .running → m.attached = true) →
      (∀ x ∈ xs, x ≠ .stop) →
      (m.run xs).phase ≠ .failed ∧ ((m.run xs).phase = .running → (m.run xs).attached = true) := by
    intro xs
    induction xs with
    | nil => intro m h1 h2 _; exact ⟨h1, h2⟩
    | cons x xs ih =>
      intro m h1 h2 hx
      unfold Manager.run
      cases hp : m.phase with
      | ended => simp only; exact ⟨h1, h2⟩
      | failed => exact absurd hp h1
      | running =>
        simp only
        have ha := h2 hp
        have : (m.handle x).phase ≠ .failed ∧
            ((m.handle x).phase = .running → (m.handle x).attached = true) := by
          cases x with
          | evaluate dag cb =>
            simp only [Manager.handle]
            cases checkDag dag cb with
            | error e => simp [Manager.leave, ha]
            | ok u => simp [Manager.tell, ha, hp]
          | provideFile u k => simp [Manager.handle, Manager.tell, ha, hp]
          | askFile u k s => simp only [Manager.handle]; split <;> simp [ha, hp]
          | status => simp [Manager.handle, ha, hp]
          | stop => exact absurd rfl (hx .stop (by simp))
        exact ih _ this.1 this.2 (fun x hx' => hx x (List.mem_cons_of_mem _ hx'))
  have hB : ∀ (xs : List FromClient) (m : Manager), m.phase ≠ .failed →
      (∀ x ∈ xs, (∀ u k, x ≠ .provideFile u k) ∧ (∀ d cb, x ≠ .evaluate d cb)) →
      (m.run xs).phase ≠ .failed := by
    intro xs
    induction xs with
    | nil => intro m h1 _; exact h1
    | cons x xs ih =>
      intro m h1 hx
      unfold Manager.run
      cases hp : m.phase with
      | ended => simp only; exact h1
      | failed => exact absurd hp h1
      | running =>
        simp only
        refine ih _ ?_ (fun x hx' => hx x (List.mem_cons_of_mem _ hx'))
        cases x with
        | evaluate dag cb => exact absurd rfl ((hx (.evaluate dag cb) (by simp)).2 dag cb)
        | provideFile u k => exact absurd rfl ((hx (.provideFile u k) (by simp)).1 u k)
        | askFile u k s => simp only [Manager.handle]; split <;> simp [hp]
        | status => simp only [Manager.handle]; split <;> simp [hp]
        | stop => simp only [Manager.handle]; split <;> simp [hp]
  have hlife : ∀ (m : Manager) (xs : List FromClient), (m.run xs).phase ≠ .failed →
      tellsExit false (m.life xs) = true := by
    intro m xs hne
    unfold Manager.life tellsExit
    cases hp : (m.run xs).phase with
    | running => simp only [Manager.leave]; split <;> rfl
    | ended => simp [hp]
    | failed => exact absurd hp hne
  have happ : ∀ (xs ys : List FromClient) (m : Manager),
      m.run (xs ++ ys) = (m.run xs).run ys := by
    intro xs
    induction xs with
    | nil => intro ys m; rfl
    | cons x xs ih =>
      intro ys m
      rw [List.cons_append]
      cases hp : m.phase with
      | running => simp only [Manager.run, hp]; exact ih ys _
      | ended => cases ys <;> simp [Manager.run, hp]
      | failed => cases ys <;> simp [Manager.run, hp]
  obtain ⟨a1, a2⟩ := hA before { client := c, store := store } (by simp) (by simp) h
  refine ⟨?_, hlife _ _ a1⟩
  refine hlife _ _ ?_
  rw [happ]
  generalize hm : Manager.run { client := c, store := store } before = m at *
  unfold Manager.run
  cases hp : m.phase with
  | ended => simp [hp]
  | failed => exact absurd hp a1
  | running =>
    simp only
    refine hB _ _ ?_ h2
    simp only [Manager.handle]; split <;> simp [hp]

/-- C47 fails: if the client is stopped (control-C) while it still has to answer to a request of a
file, its manager panics when the file arrives, the scheduler is never told to exit and a local
executor never terminates. -/
theorem stop_then_file_hangs_executor :
    ∃ (dag : DagData) (cb : WatchSet) (key : FileStoreKey), dag.Wf ∧ checkDag dag cb = .ok () ∧
      (dag.providedFiles.get? 0).map (·.key) = some key ∧
      (Manager.run { client := 1, store := [] } [.evaluate dag cb]).toClient = [.askFile 0] ∧
      tellsExit false (Manager.life { client := 1, store := [] }
        [.evaluate dag cb, .stop, .provideFile 0 key]) = false :=
  ⟨sampleDag, {}, ⟨"ab"⟩, sampleDag_wf, rfl, rfl, rfl, rfl⟩

/-- A concrete life: the provided file is missing, it is asked, provided, and the client leaves. -/
example : (Manager.life { client := 1, store := [] }
      [.evaluate sampleDag { files := [2] }, .status, .provideFile 0 ⟨"ab"⟩, .stop, .status]).toSched =
    [.evaluateDag 1 sampleDag { files := [2] }, .status 1, .fileReady 1 0 ⟨"ab"⟩,
      .clientDisconnected 1] := rfl

end TM.Exec
