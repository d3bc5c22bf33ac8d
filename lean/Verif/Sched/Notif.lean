import Verif.Sched.LemmasState
/-! Counting the notifications. -/

namespace TM.Sched
open TM.DagSpec

/-! ### The quantities -/

/-- The sum of a quantity over the trace. -/
def total (φ : Obs → Nat) (log : List Obs) : Nat := (log.map φ).sum

@[simp] theorem total_nil (φ) : total φ [] = 0 := rfl
@[simp] theorem total_cons (φ o log) : total φ (o :: log) = φ o + total φ log := by simp [total]
@[simp] theorem total_append (φ a b) : total φ (a ++ b) = total φ a + total φ b := by
  simp [total, List.sum_append]

theorem total_zero {φ : Obs → Nat} {l : List Obs} (h : ∀ o ∈ l, φ o = 0) : total φ l = 0 := by
  induction l with
  | nil => rfl
  | cons a l ih => simp [h a (by simp), ih (fun o ho => h o (by simp [ho]))]

/-- "Execution `e` is done" messages to `c`. -/
def nDone (c : ClientUuid) (e : ExecutionUuid) : Obs → Nat
  | .out (.done c' e' _) => if c' = c ∧ e' = e then 1 else 0
  | _ => 0
/-- Completions of execution `e`. -/
def sDone (c : ClientUuid) (e : ExecutionUuid) : Obs → Nat
  | .completed c' g rs _ _ => if c' = c then (g.executions.zip rs).countP (fun p => decide (p.1.uuid = e)) else 0
  | _ => 0
/-- "Execution `e` is skipped" messages to `c`. -/
def nSkip (c : ClientUuid) (e : ExecutionUuid) : Obs → Nat
  | .out (.skipped c' e') => if c' = c ∧ e' = e then 1 else 0
  | _ => 0
def sSkip (c : ClientUuid) (e : ExecutionUuid) : Obs → Nat
  | .skipped c' g => if c' = c then g.executions.countP (fun x => decide (x.uuid = e)) else 0
  | _ => 0
/-- "Execution `e` started" messages to `c`. -/
def nStart (c : ClientUuid) (e : ExecutionUuid) : Obs → Nat
  | .out (.started c' e' _) => if c' = c ∧ e' = e then 1 else 0
  | _ => 0
def sStart (c : ClientUuid) (e : ExecutionUuid) : Obs → Nat
  | .out (.workerJob _ c' g _) => if c' = c then g.executions.countP (fun x => decide (x.uuid = e)) else 0
  | _ => 0
/-- "File `f` is ready and was produced successfully" messages to `c`. -/
def nOk (c : ClientUuid) (f : FileUuid) : Obs → Nat
  | .out (.fileReady c' f' _ true _) => if c' = c ∧ f' = f then 1 else 0
  | _ => 0
/-- File `f` is provided, or produced by a group that succeeds. -/
def sOk (c : ClientUuid) (f : FileUuid) : Obs → Nat
  | .ev (.fileReady c' f' _) => if c' = c ∧ f' = f then 1 else 0
  | .completed c' g rs _ _ =>
      if c' = c ∧ rs.all (fun r => r.status.isSuccess) = true then g.outs.count f else 0
  | _ => 0
/-- "File `f` is ready, and was produced by a group that failed" messages to `c`. -/
def nKo (c : ClientUuid) (f : FileUuid) : Obs → Nat
  | .out (.fileReady c' f' _ false _) => if c' = c ∧ f' = f then 1 else 0
  | _ => 0
def sKo (c : ClientUuid) (f : FileUuid) : Obs → Nat
  | .completed c' g rs _ _ =>
      if c' = c ∧ rs.all (fun r => r.status.isSuccess) = false then g.outs.count f else 0
  | .skipped c' g => if c' = c then g.outs.count f else 0
  | _ => 0

/-! ### Executions -/

/-- The six quantities over executions, without effect. -/
def Inert : Obs → Prop
  | .out (.done ..) | .out (.skipped ..) | .out (.started ..) | .out (.workerJob ..) => False
  | .completed .. | .skipped .. | .ev (.evaluateDag ..) => False
  | _ => True

theorem Inert.zero {o : Obs} (h : Inert o) (c e) : nDone c e o = 0 ∧ sDone c e o = 0 ∧
    nSkip c e o = 0 ∧ sSkip c e o = 0 ∧ nStart c e o = 0 ∧ sStart c e o = 0 := by
  cases o with
  | ev x => cases x <;> simp [nDone, sDone, nSkip, sSkip, nStart, sStart]
  | out x => cases x <;> simp_all [nDone, sDone, nSkip, sSkip, nStart, sStart, Inert]
  | completed => exact h.elim
  | skipped => exact h.elim
  | _ => simp [nDone, sDone, nSkip, sSkip, nStart, sStart]

structure NE (log : List Obs) (c : ClientUuid) (cb : WatchSet) (e : ExecutionUuid) : Prop where
  done : total (nDone c e) log = if e ∈ cb.executions then total (sDone c e) log else 0
  skip : total (nSkip c e) log = if e ∈ cb.executions then total (sSkip c e) log else 0
  start : total (nStart c e) log = if e ∈ cb.executions then total (sStart c e) log else 0

def NotifE (log : List Obs) : Prop := ∀ c dag cb, Asked log c dag cb → ∀ e, NE log c cb e

theorem NotifE.inert {log l : List Obs} (h : NotifE log) (hl : ∀ o ∈ l, Inert o) :
    NotifE (l ++ log) := by
  intro c dag cb ha e
  have ha' : Asked log c dag cb := by
    rcases List.mem_append.1 ha with h1 | h1
    · exact (hl _ h1).elim
    · exact h1
  obtain ⟨h1, h2, h3⟩ := h c dag cb ha' e
  have z : ∀ o ∈ l, _ := fun o ho => (hl o ho).zero c e
  refine ⟨?_, ?_, ?_⟩ <;> simp only [total_append]
  · rw [total_zero (fun o ho => (z o ho).1), total_zero (fun o ho => (z o ho).2.1), h1]; simp
  · rw [total_zero (fun o ho => (z o ho).2.2.1), total_zero (fun o ho => (z o ho).2.2.2.1), h2]; simp
  · rw [total_zero (fun o ho => (z o ho).2.2.2.2.1), total_zero (fun o ho => (z o ho).2.2.2.2.2), h3]; simp

/-- Entries about a client come after its request. -/
theorem Hist.unseen {log : List Obs} (h : Hist log) {c} (hs : ¬ Seen log c) (e f) : ∀ o ∈ log,
    nDone c e o = 0 ∧ sDone c e o = 0 ∧ nSkip c e o = 0 ∧ sSkip c e o = 0 ∧ nStart c e o = 0 ∧
    sStart c e o = 0 ∧ nOk c f o = 0 ∧ sOk c f o = 0 ∧ nKo c f o = 0 ∧ sKo c f o = 0 := by
  intro o ho
  obtain ⟨post, pre, rfl, h1⟩ := h.mem ho
  have key : Connected c pre = true → False := fun hc =>
    hs (seen_mono (by intro x hx; simp [hx]) (connected_seen hc))
  cases o with
  | ev x =>
    cases x with
    | fileReady c' f' k =>
      simp only [nDone, sDone, nSkip, sSkip, nStart, sStart, nOk, sOk, nKo, sKo, true_and]
      refine ⟨?_, trivial⟩
      rw [if_neg]
      rintro ⟨rfl, _⟩
      obtain ⟨⟨dag, cb, h2, _⟩, _⟩ := h1
      exact hs ⟨dag, cb, by unfold Asked at h2; simp [h2]⟩
    | _ => simp [nDone, sDone, nSkip, sSkip, nStart, sStart, nOk, sOk, nKo, sKo]
  | out x =>
    have : ∀ c', c' = c → Connected c' pre = true → False := by rintro _ rfl; exact key
    cases x with
    | started c' e' w => have := this c'; simp_all [nDone, sDone, nSkip, sSkip, nStart, sStart, nOk, sOk, nKo, sKo, HistOk]; grind
    | done c' e' r => have := this c'; simp_all [nDone, sDone, nSkip, sSkip, nStart, sStart, nOk, sOk, nKo, sKo, HistOk]; grind
    | skipped c' e' => have := this c'; simp_all [nDone, sDone, nSkip, sSkip, nStart, sStart, nOk, sOk, nKo, sKo, HistOk]; grind
    | fileReady c' f' k s u =>
      have h2 : Connected c' pre = true := h1.1.1
      have h3 : c' ≠ c := fun h => this c' h h2
      cases s <;> simp [nDone, sDone, nSkip, sSkip, nStart, sStart, nOk, sOk, nKo, sKo, h3]
    | workerJob w c' g k =>
      have h2 : Connected c' pre = true := h1.1.1
      have h3 : c' ≠ c := fun h => this c' h h2
      simp [nDone, sDone, nSkip, sSkip, nStart, sStart, nOk, sOk, nKo, sKo, h3]
    | _ => simp [nDone, sDone, nSkip, sSkip, nStart, sStart, nOk, sOk, nKo, sKo]
  | completed c' g rs os b =>
    have h2 : Connected c' pre = true := h1.1.1
    have h3 : c' ≠ c := by rintro rfl; exact key h2
    simp [nDone, sDone, nSkip, sSkip, nStart, sStart, nOk, sOk, nKo, sKo, h3]
  | skipped c' g =>
    have h2 : Connected c' pre = true := h1.1.1
    have h3 : c' ≠ c := by rintro rfl; exact key h2
    simp [nDone, sDone, nSkip, sSkip, nStart, sStart, nOk, sOk, nKo, sKo, h3]
  | _ => simp [nDone, sDone, nSkip, sSkip, nStart, sStart, nOk, sOk, nKo, sKo]

theorem total_outs (φ : Obs → Nat) (os : List Out) :
    total φ ((os.map Obs.out).reverse) = (os.map (fun o => φ (.out o))).sum := by
  induction os with
  | nil => rfl
  | cons a l ih =>
    simp only [List.map_cons, List.reverse_cons, total_append, ih, total_cons, total_nil,
      List.sum_cons]
    omega

theorem doneMessages_count (c c' : ClientUuid) (watched : List ExecutionUuid) (e : ExecutionUuid) :
    ∀ (es : List Execution) (rs : List ExecutionResult),
    ((doneMessages c' watched es rs).map (fun o => nDone c e (.out o))).sum =
      if c' = c ∧ e ∈ watched then (es.zip rs).countP (fun p => decide (p.1.uuid = e)) else 0 := by
  intro es rs
  unfold doneMessages
  induction es.zip rs with
  | nil => simp
  | cons p l ih =>
    simp only [List.filter_cons]
    by_cases hp : p.1.uuid ∈ watched
    · simp only [hp, decide_true, if_true, List.map_cons, List.sum_cons, ih, List.countP_cons]
      by_cases hc : c' = c ∧ e ∈ watched
      · simp only [hc, and_self, if_true, nDone, true_and, decide_eq_true_eq]; omega
      · rw [if_neg hc, if_neg hc]
        simp only [nDone]
        rw [if_neg]
        rintro ⟨h1, rfl⟩
        exact hc ⟨h1, hp⟩
    · simp only [hp, decide_false, Bool.false_eq_true, if_false, ih, List.countP_cons]
      by_cases hc : c' = c ∧ e ∈ watched
      · rw [if_pos hc, if_pos hc]
        have : p.1.uuid ≠ e := by rintro rfl; exact hp hc.2
        simp [this]
      · rw [if_neg hc, if_neg hc]

theorem watched_count {φ : ExecutionUuid → Out} {ψ : Obs → Nat} {P : Prop} [Decidable P]
    {e : ExecutionUuid}
    (h : ∀ x, ψ (.out (φ x)) = if P ∧ x = e then 1 else 0) (watched : List ExecutionUuid)
    (es : List Execution) :
    ((((es.map (·.uuid)).filter (fun x => decide (x ∈ watched))).map φ).map
      (fun o => ψ (.out o))).sum =
      if P ∧ e ∈ watched then es.countP (fun x => decide (x.uuid = e)) else 0 := by
  induction es with
  | nil => simp
  | cons p l ih =>
    simp only [List.map_cons, List.filter_cons]
    by_cases hp : p.uuid ∈ watched
    · simp only [hp, decide_true, if_true, List.map_cons, List.sum_cons, ih, List.countP_cons, h]
      by_cases hc : P ∧ e ∈ watched
      · simp only [hc, and_self, if_true, true_and, decide_eq_true_eq]; omega
      · rw [if_neg hc, if_neg hc, if_neg]
        rintro ⟨h1, rfl⟩
        exact hc ⟨h1, hp⟩
    · simp only [hp, decide_false, Bool.false_eq_true, if_false, ih, List.countP_cons]
      by_cases hc : P ∧ e ∈ watched
      · rw [if_pos hc, if_pos hc]
        have : p.uuid ≠ e := by rintro rfl; exact hp hc.2
        simp [this]
      · rw [if_neg hc, if_neg hc]

theorem NotifE.add {log l : List Obs} (h : NotifE log)
    (hn : ∀ c dag cb, Obs.ev (.evaluateDag c dag cb) ∉ l)
    (hl : ∀ c dag cb, Asked log c dag cb → ∀ e, NE l c cb e) : NotifE (l ++ log) := by
  intro c dag cb ha e
  have ha' : Asked log c dag cb := by
    rcases List.mem_append.1 ha with h1 | h1
    · exact (hn _ _ _ h1).elim
    · exact h1
  obtain ⟨h1, h2, h3⟩ := h c dag cb ha' e
  obtain ⟨k1, k2, k3⟩ := hl c dag cb ha' e
  refine ⟨?_, ?_, ?_⟩ <;> simp only [total_append]
  · rw [h1, k1]; split <;> rfl
  · rw [h2, k2]; split <;> rfl
  · rw [h3, k3]; split <;> rfl

/-- Messages without effect on the quantities over executions. -/
theorem inert_send (cl c f s) : ∀ o ∈ ((sendMsgs cl c f s).map Obs.out).reverse, Inert o := by
  intro o ho
  unfold sendMsgs at ho
  split at ho
  · split at ho
    · simp at ho
    · simp at ho; subst ho; trivial
  · simp at ho

theorem total_append_outs (φ : Obs → Nat) (os : List Out) (log : List Obs) :
    total φ ((os.map Obs.out).reverse ++ log) = (os.map (fun o => φ (.out o))).sum + total φ log := by
  rw [total_append, total_outs]

theorem sum_zero {α : Type} {φ : α → Nat} {l : List α} (h : ∀ o ∈ l, φ o = 0) :
    (l.map φ).sum = 0 := by
  induction l with
  | nil => rfl
  | cons a l ih => simp [h a (by simp), ih (fun o ho => h o (by simp [ho]))]

theorem mem_doneMessages {c w es rs o} (h : o ∈ doneMessages c w es rs) : ∃ e r, o = .done c e r := by
  unfold doneMessages at h
  simp at h
  obtain ⟨a, b, _, rfl⟩ := h
  exact ⟨_, _, rfl⟩

theorem mem_skipMsgs {cl c g o} (h : o ∈ skipMsgs cl c g) : ∃ e, o = .skipped c e := by
  unfold skipMsgs at h
  simp at h
  obtain ⟨a, _, rfl⟩ := h
  exact ⟨_, rfl⟩

theorem mem_startMsgs {cl c w g o} (h : o ∈ startMsgs cl c w g) : ∃ e, o = .started c e w := by
  unfold startMsgs at h
  simp at h
  obtain ⟨a, _, rfl⟩ := h
  exact ⟨_, rfl⟩

theorem notifE_task {st st' : St} {t : Task} {ch : Choice}
    (hI : Inv { st with stack := t :: st.stack }) (a : Aux { st with stack := t :: st.stack })
    (hs : TaskStep st t ch st') (h : NotifE st.log) : NotifE st'.log := by
  have cbs : ∀ {c cl dag cb}, st.clients.get? c = some cl → Asked st.log c dag cb →
      cb = cl.callbacks := fun h1 h2 => (a.hist.asked_unique (hI.client _ _ h1).evald h2).2
  have one : ∀ {o}, Inert o → NotifE (o :: st.log) := fun {o} ho =>
    h.inert (l := [o]) (by intro x hx; simp at hx; subst hx; exact ho)
  cases hs with
  | fileSuccessNone c f ch cl hc hi => exact h.inert (inert_send _ _ _ _)
  | fileSuccessSome c f ch cl us hc hi => exact h.inert (inert_send _ _ _ _)
  | fileFailedNone c f ch cl hc hi => exact h.inert (inert_send _ _ _ _)
  | fileFailedSome c f ch cl us hc hi => exact h.inert (inert_send _ _ _ _)
  | cachedMiss e rest hits ch cl g hc hn hg hi => exact one trivial
  | cachedHit e hit rest hits ch cl g hc hn hg hi => exact one trivial
  | assignEnd ws ch hw => exact one trivial
  | checkDone c ch cl hc hd => exact one trivial
  | skipOne c f failed ch u us cl g fs hc hm hg =>
    show NotifE (((skipMsgs cl c g).map Obs.out).reverse ++ ([.skipped c g] ++ st.log))
    rw [← List.append_assoc]
    refine h.add ?_ ?_
    · intro c' dag cb hm
      simp at hm
    · intro c' dag cb ha e
      have hcb : c = c' → cb = cl.callbacks := by rintro rfl; exact cbs hc ha
      refine ⟨?_, ?_, ?_⟩ <;> simp only [total_append_outs, total_cons, total_nil]
      · rw [sum_zero (fun o ho => by obtain ⟨_, rfl⟩ := mem_skipMsgs ho; rfl)]
        simp [nDone, sDone, total_outs]
        intro _
        rw [sum_zero (fun o ho => by obtain ⟨_, rfl⟩ := mem_skipMsgs ho; rfl)]
      · rw [sum_zero (φ := fun o => sSkip c' e (.out o)) (fun o ho => by obtain ⟨_, rfl⟩ := mem_skipMsgs ho; rfl)]
        have := watched_count (φ := Out.skipped c) (ψ := nSkip c' e) (P := c = c') (e := e)
          (by intro x; rfl) cl.callbacks.executions g.executions
        unfold skipMsgs
        rw [this]
        simp only [nSkip, sSkip]
        by_cases hc' : c = c'
        · simp [hc', hcb hc']
        · simp [hc']
      · rw [sum_zero (fun o ho => by obtain ⟨_, rfl⟩ := mem_skipMsgs ho; rfl)]
        rw [sum_zero (fun o ho => by obtain ⟨_, rfl⟩ := mem_skipMsgs ho; rfl)]
        simp [nStart, sStart]
  | assignJob w ws ch e0 ready cl g keys hw hp hc hg hk =>
    show NotifE (((startMsgs cl e0.client w g).map Obs.out).reverse ++
      ([.out (.workerJob w e0.client g keys)] ++ st.log))
    rw [← List.append_assoc]
    refine h.add ?_ ?_
    · intro c' dag cb hm
      simp at hm
    · intro c' dag cb ha e
      have hcb : e0.client = c' → cb = cl.callbacks := by rintro rfl; exact cbs hc ha
      refine ⟨?_, ?_, ?_⟩ <;> simp only [total_append_outs, total_cons, total_nil]
      · rw [sum_zero (fun o ho => by obtain ⟨_, rfl⟩ := mem_startMsgs ho; rfl)]
        rw [sum_zero (fun o ho => by obtain ⟨_, rfl⟩ := mem_startMsgs ho; rfl)]
        simp [nDone, sDone]
      · rw [sum_zero (fun o ho => by obtain ⟨_, rfl⟩ := mem_startMsgs ho; rfl)]
        rw [sum_zero (fun o ho => by obtain ⟨_, rfl⟩ := mem_startMsgs ho; rfl)]
        simp [nSkip, sSkip]
      · rw [sum_zero (φ := fun o => sStart c' e (.out o)) (fun o ho => by obtain ⟨_, rfl⟩ := mem_startMsgs ho; rfl)]
        have := watched_count (φ := fun x => Out.started e0.client x w) (ψ := nStart c' e)
          (P := e0.client = c') (e := e)
          (by intro x; rfl) cl.callbacks.executions g.executions
        unfold startMsgs
        rw [this]
        simp only [nStart, sStart]
        by_cases hc' : e0.client = c'
        · simp [hc', hcb hc']
        · simp [hc']
  | completed c g rs os b ch cl extra hc he hx =>
    show NotifE (extra ++ (((doneMessages c cl.callbacks.executions g.executions rs).map
      Obs.out).reverse ++ ([.completed c g rs os b] ++ st.log)))
    rw [← List.append_assoc _ _ st.log]
    refine NotifE.inert (h.add ?_ ?_) ?_
    · intro c' dag cb hm
      simp at hm
    · intro c' dag cb ha e
      have hcb : c = c' → cb = cl.callbacks := by rintro rfl; exact cbs hc ha
      refine ⟨?_, ?_, ?_⟩ <;> simp only [total_append_outs, total_cons, total_nil]
      · rw [sum_zero (φ := fun o => sDone c' e (.out o)) (fun o ho => by obtain ⟨_, _, rfl⟩ := mem_doneMessages ho; rfl)]
        rw [doneMessages_count]
        simp only [nDone, sDone]
        by_cases hc' : c = c'
        · simp [hc', hcb hc']
        · simp [hc']
      · rw [sum_zero (fun o ho => by obtain ⟨_, _, rfl⟩ := mem_doneMessages ho; rfl)]
        rw [sum_zero (fun o ho => by obtain ⟨_, _, rfl⟩ := mem_doneMessages ho; rfl)]
        simp [nSkip, sSkip]
      · rw [sum_zero (fun o ho => by obtain ⟨_, _, rfl⟩ := mem_doneMessages ho; rfl)]
        rw [sum_zero (fun o ho => by obtain ⟨_, _, rfl⟩ := mem_doneMessages ho; rfl)]
        simp [nStart, sStart]
    · intro o ho
      rcases he with rfl | rfl
      · cases ho
      · simp at ho; subst ho; trivial
  | _ => exact h

theorem disconnect_log (st : St) (c : ClientUuid) : ∃ l,
    (handleClientDisconnected st c).log = l ++ st.log ∧
    (∀ o ∈ l, (∃ c, o = .out (.evaluationDone c)) ∨ ∃ w u, o = .out (.stopJob w u)) := by
  unfold handleClientDisconnected
  have : ∀ (s : St) (ps : List (WorkerUuid × GroupUuid)),
      ∀ o ∈ ((ps.map (fun p => Out.stopJob p.1 p.2)).map Obs.out).reverse,
        (∃ c, o = .out (.evaluationDone c)) ∨ ∃ w u, o = .out (.stopJob w u) := by
    intro _ ps o ho
    simp at ho
    obtain ⟨a, b, _, rfl⟩ := ho
    exact Or.inr ⟨_, _, rfl⟩
  cases st.clients.get? c with
  | none => exact ⟨_, rfl, this st _⟩
  | some cl =>
    simp only
    split
    · exact ⟨_, rfl, this st _⟩
    · refine ⟨(((jobsOf c st.workers).map (fun p => Out.stopJob p.1 p.2)).map Obs.out).reverse ++
        [.out (.evaluationDone c)], ?_, ?_⟩
      · simp [St.emitAll, St.emit, St.obs]
      · intro o ho
        rcases List.mem_append.1 ho with ho | ho
        · exact this st _ o ho
        · simp at ho; exact Or.inl ⟨c, ho⟩

theorem notifE_event {st st' : St} {e : Event} (a' : Aux st')
    (hs : EventStep (st.obs (.ev e)) e st') (h : NotifE st.log) : NotifE st'.log := by
  have one : ∀ {o}, Inert o → NotifE (o :: st.log) := fun {o} ho =>
    h.inert (l := [o]) (by intro x hx; simp at hx; subst hx; exact ho)
  cases hs with
  | evaluateDag c dag cb =>
    have hh : Hist (.ev (.evaluateDag c dag cb) :: st.log) := a'.hist
    have hns : ¬ Seen st.log c := hh.1.2.2
    show NotifE (.ev (.evaluateDag c dag cb) :: st.log)
    intro c' dag' cb' ha e
    rcases List.mem_cons.1 ha with ha | ha
    · cases ha
      have z := fun o ho => hh.2.unseen hns e 0 o ho
      constructor <;> simp only [total_cons, nDone, sDone, nSkip, sSkip, nStart, sStart]
      · rw [total_zero (fun o ho => (z o ho).1), total_zero (fun o ho => (z o ho).2.1)]; simp
      · rw [total_zero (fun o ho => (z o ho).2.2.1), total_zero (fun o ho => (z o ho).2.2.2.1)]; simp
      · rw [total_zero (fun o ho => (z o ho).2.2.2.2.1), total_zero (fun o ho => (z o ho).2.2.2.2.2.1)]
        simp
    · obtain ⟨h1, h2, h3⟩ := h c' dag' cb' ha e
      constructor <;> simp only [total_cons, nDone, sDone, nSkip, sSkip, nStart, sStart, Nat.zero_add]
      · exact h1
      · exact h2
      · exact h3
  | clientDisconnected c =>
    obtain ⟨l, hl, hi⟩ := disconnect_log (st.obs (.ev (.clientDisconnected c))) c
    rw [hl]
    refine NotifE.inert (one (o := .ev (.clientDisconnected c)) trivial) ?_
    intro o ho
    rcases hi o ho with ⟨_, rfl⟩ | ⟨_, _, rfl⟩ <;> trivial
  | status c ws hws =>
    exact NotifE.inert (l := [_]) (one (o := .ev (.status c)) trivial)
      (by intro x hx; simp at hx; subst hx; trivial)
  | _ => exact one trivial

theorem reachable_notifE {st : St} (h : Reachable st) : NotifE st.log := by
  induction h with
  | init => intro c dag cb ha; cases ha
  | step hr hs ih =>
    have a' := reachable_aux (hr.step hs)
    cases hs with
    | event e hst hok hh => exact notifE_event a' (eventStep_of_handle hh) ih
    | task t rest ch hst hok hh =>
      have hI := reachable_inv hr
      have a := reachable_aux hr
      rename_i st _ 
      obtain ⟨ready, clients, workers, stack, log⟩ := st
      simp only at hst
      subst hst
      exact notifE_task (st := ⟨ready, clients, workers, rest, log⟩) hI a (taskStep_of_run hh) ih

end TM.Sched
