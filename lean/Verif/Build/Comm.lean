import Verif.Build.Evaluate
/-!
# Evaluating a solution of a communication task
-/
namespace TM.Build
open TM DagSpec

/-- The FIFOs of the processes, one after the other. -/
def fifoList (fifos : List (FifoUuid × FifoUuid)) : List FifoUuid :=
  fifos.flatMap (fun p => [p.1, p.2])

theorem newFifos_spec {n : Nat} : ∀ {ev ev' : Eval} {fifos : List (FifoUuid × FifoUuid)},
    newFifos n ev = .ok (fifos, ev') →
    fifos.length = n ∧ (fifoList fifos).Nodup ∧
    (∀ f ∈ fifoList fifos, ev.next ≤ f) ∧ ∃ m, ev.next ≤ m ∧ ev' = { ev with next := m } := by
  induction n with
  | zero =>
    intro ev ev' fifos hr
    simp only [newFifos, pure_ok] at hr
    obtain ⟨rfl, rfl⟩ := hr
    exact ⟨rfl, by simp [fifoList], by simp [fifoList], _, Nat.le_refl _, rfl⟩
  | succ n ih =>
    intro ev ev' fifos hr
    simp only [newFifos, bind_ok, fresh_ok, pure_ok] at hr
    obtain ⟨a, _, ⟨rfl, rfl⟩, b, _, ⟨rfl, rfl⟩, rest, ev3, h3, rfl, rfl⟩ := hr
    obtain ⟨h1, h2, h3, m, h4, h5⟩ := ih h3
    have h4 : ev.next + 1 + 1 ≤ m := h4
    have h3 : ∀ f ∈ fifoList rest, ev.next + 1 + 1 ≤ f := h3
    refine ⟨by simp [h1], ?_, ?_, m, Nat.le_trans (Nat.le_add_right _ 2) h4, by rw [h5]⟩
    · simp only [fifoList, List.flatMap_cons, List.cons_append, List.nil_append, List.nodup_cons,
        List.mem_cons, not_or]
      refine ⟨⟨by simp, fun hm => ?_⟩, fun hm => ?_, h2⟩
      · exact Nat.not_succ_le_self _ (Nat.le_trans (Nat.le_succ _) (h3 _ hm))
      · exact Nat.not_succ_le_self _ (h3 _ hm)
    · intro f hf
      simp only [fifoList, List.flatMap_cons, List.cons_append, List.nil_append,
        List.mem_cons] at hf
      rcases hf with rfl | rfl | hf
      · exact Nat.le_refl _
      · exact Nat.le_succ _
      · exact Nat.le_trans (Nat.le_add_right _ 2) (h3 _ hf)

/-- The arguments of process `i` of a solution, communication.rs:115-124. -/
def processArgs (io : UserIo) (n i : Nat) (p : FifoUuid × FifoUuid) : List String :=
  (match io with
    | .fifoIo => [fifoPath p.1, fifoPath p.2]
    | .stdIo => []) ++ (if n > 1 then [toString i] else [])

/-- `e` is process `i` of the solution, and talks on the FIFOs `p`. -/
structure ProcOk (c : Ctx) (ev : Eval) (task : Task) (st tc sol : Nat) (src : Src) (io : UserIo)
    (n sender i : Nat) (p : FifoUuid × FifoUuid) (e : Execution) : Prop where
  run : RunOf c ev src (processArgs io n i p) [] e
  stdin : e.stdin = none
  stdinPath : e.stdinRedirectPath = if io = .stdIo then some (fifoPath p.1) else none
  stdoutPath : e.stdoutRedirectPath = if io = .stdIo then some (fifoPath p.2) else none
  limits : e.limits = solutionLimits task (src.lang.limits defaultLimits)
  report : (e.uuid, .report (.evaluation st tc sol i n)) ∈ ev.handlers
  outcome : (e.uuid, .processOutcome sender) ∈ ev.handlers
  ranked : Ranked e "evaluation" (EVALUATION_PRIORITY - tc)

theorem ProcOk.mono {c : Ctx} {a b : Eval} {task : Task} {st tc sol : Nat} {src : Src}
    {io : UserIo} {n sender i : Nat} {p : FifoUuid × FifoUuid} {e : Execution}
    (h : ProcOk c a task st tc sol src io n sender i p e) (x : Ext c.G a b) :
    ProcOk c b task st tc sol src io n sender i p e :=
  ⟨h.run.mono x, h.stdin, h.stdinPath, h.stdoutPath, h.limits, x.mem_handlers h.report,
   x.mem_handlers h.outcome, h.ranked⟩

theorem ProcOk.config {c : Ctx} {a : Eval} {task : Task} {st tc sol : Nat} {src : Src}
    {io : UserIo} {n sender i : Nat} {p : FifoUuid × FifoUuid} {e : Execution}
    (h : ProcOk c a task st tc sol src io n sender i p e) (cfg : DagConfig) :
    ProcOk c a task st tc sol src io n sender i p { e with config := cfg } :=
  ⟨h.run.other rfl rfl rfl, h.stdin, h.stdinPath, h.stdoutPath, h.limits, h.report, h.outcome,
   h.ranked⟩

theorem processArgs_eq (io : UserIo) (n i : Nat) (p : FifoUuid × FifoUuid) :
    procArgs io n i p.1 p.2 = processArgs io n i p := by
  unfold processArgs procArgs
  cases io <;> by_cases hn : n > 1 <;> simp [hn]

theorem processExec_spec {c : Ctx} {task : Task} {st tc sol : Nat} {src : Src} {io : UserIo}
    {n sender i : Nat} {p : FifoUuid × FifoUuid} {ev ev' : Eval} {P : List Execution}
    {e : Execution} (h : Inv c.G ev P) (hs : c.Knows src)
    (hr : processExec c.fs task st tc sol src io n sender (i, p) ev = .ok (e, ev')) :
    Inv c.G ev' (e :: P) ∧ Step c ev ev' [.evaluation st tc sol i n] [.processOutcome sender] ∧
    ev'.senders = ev.senders ∧ isComp e = false ∧
    ProcOk c ev' task st tc sol src io n sender i p e ∧
    ∀ x, Hidden c ev x → x ∉ e.dependencies := by
  obtain ⟨a, b⟩ := p
  simp only [processExec, bind_ok, bindCallbacks_ok, onExec_ok, pure_ok] at hr
  rw [processArgs_eq io n i (a, b)] at hr
  obtain ⟨e0, ev0, h0, e1, ev1, h1, _, _, rfl, _, _, rfl, rfl, rfl⟩ := hr
  obtain ⟨i0, s0, hs0, r0, b0, l0, -⟩ := execute_spec h hs h0
  have mid : ev1 = ev0 ∧ e1 = { e0 with
      stdinRedirectPath := if io = .stdIo then some (fifoPath a) else none
      stdoutRedirectPath := if io = .stdIo then some (fifoPath b) else none } := by
    cases io with
    | fifoIo =>
      simp only [pure_ok] at h1
      refine ⟨h1.2.symm, ?_⟩
      rw [← h1.1]
      have h2 := b0.stdinPath
      have h3 := b0.stdoutPath
      cases e0
      simp only at h2 h3
      subst h2 h3
      simp
    | stdIo =>
      simp only [b0.stdin, Option.isSome_none, Bool.false_eq_true, if_false, pure_ok] at h1
      refine ⟨h1.2.symm, ?_⟩
      rw [← h1.1]; simp [b0.stdin]
  obtain ⟨rfl, rfl⟩ := mid
  have i1 := i0.other (e' := { e0 with
      stdinRedirectPath := if io = .stdIo then some (fifoPath a) else none
      stdoutRedirectPath := if io = .stdIo then some (fifoPath b) else none
      tag := some "evaluation", priority := EVALUATION_PRIORITY - tc
      limits := solutionLimits task e0.limits }) rfl rfl rfl rfl rfl rfl rfl rfl
  have i2 := i1.onExec mem_execUuids_head (.report (.evaluation st tc sol i n))
    (ev1.pending ++ [.evaluation st tc sol i n])
  have i3 := i2.onExec mem_execUuids_head (.processOutcome sender)
    (ev1.pending ++ [.evaluation st tc sol i n])
  have s1 := Step.bind c ev1 e0.uuid (t := .evaluation st tc sol i n) rfl
  have s2 := s1.trans (Step.handler c _ e0.uuid (hd := .processOutcome sender) rfl)
  refine ⟨i3, by simpa [scoringOf] using s0.trans s2, hs0, rfl, ?_, fun x hx =>
    execute_hidden h hs h0 hx⟩
  refine ⟨(r0.mono s2.ext).other rfl rfl rfl, b0.stdin, rfl, rfl, ?_, by simp, by simp, rfl, rfl⟩
  show solutionLimits task e0.limits = _
  rw [l0]

theorem procs_spec {c : Ctx} {task : Task} {st tc sol : Nat} {src : Src} {io : UserIo}
    {n sender : Nat} {P : List Execution} (hs : c.Knows src)
    {fifos : List (FifoUuid × FifoUuid)} :
    ∀ {i : Nat} {ev ev' : Eval} {acc execs : List Execution}, Inv c.G ev (acc ++ P) →
    eachWith (fun acc p => do
      let e ← processExec c.fs task st tc sol src io n sender p
      return acc ++ [e]) (enumFrom i fifos) acc ev = .ok (execs, ev') →
    ∃ new, execs = acc ++ new ∧ new.length = fifos.length ∧ Inv c.G ev' (execs ++ P) ∧
      Step c ev ev' ((List.range' i fifos.length).map (fun j => .evaluation st tc sol j n))
        (List.replicate fifos.length (.processOutcome sender)) ∧
      ev'.senders = ev.senders ∧ (∀ e ∈ new, isComp e = false) ∧
      (∀ j p e, fifos[j]? = some p → new[j]? = some e →
        ProcOk c ev' task st tc sol src io n sender (i + j) p e) ∧
      ∀ x, Hidden c ev x → ∀ e ∈ new, x ∉ e.dependencies := by
  induction fifos with
  | nil =>
    intro i ev ev' acc execs h hr
    simp only [enumFrom, eachWith, pure_ok] at hr
    obtain ⟨rfl, rfl⟩ := hr
    exact ⟨[], by simp, rfl, h, .refl _ _, rfl, by simp, by simp, by simp⟩
  | cons q fifos ih =>
    intro i ev ev' acc execs h hr
    simp only [enumFrom, eachWith, bind_ok, pure_ok] at hr
    obtain ⟨acc1, ev1, ⟨e, ev2, h1, rfl, rfl⟩, h2⟩ := hr
    obtain ⟨i1, s1, hs1, t1, p1, d1⟩ := processExec_spec h hs h1
    have i2 : Inv c.G ev2 ((acc ++ [e]) ++ P) := by
      refine i1.perm ?_
      have : ((acc ++ [e]) ++ P).Perm (e :: (acc ++ P)) := by
        simpa using List.perm_middle
      exact this.symm
    obtain ⟨new, h3, h4, h5, h6, h7, h8, h9, d9⟩ := ih i2 h2
    refine ⟨e :: new, by simp [h3], by simp [h4], h5, ?_, h7.trans hs1, ?_, ?_, ?_⟩
    · have := s1.trans h6
      simpa [List.range'_succ, List.replicate_succ] using this
    · intro x hx
      rcases List.mem_cons.1 hx with rfl | hx
      · exact t1
      · exact h8 x hx
    · intro j p x hp hx
      cases j with
      | zero =>
        simp only [List.getElem?_cons_zero, Option.some.injEq] at hp hx
        subst hp hx
        exact p1.mono h6.ext
      | succ j =>
        simp only [List.getElem?_cons_succ] at hp hx
        have := h9 j p x hp hx
        rw [show i + (j + 1) = i + 1 + j by omega]
        exact this
    · intro x hx e' he'
      rcases List.mem_cons.1 he' with rfl | he'
      · exact d1 x hx
      · exact d9 x (hx.mono s1) e' he'

/-- The arguments of the manager, communication.rs:179-183. -/
def managerArgs (fifos : List (FifoUuid × FifoUuid)) : List String :=
  fifos.flatMap (fun p => [fifoPath p.2, fifoPath p.1])

/-- `e` is the manager. -/
structure ManagerOk (c : Ctx) (ev : Eval) (task : Task) (st tc sol : Nat) (manager : Src)
    (n sender : Nat) (fifos : List (FifoUuid × FifoUuid)) (input : FileUuid)
    (handle : Option FileUuid) (e : Execution) : Prop where
  run : RunOf c ev manager (managerArgs fifos) (ioPaths task handle) e
  reads : ReadsInput task e input
  waits : Waits e handle
  limits : e.limits = managerLimits task n (manager.lang.limits defaultLimits)
  captureOut : e.captureStdout = some 128
  captureErr : e.captureStderr = some 1024
  report : (e.uuid, .report (.checker st tc sol)) ∈ ev.handlers
  outcome : (e.uuid, .managerOutcome sender) ∈ ev.handlers
  ranked : Ranked e "evaluation" (EVALUATION_PRIORITY - tc)

theorem ManagerOk.mono {c : Ctx} {a b : Eval} {task : Task} {st tc sol : Nat} {manager : Src}
    {n sender : Nat} {fifos : List (FifoUuid × FifoUuid)} {input : FileUuid}
    {handle : Option FileUuid} {e : Execution}
    (h : ManagerOk c a task st tc sol manager n sender fifos input handle e) (x : Ext c.G a b) :
    ManagerOk c b task st tc sol manager n sender fifos input handle e :=
  ⟨h.run.mono x, h.reads, h.waits, h.limits, h.captureOut, h.captureErr, x.mem_handlers h.report,
   x.mem_handlers h.outcome, h.ranked⟩

/-- The evaluation of a solution on a testcase of a communication task: a group with the processes of
the solution and the manager. -/
def CommOk (c : Ctx) (ev : Eval) (task : Task) (manager : Src) (n : Nat) (io : UserIo)
    (st tc sol : Nat) (src : Src) (input : FileUuid) (handle : Option FileUuid)
    (hid : List FileUuid) (sender : Nat) : Prop :=
  ev.senders[sender]? = some ⟨sender, st, tc, sol, n + 1⟩ ∧
  ∃ p ∈ ev.dag.executionGroups, ∃ fifos procs man,
    p.2.executions = procs ++ [man] ∧ p.2.fifo = fifoList fifos ∧ (fifoList fifos).Nodup ∧
    fifos.length = n ∧ procs.length = n ∧
    (∀ i q e, fifos[i]? = some q → procs[i]? = some e →
      ProcOk c ev task st tc sol src io n sender i q e) ∧
    (∀ e ∈ procs, ∀ x ∈ hid, x ∉ e.dependencies) ∧
    ManagerOk c ev task st tc sol manager n sender fifos input handle man

theorem Ext.sender {G : FileUuid → Prop} {a b : Eval} (h : Ext G a b) {i : Nat} {s : SenderInfo}
    (hs : a.senders[i]? = some s) : b.senders[i]? = some s := by
  obtain ⟨l, hl⟩ := h.senders
  rw [hl]
  exact List.getElem?_append_left (List.getElem?_eq_some_iff.1 hs).1 ▸ hs

theorem CommOk.mono {c : Ctx} {a b : Eval} {task : Task} {manager : Src} {n : Nat} {io : UserIo}
    {st tc sol : Nat} {src : Src} {input : FileUuid} {handle : Option FileUuid} {hid : List FileUuid}
    {sender : Nat}
    (h : CommOk c a task manager n io st tc sol src input handle hid sender) (x : Ext c.G a b) :
    CommOk c b task manager n io st tc sol src input handle hid sender := by
  obtain ⟨h1, p, h2, fifos, procs, man, h3, h4, h5, h6, h7, h8, h8', h9⟩ := h
  refine ⟨x.sender h1, p, ?_, fifos, procs, man, h3, h4, h5, h6, h7,
    fun i q e hq he => (h8 i q e hq he).mono x, h8', h9.mono x⟩
  obtain ⟨l, hl⟩ := x.groups
  rw [hl]; exact List.mem_append_right _ h2

/-- The output of the manager is not used: `bind_exec_io!` when the standard output is captured. -/
theorem bindExecIo_manager {c : Ctx} {task : Task} {ev ev' : Eval} {P : List Execution}
    {e e' : Execution} {input out : FileUuid} {handle : Option FileUuid}
    (h : Inv c.G ev (e :: P)) (hi : input ∈ allFiles ev.dag)
    (hh : ∀ f, handle = some f → f ∈ allFiles ev.dag)
    (ho : e.outputs = []) (hr : bindExecIo task e input handle ev = .ok ((out, e'), ev')) :
    Inv c.G ev' (e' :: P) ∧ Step c ev ev' [] [] ∧ ev'.senders = ev.senders ∧
    e' = outputBound task (inputBound task e input handle) out := by
  have hb := h.inputBound task hi hh
  have hbo : (inputBound task e input handle).outputs = [] := by
    unfold inputBound
    cases task.infile <;> cases handle <;> exact ho
  have key : (match task.outfile with
      | none => stdoutOf (inputBound task e input handle)
      | some outfile => outputOf (inputBound task e input handle) outfile) ev
      = .ok ((out, e'), ev') := hr
  unfold outputBound
  cases hof : task.outfile with
  | none =>
    simp only [hof] at key
    obtain ⟨h1, h2, h3⟩ := stdoutOf_spec hb key
    refine ⟨h2, Step.ofNextOr3 h3, ?_, h1⟩
    rcases h3 with ⟨_, rfl⟩ | ⟨_, _, rfl⟩ <;> rfl
  | some o =>
    simp only [hof] at key
    obtain ⟨h1, h2, h3, h4⟩ := outputOf_spec hb (by rw [hbo]; rfl) key
    refine ⟨h4, ?_, by rw [h3], by rw [h2, h1]⟩
    rw [h3]
    exact Step.ofNext _ _ _ (Nat.le_succ _)

theorem bound_dependencies (task : Task) (e : Execution) (input : FileUuid) (handle : Option FileUuid)
    (out : FileUuid) : (outputBound task (inputBound task e input handle) out).dependencies ≠ [] := by
  unfold outputBound inputBound
  cases task.outfile <;> cases task.infile <;> cases handle <;>
    simp [Execution.dependencies, addInput, AMap.insert]

theorem commEvaluate_spec {c : Ctx} {task : Task} {st tc sol : Nat} {src manager : Src}
    {n : Nat} {io : UserIo} {ev ev' : Eval} {P : List Execution} {input : FileUuid}
    {handle : Option FileUuid} {hid : List FileUuid} {a : Unit} (hhid : ∀ x ∈ hid, Hidden c ev x)
    (h : Inv c.G ev P) (hs : c.Knows src) (hm : c.Knows manager) (hi : input ∈ allFiles ev.dag)
    (hh : ∀ f, handle = some f → f ∈ allFiles ev.dag)
    (hr : commEvaluate c.fs task st tc sol src input handle manager n io ev = .ok (a, ev')) :
    Inv c.G ev' P ∧
    Step c ev ev' ((List.range n).map (fun j => .evaluation st tc sol j n) ++ [.checker st tc sol])
      (List.replicate n (.processOutcome ev.senders.length) ++
        [.managerOutcome ev.senders.length]) ∧
    ev'.senders = ev.senders ++ [⟨ev.senders.length, st, tc, sol, n + 1⟩] ∧
    CommOk c ev' task manager n io st tc sol src input handle hid ev.senders.length := by
  simp only [commEvaluate, bind_ok, fresh_ok, look_ok, upd_ok, bindCallbacks_ok, onExec_ok,
    addGroup] at hr
  obtain ⟨fifos, ev1, h1, sender, _, ⟨rfl, rfl⟩, _, _, rfl, hr⟩ := hr
  obtain ⟨fl, fn, -, m, hm0, rfl⟩ := newFifos_spec h1
  -- the sender
  have s0 : Step c ev { ev with next := m, senders := ev.senders ++
      [⟨ev.senders.length, st, tc, sol, n + 1⟩] } [] [] := by
    refine Step.of (hs := []) ⟨hm0, rfl, ⟨[], rfl⟩,
      fun _ p h => ⟨p, h, Or.inl rfl⟩, ⟨[], by simp⟩, ⟨[], by simp⟩, fun _ _ h => h,
      fun _ _ h => h, ⟨_, rfl⟩, fun _ h => Or.inl h⟩ rfl (by simp) (by simp) (by simp) rfl
      (fun _ _ _ _ h => Or.inl h) (fun _ _ h => Or.inl h)
  have i0 : Inv c.G { ev with next := m, senders := ev.senders ++
      [⟨ev.senders.length, st, tc, sol, n + 1⟩] } ([] ++ P) :=
    Inv.congr (ev := ev) hm0 rfl rfl rfl rfl h
  obtain ⟨execs, ev2, h2, hr⟩ := hr
  obtain ⟨new, hnew, h3, i2, s2, hs2, t2, p2, d2⟩ := procs_spec hs i0 h2
  have hnew : new = execs := by simpa using hnew.symm
  subst hnew
  obtain ⟨e0, ev3, h3', e1, ev4, h4, e2, ev5, h5, ⟨out, e3⟩, ev6, h6, _, _, rfl, _, _, rfl, _, _,
    ⟨rfl, rfl⟩, hr⟩ := hr
  obtain ⟨i3, s3, hs3, r3, b3, l3, -⟩ := execute_spec i2 hm h3'
  have i3' := i3.other (e' := { e0 with
    tag := some "evaluation", priority := EVALUATION_PRIORITY - tc })
    rfl rfl rfl rfl rfl rfl rfl rfl
  obtain ⟨f4, he1, i4, q4⟩ := captureStdout_spec i3' h4
  obtain ⟨f5, he2, i5, q5⟩ := captureStderr_spec i4 h5
  have s4 : Step c ev3 ev4 [] [] := Step.ofNextOr3 q4
  have s5 : Step c ev4 ev5 [] [] := Step.ofNextOr3 q5
  have sn5 : ev5.senders = ev3.senders := by
    rcases q4 with ⟨_, rfl⟩ | ⟨_, _, rfl⟩ <;> rcases q5 with ⟨_, rfl⟩ | ⟨_, _, rfl⟩ <;> rfl
  have x05 : Ext c.G ev ev5 := (((s0.trans s2).trans s3).trans (s4.trans s5)).ext
  have o2 : e2.outputs = [] := by rw [he2, he1]; exact b3.outputs
  obtain ⟨i6, s6, hs6, he3⟩ := bindExecIo_manager i5 (x05.allFiles hi)
    (fun f hf => x05.allFiles (hh f hf)) o2 h6
  have fi := inputBound_fields task e2 input handle
  have fo := outputBound_fields task (inputBound task e2 input handle) out
  have hu3 : e3.uuid = e2.uuid := by rw [he3, fo.1, fi.1]
  obtain ⟨M, hM⟩ : ∃ M : Execution, M = { e3 with limits := managerLimits task n e3.limits } :=
    ⟨_, rfl⟩
  have i7 : Inv c.G ev6 (M :: (new ++ P)) := by
    rw [hM]; exact i6.other rfl rfl rfl rfl rfl rfl rfl rfl
  have hMu : M.uuid = e3.uuid := by rw [hM]
  have hu : e3.uuid ∈ execUuids ev6.dag (M :: (new ++ P)) := by
    rw [← hMu]; exact mem_execUuids_head
  have i8 := i7.onExec hu (.report (.checker st tc sol))
    (ev6.pending ++ [.checker st tc sol])
  have i9 := i8.onExec hu (.managerOutcome ev.senders.length)
    (ev6.pending ++ [.checker st tc sol])
  have s7 := Step.bind c ev6 e3.uuid (t := .checker st tc sol) rfl
  have s8 := s7.trans (Step.handler c _ e3.uuid
    (hd := .managerOutcome ev.senders.length) rfl)
  -- the group
  have i10 := i9.perm (Q := (new ++ [M]) ++ P) (by
    have : ((new ++ [M]) ++ P).Perm (M :: (new ++ P)) := by simp
    exact this.symm)
  have s06 := ((s0.trans0 s2).then0 s3).then0 ((s4.trans0 s5).trans0 s6)
  have i10' := i10.fresh
  have hfresh : ev6.next ∉ ev6.dag.executionGroups.keys :=
    fun hk => Nat.lt_irrefl _ (i6.boundG _ hk)
  obtain ⟨gr, hgr⟩ : ∃ gr : ExecutionGroup,
      gr = { uuid := ev6.next, executions := new ++ [M], fifo := fifoList fifos } := ⟨_, rfl⟩
  rw [← hM] at hr
  have hr' : ({ ev6 with
      next := ev6.next + 1
      handlers := ev6.handlers ++ [(e3.uuid, .report (.checker st tc sol))] ++
        [(e3.uuid, .managerOutcome ev.senders.length)]
      pending := ev6.pending ++ [.checker st tc sol]
      dag := ev6.dag.addExecutionGroup gr } : Eval) = ev' := by
    rw [hgr]; exact hr
  subst hr'
  have hge : gr.executions = new ++ [M] := by rw [hgr]
  have hgu : gr.uuid = ev6.next := by rw [hgr]
  have hgf : gr.fifo = fifoList fifos := by rw [hgr]
  have hdep : (new ++ [M]).flatMap Execution.dependencies ≠ [] := by
    have : M.dependencies ≠ [] := by
      have : M.dependencies = e3.dependencies := by rw [hM]; rfl
      rw [this, he3]
      exact bound_dependencies task e2 input handle out
    simp [this]
  obtain ⟨i11, hgs⟩ := i10'.addGroup gr hge (by simp) (.inl hdep) (by rw [hgf]; exact fn)
    (by rw [hgu]; exact hfresh) (by rw [hgu]; exact Nat.lt_succ_self _)
  have hgs : (ev6.dag.addExecutionGroup gr).executionGroups =
    (gr.uuid, { gr with executions := configured ev6.dag (new ++ [M]) }) ::
      ev6.dag.executionGroups := hgs
  have x9 : Ext c.G { ev6 with
      handlers := ev6.handlers ++ [(e3.uuid, .report (.checker st tc sol))] ++
        [(e3.uuid, .managerOutcome ev.senders.length)]
      pending := ev6.pending ++ [.checker st tc sol] }
      { ev6 with
        next := ev6.next + 1
        handlers := ev6.handlers ++ [(e3.uuid, .report (.checker st tc sol))] ++
          [(e3.uuid, .managerOutcome ev.senders.length)]
        pending := ev6.pending ++ [.checker st tc sol]
        dag := ev6.dag.addExecutionGroup gr } := by
    refine ⟨Nat.le_succ _, rfl, ⟨[_], hgs⟩, fun _ p h => ⟨p, h, Or.inl rfl⟩, ⟨[], by simp⟩,
      ⟨[], by simp⟩, fun _ _ h => h, fun _ _ h => h, ⟨[], by simp⟩, ?_⟩
    intro k hk
    have hk : k ∈ (ev6.dag.addExecutionGroup gr).executionGroups.keys := hk
    rw [hgs] at hk
    simp only [AMap.keys, List.map_cons, List.mem_cons] at hk
    rcases hk with rfl | hk
    · right; rw [hgu]; exact Nat.le_refl _
    · exact Or.inl hk
  have t3 : e3.tag = some "evaluation" := by rw [he3, fo.2.1, fi.2.1, he2, he1]
  have s9 := Step.addGroupOf (c := c) x9 hgs (by
    intro e he
    simp only [configured, List.mem_map, List.mem_append, List.mem_singleton] at he
    obtain ⟨x, hx, rfl⟩ := he
    rcases hx with hx | rfl
    · exact t2 x hx
    · rw [hM]; simp [isComp, t3]) rfl rfl rfl rfl rfl
  have x29 : Ext c.G ev2 _ :=
    (s3.trans (((s4.trans0 s5).trans0 s6).trans (s8.trans s9))).ext
  have x39 : Ext c.G ev3 _ := (((s4.trans0 s5).trans0 s6).trans (s8.trans s9)).ext
  have hsn6 : ev6.senders = ev.senders ++ [⟨ev.senders.length, st, tc, sol, n + 1⟩] := by
    rw [hs6, sn5, hs3, hs2]
  refine ⟨i11, ?_, hsn6, ?_, (gr.uuid, { gr with executions := configured ev6.dag (new ++ [M]) }),
    ?_, fifos, configured ev6.dag new, { M with config := ev6.dag.config }, ?_, hgf, fn, fl, ?_,
    ?_, ?_, ?_⟩
  · have := (s06.trans s8).then0 s9
    simpa [fl, scoringOf, List.range_eq_range'] using this
  · show ev6.senders[_]? = _
    rw [hsn6]; simp
  · show _ ∈ (ev6.dag.addExecutionGroup gr).executionGroups
    rw [hgs]; exact List.mem_cons_self
  · simp [configured]
  · simp [configured, h3, fl]
  · intro i q e hq he
    simp only [configured, List.getElem?_map, Option.map_eq_some_iff] at he
    obtain ⟨x, hx, rfl⟩ := he
    have := p2 i q x hq hx
    rw [Nat.zero_add] at this
    exact (this.mono x29).config _
  · intro e he x hx
    simp only [configured, List.mem_map] at he
    obtain ⟨y, hy, rfl⟩ := he
    exact d2 x ((hhid x hx).mono s0) y hy
  · have hl : e2.limits = manager.lang.limits defaultLimits := by rw [he2, he1]; exact l3
    refine ⟨?_, ?_, ?_, ?_, ?_, ?_, ?_, ?_, ?_, ?_⟩
    · have r5 : RunOf c ev3 manager (managerArgs fifos) [] e2 := by
        rw [he2, he1]; exact r3.other rfl rfl rfl
      have r6 : RunOf c ev3 manager (managerArgs fifos) (ioPaths task handle ++ []) e3 := by
        rw [he3]; exact (r5.inputBound task input handle).outputBound task out
      rw [List.append_nil] at r6
      exact (r6.mono x39).other (by rw [hM]) (by rw [hM]) (by rw [hM])
    · exact (inputBound_reads task e2 input handle).same
        (by show M.stdin = _; rw [hM]; show e3.stdin = _; rw [he3, fo.2.2.2.2.1])
        (by show M.inputs = _; rw [hM]; show e3.inputs = _; rw [he3, fo.2.2.2.2.2.1])
    · exact (inputBound_waits task e2 input handle).same
        (by show M.inputs = _; rw [hM]; show e3.inputs = _; rw [he3, fo.2.2.2.2.2.1])
    · show M.limits = _
      rw [hM]; show managerLimits task n e3.limits = _
      rw [he3, fo.2.2.1, fi.2.2.1, hl]
    · show M.captureStdout = _
      rw [hM]; show e3.captureStdout = _
      rw [he3, fo.2.2.2.2.2.2.1, fi.2.2.2.2.2.2.1, he2, he1]
    · show M.captureStderr = _
      rw [hM]; show e3.captureStderr = _
      rw [he3, fo.2.2.2.2.2.2.2.1, fi.2.2.2.2.2.2.2.1, he2]
    · show (M.uuid, _) ∈ _
      rw [hMu]; simp
    · show (M.uuid, _) ∈ _
      rw [hMu]; simp
    · show M.tag = _
      rw [hM]; exact t3
    · show M.priority = _
      rw [hM]; show e3.priority = _
      rw [he3, fo.2.2.2.2.2.2.2.2.1, fi.2.2.2.2.2.2.2.2.1, he2, he1]

end TM.Build
