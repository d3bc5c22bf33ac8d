import Verif.Build.Gen
/-!
# Evaluating a solution on a testcase
-/
namespace TM.Build
open TM DagSpec

/-! ## The checker -/

/-- The options given to diff by the white diff checker. -/
def diffArgs : List String :=
  ["--brief", "--speed-large-files", "--ignore-blank-lines", "--ignore-space-change",
   "correct", "test"]

/-- The handler through which a checker gives the score. -/
def Checker.handler (st tc sol : Nat) : Checker → Handler
  | .whiteDiff => .whiteDiff st tc sol
  | .custom _ => .customChecker st tc sol

/-- `k` checks the output `test` of solution `sol`. -/
def CheckOk (c : Ctx) (ev : Eval) (checker : Checker) (st tc sol : Nat)
    (input correct test : FileUuid) (k : Execution) : Prop :=
  (k.uuid, .report (.checker st tc sol)) ∈ ev.handlers ∧
  (k.uuid, checker.handler st tc sol) ∈ ev.handlers ∧
  Ranked k "checking" (EVALUATION_PRIORITY - tc) ∧
  match checker with
  | .whiteDiff => k.command = .system "diff" ∧ k.args = diffArgs ∧
      k.inputs.get? "correct" = some ⟨correct, false⟩ ∧ k.inputs.get? "test" = some ⟨test, false⟩
  | .custom src =>
      RunOf c ev src ["input", "correct_output", "test_output"]
        ["test_output", "correct_output", "input"] k ∧
      k.inputs.get? "input" = some ⟨input, false⟩ ∧
      k.inputs.get? "correct_output" = some ⟨correct, false⟩ ∧
      k.inputs.get? "test_output" = some ⟨test, false⟩ ∧
      k.captureStdout = some 128 ∧ k.captureStderr = some STDERR_CONTENT_LENGTH

theorem CheckOk.mono {c : Ctx} {a b : Eval} {checker : Checker} {st tc sol : Nat}
    {input correct test : FileUuid} {k : Execution}
    (h : CheckOk c a checker st tc sol input correct test k) (x : Ext c.G a b) :
    CheckOk c b checker st tc sol input correct test k := by
  obtain ⟨h1, h2, h4, h3⟩ := h
  refine ⟨x.mem_handlers h1, x.mem_handlers h2, h4, ?_⟩
  cases checker with
  | whiteDiff => exact h3
  | custom src => exact ⟨h3.1.mono x, h3.2⟩

/-- The sources of a checker are known. -/
def Checker.Known (c : Ctx) : Checker → Prop
  | .whiteDiff => True
  | .custom src => c.Knows src

/-- The white diff checker before its inputs are set. -/
def diffExec (u : Uuid) : Execution :=
  { uuid := u, command := ExecutionCommand.system "diff", args := diffArgs, limits := defaultLimits }

theorem checkAndBind_spec {c : Ctx} {st tc sol : Nat} {checker : Checker}
    {ev ev' : Eval} {P : List Execution} {input correct test : FileUuid} {a : Unit}
    (h : Inv c.G ev P) (hk : checker.Known c) (hi : input ∈ allFiles ev.dag)
    (hc : correct ∈ allFiles ev.dag) (ht : test ∈ allFiles ev.dag)
    (hr : checker.checkAndBind c.fs st tc sol input correct test ev = .ok (a, ev')) :
    Inv c.G ev' P ∧ Step c ev ev' [.checker st tc sol] [checker.handler st tc sol] ∧
    ev'.senders = ev.senders ∧
    ∃ k ∈ allExecs ev'.dag, CheckOk c ev' checker st tc sol input correct test k := by
  simp only [Checker.checkAndBind, bind_ok, bindCallbacks_ok] at hr
  obtain ⟨e, ev1, h1, _, ev2, rfl, h3⟩ := hr
  have mid : Inv c.G ev1 (e :: P) ∧ Step c ev ev1 [] [checker.handler st tc sol] ∧
      ev1.senders = ev.senders ∧ Ranked e "checking" (EVALUATION_PRIORITY - tc) ∧
      (e.uuid, checker.handler st tc sol) ∈ ev1.handlers ∧
      (match checker with
        | .whiteDiff => e.command = .system "diff" ∧ e.args = diffArgs ∧
            e.inputs.get? "correct" = some ⟨correct, false⟩ ∧
            e.inputs.get? "test" = some ⟨test, false⟩
        | .custom src =>
            RunOf c ev1 src ["input", "correct_output", "test_output"]
              ["test_output", "correct_output", "input"] e ∧
            e.inputs.get? "input" = some ⟨input, false⟩ ∧
            e.inputs.get? "correct_output" = some ⟨correct, false⟩ ∧
            e.inputs.get? "test_output" = some ⟨test, false⟩ ∧
            e.captureStdout = some 128 ∧ e.captureStderr = some STDERR_CONTENT_LENGTH) := by
    cases checker with
    | whiteDiff =>
      simp only [Checker.check, bind_ok, onExec_ok, pure_ok] at h1
      obtain ⟨e0, ev0, h0, _, _, rfl, rfl, rfl⟩ := h1
      obtain ⟨rfl, rfl, i0⟩ := newExecution_spec h h0
      have i1 := ((i0.other (e' := diffExec ev.next) rfl rfl rfl rfl rfl rfl rfl rfl).input hc
        "correct" false).input ht "test" false
      have i2 := i1.other (e' := { addInput (addInput (diffExec ev.next) correct "correct" false)
        test "test" false with tag := some "checking", priority := EVALUATION_PRIORITY - tc })
        rfl rfl rfl rfl rfl rfl rfl rfl
      have i3 := i2.onExec (mem_execUuids_head) (.whiteDiff st tc sol) ev.pending
      have s1 := Step.ofNext c ev (ev.next + 1) (Nat.le_succ _)
      have s2 := s1.trans0 (Step.handler c _ ev.next (hd := .whiteDiff st tc sol) rfl)
      refine ⟨i3, s2, rfl, ⟨rfl, rfl⟩, by simp [Checker.handler, addInput], rfl, rfl, ?_, ?_⟩
      · show (addInput (addInput _ _ _ _) _ _ _).inputs.get? _ = _
        simp [get?_addInput]
      · show (addInput (addInput _ _ _ _) _ _ _).inputs.get? _ = _
        simp [get?_addInput]
    | custom src =>
      simp only [Checker.check, bind_ok, onExec_ok, pure_ok] at h1
      obtain ⟨e0, ev0, h0, e1, ev1', h1, e2, ev2', h2, _, _, rfl, rfl, rfl⟩ := h1
      obtain ⟨i0, s0, hs0, r0, b0, l0, -⟩ := execute_spec h hk h0
      have i1 := ((i0.input (s0.ext.allFiles hi) "input" false).input (s0.ext.allFiles hc)
        "correct_output" false).input (s0.ext.allFiles ht) "test_output" false
      have r1 := ((r0.input input "input" false).input correct "correct_output" false).input test
        "test_output" false
      have g1 : (addInput (addInput (addInput e0 input "input" false) correct "correct_output" false)
          test "test_output" false).inputs.get? "input" = some ⟨input, false⟩ := by
        simp [get?_addInput]
      have g2 : (addInput (addInput (addInput e0 input "input" false) correct "correct_output" false)
          test "test_output" false).inputs.get? "correct_output" = some ⟨correct, false⟩ := by
        simp [get?_addInput]
      have g3 : (addInput (addInput (addInput e0 input "input" false) correct "correct_output" false)
          test "test_output" false).inputs.get? "test_output" = some ⟨test, false⟩ := by
        simp [get?_addInput]
      generalize addInput (addInput (addInput e0 input "input" false) correct "correct_output" false)
          test "test_output" false = E at *
      have i2 : Inv c.G ev0 ({ E with tag := some "checking" } :: P) :=
        i1.other rfl rfl rfl rfl rfl rfl rfl rfl
      obtain ⟨f1, rfl, i3, q1⟩ := captureStdout_spec i2 h1
      obtain ⟨f2, rfl, i4, q2⟩ := captureStderr_spec i3 h2
      have i5 := i4.other (e' := { E with
        tag := some "checking"
        stdout := some f1
        captureStdout := some 128
        stderr := some f2
        captureStderr := some STDERR_CONTENT_LENGTH
        priority := EVALUATION_PRIORITY - tc
        limits := { E.limits with allowMultiprocess := true } }) rfl rfl rfl rfl rfl rfl rfl rfl
      have i6 := i5.onExec (mem_execUuids_head) (.customChecker st tc sol) ev2'.pending
      have s1 := (s0.trans0 (Step.ofNextOr3 q1)).trans0 (Step.ofNextOr3 q2)
      have s2 := s1.trans0 (Step.handler c _ E.uuid (hd := .customChecker st tc sol) rfl)
      have hx : Ext c.G ev0 { ev2' with
          handlers := ev2'.handlers ++ [(E.uuid, .customChecker st tc sol)] } :=
        ((Step.ofNextOr3 (c := c) q1).ext.trans (Step.ofNextOr3 (c := c) q2).ext).trans
          (Step.handler c ev2' E.uuid (hd := .customChecker st tc sol) rfl).ext
      have hsn : ev2'.senders = ev.senders := by
        rcases q1 with ⟨_, rfl⟩ | ⟨_, _, rfl⟩ <;> rcases q2 with ⟨_, rfl⟩ | ⟨_, _, rfl⟩ <;> exact hs0
      refine ⟨i6, s2, hsn, ⟨rfl, rfl⟩, by simp [Checker.handler], ?_, g1, g2, g3, rfl, rfl⟩
      exact (r1.mono hx).other rfl rfl rfl
  obtain ⟨i1, s1, hs1, htag, hm1, hk1⟩ := mid
  have i2 := i1.onExec (mem_execUuids_head) (.report (.checker st tc sol))
    (ev1.pending ++ [.checker st tc sol])
  have s2 := Step.bind c ev1 e.uuid (t := .checker st tc sol) rfl
  have s3 := Step.addExec i2 (by simp [isComp, htag.1]) h3
  obtain ⟨i3, x3, m3, o3, -, hh3, -, -, -, hs3, -⟩ := addExec_spec i2 h3
  refine ⟨i3, by simpa using (s1.trans s2).then0 s3, by rw [hs3]; exact hs1, _, m3, ?_, ?_, htag, ?_⟩
  · rw [hh3]; simp
  · rw [hh3]; simp [hm1]
  · cases checker with
    | whiteDiff => exact hk1
    | custom src =>
      refine ⟨?_, hk1.2⟩
      exact ((hk1.1.mono s2.ext).mono x3).other rfl rfl rfl

/-! ## Batch -/

/-- The evaluation of a solution on a testcase of a batch task: its execution, and the execution of the
checker on its output. -/
def BatchOk (c : Ctx) (ev : Eval) (task : Task) (checker : Checker) (st tc sol : Nat) (src : Src)
    (input : FileUuid) (handle : Option FileUuid) (correct : FileUuid) : Prop :=
  ∃ e ∈ allExecs ev.dag, ∃ k ∈ allExecs ev.dag, ∃ out,
    RunOf c ev src [] (ioPaths task handle) e ∧ ReadsInput task e input ∧ Waits e handle ∧
    WritesOutput task e out ∧ e.limits = solutionLimits task (src.lang.limits defaultLimits) ∧
    (e.uuid, .report (.evaluation st tc sol 0 1)) ∈ ev.handlers ∧
    (e.uuid, .scoreZeroOnFailure st tc sol) ∈ ev.handlers ∧
    correct ∉ e.dependencies ∧ Ranked e "evaluation" (EVALUATION_PRIORITY - tc) ∧
    CheckOk c ev checker st tc sol input correct out k

theorem BatchOk.mono {c : Ctx} {a b : Eval} {task : Task} {checker : Checker} {st tc sol : Nat}
    {src : Src} {input : FileUuid} {handle : Option FileUuid} {correct : FileUuid}
    (h : BatchOk c a task checker st tc sol src input handle correct) (x : Ext c.G a b) :
    BatchOk c b task checker st tc sol src input handle correct := by
  obtain ⟨e, h1, k, h2, out, h3, h4, h5, h6, h7, h8, h9, h9', h11, h10⟩ := h
  exact ⟨e, x.mem_exec h1, k, x.mem_exec h2, out, h3.mono x, h4, h5, h6, h7, x.mem_handlers h8,
    x.mem_handlers h9, h9', h11, h10.mono x⟩

theorem batchEvaluate_spec {c : Ctx} {task : Task} {st tc sol : Nat} {src : Src}
    {checker : Checker} {ev ev' : Eval} {P : List Execution} {input : FileUuid}
    {handle correct : Option FileUuid} {a : Unit}
    (h : Inv c.G ev P) (hs : c.Knows src) (hk : checker.Known c) (hi : input ∈ allFiles ev.dag)
    (hh : ∀ f, handle = some f → f ∈ allFiles ev.dag)
    (hc : ∀ f, correct = some f → f ∈ allFiles ev.dag ∧ Hidden c ev f ∧ f ≠ input ∧
      handle ≠ some f)
    (hr : batchEvaluate c.fs task st tc sol src input handle correct checker ev = .ok (a, ev')) :
    Inv c.G ev' P ∧
    Step c ev ev' [.evaluation st tc sol 0 1, .checker st tc sol]
      [.scoreZeroOnFailure st tc sol, checker.handler st tc sol] ∧
    ev'.senders = ev.senders ∧
    ∃ f, correct = some f ∧ BatchOk c ev' task checker st tc sol src input handle f := by
  cases correct with
  | none => simp only [batchEvaluate, fail_ok] at hr
  | some correct =>
    simp only [batchEvaluate, bind_ok, bindCallbacks_ok, onExec_ok] at hr
    obtain ⟨e0, ev0, h0, ⟨out, e1⟩, ev1, h1, _, ev2, rfl, _, ev3, rfl, _, ev4, h4, h5⟩ := hr
    obtain ⟨i0, s0, hs0, r0, b0, l0, -⟩ := execute_spec h hs h0
    have i0' := i0.other (e' := { e0 with
      tag := some "evaluation", priority := EVALUATION_PRIORITY - tc })
      rfl rfl rfl rfl rfl rfl rfl rfl
    obtain ⟨i1, rfl, rfl, he1, ho1⟩ := bindExecIo_spec i0' (s0.ext.allFiles hi)
      (fun f hf => s0.ext.allFiles (hh f hf)) (fun _ => b0.stdout) b0.outputs h1
    have fi := inputBound_fields task { e0 with
      tag := some "evaluation", priority := EVALUATION_PRIORITY - tc } input handle
    have fo := outputBound_fields task (inputBound task { e0 with
      tag := some "evaluation", priority := EVALUATION_PRIORITY - tc } input handle) ev0.next
    have rd : ReadsInput task e1 input := (inputBound_reads task { e0 with
        tag := some "evaluation", priority := EVALUATION_PRIORITY - tc } input handle).same
          (by rw [he1, fo.2.2.2.2.1]) (by rw [he1, fo.2.2.2.2.2.1])
    have wt : Waits e1 handle := (inputBound_waits task { e0 with
        tag := some "evaluation", priority := EVALUATION_PRIORITY - tc } input handle).same
          (by rw [he1, fo.2.2.2.2.2.1])
    have wr : WritesOutput task e1 ev0.next := by rw [he1]; exact outputBound_writes task _ _
    have hl : e1.limits = src.lang.limits defaultLimits := by
      rw [he1, fo.2.2.1, fi.2.2.1]; exact l0
    have htag : e1.tag = some "evaluation" := by rw [he1, fo.2.1, fi.2.1]
    have r1 : RunOf c ev0 src [] (ioPaths task handle ++ []) e1 := by
      rw [he1]
      exact ((r0.other (e' := { e0 with
        tag := some "evaluation", priority := EVALUATION_PRIORITY - tc }) rfl rfl rfl).inputBound
        task input handle).outputBound task _
    rw [List.append_nil] at r1
    have i2 := i1.other (e' := { e1 with limits := solutionLimits task e1.limits })
      rfl rfl rfl rfl rfl rfl rfl rfl
    have hu : e1.uuid ∈ execUuids ev0.dag
        ({ e1 with limits := solutionLimits task e1.limits } :: P) := by simp [execUuids]
    have i3 := i2.onExec hu (.report (.evaluation st tc sol 0 1))
      (ev0.pending ++ [.evaluation st tc sol 0 1])
    have i4 := i3.onExec hu (.scoreZeroOnFailure st tc sol)
      (ev0.pending ++ [.evaluation st tc sol 0 1])
    obtain ⟨i5, x5, m5, o5, -, hh5, -, -, -, hs5, -⟩ := addExec_spec i4 h4
    have s1 := s0.trans0 (Step.ofNext c ev0 (ev0.next + 1) (Nat.le_succ _))
    have s2 := Step.bind c { ev0 with next := ev0.next + 1 } e1.uuid
      (t := .evaluation st tc sol 0 1) rfl
    have s3 := s2.trans (Step.handler c _ e1.uuid (hd := .scoreZeroOnFailure st tc sol) rfl)
    have s4 := (s1.trans0 s3).then0 (Step.addExec i4 (by simp [isComp, htag]) h4)
    have hx : Ext c.G ev ev4 := s4.ext
    have hout : ev0.next ∈ allFiles ev4.dag := o5 _ (by
      simpa [Execution.outputFiles] using ho1)
    obtain ⟨i6, s6, hs6, k, m6, ck⟩ := checkAndBind_spec i5 hk (hx.allFiles hi)
      (hx.allFiles (hc _ rfl).1) hout h5
    have x1 : Ext c.G ev0 ev4 := by
      have := (Ext.ofNext c.G ev0 (ev0.next + 1) (Nat.le_succ _)).trans s3.ext
      exact this.trans x5
    refine ⟨i6, by simpa [scoringOf] using s4.trans s6, ?_, correct, rfl, ?_⟩
    · rw [hs6, hs5]; exact hs0
    · refine ⟨_, s6.ext.mem_exec m5, k, m6, ev0.next, ?_, ?_, ?_, ?_, ?_, ?_, ?_, ?_, ⟨htag, ?_⟩, ck⟩
      · exact ((r1.mono x1).mono s6.ext).other rfl rfl rfl
      · exact rd.same rfl rfl
      · exact wt.same rfl
      · exact wr.same rfl rfl
      · show solutionLimits task e1.limits = _
        rw [hl]
      · apply s6.ext.mem_handlers; rw [hh5]; simp
      · apply s6.ext.mem_handlers; rw [hh5]; simp
      · obtain ⟨-, hd1, hd2, hd3⟩ := hc _ rfl
        show correct ∉ e1.dependencies
        intro hm
        have hm' : correct ∈ (inputBound task { e0 with
            tag := some "evaluation", priority := EVALUATION_PRIORITY - tc } input
            handle).dependencies := by
          simp only [Execution.dependencies] at hm ⊢
          rw [← fo.2.2.2.2.1, ← fo.2.2.2.2.2.1, ← he1]; exact hm
        rcases mem_deps_inputBound (by exact b0.stdin) hm' with h7 | h7 | h7
        · exact hd2 h7
        · exact hd3 h7
        · exact execute_hidden h hs h0 hd1 h7
      · show e1.priority = _
        rw [he1, fo.2.2.2.2.2.2.2.2.1, fi.2.2.2.2.2.2.2.2.1]

end TM.Build
