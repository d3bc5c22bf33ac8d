import Verif.Build.SamplesSpec
import Verif.Build.Final
import Verif.Build.Fail
/-!
# Lemmas about the executions for the sample files
-/
namespace TM.Build
open TM DagSpec

theorem addSampleExec_none {s : SampleEvent} {ev ev' : Eval} {a : Unit}
    (hr : addSampleExec s none ev = .ok (a, ev')) : ev' = ev := by
  simp only [addSampleExec, pure_ok] at hr
  exact hr.2.symm

theorem addSampleExec_some {c : Ctx} {s : SampleEvent} {ev ev' : Eval} {P : List Execution}
    {e : Execution} {a : Unit} (h : Inv c.G ev (e :: P))
    (htag : isComp e = false) (hr : addSampleExec s (some e) ev = .ok (a, ev')) :
    Inv c.G ev' P ∧ Step c ev ev' [] [.sample s] ∧ ev'.senders = ev.senders ∧
    (∃ f, { e with stderr := some f, captureStderr := some 1024,
                   config := ev.dag.config } ∈ allExecs ev'.dag) ∧
    (∀ f ∈ e.outputFiles, f ∈ allFiles ev'.dag) ∧ (e.uuid, .sample s) ∈ ev'.handlers := by
  simp only [addSampleExec, bind_ok, onExec_ok] at hr
  obtain ⟨e1, ev1, h1, _, ev3, rfl, h4⟩ := hr
  obtain ⟨f1, rfl, i1, e1⟩ := captureStderr_spec h h1
  have hu : e.uuid ∈ execUuids ev1.dag
      ({ e with stderr := some f1, captureStderr := some 1024 } :: P) := by
    simp [execUuids]
  have i3 := i1.onExec hu (.sample s) ev1.pending
  obtain ⟨i4, x4, m4, o4, -, hh4, -, -, hw4, hs4, -⟩ := addExec_spec i3 h4
  have s1 : Step c ev ev1 [] [] := Step.ofNextOr3 e1
  have s3 := Step.handler c ev1 e.uuid (hd := .sample s) rfl
  have s4 := (s1.trans0 s3).then0 (Step.addExec i3 htag h4)
  have q1 : ev1.senders = ev.senders ∧ ev1.writes = ev.writes ∧ ev1.dag = ev.dag := by
    rcases e1 with ⟨_, rfl⟩ | ⟨_, _, rfl⟩ <;> simp
  refine ⟨i4, s4, hs4.trans q1.1, ⟨f1, ?_⟩, ?_, ?_⟩
  · rw [← q1.2.2]; exact m4
  · intro f hf
    apply o4
    simp only [Execution.outputFiles, List.mem_append] at hf ⊢
    rcases hf with hf | hf | hf
    · exact Or.inl hf
    · right; left
      rcases e1 with ⟨h5, _⟩ | ⟨h5, _⟩
      · rw [h5] at hf; exact hf
      · rw [h5] at hf; simp at hf
    · exact Or.inr (Or.inr hf)
  · rw [hh4]; simp

/-! ## The validation -/

def SValOk (c : Ctx) (ev : Eval) (v : InputValidator) (name : String)
    (input : FileUuid) (handle : Option FileUuid) : Prop :=
  match v with
  | .assumeValid => handle = none
  | .custom src args => ∃ f, handle = some f ∧ ∃ e ∈ allExecs ev.dag,
      RunOf c ev src args [TM_VALIDATION_FILE_NAME] e ∧ e.stdin = none ∧
      e.inputs.get? TM_VALIDATION_FILE_NAME = some ⟨input, false⟩ ∧ e.stdout = some f ∧
      e.env.get? "TM_SUBTASK" = some "0" ∧ e.env.get? "TM_TESTCASE" = some "0" ∧
      e.env.get? "TM_SUBTASK_NAME" = some "att" ∧
      e.captureStderr = some 1024 ∧
      Ranked e "generation" GENERATION_PRIORITY ∧
      (e.uuid, .sample (.invalid name)) ∈ ev.handlers

theorem SValOk.mono {c : Ctx} {a b : Eval} {v : InputValidator} {name : String}
    {input : FileUuid} {handle : Option FileUuid} (h : SValOk c a v name input handle)
    (k : Ext c.G a b) : SValOk c b v name input handle := by
  cases v with
  | assumeValid => exact h
  | custom src args =>
    obtain ⟨f, h0, e, h1, h2, h3, h4, h5, h6, h7, h8, h9, h11, h10⟩ := h
    exact ⟨f, h0, e, k.mem_exec h1, h2.mono k, h3, h4, h5, h6, h7, h8, h9, h11, k.mem_handlers h10⟩

theorem validateSample_spec {c : Ctx} {name : String} {v : InputValidator}
    {ev ev1 ev' : Eval} {P : List Execution} {input : FileUuid} {handle : Option FileUuid}
    {val : Option Execution} {a : Unit}
    (h : Inv c.G ev P) (hk : v.Known c) (hi : input ∈ allFiles ev.dag)
    (h1 : v.validate c.fs 0 (some "att") 0 input ev = .ok ((handle, val), ev1))
    (h3 : addSampleExec (.invalid name) val ev1 = .ok (a, ev')) :
    Inv c.G ev' P ∧
    Step c ev ev' [] ((Spec.validatorSources v).map (fun _ => .sample (.invalid name))) ∧
    ev'.senders = ev.senders ∧
    (∀ f, handle = some f → f ∈ allFiles ev'.dag) ∧ SValOk c ev' v name input handle := by
  cases v with
  | assumeValid =>
    simp only [InputValidator.validate, pure_ok, Prod.mk.injEq] at h1
    obtain ⟨⟨rfl, rfl⟩, rfl⟩ := h1
    have := addSampleExec_none h3
    subst this
    exact ⟨h, .refl _ _, rfl, by simp, rfl⟩
  | custom src args =>
    simp only [InputValidator.validate, bind_ok, pure_ok, Prod.mk.injEq] at h1
    obtain ⟨e0, ev0, h0, ⟨f', e1⟩, ev1', h1, ⟨rfl, rfl⟩, rfl⟩ := h1
    obtain ⟨i0, s0, hs0, r0, b0, l0, -⟩ := execute_spec h hk h0
    have i0' := i0.input (s0.ext.allFiles hi) TM_VALIDATION_FILE_NAME false
    have r0' := r0.input input TM_VALIDATION_FILE_NAME false
    generalize hE : ({ addInput e0 input TM_VALIDATION_FILE_NAME false with
            tag := some "generation"
            priority := GENERATION_PRIORITY - ((0 : Nat) : Int)
            env := ((((addInput e0 input TM_VALIDATION_FILE_NAME false).env.insert "TM_SUBTASK"
              (toString 0)).insert "TM_TESTCASE" (toString 0)).insert "TM_SUBTASK_NAME" "att")
            limits := { (addInput e0 input TM_VALIDATION_FILE_NAME false).limits with
              allowMultiprocess := true } } : Execution) = E at h1
    have hEf : E.uuid = e0.uuid ∧ E.stdin = none ∧ E.stdout = none ∧ E.stderr = none ∧
        E.inputs = (addInput e0 input TM_VALIDATION_FILE_NAME false).inputs ∧ E.outputs = [] ∧
        E.captureStdout = none ∧ E.captureStderr = none ∧ E.command = e0.command ∧
        E.args = e0.args ∧ Ranked E "generation" GENERATION_PRIORITY ∧
        E.env.get? "TM_SUBTASK" = some "0" ∧
        E.env.get? "TM_TESTCASE" = some "0" ∧
        E.env.get? "TM_SUBTASK_NAME" = some "att" := by
      subst hE
      have z : toString 0 = "0" := by decide
      simp [addInput, Ranked, b0.stdin, b0.stdout, b0.stderr, b0.outputs, b0.captureStdout,
          b0.captureStderr, b0.env, AMap.get?_insert, z]
    clear hE
    obtain ⟨e1u, e1i, e1o, e1e, e1n, e1p, e1c, e1d, e1m, e1a, e1t, n1, n2, n3⟩ := hEf
    have i0'' : Inv c.G ev0 (E :: P) := i0'.other e1u (e1i.trans b0.stdin.symm)
      (e1o.trans b0.stdout.symm) (e1e.trans b0.stderr.symm) e1n (e1p.trans b0.outputs.symm)
      (e1c.trans b0.captureStdout.symm) (e1d.trans b0.captureStderr.symm)
    obtain ⟨rfl, i1, e1⟩ := stdoutOf_spec i0'' h1
    have e1' : f' = ev0.next ∧ ev1' = { ev0 with next := ev0.next + 1 } := by
      rcases e1 with ⟨h5, _⟩ | ⟨_, h5, h6⟩
      · rw [e1o] at h5; cases h5
      · exact ⟨h5, h6⟩
    obtain ⟨rfl, rfl⟩ := e1'
    have s1 := s0.trans0 (Step.ofNext c ev0 (ev0.next + 1) (Nat.le_succ _))
    obtain ⟨i3, s3, hs3, ⟨f3, m3⟩, o3, rep⟩ := addSampleExec_some i1
      (by simp [isComp, e1t.1]) h3
    refine ⟨i3, s1.trans0 s3, ?_, ?_, ?_⟩
    · rw [hs3]; exact hs0
    · rintro f ⟨⟩
      exact o3 _ (by simp [Execution.outputFiles])
    · refine ⟨_, rfl, _, m3, ?_, e1i, ?_, rfl, n1, n2, n3, rfl, e1t, rep⟩
      · exact ((r0'.mono (Ext.ofNext c.G ev0 (ev0.next + 1) (Nat.le_succ _))).mono s3.ext).other
          e1m e1a e1n
      · show E.inputs.get? _ = _
        rw [e1n, get?_addInput, if_pos rfl]

/-! ## The official solution -/

def SOutOk (c : Ctx) (ev : Eval) (task : Task) (g : OutputGenerator) (name : String)
    (input : FileUuid) (handle : Option FileUuid) (f : FileUuid) : Prop :=
  match g with
  | .notAvailable => ev.dag.providedFiles.get? f = some ⟨emptyKey, some [], none⟩ ∧ ¬ c.G f
  | .staticFile path => ProvidedFrom c.G c.fs ev f path
  | .custom src args => ∃ e ∈ allExecs ev.dag, RunOf c ev src args (ioPaths task handle) e ∧
      ReadsInput task e input ∧ Waits e handle ∧ WritesOutput task e f ∧
      e.limits = src.lang.limits defaultLimits ∧
      e.captureStderr = some 1024 ∧
      Ranked e "generation" GENERATION_PRIORITY ∧
      (e.uuid, .sample (.failed name)) ∈ ev.handlers

theorem SOutOk.mono {c : Ctx} {a b : Eval} {task : Task} {g : OutputGenerator} {name : String}
    {input : FileUuid} {handle : Option FileUuid} {f : FileUuid}
    (h : SOutOk c a task g name input handle f) (k : Ext c.G a b) :
    SOutOk c b task g name input handle f := by
  cases g with
  | notAvailable =>
    obtain ⟨h1, h2⟩ := h
    obtain ⟨p, h3, h4⟩ := k.provided _ _ h1
    rcases h4 with rfl | h4
    · exact ⟨h3, h2⟩
    · exact absurd h4 h2
  | staticFile path => exact ProvidedFrom.mono h k
  | custom src args =>
    obtain ⟨e, h1, h2, h3, h4, h5, h6, h7, h9, h8⟩ := h
    exact ⟨e, k.mem_exec h1, h2.mono k, h3, h4, h5, h6, h7, h9, k.mem_handlers h8⟩

theorem outputSample_spec {c : Ctx} {task : Task} {name : String} {g : OutputGenerator}
    {ev ev1 ev' : Eval} {P : List Execution} {input : FileUuid} {handle output : Option FileUuid}
    {sol : Option Execution} {a : Unit}
    (h : Inv c.G ev P) (hk : g.Known c)
    (hi : input ∈ allFiles ev.dag) (hh : ∀ f, handle = some f → f ∈ allFiles ev.dag)
    (h1 : g.generate c.fs task 0 input handle ev = .ok ((output, sol), ev1))
    (h2 : addSampleExec (.failed name) sol ev1 = .ok (a, ev')) :
    Inv c.G ev' P ∧
    Step c ev ev' [] ((Spec.outputSources g).map (fun _ => .sample (.failed name))) ∧
    ev'.senders = ev.senders ∧
    ∃ f, output = some f ∧ f ∈ allFiles ev'.dag ∧ SOutOk c ev' task g name input handle f := by
  cases g with
  | notAvailable =>
    simp only [OutputGenerator.generate, provideContent, bind_ok, fresh_ok, upd_ok, pure_ok,
      Prod.mk.injEq] at h1
    obtain ⟨_, _, ⟨rfl, rfl⟩, _, _, rfl, ⟨rfl, rfl⟩, rfl⟩ := h1
    obtain ⟨i1, x1, m1⟩ := h.provideFresh ⟨emptyKey, some [], none⟩
    have s1 := Step.provideFresh h ⟨emptyKey, some [], none⟩
    have := addSampleExec_none h2
    subst this
    refine ⟨i1, s1, rfl, _, rfl, m1, ?_, h.fresh_not_grader⟩
    simp [DagData.provide]
  | staticFile path =>
    by_cases hp : c.fs.present path = true
    · simp only [OutputGenerator.generate, hp, if_true, bind_ok, fresh_ok, provideFile_ok, pure_ok,
        Prod.mk.injEq] at h1
      obtain ⟨_, _, ⟨rfl, rfl⟩, _, _, ⟨k, hk, rfl⟩, ⟨rfl, rfl⟩, rfl⟩ := h1
      obtain ⟨i1, x1, m1⟩ := h.provideFresh ⟨k, none, some path⟩
      have s1 := Step.provideFresh h ⟨k, none, some path⟩
      have := addSampleExec_none h2
      subst this
      exact ⟨i1, s1, rfl, _, rfl, m1, h.fresh_not_grader, k, hk, by simp [DagData.provide]⟩
    · simp only [OutputGenerator.generate, if_neg hp, fail_ok] at h1
  | custom src args =>
    simp only [OutputGenerator.generate, bind_ok, pure_ok, Prod.mk.injEq] at h1
    obtain ⟨e0, ev0, h0, ⟨f', e1⟩, ev1', h1, ⟨rfl, rfl⟩, rfl⟩ := h1
    obtain ⟨i0, s0, hs0, r0, b0, l0, -⟩ := execute_spec h hk h0
    generalize hP : GENERATION_PRIORITY - ((0 : Nat) : Int) = prio at h1
    have hP' : prio = GENERATION_PRIORITY := by rw [← hP]; simp
    subst hP'
    clear hP
    have i0' := i0.other (e' := { e0 with
      tag := some "generation", priority := GENERATION_PRIORITY })
      rfl rfl rfl rfl rfl rfl rfl rfl
    obtain ⟨i1, rfl, rfl, he1, ho1⟩ := bindExecIo_spec i0' (s0.ext.allFiles hi)
      (fun f hf => s0.ext.allFiles (hh f hf)) (fun _ => b0.stdout) b0.outputs h1
    have s1 := s0.trans0 (Step.ofNext c ev0 (ev0.next + 1) (Nat.le_succ _))
    have fi := inputBound_fields task { e0 with
      tag := some "generation", priority := GENERATION_PRIORITY } input handle
    have fo := outputBound_fields task (inputBound task { e0 with
      tag := some "generation", priority := GENERATION_PRIORITY } input handle) ev0.next
    have htag : e1.tag = some "generation" := by rw [he1, fo.2.1, fi.2.1]
    obtain ⟨i3, s3, hs3, ⟨f3, m3⟩, o3, rep⟩ := addSampleExec_some i1
      (by simp [isComp, htag]) h2
    refine ⟨i3, s1.trans0 s3, hs3.trans hs0, _, rfl, o3 _ ho1, _, m3,
      ?_, ?_, ?_, ?_, ?_, rfl, ⟨htag, ?_⟩, rep⟩
    · have r1 : RunOf c ev0 src args (ioPaths task handle ++ []) e1 := by
        rw [he1]
        exact ((r0.other (e' := { e0 with
          tag := some "generation", priority := GENERATION_PRIORITY }) rfl rfl rfl).inputBound
          task input handle).outputBound task _
      rw [List.append_nil] at r1
      have r2 := r1.mono (Ext.ofNext c.G ev0 (ev0.next + 1) (Nat.le_succ _))
      exact (r2.mono s3.ext).other rfl rfl rfl
    · exact ((inputBound_reads task { e0 with
        tag := some "generation", priority := GENERATION_PRIORITY } input handle)).same
          (by show e1.stdin = _; rw [he1, fo.2.2.2.2.1])
          (by show e1.inputs = _; rw [he1, fo.2.2.2.2.2.1])
    · exact ((inputBound_waits task { e0 with
        tag := some "generation", priority := GENERATION_PRIORITY } input handle)).same
          (by show e1.inputs = _; rw [he1, fo.2.2.2.2.2.1])
    · exact (outputBound_writes task _ _).same (by show e1.stdout = _; rw [he1])
        (by show e1.outputs = _; rw [he1])
    · show e1.limits = _
      rw [he1, fo.2.2.1, fi.2.2.1]; exact l0
    · show e1.priority = _
      rw [he1, fo.2.2.2.2.2.2.2.2.1, fi.2.2.2.2.2.2.2.2.1]

/-! ## The checker -/

/-- The handler through which a checker gives the score of a sample. -/
def Checker.event (name : String) : Checker → SampleEvent
  | .whiteDiff => .diff name
  | .custom _ => .checker name

def SCheckOk (c : Ctx) (ev : Eval) (checker : Checker) (name : String)
    (input correct test : FileUuid) (k : Execution) : Prop :=
  (k.uuid, .sample (checker.event name)) ∈ ev.handlers ∧
  Ranked k "checking" EVALUATION_PRIORITY ∧
  match checker with
  | .whiteDiff => k.command = .system "diff" ∧ k.args = diffArgs ∧
      k.inputs.get? "correct" = some ⟨correct, false⟩ ∧ k.inputs.get? "test" = some ⟨test, false⟩
  | .custom src =>
      RunOf c ev src ["input", "correct_output", "test_output"]
        ["test_output", "correct_output", "input"] k ∧
      k.inputs.get? "input" = some ⟨input, false⟩ ∧
      k.inputs.get? "correct_output" = some ⟨correct, false⟩ ∧
      k.inputs.get? "test_output" = some ⟨test, false⟩ ∧
      k.captureStdout = some 128 ∧ k.captureStderr = some STDERR_CONTENT_LENGTH

theorem SCheckOk.mono {c : Ctx} {a b : Eval} {checker : Checker} {name : String}
    {input correct test : FileUuid} {k : Execution}
    (h : SCheckOk c a checker name input correct test k) (x : Ext c.G a b) :
    SCheckOk c b checker name input correct test k := by
  obtain ⟨h2, h4, h3⟩ := h
  refine ⟨x.mem_handlers h2, h4, ?_⟩
  cases checker with
  | whiteDiff => exact h3
  | custom src => exact ⟨h3.1.mono x, h3.2⟩

theorem checkSample_spec {c : Ctx} {name : String} {checker : Checker}
    {ev ev1 ev' : Eval} {P : List Execution} {input correct test : FileUuid} {e : Execution} {a : Unit}
    (h : Inv c.G ev P) (hk : checker.Known c) (hi : input ∈ allFiles ev.dag)
    (hc : correct ∈ allFiles ev.dag) (ht : test ∈ allFiles ev.dag)
    (h1 : checker.checkSample c.fs name input correct test ev = .ok (e, ev1))
    (h3 : addExec e ev1 = .ok (a, ev')) :
    Inv c.G ev' P ∧ Step c ev ev' [] [.sample (checker.event name)] ∧
    ev'.senders = ev.senders ∧
    ∃ k ∈ allExecs ev'.dag, SCheckOk c ev' checker name input correct test k := by
  have mid : Inv c.G ev1 (e :: P) ∧ Step c ev ev1 [] [.sample (checker.event name)] ∧
      ev1.senders = ev.senders ∧ Ranked e "checking" EVALUATION_PRIORITY ∧
      (e.uuid, .sample (checker.event name)) ∈ ev1.handlers ∧
      (match checker with
        | .whiteDiff => e.command = .system "diff" ∧ e.args = diffArgs ∧
            e.inputs.get? "correct" = some ⟨correct, false⟩ ∧
            e.inputs.get? "test" = some ⟨test, false⟩
        | .custom src =>
            RunOf c ev1 src ["input", "correct_output", "test_output"]
              ["test_output", "correct_output", "input"] e ∧
            e.inputs.get? "input" = some ⟨input, false⟩ ∧
            e.inputs.get? "correct_output" = some ⟨correct, false⟩ ∧
            e.inputs.get? "test_output" = some ⟨test, false⟩ ∧
            e.captureStdout = some 128 ∧ e.captureStderr = some STDERR_CONTENT_LENGTH) := by
    cases checker with
    | whiteDiff =>
      simp only [Checker.checkSample, bind_ok, onExec_ok, pure_ok] at h1
      obtain ⟨e0, ev0, h0, _, _, rfl, rfl, rfl⟩ := h1
      obtain ⟨rfl, rfl, i0⟩ := newExecution_spec h h0
      have i1 := ((i0.other (e' := diffExec ev.next) rfl rfl rfl rfl rfl rfl rfl rfl).input hc
        "correct" false).input ht "test" false
      have i2 := i1.other (e' := { addInput (addInput (diffExec ev.next) correct "correct" false)
        test "test" false with tag := some "checking", priority := EVALUATION_PRIORITY })
        rfl rfl rfl rfl rfl rfl rfl rfl
      have i3 := i2.onExec (mem_execUuids_head) (.sample (.diff name)) ev.pending
      have s1 := Step.ofNext c ev (ev.next + 1) (Nat.le_succ _)
      have s2 := s1.trans0 (Step.handler c _ ev.next (hd := .sample (.diff name)) rfl)
      refine ⟨i3, s2, rfl, ⟨rfl, rfl⟩, by simp [Checker.event, addInput], rfl, rfl, ?_, ?_⟩
      · show (addInput (addInput _ _ _ _) _ _ _).inputs.get? _ = _
        simp [get?_addInput]
      · show (addInput (addInput _ _ _ _) _ _ _).inputs.get? _ = _
        simp [get?_addInput]
    | custom src =>
      simp only [Checker.checkSample, bind_ok, onExec_ok, pure_ok] at h1
      obtain ⟨e0, ev0, h0, e1, ev1', h1, e2, ev2', h2, _, _, rfl, rfl, rfl⟩ := h1
      obtain ⟨i0, s0, hs0, r0, b0, l0, -⟩ := execute_spec h hk h0
      have i1 := ((i0.input (s0.ext.allFiles hi) "input" false).input (s0.ext.allFiles hc)
        "correct_output" false).input (s0.ext.allFiles ht) "test_output" false
      have r1 := ((r0.input input "input" false).input correct "correct_output" false).input test
        "test_output" false
      have g1 : (addInput (addInput (addInput e0 input "input" false) correct "correct_output" false)
          test "test_output" false).inputs.get? "input" = some ⟨input, false⟩ := by
        simp [get?_addInput]
      have g2 : (addInput (addInput (addInput e0 input "input" false) correct "correct_output" false)
          test "test_output" false).inputs.get? "correct_output" = some ⟨correct, false⟩ := by
        simp [get?_addInput]
      have g3 : (addInput (addInput (addInput e0 input "input" false) correct "correct_output" false)
          test "test_output" false).inputs.get? "test_output" = some ⟨test, false⟩ := by
        simp [get?_addInput]
      generalize addInput (addInput (addInput e0 input "input" false) correct "correct_output" false)
          test "test_output" false = E at *
      have i2 : Inv c.G ev0 ({ E with tag := some "checking" } :: P) :=
        i1.other rfl rfl rfl rfl rfl rfl rfl rfl
      obtain ⟨f1, rfl, i3, q1⟩ := captureStdout_spec i2 h1
      obtain ⟨f2, rfl, i4, q2⟩ := captureStderr_spec i3 h2
      have i5 := i4.other (e' := { E with
        tag := some "checking"
        stdout := some f1
        captureStdout := some 128
        stderr := some f2
        captureStderr := some STDERR_CONTENT_LENGTH
        priority := EVALUATION_PRIORITY
        limits := { E.limits with allowMultiprocess := true } }) rfl rfl rfl rfl rfl rfl rfl rfl
      have i6 := i5.onExec (mem_execUuids_head) (.sample (.checker name)) ev2'.pending
      have s1 := (s0.trans0 (Step.ofNextOr3 q1)).trans0 (Step.ofNextOr3 q2)
      have s2 := s1.trans0 (Step.handler c _ E.uuid (hd := .sample (.checker name)) rfl)
      have hx : Ext c.G ev0 { ev2' with
          handlers := ev2'.handlers ++ [(E.uuid, .sample (.checker name))] } :=
        ((Step.ofNextOr3 (c := c) q1).ext.trans (Step.ofNextOr3 (c := c) q2).ext).trans
          (Step.handler c ev2' E.uuid (hd := .sample (.checker name)) rfl).ext
      have hsn : ev2'.senders = ev.senders := by
        rcases q1 with ⟨_, rfl⟩ | ⟨_, _, rfl⟩ <;> rcases q2 with ⟨_, rfl⟩ | ⟨_, _, rfl⟩ <;> exact hs0
      refine ⟨i6, s2, hsn, ⟨rfl, rfl⟩, by simp [Checker.event], ?_, g1, g2, g3, rfl, rfl⟩
      exact (r1.mono hx).other rfl rfl rfl
  obtain ⟨i1, s1, hs1, htag, hm1, hk1⟩ := mid
  have s3 := Step.addExec i1 (by simp [isComp, htag.1]) h3
  obtain ⟨i3, x3, m3, o3, -, hh3, -, -, -, hs3, -⟩ := addExec_spec i1 h3
  refine ⟨i3, s1.then0 s3, by rw [hs3]; exact hs1, _, m3, ?_, htag, ?_⟩
  · rw [hh3]; exact hm1
  · cases checker with
    | whiteDiff => exact hk1
    | custom src => exact ⟨(hk1.1.mono x3).other rfl rfl rfl, hk1.2⟩

/-! ## A pair of sample files -/

def SPairOk (c : Ctx) (ev : Eval) (task : Task) (v : InputValidator) (off : Option OutputGenerator)
    (checker : Checker) (p : SamplePair) : Prop :=
  ∃ input handle, ProvidedFrom c.G c.fs ev input p.input ∧ SValOk c ev v p.input input handle ∧
    ∀ g, off = some g → ∃ output correct, ∃ k ∈ allExecs ev.dag,
      ProvidedFrom c.G c.fs ev output p.output ∧
      SOutOk c ev task g p.input input handle correct ∧
      SCheckOk c ev checker p.output input correct output k

theorem SPairOk.mono {c : Ctx} {a b : Eval} {task : Task} {v : InputValidator}
    {off : Option OutputGenerator} {checker : Checker} {p : SamplePair}
    (h : SPairOk c a task v off checker p) (x : Ext c.G a b) : SPairOk c b task v off checker p := by
  obtain ⟨i, hd, h1, h2, h3⟩ := h
  refine ⟨i, hd, h1.mono x, h2.mono x, fun g hg => ?_⟩
  obtain ⟨o, q, k, h4, h5, h6, h7⟩ := h3 g hg
  exact ⟨o, q, k, x.mem_exec h4, h5.mono x, h6.mono x, h7.mono x⟩

theorem provideFresh_spec {c : Ctx} {ev ev1 ev' : Eval} {P : List Execution} {f : FileUuid} {path : String} {a : Unit}
    (h : Inv c.G ev P) (h1 : fresh ev = .ok (f, ev1)) (h2 : provideFile c.fs f path ev1 = .ok (a, ev')) :
    Inv c.G ev' P ∧ Step c ev ev' [] [] ∧ ev'.senders = ev.senders ∧ f ∈ allFiles ev'.dag ∧
    ProvidedFrom c.G c.fs ev' f path := by
  rw [fresh_ok] at h1
  obtain ⟨rfl, rfl⟩ := h1
  rw [provideFile_ok] at h2
  obtain ⟨k, hk, rfl⟩ := h2
  obtain ⟨i1, x1, m1⟩ := h.provideFresh ⟨k, none, some path⟩
  exact ⟨i1, Step.provideFresh h ⟨k, none, some path⟩, rfl, m1, h.fresh_not_grader, k, hk,
    by simp [DagData.provide]⟩

theorem addSample_spec {c : Ctx} {task : Task} {v : InputValidator} {off : Option OutputGenerator}
    {checker : Checker} {p : SamplePair} {ev ev' : Eval} {P : List Execution} {a : Unit}
    (h : Inv c.G ev P) (hv : v.Known c) (ho : ∀ g, off = some g → g.Known c) (hk : checker.Known c)
    (hr : addSample c.fs task v off checker p ev = .ok (a, ev')) :
    Inv c.G ev' P ∧ Step c ev ev' [] ((Spec.sampleEvents v off checker p).map Handler.sample) ∧
    ev'.senders = ev.senders ∧ SPairOk c ev' task v off checker p := by
  simp only [addSample, bind_ok] at hr
  obtain ⟨input, ev1, h1, _, ev2, h2, ⟨handle, val⟩, ev3, h3, _, ev4, h4, h5⟩ := hr
  obtain ⟨i2, s2, hs2, m2, p2⟩ := provideFresh_spec h h1 h2
  obtain ⟨i4, s4, hs4, m4, p4⟩ := validateSample_spec i2 hv m2 h3 h4
  have s24 := s2.trans0 s4
  cases off with
  | none =>
    simp only [pure_ok] at h5
    obtain ⟨-, rfl⟩ := h5
    refine ⟨i4, ?_, hs4.trans hs2, input, handle, p2.mono s4.ext, p4, by simp⟩
    simpa [Spec.sampleEvents, Function.comp_def] using s24
  | some g =>
    simp only [solveSample, bind_ok] at h5
    obtain ⟨output, ev5, h5, _, ev6, h6, ⟨correct, sol⟩, ev7, h7, h8⟩ := h5
    obtain ⟨i6, s6, hs6, m6, p6⟩ := provideFresh_spec i4 h5 h6
    cases correct with
    | none => simp only [fail_ok] at h8
    | some correct =>
      simp only [bind_ok] at h8
      obtain ⟨_, ev8, h8, chk, ev9, h9, h10⟩ := h8
      have x46 := s4.ext.trans s6.ext
      obtain ⟨i8, s8, hs8, _, ⟨⟩, m8, p8⟩ := outputSample_spec i6 (ho g rfl) (x46.allFiles m2)
        (fun f hf => s6.ext.allFiles (m4 f hf)) h7 h8
      obtain ⟨i10, s10, hs10, k, m10, p10⟩ := checkSample_spec i8 hk (s8.ext.allFiles (x46.allFiles m2)) m8
        (s8.ext.allFiles m6) h9 h10
      have x8 := s6.ext.trans (s8.ext.trans s10.ext)
      refine ⟨i10, ?_, ?_, input, handle, (p2.mono s4.ext).mono x8, p4.mono x8, ?_⟩
      · have := (s24.then0 s6).trans (s8.trans s10)
        cases checker <;> simpa [Spec.sampleEvents, Function.comp_def, Checker.event] using this
      · rw [hs10, hs8, hs6, hs4, hs2]
      · rintro _ ⟨⟩
        exact ⟨output, correct, k, m10, (p6.mono s8.ext).mono s10.ext, p8.mono s10.ext, p10⟩

theorem samples_spec {c : Ctx} {task : Task} {v : InputValidator} {off : Option OutputGenerator}
    {checker : Checker} {P : List Execution}
    (hv : v.Known c) (ho : ∀ g, off = some g → g.Known c) (hk : checker.Known c) :
    ∀ {pairs : List SamplePair} {ev ev' : Eval} {a : Unit}, Inv c.G ev P →
    each (addSample c.fs task v off checker) pairs ev = .ok (a, ev') →
    Inv c.G ev' P ∧
    Step c ev ev' [] ((pairs.flatMap (Spec.sampleEvents v off checker)).map Handler.sample) ∧
    ev'.senders = ev.senders ∧ ∀ p ∈ pairs, SPairOk c ev' task v off checker p := by
  intro pairs
  induction pairs with
  | nil =>
    intro ev ev' a h hr
    simp only [each, pure_ok] at hr
    obtain ⟨-, rfl⟩ := hr
    exact ⟨h, .refl _ _, rfl, by simp⟩
  | cons p ps ih =>
    intro ev ev' a h hr
    simp only [each, bind_ok] at hr
    obtain ⟨_, ev1, h1, h2⟩ := hr
    obtain ⟨i1, s1, hs1, p1⟩ := addSample_spec h hv ho hk h1
    obtain ⟨i2, s2, hs2, p2⟩ := ih i1 h2
    refine ⟨i2, by simpa using s1.trans s2, hs2.trans hs1, fun q hq => ?_⟩
    rcases List.mem_cons.1 hq with rfl | hq
    · exact p1.mono s2.ext
    · exact p2 q hq

end TM.Build
