import Verif.Build.Pieces
/-!
# Generation, validation and official output of a testcase
-/
namespace TM.Build
open TM DagSpec

/-- The file is written to `dest` at the end, unless it is a dry run. -/
def Written (ev : Eval) (f : FileUuid) (dest : String) : Prop :=
  ev.dag.config.dryRun = false → ev.writes.get? f = some ⟨dest, false, false⟩

theorem Written.mono {G : FileUuid → Prop} {a b : Eval} {f : FileUuid} {dest : String}
    (h : Written a f dest) (k : Ext G a b) : Written b f dest := by
  intro hd; rw [k.config] at hd; exact k.writes _ _ (h hd)

/-- Writing a file that has no destination yet. -/
theorem write_step {c : Ctx} {ev ev' : Eval} {P : List Execution} {f : FileUuid} {dest : String}
    {a : Unit} (h : Inv c.G ev P) (hf : f ∈ allFiles ev.dag ∨ f ∈ outsOf P)
    (hw : ev.writes.get? f = none) (hd : c.mayWrite dest)
    (hr : writeFileTo f dest false ev = .ok (a, ev')) :
    Inv c.G ev' P ∧ Step c ev ev' [] [] ∧ ev'.senders = ev.senders ∧ Written ev' f dest ∧
    ev'.dag = ev.dag ∧ ev'.exes = ev.exes := by
  rw [writeFileTo_ok] at hr
  subst hr
  refine ⟨h.write hf dest false, Step.write hw hd, ?_, ?_, ?_, ?_⟩
  · split <;> rfl
  · intro hdry
    have : ev.dag.config.dryRun = false := by split at hdry <;> exact hdry
    simp [this]
  · split <;> rfl
  · split <;> rfl

/-! ## The input -/

/-- How the input of a testcase comes to be. -/
def GenOk (c : Ctx) (ev : Eval) (g : InputGenerator) (st tc : Nat) (input : FileUuid) : Prop :=
  match g with
  | .staticFile path => ProvidedFrom c.G c.fs ev input path
  | .custom src args => ∃ e ∈ allExecs ev.dag, RunOf c ev src args [] e ∧ e.stdin = none ∧
      e.stdout = some input ∧ e.stdoutRedirectPath = none ∧
      e.limits = { src.lang.limits defaultLimits with allowMultiprocess := true } ∧
      e.captureStderr = some STDERR_CONTENT_LENGTH ∧
      Ranked e "generation" (GENERATION_PRIORITY - tc) ∧
      Reported ev e.uuid (.generation st tc)

theorem GenOk.mono {c : Ctx} {a b : Eval} {g : InputGenerator} {st tc : Nat} {input : FileUuid}
    (h : GenOk c a g st tc input) (k : Ext c.G a b) : GenOk c b g st tc input := by
  cases g with
  | staticFile path => exact ProvidedFrom.mono h k
  | custom src args =>
    obtain ⟨e, h1, h2, h3, h4, h5, h6, h7, h9, h8⟩ := h
    exact ⟨e, k.mem_exec h1, h2.mono k, h3, h4, h5, h6, h7, h9, h8.mono k⟩

/-- The messages about the generation. -/
def InputGenerator.topics (st tc : Nat) : InputGenerator → List Topic
  | .staticFile _ => []
  | .custom _ _ => [.generation st tc]

/-- The sources of a generator are known. -/
def InputGenerator.Known (c : Ctx) : InputGenerator → Prop
  | .staticFile _ => True
  | .custom src _ => c.Knows src

/-- Where the input of a testcase is written. -/
def inputDest (root : String) (tc : Nat) : String :=
  root ++ "/input/input" ++ toString tc ++ ".txt"

theorem generateAndBind_spec {c : Ctx} {root : String} {st tc : Nat} {g : InputGenerator}
    {ev ev' : Eval} {P : List Execution} {input : FileUuid} (h : Inv c.G ev P) (hk : g.Known c)
    (hd : c.mayWrite (inputDest root tc))
    (hr : g.generateAndBind c.fs root st tc ev = .ok (input, ev')) :
    Inv c.G ev' P ∧ Step c ev ev' (g.topics st tc) [] ∧ ev'.senders = ev.senders ∧
    input ∈ allFiles ev'.dag ∧ GenOk c ev' g st tc input ∧
    Written ev' input (inputDest root tc) ∧ Hidden c ev' input := by
  simp only [InputGenerator.generateAndBind, bind_ok, pure_ok] at hr
  obtain ⟨⟨f, gen⟩, ev1, h1, _, ev2, h2, _, ev3, h3, rfl, rfl⟩ := hr
  cases g with
  | staticFile path =>
    by_cases hp : c.fs.present path = true
    · simp only [InputGenerator.generate, hp, if_true, bind_ok, fresh_ok, provideFile_ok, pure_ok,
        Prod.mk.injEq] at h1
      obtain ⟨_, _, ⟨rfl, rfl⟩, _, _, ⟨k, hk, rfl⟩, ⟨rfl, rfl⟩, rfl⟩ := h1
      obtain ⟨i1, x1, m1⟩ := h.provideFresh ⟨k, none, some path⟩
      have s1 := Step.provideFresh h ⟨k, none, some path⟩
      obtain ⟨i2, s2, hs2, w2, hd2, -⟩ := write_step i1 (Or.inl m1)
        (h.writes_lt (Nat.le_refl ev.next)) hd h2
      have := addOptional_none (c := c) h3
      subst this
      have hid : Hidden c { ev with
          next := ev.next + 1, dag := ev.dag.provide ev.next ⟨k, none, some path⟩ } ev.next :=
        h.hiddenFresh (Nat.lt_succ_self _) rfl
      refine ⟨i2, s1.trans0 s2, hs2, by rw [hd2]; exact m1, ?_, w2, hid.mono s2⟩
      have : ProvidedFrom c.G c.fs { ev with
          next := ev.next + 1, dag := ev.dag.provide ev.next ⟨k, none, some path⟩ }
          ev.next path := ⟨h.fresh_not_grader, k, hk, by simp [DagData.provide]⟩
      exact this.mono s2.ext
    · simp only [InputGenerator.generate, if_neg hp, fail_ok] at h1
  | custom src args =>
    simp only [InputGenerator.generate, bind_ok, pure_ok, Prod.mk.injEq] at h1
    obtain ⟨e0, ev0, h0, ⟨f', e1⟩, ev1', h1, ⟨rfl, rfl⟩, rfl⟩ := h1
    obtain ⟨i0, s0, hs0, r0, b0, l0, -⟩ := execute_spec h hk h0
    have i0' := i0.other (e' := { e0 with
      limits := { e0.limits with allowMultiprocess := true }
      tag := some "generation"
      priority := GENERATION_PRIORITY - tc }) rfl rfl rfl rfl rfl rfl rfl rfl
    obtain ⟨rfl, i1, e1⟩ := stdoutOf_spec i0' h1
    have e1' : f' = ev0.next ∧ ev1' = { ev0 with next := ev0.next + 1 } := by
      rcases e1 with ⟨h5, _⟩ | ⟨_, h5, h6⟩
      · have h5 : e0.stdout = some f' := h5
        rw [b0.stdout] at h5; cases h5
      · exact ⟨h5, h6⟩
    obtain ⟨rfl, rfl⟩ := e1'
    have s1 := s0.trans0 (Step.ofNext c ev0 (ev0.next + 1) (Nat.le_succ _))
    obtain ⟨i2, s2, hs2, w2, hd2, -⟩ := write_step i1
      (Or.inr (by simp [outsOf, Execution.outputFiles]))
      (i0.writes_lt (Nat.le_refl ev0.next)) hd h2
    have hdag : ev2.dag = ev0.dag := hd2
    obtain ⟨i3, s3, hs3, -, ⟨f3, m3⟩, o3, rep⟩ := addOptional_some i2
      (t := .generation st tc) rfl rfl h3
    have hid : Hidden c { ev0 with next := ev0.next + 1 } ev0.next :=
      i0.hiddenFresh (Nat.lt_succ_self _) rfl
    refine ⟨i3, (s1.trans0 s2).trans0 s3, ?_, ?_, ?_, w2.mono s3.ext, (hid.mono s2).mono s3⟩
    · rw [hs3, hs2]; exact hs0
    · exact o3 _ (by simp [Execution.outputFiles])
    · refine ⟨_, m3, ?_, b0.stdin, rfl, b0.stdoutPath, ?_, rfl, ⟨rfl, rfl⟩, rep⟩
      · exact (((r0.mono (Ext.ofNext c.G ev0 (ev0.next + 1) (Nat.le_succ _))).mono s2.ext).mono
          s3.ext).other rfl rfl rfl
      · simp [l0]

/-! ## The validation -/

/-- How the input of a testcase is validated for a subtask. -/
def ValOk (c : Ctx) (ev : Eval) (v : InputValidator) (st : Nat) (name : Option String) (tc : Nat)
    (input : FileUuid) (handle : Option FileUuid) : Prop :=
  match v with
  | .assumeValid => handle = none
  | .custom src args => ∃ f, handle = some f ∧ ∃ e ∈ allExecs ev.dag,
      RunOf c ev src args [TM_VALIDATION_FILE_NAME] e ∧ e.stdin = none ∧
      e.inputs.get? TM_VALIDATION_FILE_NAME = some ⟨input, false⟩ ∧ e.stdout = some f ∧
      e.env.get? "TM_SUBTASK" = some (toString st) ∧ e.env.get? "TM_TESTCASE" = some (toString tc) ∧
      e.env.get? "TM_SUBTASK_NAME" = name ∧
      e.captureStderr = some STDERR_CONTENT_LENGTH ∧
      Ranked e "generation" (GENERATION_PRIORITY - tc) ∧
      Reported ev e.uuid (.validation st tc)

theorem ValOk.mono {c : Ctx} {a b : Eval} {v : InputValidator} {st tc : Nat} {name : Option String}
    {input : FileUuid} {handle : Option FileUuid} (h : ValOk c a v st name tc input handle)
    (k : Ext c.G a b) : ValOk c b v st name tc input handle := by
  cases v with
  | assumeValid => exact h
  | custom src args =>
    obtain ⟨f, h0, e, h1, h2, h3, h4, h5, h6, h7, h8, h9, h11, h10⟩ := h
    exact ⟨f, h0, e, k.mem_exec h1, h2.mono k, h3, h4, h5, h6, h7, h8, h9, h11, h10.mono k⟩

/-- The messages about the validation. -/
def InputValidator.topics (st tc : Nat) : InputValidator → List Topic
  | .assumeValid => []
  | .custom _ _ => [.validation st tc]

/-- The sources of a validator are known. -/
def InputValidator.Known (c : Ctx) : InputValidator → Prop
  | .assumeValid => True
  | .custom src _ => c.Knows src

theorem validateAndBind_spec {c : Ctx} {st tc : Nat} {name : Option String} {v : InputValidator}
    {ev ev' : Eval} {P : List Execution} {input : FileUuid} {handle : Option FileUuid}
    (h : Inv c.G ev P) (hk : v.Known c) (hi : input ∈ allFiles ev.dag)
    (hr : v.validateAndBind c.fs st name tc input ev = .ok (handle, ev')) :
    Inv c.G ev' P ∧ Step c ev ev' (v.topics st tc) [] ∧ ev'.senders = ev.senders ∧
    (∀ f, handle = some f → f ∈ allFiles ev'.dag) ∧ ValOk c ev' v st name tc input handle := by
  simp only [InputValidator.validateAndBind, bind_ok, pure_ok] at hr
  obtain ⟨⟨hd, val⟩, ev1, h1, _, ev3, h3, rfl, rfl⟩ := hr
  cases v with
  | assumeValid =>
    simp only [InputValidator.validate, pure_ok, Prod.mk.injEq] at h1
    obtain ⟨⟨rfl, rfl⟩, rfl⟩ := h1
    have := addOptional_none (c := c) h3
    subst this
    exact ⟨h, .refl _ _, rfl, by simp, rfl⟩
  | custom src args =>
    simp only [InputValidator.validate, bind_ok, pure_ok, Prod.mk.injEq] at h1
    obtain ⟨e0, ev0, h0, ⟨f', e1⟩, ev1', h1, ⟨rfl, rfl⟩, rfl⟩ := h1
    obtain ⟨i0, s0, hs0, r0, b0, l0, -⟩ := execute_spec h hk h0
    have i0' := i0.input (s0.ext.allFiles hi) TM_VALIDATION_FILE_NAME false
    have r0' := r0.input input TM_VALIDATION_FILE_NAME false
    -- the execution before its stdout is taken
    generalize hE : ({ (match name with
        | some n => { ({ addInput e0 input TM_VALIDATION_FILE_NAME false with
            tag := some "generation"
            priority := GENERATION_PRIORITY - tc
            env := ((addInput e0 input TM_VALIDATION_FILE_NAME false).env.insert "TM_SUBTASK"
              (toString st)).insert "TM_TESTCASE" (toString tc) } : Execution) with
            env := ((((addInput e0 input TM_VALIDATION_FILE_NAME false).env.insert "TM_SUBTASK"
              (toString st)).insert "TM_TESTCASE" (toString tc)).insert "TM_SUBTASK_NAME" n) }
        | none => ({ addInput e0 input TM_VALIDATION_FILE_NAME false with
            tag := some "generation"
            priority := GENERATION_PRIORITY - tc
            env := ((addInput e0 input TM_VALIDATION_FILE_NAME false).env.insert "TM_SUBTASK"
              (toString st)).insert "TM_TESTCASE" (toString tc) } : Execution)) with
        limits := { (match name with
        | some n => { ({ addInput e0 input TM_VALIDATION_FILE_NAME false with
            tag := some "generation"
            priority := GENERATION_PRIORITY - tc
            env := ((addInput e0 input TM_VALIDATION_FILE_NAME false).env.insert "TM_SUBTASK"
              (toString st)).insert "TM_TESTCASE" (toString tc) } : Execution) with
            env := ((((addInput e0 input TM_VALIDATION_FILE_NAME false).env.insert "TM_SUBTASK"
              (toString st)).insert "TM_TESTCASE" (toString tc)).insert "TM_SUBTASK_NAME" n) }
        | none => ({ addInput e0 input TM_VALIDATION_FILE_NAME false with
            tag := some "generation"
            priority := GENERATION_PRIORITY - tc
            env := ((addInput e0 input TM_VALIDATION_FILE_NAME false).env.insert "TM_SUBTASK"
              (toString st)).insert "TM_TESTCASE" (toString tc) } : Execution)).limits with
          allowMultiprocess := true } } : Execution) = E at h1
    have hEf : E.uuid = e0.uuid ∧ E.stdin = none ∧ E.stdout = none ∧ E.stderr = none ∧
        E.inputs = (addInput e0 input TM_VALIDATION_FILE_NAME false).inputs ∧ E.outputs = [] ∧
        E.captureStdout = none ∧ E.captureStderr = none ∧ E.command = e0.command ∧
        E.args = e0.args ∧ Ranked E "generation" (GENERATION_PRIORITY - tc) ∧
        E.env.get? "TM_SUBTASK" = some (toString st) ∧
        E.env.get? "TM_TESTCASE" = some (toString tc) ∧
        E.env.get? "TM_SUBTASK_NAME" = name := by
      subst hE
      cases name <;>
        simp [addInput, Ranked, b0.stdin, b0.stdout, b0.stderr, b0.outputs, b0.captureStdout,
          b0.captureStderr, b0.env, AMap.get?_insert]
    clear hE
    obtain ⟨e1u, e1i, e1o, e1e, e1n, e1p, e1c, e1d, e1m, e1a, e1t, n1, n2, n3⟩ := hEf
    have i0'' : Inv c.G ev0 (E :: P) := i0'.other e1u (e1i.trans b0.stdin.symm)
      (e1o.trans b0.stdout.symm) (e1e.trans b0.stderr.symm) e1n (e1p.trans b0.outputs.symm)
      (e1c.trans b0.captureStdout.symm) (e1d.trans b0.captureStderr.symm)
    obtain ⟨rfl, i1, e1⟩ := stdoutOf_spec i0'' h1
    have e1' : f' = ev0.next ∧ ev1' = { ev0 with next := ev0.next + 1 } := by
      rcases e1 with ⟨h5, _⟩ | ⟨_, h5, h6⟩
      · rw [e1o] at h5; cases h5
      · exact ⟨h5, h6⟩
    obtain ⟨rfl, rfl⟩ := e1'
    have s1 := s0.trans0 (Step.ofNext c ev0 (ev0.next + 1) (Nat.le_succ _))
    obtain ⟨i3, s3, hs3, -, ⟨f3, m3⟩, o3, rep⟩ := addOptional_some i1
      (t := .validation st tc) rfl (by simp [isComp, e1t.1]) h3
    refine ⟨i3, s1.trans0 s3, ?_, ?_, ?_⟩
    · rw [hs3]; exact hs0
    · rintro f ⟨⟩
      exact o3 _ (by simp [Execution.outputFiles])
    · refine ⟨_, rfl, _, m3, ?_, e1i, ?_, rfl, n1, n2, n3, rfl, e1t, rep⟩
      · exact ((r0'.mono (Ext.ofNext c.G ev0 (ev0.next + 1) (Nat.le_succ _))).mono s3.ext).other
          e1m e1a e1n
      · show E.inputs.get? _ = _
        rw [e1n, get?_addInput, if_pos rfl]

/-! ## The official output -/

/-- How the official output of a testcase comes to be. -/
def OutOk (c : Ctx) (ev : Eval) (task : Task) (g : OutputGenerator) (st tc : Nat)
    (input : FileUuid) (handle output : Option FileUuid) : Prop :=
  ∃ f, output = some f ∧
  match g with
  | .notAvailable => ev.dag.providedFiles.get? f = some ⟨emptyKey, some [], none⟩ ∧ ¬ c.G f
  | .staticFile path => ProvidedFrom c.G c.fs ev f path
  | .custom src args => ∃ e ∈ allExecs ev.dag, RunOf c ev src args (ioPaths task handle) e ∧
      ReadsInput task e input ∧ Waits e handle ∧ WritesOutput task e f ∧
      e.limits = src.lang.limits defaultLimits ∧
      e.captureStderr = some STDERR_CONTENT_LENGTH ∧
      Ranked e "generation" (GENERATION_PRIORITY - tc) ∧
      Reported ev e.uuid (.officialOutput st tc)

theorem OutOk.mono {c : Ctx} {a b : Eval} {task : Task} {g : OutputGenerator} {st tc : Nat}
    {input : FileUuid} {handle output : Option FileUuid}
    (h : OutOk c a task g st tc input handle output) (k : Ext c.G a b) :
    OutOk c b task g st tc input handle output := by
  obtain ⟨f, h0, h⟩ := h
  refine ⟨f, h0, ?_⟩
  cases g with
  | notAvailable =>
    obtain ⟨h1, h2⟩ := h
    obtain ⟨p, h3, h4⟩ := k.provided _ _ h1
    rcases h4 with rfl | h4
    · exact ⟨h3, h2⟩
    · exact absurd h4 h2
  | staticFile path => exact ProvidedFrom.mono h k
  | custom src args =>
    obtain ⟨e, h1, h2, h3, h4, h5, h6, h7, h9, h8⟩ := h
    exact ⟨e, k.mem_exec h1, h2.mono k, h3, h4, h5, h6, h7, h9, h8.mono k⟩

/-- The messages about the official output. -/
def OutputGenerator.topics (st tc : Nat) : OutputGenerator → List Topic
  | .custom _ _ => [.officialOutput st tc]
  | _ => []

/-- The sources of an output generator are known. -/
def OutputGenerator.Known (c : Ctx) : OutputGenerator → Prop
  | .custom src _ => c.Knows src
  | _ => True

/-- Where the official output of a testcase is written. -/
def outputDest (task : Task) (tc : Nat) : String :=
  task.path ++ "/output/output" ++ toString tc ++ ".txt"

theorem outputAndBind_spec {c : Ctx} {task : Task} {st tc : Nat} {g : OutputGenerator}
    {ev ev' : Eval} {P : List Execution} {input : FileUuid} {handle output : Option FileUuid}
    (h : Inv c.G ev P) (hk : g.Known c) (hd : c.mayWrite (outputDest task tc))
    (hi : input ∈ allFiles ev.dag) (hh : ∀ f, handle = some f → f ∈ allFiles ev.dag)
    (hr : g.generateAndBind c.fs task st tc input handle ev = .ok (output, ev')) :
    Inv c.G ev' P ∧ Step c ev ev' (g.topics st tc) [] ∧ ev'.senders = ev.senders ∧
    (∃ f, output = some f ∧ f ∈ allFiles ev'.dag ∧ Written ev' f (outputDest task tc) ∧
      Hidden c ev' f ∧ f ≠ input ∧ handle ≠ some f) ∧
    OutOk c ev' task g st tc input handle output := by
  have hne : ∀ f, ev.next ≤ f → f ≠ input ∧ handle ≠ some f := by
    intro f hf
    refine ⟨?_, fun he => ?_⟩
    · rintro rfl
      exact Nat.not_succ_le_self _ (Nat.le_trans (h.file_lt hi) hf)
    · exact Nat.not_succ_le_self _ (Nat.le_trans (h.file_lt (hh f he)) hf)
  simp only [OutputGenerator.generateAndBind, bind_ok, pure_ok] at hr
  obtain ⟨⟨o, sol⟩, ev1, h1, _, ev2, h2, _, ev3, h3, rfl, rfl⟩ := hr
  cases g with
  | notAvailable =>
    simp only [OutputGenerator.generate, provideContent, bind_ok, fresh_ok, upd_ok, pure_ok,
      Prod.mk.injEq] at h1
    obtain ⟨_, _, ⟨rfl, rfl⟩, _, _, rfl, ⟨rfl, rfl⟩, rfl⟩ := h1
    obtain ⟨i1, x1, m1⟩ := h.provideFresh ⟨emptyKey, some [], none⟩
    have s1 := Step.provideFresh h ⟨emptyKey, some [], none⟩
    have := addOptional_none (c := c) h2
    subst this
    obtain ⟨i2, s2, hs2, w2, hd2, -⟩ := write_step i1 (Or.inl m1)
      (h.writes_lt (Nat.le_refl ev.next)) hd h3
    have hid : Hidden c { ev with
        next := ev.next + 1, dag := ev.dag.provide ev.next ⟨emptyKey, some [], none⟩ } ev.next :=
      h.hiddenFresh (Nat.lt_succ_self _) rfl
    refine ⟨i2, s1.trans0 s2, hs2, ⟨_, rfl, by rw [hd2]; exact m1, w2, hid.mono s2,
      hne _ (Nat.le_refl _)⟩, _, rfl, ?_, h.fresh_not_grader⟩
    rw [hd2]; simp [DagData.provide]
  | staticFile path =>
    by_cases hp : c.fs.present path = true
    · simp only [OutputGenerator.generate, hp, if_true, bind_ok, fresh_ok, provideFile_ok, pure_ok,
        Prod.mk.injEq] at h1
      obtain ⟨_, _, ⟨rfl, rfl⟩, _, _, ⟨k, hk, rfl⟩, ⟨rfl, rfl⟩, rfl⟩ := h1
      obtain ⟨i1, x1, m1⟩ := h.provideFresh ⟨k, none, some path⟩
      have s1 := Step.provideFresh h ⟨k, none, some path⟩
      have := addOptional_none (c := c) h2
      subst this
      obtain ⟨i2, s2, hs2, w2, hd2, -⟩ := write_step i1 (Or.inl m1)
        (h.writes_lt (Nat.le_refl ev.next)) hd h3
      have hid : Hidden c { ev with
          next := ev.next + 1, dag := ev.dag.provide ev.next ⟨k, none, some path⟩ } ev.next :=
        h.hiddenFresh (Nat.lt_succ_self _) rfl
      refine ⟨i2, s1.trans0 s2, hs2, ⟨_, rfl, by rw [hd2]; exact m1, w2, hid.mono s2,
        hne _ (Nat.le_refl _)⟩, _, rfl, ?_⟩
      have : ProvidedFrom c.G c.fs { ev with
          next := ev.next + 1, dag := ev.dag.provide ev.next ⟨k, none, some path⟩ }
          ev.next path := ⟨h.fresh_not_grader, k, hk, by simp [DagData.provide]⟩
      exact this.mono s2.ext
    · simp only [OutputGenerator.generate, if_neg hp, fail_ok] at h1
  | custom src args =>
    simp only [OutputGenerator.generate, bind_ok, pure_ok, Prod.mk.injEq] at h1
    obtain ⟨e0, ev0, h0, ⟨f', e1⟩, ev1', h1, ⟨rfl, rfl⟩, rfl⟩ := h1
    obtain ⟨i0, s0, hs0, r0, b0, l0, -⟩ := execute_spec h hk h0
    have i0' := i0.other (e' := { e0 with
      tag := some "generation", priority := GENERATION_PRIORITY - tc })
      rfl rfl rfl rfl rfl rfl rfl rfl
    obtain ⟨i1, rfl, rfl, he1, ho1⟩ := bindExecIo_spec i0' (s0.ext.allFiles hi)
      (fun f hf => s0.ext.allFiles (hh f hf)) (fun _ => b0.stdout) b0.outputs h1
    have s1 := s0.trans0 (Step.ofNext c ev0 (ev0.next + 1) (Nat.le_succ _))
    have fi := inputBound_fields task { e0 with
      tag := some "generation", priority := GENERATION_PRIORITY - tc } input handle
    have fo := outputBound_fields task (inputBound task { e0 with
      tag := some "generation", priority := GENERATION_PRIORITY - tc } input handle) ev0.next
    have htag : e1.tag = some "generation" := by rw [he1, fo.2.1, fi.2.1]
    obtain ⟨i3, s3, hs3, hw3, ⟨f3, m3⟩, o3, rep⟩ := addOptional_some i1
      (t := .officialOutput st tc) rfl (by simp [isComp, htag]) h2
    obtain ⟨i4, s4, hs4, w4, hd4, -⟩ := write_step i3 (Or.inl (o3 _ ho1))
      (by rw [hw3]; exact i0.writes_lt (Nat.le_refl ev0.next)) hd h3
    have hid : Hidden c { ev0 with next := ev0.next + 1 } ev0.next :=
      i0.hiddenFresh (Nat.lt_succ_self _) rfl
    refine ⟨i4, (s1.trans0 s3).then0 s4, ?_, ⟨_, rfl, ?_, w4, (hid.mono s3).mono s4,
      hne _ s0.ext.next⟩, _, rfl, _, s4.ext.mem_exec m3,
      ?_, ?_, ?_, ?_, ?_, rfl, ⟨htag, ?_⟩, rep.mono s4.ext⟩
    · rw [hs4, hs3]; exact hs0
    · rw [hd4]; exact o3 _ ho1
    · have r1 : RunOf c ev0 src args (ioPaths task handle ++ []) e1 := by
        rw [he1]
        exact ((r0.other (e' := { e0 with
          tag := some "generation", priority := GENERATION_PRIORITY - tc }) rfl rfl rfl).inputBound
          task input handle).outputBound task _
      rw [List.append_nil] at r1
      have r2 := r1.mono (Ext.ofNext c.G ev0 (ev0.next + 1) (Nat.le_succ _))
      exact ((r2.mono s3.ext).mono s4.ext).other rfl rfl rfl
    · exact ((inputBound_reads task { e0 with
        tag := some "generation", priority := GENERATION_PRIORITY - tc } input handle)).same
          (by show e1.stdin = _; rw [he1, fo.2.2.2.2.1])
          (by show e1.inputs = _; rw [he1, fo.2.2.2.2.2.1])
    · exact ((inputBound_waits task { e0 with
        tag := some "generation", priority := GENERATION_PRIORITY - tc } input handle)).same
          (by show e1.inputs = _; rw [he1, fo.2.2.2.2.2.1])
    · exact (outputBound_writes task _ _).same (by show e1.stdout = _; rw [he1])
        (by show e1.outputs = _; rw [he1])
    · show e1.limits = _
      rw [he1, fo.2.2.1, fi.2.2.1]; exact l0
    · show e1.priority = _
      rw [he1, fo.2.2.2.2.2.2.2.2.1, fi.2.2.2.2.2.2.2.2.1]

end TM.Build
