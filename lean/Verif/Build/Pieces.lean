import Verif.Build.Execute
/-!
# Generation, validation and official output of a testcase
-/
namespace TM.Build
open TM DagSpec

/-- Inputs of an execution on the testcase: stdin or the input file, and the file that makes it wait
for the validation. -/
def inputBound (task : Task) (e : Execution) (input : FileUuid) (handle : Option FileUuid) :
    Execution :=
  let e := match task.infile with
    | none => { e with stdin := some input }
    | some infile => addInput e input infile false
  match handle with
    | none => e
    | some f => addInput e f "wait_for_validation" false

/-- The output of an execution on the testcase. -/
def outputBound (task : Task) (e : Execution) (out : FileUuid) : Execution :=
  match task.outfile with
  | none => { e with stdout := some out }
  | some o => { e with outputs := (o, out) :: e.outputs }

/-- The sandbox paths used by `bind_exec_io!`. -/
def ioPaths (task : Task) (handle : Option FileUuid) : List String :=
  handle.toList.map (fun _ => "wait_for_validation") ++ task.infile.toList

theorem Inv.inputBound {G : FileUuid → Prop} {ev : Eval} {P : List Execution} {e : Execution}
    (h : Inv G ev (e :: P)) (task : Task) {input : FileUuid} (hi : input ∈ allFiles ev.dag)
    {handle : Option FileUuid} (hh : ∀ f, handle = some f → f ∈ allFiles ev.dag) :
    Inv G ev (Build.inputBound task e input handle :: P) := by
  unfold Build.inputBound
  cases task.infile with
  | none =>
    have h1 := h.stdin hi
    cases handle with
    | none => exact h1
    | some f => exact h1.input (hh f rfl) _ _
  | some infile =>
    have h1 := h.input hi infile false
    cases handle with
    | none => exact h1
    | some f => exact h1.input (hh f rfl) _ _

theorem bindExecIo_spec {c : Ctx} {task : Task} {ev ev' : Eval} {P : List Execution}
    {e e' : Execution} {input out : FileUuid} {handle : Option FileUuid}
    (h : Inv c.G ev (e :: P)) (hi : input ∈ allFiles ev.dag)
    (hh : ∀ f, handle = some f → f ∈ allFiles ev.dag)
    (hso : task.outfile = none → e.stdout = none)
    (ho : e.outputs = []) (hr : bindExecIo task e input handle ev = .ok ((out, e'), ev')) :
    Inv c.G ev' (e' :: P) ∧ ev' = { ev with next := ev.next + 1 } ∧ out = ev.next ∧
    e' = outputBound task (inputBound task e input handle) out ∧ out ∈ e'.outputFiles := by
  have hb := h.inputBound task hi hh
  have hbo : (inputBound task e input handle).outputs = [] := by
    unfold inputBound
    cases task.infile <;> cases handle <;> exact ho
  have hbs : (inputBound task e input handle).stdout = e.stdout := by
    unfold inputBound
    cases task.infile <;> cases handle <;> rfl
  have key : (match task.outfile with
      | none => stdoutOf (inputBound task e input handle)
      | some outfile => outputOf (inputBound task e input handle) outfile) ev
      = .ok ((out, e'), ev') := hr
  unfold outputBound
  cases hof : task.outfile with
  | none =>
    simp only [hof] at key
    obtain ⟨h1, h2, h3⟩ := stdoutOf_spec hb key
    rw [hbs, hso hof] at h3
    rcases h3 with ⟨h4, _⟩ | ⟨_, h4, h5⟩
    · cases h4
    · exact ⟨h2, h5, h4, h1, by rw [h1]; simp [Execution.outputFiles]⟩
  | some o =>
    simp only [hof] at key
    obtain ⟨h1, h2, h3, h4⟩ := outputOf_spec hb (by rw [hbo]; rfl) key
    exact ⟨h4, h3, h1, by rw [h2, h1], by rw [h2, h1]; simp [Execution.outputFiles]⟩

theorem RunOf.inputBound {c : Ctx} {ev : Eval} {s : Src} {args over : List String} {e : Execution}
    (h : RunOf c ev s args over e) (task : Task) (input : FileUuid) (handle : Option FileUuid) :
    RunOf c ev s args (ioPaths task handle ++ over) (Build.inputBound task e input handle) := by
  unfold Build.inputBound ioPaths
  cases task.infile with
  | none =>
    have h1 : RunOf c ev s args over { e with stdin := some input } := h.other rfl rfl rfl
    cases handle with
    | none => exact h1
    | some f => exact h1.input f _ _
  | some infile =>
    have h1 := h.input input infile false
    cases handle with
    | none => exact h1
    | some f => exact h1.input f _ _

theorem RunOf.outputBound {c : Ctx} {ev : Eval} {s : Src} {args over : List String} {e : Execution}
    (h : RunOf c ev s args over e) (task : Task) (out : FileUuid) :
    RunOf c ev s args over (Build.outputBound task e out) := by
  unfold Build.outputBound
  cases task.outfile <;> exact h.other rfl rfl rfl

/-- `e` gets the input of the testcase where the task wants it. -/
def ReadsInput (task : Task) (e : Execution) (input : FileUuid) : Prop :=
  match task.infile with
  | none => e.stdin = some input
  | some infile => infile ≠ "wait_for_validation" → e.inputs.get? infile = some ⟨input, false⟩

/-- `out` is the output the task wants from `e`. -/
def WritesOutput (task : Task) (e : Execution) (out : FileUuid) : Prop :=
  match task.outfile with
  | none => e.stdout = some out
  | some o => e.outputs.get? o = some out

/-- `e` cannot start before the validation. -/
def Waits (e : Execution) (handle : Option FileUuid) : Prop :=
  ∀ f, handle = some f → e.inputs.get? "wait_for_validation" = some ⟨f, false⟩

theorem inputBound_reads (task : Task) (e : Execution) (input : FileUuid)
    (handle : Option FileUuid) : ReadsInput task (inputBound task e input handle) input := by
  unfold ReadsInput inputBound
  cases task.infile with
  | none => cases handle <;> rfl
  | some infile =>
    intro hne
    cases handle with
    | none => simp [get?_addInput]
    | some f => simp [get?_addInput, hne]

theorem inputBound_waits (task : Task) (e : Execution) (input : FileUuid)
    (handle : Option FileUuid) : Waits (inputBound task e input handle) handle := by
  rintro f rfl
  unfold inputBound
  cases task.infile <;> simp [get?_addInput]

theorem outputBound_writes (task : Task) (e : Execution) (out : FileUuid) :
    WritesOutput task (outputBound task e out) out := by
  unfold WritesOutput outputBound
  cases h : task.outfile <;> simp [AMap.get?_cons]

/-- Other changes of an execution keep its input, output and dependencies. -/
structure SameIo (e e' : Execution) : Prop where
  stdin : e'.stdin = e.stdin
  inputs : e'.inputs = e.inputs
  stdout : e'.stdout = e.stdout
  outputs : e'.outputs = e.outputs

theorem ReadsInput.same {task : Task} {e e' : Execution} {input : FileUuid}
    (h : ReadsInput task e input) (h1 : e'.stdin = e.stdin) (h2 : e'.inputs = e.inputs) :
    ReadsInput task e' input := by
  unfold ReadsInput at *
  cases hi : task.infile with
  | none => simp only [hi] at h ⊢; rw [h1]; exact h
  | some i => simp only [hi] at h ⊢; rw [h2]; exact h

theorem WritesOutput.same {task : Task} {e e' : Execution} {out : FileUuid}
    (h : WritesOutput task e out) (h1 : e'.stdout = e.stdout) (h2 : e'.outputs = e.outputs) :
    WritesOutput task e' out := by
  unfold WritesOutput at *
  cases hi : task.outfile with
  | none => simp only [hi] at h ⊢; rw [h1]; exact h
  | some i => simp only [hi] at h ⊢; rw [h2]; exact h

theorem Waits.same {e e' : Execution} {handle : Option FileUuid} (h : Waits e handle)
    (h2 : e'.inputs = e.inputs) : Waits e' handle := by
  intro f hf; rw [h2]; exact h f hf

theorem mem_deps_inputBound {task : Task} {e : Execution} {input x : FileUuid}
    {handle : Option FileUuid} (h0 : e.stdin = none)
    (h : x ∈ (Build.inputBound task e input handle).dependencies) :
    x = input ∨ handle = some x ∨ x ∈ e.dependencies := by
  have a : ∀ e' : Execution, (e' = { e with stdin := some input } ∨
      ∃ p, e' = addInput e input p false) → x ∈ e'.dependencies → x = input ∨ x ∈ e.dependencies := by
    rintro e' (rfl | ⟨p, rfl⟩) hx
    · simp only [Execution.dependencies, h0, Option.toList, List.nil_append, List.cons_append,
        List.mem_cons] at hx ⊢
      exact hx
    · exact mem_deps_addInput hx
  unfold Build.inputBound at h
  cases hi : task.infile with
  | none =>
    cases handle with
    | none => simp only [hi] at h; exact (a _ (Or.inl rfl) h).imp id Or.inr
    | some f =>
      simp only [hi] at h
      rcases mem_deps_addInput h with rfl | h
      · exact Or.inr (Or.inl rfl)
      · exact (a _ (Or.inl rfl) h).imp id Or.inr
  | some p =>
    cases handle with
    | none => simp only [hi] at h; exact (a _ (Or.inr ⟨p, rfl⟩) h).imp id Or.inr
    | some f =>
      simp only [hi] at h
      rcases mem_deps_addInput h with rfl | h
      · exact Or.inr (Or.inl rfl)
      · exact (a _ (Or.inr ⟨p, rfl⟩) h).imp id Or.inr

theorem inputBound_fields (task : Task) (e : Execution) (input : FileUuid)
    (handle : Option FileUuid) :
    (inputBound task e input handle).uuid = e.uuid ∧
    (inputBound task e input handle).tag = e.tag ∧
    (inputBound task e input handle).limits = e.limits ∧
    (inputBound task e input handle).stdout = e.stdout ∧
    (inputBound task e input handle).stderr = e.stderr ∧
    (inputBound task e input handle).outputs = e.outputs ∧
    (inputBound task e input handle).captureStdout = e.captureStdout ∧
    (inputBound task e input handle).captureStderr = e.captureStderr ∧
    (inputBound task e input handle).priority = e.priority ∧
    (inputBound task e input handle).args = e.args := by
  unfold inputBound
  cases task.infile <;> cases handle <;> simp [addInput]

theorem outputBound_fields (task : Task) (e : Execution) (out : FileUuid) :
    (outputBound task e out).uuid = e.uuid ∧ (outputBound task e out).tag = e.tag ∧
    (outputBound task e out).limits = e.limits ∧ (outputBound task e out).stderr = e.stderr ∧
    (outputBound task e out).stdin = e.stdin ∧ (outputBound task e out).inputs = e.inputs ∧
    (outputBound task e out).captureStdout = e.captureStdout ∧
    (outputBound task e out).captureStderr = e.captureStderr ∧
    (outputBound task e out).priority = e.priority ∧ (outputBound task e out).args = e.args := by
  unfold outputBound
  cases task.outfile <;> simp

/-! ## Adding an execution with its callbacks -/

/-- The tag of an execution and its priority. -/
def Ranked (e : Execution) (tag : String) (prio : Priority) : Prop :=
  e.tag = some tag ∧ e.priority = prio

/-- The UI is told about the execution, and a failure is a diagnostic. -/
def Reported (ev : Eval) (u : ExecutionUuid) (t : Topic) : Prop :=
  (u, .report t) ∈ ev.handlers ∧ (u, .failureDiagnostic t) ∈ ev.handlers

theorem Reported.mono {G : FileUuid → Prop} {a b : Eval} {u : ExecutionUuid} {t : Topic}
    (h : Reported a u t) (k : Ext G a b) : Reported b u t :=
  ⟨k.mem_handlers h.1, k.mem_handlers h.2⟩

/-- `e` in the DAG, with the configuration of the DAG. -/
def stored (cfg : DagConfig) (e : Execution) : Execution := { e with config := cfg }

theorem addOptional_some {c : Ctx} {t : Topic} {ev ev' : Eval} {P : List Execution}
    {e : Execution} {a : Unit} (h : Inv c.G ev (e :: P)) (ht : mainTopic t = true)
    (htag : isComp e = false) (hr : addOptional t (some e) ev = .ok (a, ev')) :
    Inv c.G ev' P ∧ Step c ev ev' [t] [] ∧ ev'.senders = ev.senders ∧ ev'.writes = ev.writes ∧
    (∃ f, { e with stderr := some f, captureStderr := some STDERR_CONTENT_LENGTH,
                   config := ev.dag.config } ∈ allExecs ev'.dag) ∧
    (∀ f ∈ e.outputFiles, f ∈ allFiles ev'.dag) ∧ Reported ev' e.uuid t := by
  simp only [addOptional, bind_ok, bindCallbacks_ok, onExec_ok] at hr
  obtain ⟨e1, ev1, h1, _, ev2, rfl, _, ev3, rfl, h4⟩ := hr
  obtain ⟨f1, rfl, i1, e1⟩ := captureStderr_spec h h1
  have hu : e.uuid ∈ execUuids ev1.dag
      ({ e with stderr := some f1, captureStderr := some STDERR_CONTENT_LENGTH } :: P) := by
    simp [execUuids]
  have i2 := i1.onExec hu (.report t) (ev1.pending ++ [t])
  have i3 := i2.onExec hu (.failureDiagnostic t) (ev1.pending ++ [t])
  obtain ⟨i4, x4, m4, o4, -, hh4, -, -, hw4, hs4, -⟩ := addExec_spec i3 h4
  have s1 : Step c ev ev1 [] [] := Step.ofNextOr3 e1
  have s2 := Step.bind c ev1 e.uuid ht
  have s3 := Step.handler c _ e.uuid (hd := .failureDiagnostic t) rfl |> s2.then0
  have s4 := (s1.trans0 s3).then0 (Step.addExec i3 htag h4)
  have q1 : ev1.senders = ev.senders ∧ ev1.writes = ev.writes ∧ ev1.dag = ev.dag := by
    rcases e1 with ⟨_, rfl⟩ | ⟨_, _, rfl⟩ <;> simp
  refine ⟨i4, s4, hs4.trans q1.1, hw4.trans q1.2.1, ⟨f1, ?_⟩, ?_, ?_, ?_⟩
  · rw [← q1.2.2]; exact m4
  · intro f hf
    apply o4
    simp only [Execution.outputFiles, List.mem_append] at hf ⊢
    rcases hf with hf | hf | hf
    · exact Or.inl hf
    · right; left
      rcases e1 with ⟨h5, _⟩ | ⟨h5, _⟩
      · rw [h5] at hf; exact hf
      · rw [h5] at hf; simp at hf
    · exact Or.inr (Or.inr hf)
  · rw [hh4]; simp
  · rw [hh4]; simp

theorem addOptional_none {c : Ctx} {t : Topic} {ev ev' : Eval} {a : Unit}
    (hr : addOptional t none ev = .ok (a, ev')) : ev' = ev := by
  simp only [addOptional, pure_ok] at hr
  exact hr.2.symm

end TM.Build
