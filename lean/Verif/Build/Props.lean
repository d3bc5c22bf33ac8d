import Verif.Build.Final
import Verif.Build.Sample
/-!
# The evaluation DAG of an IOI task (C56-C61)
-/
namespace TM.Build
open TM DagSpec Spec

variable {n : Uuid} {cfg : DagConfig} {fs : FS} {root : String} {task : Task} {sols : List Src}
  {io : GeneratedIo} {ev : Eval}

/-! ## C56 -/

/-- **C56** The DAG built for a task, with all the callbacks registered on it, is accepted by the
validation of the server: no dangling file, no duplicate, no cycle. -/
theorem dag_accepted (h : Fits n task sols)
    (hr : buildDag fs root task sols (start n cfg) = .ok (io, ev)) :
    CheckDag.checkDag ev.dag (callbacks ev) = .ok () :=
  (buildDag_done h hr).1.accepted

/-- ... which is what `check_dag` is for. -/
theorem dag_executable (h : Fits n task sols)
    (hr : buildDag fs root task sols (start n cfg) = .ok (io, ev)) :
    WellFormed ev.dag (callbacks ev) ∧ InputsDefined ev.dag ∧ Acyclic ev.dag :=
  (CheckDag.checkDag_ok_iff _ _ (buildDag_done h hr).1.inv.wf).1 (dag_accepted h hr)

/-- **C56** The construction fails only because a file of the task is missing or cannot be read: it
never panics, if every testcase is owned by a subtask. -/
theorem only_missing_files
    (hid : ∀ k tc, task.testcases.get? k = some tc → tc.id = k)
    (hown : ∀ st ∈ task.subtasks.values, ∀ k ∈ st.owned, ∃ tc, task.testcases.get? k = some tc)
    (hall : ∀ st ∈ task.subtasks.values, ∀ k ∈ st.testcases,
      ∃ st' ∈ task.subtasks.values, k ∈ st'.owned) {start : Eval} {err : Err}
    (hr : buildDag fs root task sols start = .error err) :
    ∃ path, err = .missingFile path ∧ (fs.key path = none ∨ fs.present path = false) :=
  (buildDag_safe fs root task sols hid hown hall start).1 err hr

/-- A DAG that is accepted: the one of the sample task. -/
example : ∃ io ev, buildDag Sample.fs "/task" Sample.batch Sample.sols (start 10 {}) = .ok (io, ev) ∧
    CheckDag.checkDag ev.dag (callbacks ev) = .ok () ∧ 15 ≤ (allExecs ev.dag).length := by
  obtain ⟨io, ev, hr, hn⟩ := Sample.batch_built
  exact ⟨io, ev, hr, dag_accepted Sample.batch_fits hr, hn.1.1⟩

/-- Without the parameters file of the generator the construction fails with an error about it. -/
example : buildDag Sample.poorFs "/task" Sample.batch Sample.sols (start 10 {}) =
    .error (.missingFile "/task/params.txt") := Sample.not_built

/-! ## C57 -/

/-- **C57** For every testcase of a subtask the DAG generates its input, validates it, makes the
official output and evaluates every solution, as `Spec.Prepared` says. -/
theorem testcase_prepared (h : Fits n task sols)
    (hr : buildDag fs root task sols (start n cfg) = .ok (io, ev))
    {st : Subtask} (hst : st ∈ task.subtasks.values) {k : Nat} (hk : k ∈ st.owned) :
    ∃ tc input handle output, task.testcases.get? k = some tc ∧
      io.get? k = some (input, some output) ∧
      Prepared fs ev task sols st tc input handle output := by
  obtain ⟨h1, -, h3, -⟩ := buildDag_done h hr
  obtain ⟨tc, input, output, h4, h5, h6⟩ := h3 st hst k hk
  obtain ⟨f, handle, rfl, h7, -, -⟩ := h6.spec h1 (ctx_known h) hst h4
  exact ⟨tc, input, handle, f, h4, h5, h7⟩

/-- **C57** A testcase inherited from another subtask is validated again, with the validator of the
subtask that inherits it and on the very file generated in the subtask that owns it. -/
theorem inherited_validated (h : Fits n task sols)
    (hr : buildDag fs root task sols (start n cfg) = .ok (io, ev))
    {st : Subtask} (hst : st ∈ task.subtasks.values) {k : Nat} (hk : k ∈ st.testcases)
    (hno : k ∉ st.owned) :
    ∃ input output handle, io.get? k = some (input, output) ∧
      Validated fs ev st.validator st.id st.name k input handle := by
  obtain ⟨h1, -, -, h4⟩ := buildDag_done h hr
  obtain ⟨input, output, handle, h5, h6⟩ := h4 st hst k hk hno
  exact ⟨input, output, handle, h5, h6.spec h1 ((ctx_known (fs := fs) (root := root) h).validator _ hst)⟩

/-- The second subtask of the sample owns testcase 1 and inherits testcase 0. -/
example : ∃ io ev, buildDag Sample.fs "/task" Sample.batch Sample.sols (start 10 {}) = .ok (io, ev) ∧
    ∃ input output handle, io.get? 0 = some (input, output) ∧
      Validated Sample.fs ev (.custom (Sample.cppSrc 1 "validator") ["tm_validation_file", "1"]) 1
        none 0 input handle := by
  obtain ⟨io, ev, hr, -⟩ := Sample.batch_built
  exact ⟨io, ev, hr, inherited_validated (k := 0) Sample.batch_fits hr (st := Sample.second)
    Sample.second_mem (by decide) (by decide)⟩

/-- The solutions of the sample communication task are evaluated with the manager. -/
example : ∃ io ev, buildDag Sample.fs "/task" Sample.communication Sample.sols (start 10 {}) =
    .ok (io, ev) ∧ ∃ input handle output, io.get? 1 = some (input, some output) ∧
      ∀ j src, Sample.sols[j]? = some src →
        EvaluatedComm Sample.fs ev Sample.communication (Sample.cppSrc 2 "manager") 2 .stdIo 1 1 j src
          input handle output := by
  obtain ⟨io, ev, hr⟩ := Sample.communication_built
  obtain ⟨tc, input, handle, output, h1, h2, h3⟩ := testcase_prepared (k := 1) Sample.communication_fits hr
    (st := Sample.second)
    Sample.second_mem (by decide)
  refine ⟨io, ev, hr, input, handle, output, h2, fun j src hj => ?_⟩
  have ht : tc.id = 1 := Sample.communication_fits.testcaseIds _ _ h1
  have := h3.evaluated j src hj
  rw [ht] at this
  exact this

/-! ## C58 -/

/-- **C58** Every execution of the DAG is reported to the UI exactly once: the compilations as the
compilation of a source file of the task, the others as one of the messages expected for the task. -/
theorem reported_once (h : Fits n task sols)
    (hr : buildDag fs root task sols (start n cfg) = .ok (io, ev))
    {e : Execution} (he : e ∈ allExecs ev.dag) :
    ∃ t, reportsOn ev e.uuid = [t] ∧
      if e.tag = some "compilation" then ∃ s ∈ sources task sols, t = .compilation s.path
      else t ∈ messages task sols.length := by
  obtain ⟨h1, h2, -, -⟩ := buildDag_done h hr
  have hlen : (reportsOn ev e.uuid).length = 1 := by
    unfold reportsOn
    rw [reportsOn_length, reports_balanced hr]
    rw [(nodup_uuids h1).count, if_pos (List.mem_map.2 ⟨e, he, rfl⟩)]
  obtain ⟨t, ht⟩ := length_one hlen
  refine ⟨t, ht, ?_⟩
  have hrep : Reports ev e.uuid t := mem_reportsOn.1 (by rw [ht]; simp)
  split
  · next htag =>
    obtain ⟨k, f, w, h4, -, -, h5⟩ := h1.compilation he htag
    obtain ⟨s, hs, -, h6⟩ := used_source h (h1.side.used _ (AMap.mem_of_get? h4))
    have : Topic.compilation ((ctxOf fs root task sols).src k).path ∈ reportsOn ev e.uuid :=
      mem_reportsOn.2 h5
    rw [ht, List.mem_singleton] at this
    exact ⟨s, hs, by rw [← this, h6]⟩
  · next htag =>
    have hm : mainTopic t = true := by
      cases t
      case compilation path =>
        obtain ⟨e', he', hu, htag'⟩ := h1.compOnly hrep
        have := nodup_exec (nodup_uuids h1) he' he hu
        subst this
        exact absurd htag' htag
      all_goals rfl
    have hp : t ∈ ev.pending := by
      rw [← h1.side.reports]
      exact List.mem_filterMap.2 ⟨_, hrep, rfl⟩
    have h5 := h2.step.topics
    simp only [start, List.filter_nil, List.nil_append] at h5
    rw [← h5]
    exact List.mem_filter.2 ⟨hp, hm⟩

/-- **C58** Before anything is run the UI is told about everything that will be: the messages sent
while the DAG is built are, besides the compilations, exactly the expected ones, in order; and every
message sent is about an execution of the DAG. -/
theorem announced (h : Fits n task sols)
    (hr : buildDag fs root task sols (start n cfg) = .ok (io, ev)) :
    ev.pending.filter (fun t => match t with | .compilation _ => false | _ => true) =
      messages task sols.length ∧
    ∀ t, t ∈ ev.pending ↔ ∃ e ∈ allExecs ev.dag, Reports ev e.uuid t := by
  obtain ⟨h1, h2, -, -⟩ := buildDag_done h hr
  have h5 := h2.step.topics
  simp only [start, List.filter_nil, List.nil_append] at h5
  refine ⟨?_, fun t => ?_⟩
  · rw [← h5]
    rfl
  · rw [← h1.side.reports]
    constructor
    · intro ht
      obtain ⟨⟨u, hd⟩, hm, hd'⟩ := List.mem_filterMap.1 ht
      cases hd <;> simp [reportOf] at hd'
      subst hd'
      have := h1.inv.handlers _ hm
      simp only [execUuids, List.append_nil] at this
      obtain ⟨e, he, hu⟩ := List.mem_map.1 (by simpa using this)
      exact ⟨e, he, by rw [hu]; exact hm⟩
    · rintro ⟨e, he, hrep⟩
      exact List.mem_filterMap.2 ⟨_, hrep, rfl⟩

/-- **C58** Exactly one execution is reported for each of the expected messages, when subtasks have
different identifiers and list a testcase once. -/
theorem one_execution_each (h : Fits n task sols)
    (hid : (task.subtasks.values.map (·.id)).Nodup)
    (htc : ∀ st ∈ task.subtasks.values, st.testcases.Nodup)
    (hr : buildDag fs root task sols (start n cfg) = .ok (io, ev))
    {t : Topic} (ht : t ∈ messages task sols.length) :
    ∃ e ∈ allExecs ev.dag, Reports ev e.uuid t ∧
      ∀ e' ∈ allExecs ev.dag, Reports ev e'.uuid t → e' = e := by
  obtain ⟨h1, h2, -, -⟩ := buildDag_done h hr
  have h5 := h2.step.topics
  simp only [start, List.filter_nil, List.nil_append] at h5
  have hp : t ∈ ev.pending := (List.mem_filter.1 (by rw [h5]; exact ht)).1
  have hm : mainTopic t = true := (List.mem_filter.1 (by rw [h5]; exact ht)).2
  obtain ⟨e, he, hrep⟩ := ((announced h hr).2 t).1 hp
  refine ⟨e, he, hrep, fun e' he' hrep' => ?_⟩
  refine nodup_exec (nodup_uuids h1) he' he (report_unique (t := t) ?_ hrep' hrep)
  rw [h1.side.reports, ← List.count_filter hm, h5]
  rw [(messages_nodup h hid htc).count, if_pos ht]

/-- The messages about the sample task. -/
example : messages Sample.communication 2 =
    [.generation 0 0, .validation 0 0, .officialOutput 0 0,
     .evaluation 0 0 0 0 2, .evaluation 0 0 0 1 2, .checker 0 0 0,
     .evaluation 0 0 1 0 2, .evaluation 0 0 1 1 2, .checker 0 0 1,
     .validation 1 1, .officialOutput 1 1,
     .evaluation 1 1 0 0 2, .evaluation 1 1 0 1 2, .checker 1 1 0,
     .evaluation 1 1 1 0 2, .evaluation 1 1 1 1 2, .checker 1 1 1,
     .validation 1 0] := by decide

example : ∃ io ev, buildDag Sample.fs "/task" Sample.communication Sample.sols (start 10 {}) =
    .ok (io, ev) ∧ ∃ e ∈ allExecs ev.dag, Reports ev e.uuid (.checker 1 1 1) ∧
      ∀ e' ∈ allExecs ev.dag, Reports ev e'.uuid (.checker 1 1 1) → e' = e := by
  obtain ⟨io, ev, hr⟩ := Sample.communication_built
  exact ⟨io, ev, hr, one_execution_each Sample.communication_fits (by decide) (by decide) hr
    (by decide)⟩

/-! ## C59 -/

/-- **C59** Whatever is compiled is a source file of the task, and what it produces is the executable
used by all the executions of it. -/
theorem compilations (h : Fits n task sols)
    (hr : buildDag fs root task sols (start n cfg) = .ok (io, ev))
    {comp : Execution} (hc : comp ∈ allExecs ev.dag) (ht : comp.tag = some "compilation") :
    ∃ s ∈ sources task sols, ∃ k exe, s.lang.compiler = some k ∧ ev.exes.get? s.id = some exe ∧
      Compilation fs ev s k comp exe := by
  obtain ⟨h1, -, -, -⟩ := buildDag_done h hr
  obtain ⟨k, f, w, h4, h5, h6, -⟩ := h1.compilation hc ht
  obtain ⟨s, hs, rfl, h7⟩ := used_source h (h1.side.used _ (AMap.mem_of_get? h4))
  rw [h7] at h5
  obtain ⟨comp', h8⟩ := compilation_of h1 (ctx_knows h hs) h5 h4
  have : comp = comp' := h1.producer hc h8.added (f := f) (by simp [Execution.outputFiles, h6])
    (by simp [Execution.outputFiles, h8.output])
  subst this
  exact ⟨s, hs, w, f, h5, h4, h8⟩

/-- **C59** A source file is compiled at most once, however many executions use it, and different
source files have different executables. -/
theorem compiled_once (h : Fits n task sols)
    (hr : buildDag fs root task sols (start n cfg) = .ok (io, ev))
    {s t : Src} {k l : Compiler} {c d : Execution} {f g : FileUuid}
    (hc : Compilation fs ev s k c f) (hd : Compilation fs ev t l d g)
    (hf : ev.exes.get? s.id = some f) (hg : ev.exes.get? t.id = some g) :
    c = d ↔ s.id = t.id := by
  obtain ⟨h1, -, -, -⟩ := buildDag_done h hr
  constructor
  · rintro rfl
    have h2 := hc.output
    rw [hd.output] at h2
    simp only [List.cons.injEq, Prod.mk.injEq, and_true] at h2
    have := map_inj_of_nodup h1.side.values (AMap.mem_of_get? hf) (AMap.mem_of_get? hg) h2.2.symm
    exact congrArg Prod.fst this
  · intro he
    rw [he, hg] at hf
    cases hf
    exact h1.producer hc.added hd.added (f := f) (by simp [Execution.outputFiles, hc.output])
      (by simp [Execution.outputFiles, hd.output])

/-- In the sample 5 source files are compiled, for more than 10 executions of theirs. -/
example : ∃ io ev, buildDag Sample.fs "/task" Sample.batch Sample.sols (start 10 {}) = .ok (io, ev) ∧
    ((allExecs ev.dag).filter (fun e => e.tag = some "compilation")).length = 5 := by
  obtain ⟨io, ev, hr, hn⟩ := Sample.batch_built
  exact ⟨io, ev, hr, hn.1.2⟩

/-! ## C60 -/

/-- **C60** In a dry run no file is written. -/
theorem dry_run (h : Fits n task sols) (hd : cfg.dryRun = true)
    (hr : buildDag fs root task sols (start n cfg) = .ok (io, ev)) : ev.writes = [] := by
  obtain ⟨h1, h2, -, -⟩ := buildDag_done h hr
  cases hw : ev.writes with
  | nil => rfl
  | cons p l =>
    have h3 : ev.writes.get? p.1 = some p.2 := by rw [hw]; simp [AMap.get?]
    have h4 := (h1.side.writes _ _ h3).1
    rw [h2.step.ext.config] at h4
    simp only [start, hd] at h4
    cases h4

/-- **C60** Otherwise the input and the official output of every testcase are written in the
directories of the task. -/
theorem io_written (h : Fits n task sols) (hd : cfg.dryRun = false)
    (hr : buildDag fs root task sols (start n cfg) = .ok (io, ev))
    {st : Subtask} (hst : st ∈ task.subtasks.values) {k : Nat} (hk : k ∈ st.owned) :
    ∃ input output, io.get? k = some (input, some output) ∧
      ev.writes.get? input = some ⟨root ++ "/input/input" ++ toString k ++ ".txt", false, false⟩ ∧
      ev.writes.get? output =
        some ⟨task.path ++ "/output/output" ++ toString k ++ ".txt", false, false⟩ := by
  obtain ⟨h1, h2, h3, -⟩ := buildDag_done h hr
  obtain ⟨tc, input, output, h4, h5, h6⟩ := h3 st hst k hk
  obtain ⟨f, handle, rfl, -, h7, h8⟩ := h6.spec h1 (ctx_known h) hst h4
  have hc : ev.dag.config.dryRun = false := by rw [h2.step.ext.config]; exact hd
  have hid := h.testcaseIds k tc h4
  rw [hid] at h7 h8
  exact ⟨input, f, h5, h7 hc, h8 hc⟩

/-- **C60** The executable of a source file is written next to it, if that is asked for all of them or
for that one. -/
theorem executable_written (h : Fits n task sols) (hd : cfg.dryRun = false)
    (hr : buildDag fs root task sols (start n cfg) = .ok (io, ev))
    {s : Src} (hs : s ∈ sources task sols) {f : FileUuid} (hf : ev.exes.get? s.id = some f)
    {dest : String} (hb : s.writeBinTo = some dest) (hc : cfg.copyExe = true ∨ s.copyExe = true) :
    ev.writes.get? f = some ⟨dest, true, false⟩ := by
  obtain ⟨h1, h2, -, -⟩ := buildDag_done h hr
  have hsrc := (ctx_knows (fs := fs) (root := root) h hs).src
  refine h1.side.bins s.id f dest hf ?_ ?_ ?_
  · rw [h2.step.ext.config]; exact hd
  · rw [h2.step.ext.config, hsrc]
    show (cfg.copyExe || s.copyExe) = true
    rcases hc with hc | hc <;> simp [hc]
  · rw [hsrc]; exact hb

/-- **C60** Nothing else is written: only inputs and outputs of testcases, in their place, and
executables of source files for which it was asked. -/
theorem nothing_else_written (h : Fits n task sols)
    (hr : buildDag fs root task sols (start n cfg) = .ok (io, ev))
    {f : FileUuid} {w : WriteTo} (hw : ev.writes.get? f = some w) :
    (w.executable = false ∧ ∃ k tc, task.testcases.get? k = some tc ∧
      (w.dest = root ++ "/input/input" ++ toString k ++ ".txt" ∨
       w.dest = task.path ++ "/output/output" ++ toString k ++ ".txt")) ∨
    (w.executable = true ∧ ∃ s ∈ sources task sols, ev.exes.get? s.id = some f ∧
      s.writeBinTo = some w.dest ∧ (cfg.copyExe = true ∨ s.copyExe = true)) := by
  obtain ⟨h1, h2, -, -⟩ := buildDag_done h hr
  obtain ⟨-, h3⟩ := h1.side.writes f w hw
  rcases h3 with ⟨h3, k, tc, h4, h5⟩ | ⟨h3, k, h4, h5, h6⟩
  · have hid := h.testcaseIds k tc h4
    rw [hid] at h5
    exact Or.inl ⟨h3, k, tc, h4, h5⟩
  · obtain ⟨s, hs, rfl, h7⟩ := used_source h (h1.side.used _ (AMap.mem_of_get? h4))
    rw [h7] at h5 h6
    rw [h2.step.ext.config] at h6
    refine Or.inr ⟨h3, s, hs, h4, h5, ?_⟩
    have : (cfg.copyExe || s.copyExe) = true := h6
    simpa using this

/-- In the sample the inputs, the outputs and the checker are written. -/
example : ∃ io ev, buildDag Sample.fs "/task" Sample.batch Sample.sols (start 10 {}) = .ok (io, ev) ∧
    ev.writes.values.map (·.dest) =
      ["/task/output/output1.txt", "/task/input/input1.txt", "/task/output/output0.txt",
       "/task/input/input0.txt", "/task/bin/checker"] := by
  obtain ⟨io, ev, hr, hn⟩ := Sample.batch_built
  exact ⟨io, ev, hr, hn.2⟩

/-- In a dry run the sample is built and nothing is written. -/
example : ∃ io ev, buildDag Sample.fs "/task" Sample.batch Sample.sols
    (start 10 { dryRun := true }) = .ok (io, ev) ∧ ev.writes = [] := by
  obtain ⟨io, ev, hr⟩ := Sample.dry_built
  exact ⟨io, ev, hr, dry_run Sample.batch_fits rfl hr⟩

end TM.Build
