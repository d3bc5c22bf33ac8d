import Verif.Build.SamplesBridge
import Verif.Build.Sample
/-!
# The sample files of the task are tested (C108)
-/
namespace TM.Build
open TM DagSpec Spec

section

variable {n : Uuid} {cfg : DagConfig} {fs : FS} {root : String} {task : Task} {sols : List Src}
  {io : GeneratedIo} {ev ev' : Eval} {v : InputValidator} {off : Option OutputGenerator}
  {checker : Checker} {pairs : List SamplePair}

/-- **C108** The DAG of a batch task is still accepted by the server after the executions for the sample files have
been added to it. -/
theorem samples_accepted (h : Fits n task (sols ++ sampleSources v off)) (ht : task.type = .batch checker)
    (hb : buildDag fs root task sols (start n cfg) = .ok (io, ev))
    (hr : addSamples fs task v off pairs ev = .ok ((), ev')) :
    CheckDag.checkDag ev'.dag (callbacks ev') = .ok () :=
  (samples_done h ht hb hr).2.1.accepted

/-- **C108** Every pair of sample files is tested: the input is validated, the official solution is run on it and the
output is checked against the answer, as `Spec.SampleTested` says. -/
theorem samples_tested (h : Fits n task (sols ++ sampleSources v off)) (ht : task.type = .batch checker)
    (hb : buildDag fs root task sols (start n cfg) = .ok (io, ev))
    (hr : addSamples fs task v off pairs ev = .ok ((), ev')) :
    ∀ p ∈ pairs, SampleTested fs ev' task v off checker p :=
  (samples_done h ht hb hr).2.2.2.2.2

/-- **C108** These are all the events about samples, in this order. -/
theorem samples_events (h : Fits n task (sols ++ sampleSources v off)) (ht : task.type = .batch checker)
    (hb : buildDag fs root task sols (start n cfg) = .ok (io, ev))
    (hr : addSamples fs task v off pairs ev = .ok ((), ev')) :
    ev'.handlers.filterMap (fun p => match p.2 with | .sample s => some s | _ => none) =
      pairs.flatMap (sampleEvents v off checker) := by
  obtain ⟨-, -, s, -, h0, -⟩ := samples_done h ht hb hr
  have e : (fun p : ExecutionUuid × Handler => match p.2 with | .sample s => some s | _ => none) =
      fun p => sampleOf p.2 := by
    funext p; cases p.2 <;> rfl
  rw [sampleOf_scoring] at h0
  rw [e, sampleOf_scoring, s.scoring, List.filterMap_append, h0, List.nil_append, List.filterMap_map]
  exact List.filterMap_some

/-- **C108** The executions of the task, the files provided for it and those that will be written are as before, and
so are the callbacks on its executions. -/
theorem samples_undisturbed (h : Fits n task (sols ++ sampleSources v off)) (ht : task.type = .batch checker)
    (hb : buildDag fs root task sols (start n cfg) = .ok (io, ev))
    (hr : addSamples fs task v off pairs ev = .ok ((), ev')) :
    (∀ e ∈ allExecs ev.dag, e ∈ allExecs ev'.dag ∧
      ev'.handlers.filter (fun p => p.1 == e.uuid) = ev.handlers.filter (fun p => p.1 == e.uuid)) ∧
    (∀ f p, ev.dag.providedFiles.get? f = some p → ev'.dag.providedFiles.get? f = some p) ∧
    (∀ f w, ev.writes.get? f = some w → ev'.writes.get? f = some w) ∧
    ev'.senders = ev.senders ∧ ev'.dag.config = ev.dag.config := by
  obtain ⟨d, d', s, hs, -, -⟩ := samples_done h ht hb hr
  obtain ⟨l, hl, hl'⟩ := (addSamples_tame hr).handlers
  refine ⟨fun e he => ⟨s.ext.mem_exec he, ?_⟩, fun f p hp => ?_, s.ext.writes, hs, s.ext.config⟩
  · rw [hl, List.filter_append]
    have hlt : e.uuid < ev.next := d.inv.boundE e.uuid (by
      simp only [execUuids, List.map_nil, List.append_nil, List.mem_map]
      exact ⟨e, he, rfl⟩)
    have : l.filter (fun p => p.1 == e.uuid) = [] := by
      rw [List.filter_eq_nil_iff]
      intro p hp
      have h5 : ev.next ≤ p.1 := hl' p hp
      simp only [beq_iff_eq]
      intro h6
      rw [h6] at h5
      exact absurd hlt (Nat.not_lt.2 h5)
    rw [this, List.append_nil]
  · obtain ⟨p', h1, h2⟩ := s.ext.provided f p hp
    rcases h2 with rfl | h2
    · exact h1
    · obtain ⟨path, hg⟩ := Option.isSome_iff_exists.1 h2
      obtain ⟨k, h3, h4⟩ := d.side.graders f path p hg hp
      obtain ⟨k', h5, h6⟩ := d'.side.graders f path p' hg h1
      rw [h3] at h5
      cases h5
      rw [h1, h4, h6]

/-- **C108** Nothing else is added: a new execution is a compilation or one of those of the samples, a new file to
write is an executable. -/
theorem samples_nothing_else (hr : addSamples fs task v off pairs ev = .ok ((), ev')) :
    (∀ e ∈ allExecs ev'.dag, e ∈ allExecs ev.dag ∨ e.tag = some "compilation" ∨ ∃ s, Watched ev' e.uuid s) ∧
    (∀ f w, ev'.writes.get? f = some w → ev.writes.get? f = some w ∨ w.executable = true) := by
  have t := addSamples_tame hr
  exact ⟨fun e he => (t.execs e he).imp id (fun h => h.2), t.writes⟩

/-- **C108** No message is sent for the samples, except for the compilations. -/
theorem samples_silent (h : Fits n task (sols ++ sampleSources v off)) (ht : task.type = .batch checker)
    (hb : buildDag fs root task sols (start n cfg) = .ok (io, ev))
    (hr : addSamples fs task v off pairs ev = .ok ((), ev')) :
    ∃ l, ev'.pending = ev.pending ++ l ∧ ∀ t ∈ l, ∃ path, t = .compilation path := by
  obtain ⟨-, -, s, -, -, -⟩ := samples_done h ht hb hr
  obtain ⟨l, hl⟩ := s.ext.pending
  refine ⟨l, hl, fun t ht => ?_⟩
  have h1 := s.topics
  rw [hl, List.filter_append, List.append_nil] at h1
  have h2 : l.filter mainTopic = [] := by
    have := congrArg List.length h1
    simp only [List.length_append] at this
    exact List.eq_nil_of_length_eq_zero (by omega)
  have h3 := List.filter_eq_nil_iff.1 h2 t ht
  cases t <;> first | exact ⟨_, rfl⟩ | exact absurd rfl h3

/-- **C108** Adding the executions fails only because a file is missing or cannot be read. -/
theorem samples_only_missing_files {err : Err} (hr : addSamples fs task v off pairs ev = .error err) :
    ∃ path, err = .missingFile path ∧ (fs.key path = none ∨ fs.present path = false) :=
  (addSamples_safe fs task v off pairs ev).1 err hr

/-- **C108** For the other tasks nothing is done. -/
theorem samples_only_batch (ht : ∀ checker, task.type ≠ .batch checker) :
    addSamples fs task v off pairs ev = .ok ((), ev) := by
  unfold addSamples
  cases h : task.type with
  | batch c => exact absurd h (ht c)
  | communication s a b => rfl
  | none => rfl

/-! ## The diagnostics -/

/-- **C108** There is an error about a sample input exactly when the validator fails on it... -/
theorem invalid_shown (input : String) (o : Outcome) (note : SampleNote) :
    sampleNote (.invalid input) o = some note ↔ o.status ≠ .success ∧ note = .invalid input o.status := by
  simp only [sampleNote, Outcome.success, beq_iff_eq]
  split
  · simp [*]
  · rename_i h
    constructor
    · rintro ⟨⟩; exact ⟨h, rfl⟩
    · rintro ⟨-, rfl⟩; rfl

/-- **C108** ... or the official solution does. -/
theorem failure_shown (input : String) (o : Outcome) (note : SampleNote) :
    sampleNote (.failed input) o = some note ↔ o.status ≠ .success ∧ note = .failed input o.status := by
  simp only [sampleNote, Outcome.success, beq_iff_eq]
  split
  · simp [*]
  · rename_i h
    constructor
    · rintro ⟨⟩; exact ⟨h, rfl⟩
    · rintro ⟨-, rfl⟩; rfl

/-- **C108** With `diff`: a sample output that differs is shown as worth 0 points, and an equal one is not shown;
anything else aborts the evaluation. -/
theorem difference_shown (c : Client) (u : ExecutionUuid) (output : String) (o : Outcome) :
    (o.status = .success ∧ c.callDone u o (.sample (.diff output)) = .ok c ∧
      sampleNote (.diff output) o = none) ∨
    (o.status = .returnCode 1 ∧ c.callDone u o (.sample (.diff output)) = .ok c ∧
      sampleNote (.diff output) o = some (.wrong output (.num 0) "Output is incorrect")) ∨
    (o.status ≠ .success ∧ o.status ≠ .returnCode 1 ∧
      c.callDone u o (.sample (.diff output)) = .error (.diffDied u)) := by
  have one : scoreIsOne (.num 1) = true := by decide +kernel
  have zero : scoreIsOne (.num 0) = false := by decide +kernel
  by_cases h1 : o.status = .success
  · left
    refine ⟨h1, ?_, ?_⟩
    · simp [Client.callDone, h1]
    · simp [sampleNote, Outcome.success, h1, sampleScored, one]
  · right
    by_cases h2 : o.status = .returnCode 1
    · left
      refine ⟨h2, ?_, ?_⟩
      · simp [Client.callDone, h2]
      · simp [sampleNote, Outcome.success, h2, sampleScored, zero]
    · right
      refine ⟨h1, h2, ?_⟩
      simp only [Client.callDone]

/-- **C108** With a checker: a sample output is shown, with its score, unless the score is 1 up to the precision of
the numbers next to 1; if the checker fails or gives no score, that is shown. -/
theorem score_shown (output : String) (o : Outcome) :
    sampleNote (.checker output) o =
      if o.status = .success then
        match o.score with
        | some (.num x) =>
          if x - 1 ≤ 1 / 2 ^ 52 ∧ 1 - x ≤ 1 / 2 ^ 52 then none else some (.wrong output (.num x) o.message)
        | some .nan => some (.wrong output .nan o.message)
        | none => some (.checkerBroken output)
      else some (.checkerBroken output) := by
  simp only [sampleNote, Outcome.success, beq_iff_eq]
  split
  · cases o.score with
    | none => rfl
    | some x =>
      cases x with
      | nan => rfl
      | num x =>
        simp only [sampleScored, scoreIsOne, Bool.and_eq_true, decide_eq_true_eq]
  · rfl

/-- **C108** The samples change neither the scores nor what has been said. -/
theorem samples_no_score (c c' : Client) (u : ExecutionUuid) (o : Outcome) (s : SampleEvent)
    (h : c.callDone u o (.sample s) = .ok c') : c' = c := by
  cases s <;> simp only [Client.callDone] at h
  · cases h; rfl
  · cases h; rfl
  · split at h <;> cases h <;> rfl
  · split at h <;> cases h; rfl

end

/-! ## An example -/

namespace Sample

/-- Two pairs of sample files. -/
def samples : List SamplePair :=
  [⟨"/task/att/task.input0.txt", "/task/att/task.output0.txt"⟩,
   ⟨"/task/att/task.input1.txt", "/task/att/task.output1.txt"⟩]

/-- The validator. -/
def validator : InputValidator := .custom (cppSrc 1 "validator") ["tm_validation_file", "1"]

theorem samples_fits : Fits 10 batch (sols ++ sampleSources validator (some (.custom official []))) := by
  refine ⟨?_, ?_, ?_, ?_, by decide⟩
  · simp [sources, typeSources, batch, sols, subtasks, AMap.values, validatorSources, inputSources,
      outputSources, cppSrc, official, sampleSources, validator]
  · simp [sources, typeSources, batch, sols, subtasks, AMap.values, validatorSources, inputSources,
      outputSources, cppSrc, official, gradersOf, graders, sampleSources, validator]
    rintro g x (⟨-, rfl⟩ | ⟨-, rfl⟩) <;> decide
  · simp [sources, typeSources, batch, sols, subtasks, AMap.values, validatorSources, inputSources,
      outputSources, cppSrc, official, gradersOf, graders, sampleSources, validator]
    rintro g x (⟨-, rfl⟩ | ⟨-, rfl⟩) h y (⟨-, rfl⟩ | ⟨-, rfl⟩) <;> decide
  · exact batch_fits.testcaseIds

/-- The task is built, the samples are added to it: six executions more, and no compilation. -/
theorem samples_built : ∃ io ev ev', buildDag fs "/task" batch sols (start 10 {}) = .ok (io, ev) ∧
    addSamples fs batch validator (some (.custom official [])) samples ev = .ok ((), ev') ∧
    ev'.handlers.filterMap (fun p => match p.2 with | .sample s => some s | _ => none) =
      [.invalid "/task/att/task.input0.txt", .failed "/task/att/task.input0.txt",
       .checker "/task/att/task.output0.txt", .invalid "/task/att/task.input1.txt",
       .failed "/task/att/task.input1.txt", .checker "/task/att/task.output1.txt"] ∧
    (allExecs ev'.dag).length = (allExecs ev.dag).length + 6 := by
  have key : holds (fun _ ev => match addSamples fs batch validator (some (.custom official [])) samples ev with
      | .ok p => decide ((allExecs p.2.dag).length = (allExecs ev.dag).length + 6)
      | .error _ => false) (buildDag fs "/task" batch sols (start 10 {})) = true := by decide +kernel
  obtain ⟨io, ev, h1, h2⟩ := of_holds key
  split at h2
  · rename_i p hp
    obtain ⟨⟨⟩, ev'⟩ := p
    exact ⟨io, ev, ev', h1, hp, samples_events samples_fits rfl h1 hp, of_decide_eq_true h2⟩
  · cases h2

end Sample

/-- The hypotheses hold for the sample task, and each of its two samples is tested. -/
example : ∃ io ev ev', buildDag Sample.fs "/task" Sample.batch Sample.sols (start 10 {}) = .ok (io, ev) ∧
    addSamples Sample.fs Sample.batch Sample.validator (some (.custom Sample.official [])) Sample.samples ev =
      .ok ((), ev') ∧
    CheckDag.checkDag ev'.dag (callbacks ev') = .ok () ∧
    ∀ p ∈ Sample.samples, SampleTested Sample.fs ev' Sample.batch Sample.validator
      (some (.custom Sample.official [])) (.custom { Sample.cppSrc 2 "checker" with copyExe := true }) p := by
  obtain ⟨io, ev, ev', h1, h2, -, -⟩ := Sample.samples_built
  exact ⟨io, ev, ev', h1, h2, samples_accepted Sample.samples_fits rfl h1 h2,
    samples_tested Sample.samples_fits rfl h1 h2⟩

/-- A score of 1 is fine, 0.5 is shown. -/
example : sampleNote (.checker "out") { status := .success, score := some (.num 1) } = none ∧
    sampleNote (.checker "out") { status := .success, score := some (.num (1/2)), message := "bad" } =
      some (.wrong "out" (.num (1/2)) "bad") := by decide +kernel

end TM.Build
