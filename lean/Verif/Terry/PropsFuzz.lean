import Verif.Terry.Fuzz
import Verif.Terry.Props
import Verif.Build.PropsSamples
/-!
# C130: the checker of a Terry task is tried on bad outputs
-/
namespace TM.Terry
open TM TM.Build DagSpec Build.Spec
open TM.Terry.Spec (officialPaths HasOfficial Fits sources)

/-! ## Specification -/

/-- The input is generated from the seed 42. -/
def Spec.FuzzInput (fs : FS) (ev : Eval) (task : Task) (input : FileUuid) : Prop :=
  ∃ e, Runs fs ev task.generator ["42", "0"] (officialPaths task) e ∧ HasOfficial fs ev task [] e ∧
    e.stdin = none ∧ e.stdout = some input ∧ e.stdoutRedirectPath = none ∧ e.captureStderr = some 1024 ∧
    e.limits = { task.generator.lang.limits defaultLimits with allowMultiprocess := true } ∧
    e.tag = some "generation" ∧ Watched ev e.uuid fuzzGeneration

/-- The checker judges the bad output, on that input. -/
def Spec.BadJudged (fs : FS) (ev : Eval) (task : Task) (input : FileUuid) (path : String) : Prop :=
  ∃ output e, CopyOf fs ev output path ∧
    Runs fs ev task.checker ["input.txt", "output.txt"] ("input.txt" :: "output.txt" :: officialPaths task) e ∧
    HasOfficial fs ev task ["input.txt", "output.txt"] e ∧
    e.inputs.get? "input.txt" = some ⟨input, false⟩ ∧ e.inputs.get? "output.txt" = some ⟨output, false⟩ ∧
    e.captureStdout = some (1024 * 1024) ∧ e.captureStderr = some 1024 ∧ e.limits = unrestricted ∧
    Watched ev e.uuid (.checker (nameOf path)) ∧ Watched ev e.uuid (.failed (nameOf path))

/-! ## Lemmas -/

/-- How the input comes to be. -/
def FGenOk (c : Ctx) (ev : Eval) (task : Task) (input : FileUuid) : Prop :=
  ∃ e ∈ allExecs ev.dag, RunOf c ev task.generator ["42", "0"] (officialPaths task) e ∧
    HasOff ev task [] e ∧ e.stdin = none ∧ e.stdout = some input ∧ e.stdoutRedirectPath = none ∧
    e.captureStderr = some 1024 ∧
    e.limits = { task.generator.lang.limits defaultLimits with allowMultiprocess := true } ∧
    e.tag = some "generation" ∧ (e.uuid, .sample fuzzGeneration) ∈ ev.handlers

theorem FGenOk.mono {c : Ctx} {a b : Eval} {task : Task} {input : FileUuid}
    (h : FGenOk c a task input) (k : Ext c.G a b) : FGenOk c b task input := by
  obtain ⟨e, h1, h2, h3, h4, h5, h6, h7, h8, h9, h10⟩ := h
  exact ⟨e, k.mem_exec h1, h2.mono k, h3.mono k, h4, h5, h6, h7, h8, h9, k.mem_handlers h10⟩

theorem fuzzInput_spec {c : Ctx} {task : Task} {ev ev1 ev' : Eval} {P : List Execution} {input : FileUuid}
    {e : Execution} {a : Unit} (h : Inv c.G ev P)
    (hk : c.Knows task.generator) (ho : OfficialKnown c task)
    (h1 : generate c.fs task fuzzSeed ev = .ok ((input, e), ev1))
    (h2 : addSampleExec fuzzGeneration (some e) ev1 = .ok (a, ev')) :
    Inv c.G ev' P ∧ Step c ev ev' [] [.sample fuzzGeneration] ∧ ev'.senders = ev.senders ∧
    input ∈ allFiles ev'.dag ∧ FGenOk c ev' task input := by
  simp only [generate, bind_ok] at h1
  obtain ⟨e0, ev0, h0, e1, ev2, h3, h4⟩ := h1
  obtain ⟨i0, s0, hs0, r0, b0, l0, -⟩ := execute_spec h hk h0
  obtain ⟨i1, s1, hs1, r1, o1, I, rfl⟩ := includeOfficial_spec i0 ho r0 h3
  have i1' := i1.other (e' := { ({ e0 with inputs := I } : Execution) with
    limits := { e0.limits with allowMultiprocess := true }
    tag := some "generation" }) rfl rfl rfl rfl rfl rfl rfl rfl
  obtain ⟨rfl, i2, e2⟩ := stdoutOf_spec i1' h4
  have e2' : input = ev2.next ∧ ev1 = { ev2 with next := ev2.next + 1 } := by
    rcases e2 with ⟨h5, _⟩ | ⟨_, h5, h6⟩
    · have h5 : e0.stdout = some input := h5
      rw [b0.stdout] at h5; cases h5
    · exact ⟨h5, h6⟩
  obtain ⟨rfl, rfl⟩ := e2'
  have s2 := (s0.trans0 s1).trans0 (Step.ofNext c ev2 (ev2.next + 1) (Nat.le_succ _))
  obtain ⟨i4, s4, hs4, ⟨g, m4⟩, o4, w4⟩ := addSampleExec_some i2 rfl h2
  have x2 := (Ext.ofNext c.G ev2 (ev2.next + 1) (Nat.le_succ _)).trans s4.ext
  refine ⟨i4, s2.trans0 s4, ?_, ?_, ?_⟩
  · rw [hs4]; exact hs1.trans hs0
  · exact o4 _ (by simp [Execution.outputFiles])
  · refine ⟨_, m4, ?_, ?_, b0.stdin, rfl, b0.stdoutPath, rfl, ?_, rfl, w4⟩
    · rw [List.append_nil] at r1
      exact (r1.mono x2).other rfl rfl rfl
    · exact (o1.mono x2).other rfl
    · simp [l0]

/-- How a bad output is checked. -/
def BadOk (c : Ctx) (ev : Eval) (task : Task) (input : FileUuid) (path : String) : Prop :=
  ∃ output, ProvidedFrom c.G c.fs ev output path ∧
  ∃ e ∈ allExecs ev.dag, RunOf c ev task.checker ["input.txt", "output.txt"]
      ("output.txt" :: "input.txt" :: officialPaths task) e ∧
    HasOff ev task ["output.txt", "input.txt"] e ∧
    e.inputs.get? "input.txt" = some ⟨input, false⟩ ∧ e.inputs.get? "output.txt" = some ⟨output, false⟩ ∧
    e.captureStdout = some (1024 * 1024) ∧ e.captureStderr = some 1024 ∧ e.limits = unrestricted ∧
    (e.uuid, .sample (.checker (nameOf path))) ∈ ev.handlers ∧ (e.uuid, .sample (.failed (nameOf path))) ∈ ev.handlers

theorem BadOk.mono {c : Ctx} {a b : Eval} {task : Task} {input : FileUuid} {path : String}
    (h : BadOk c a task input path) (k : Ext c.G a b) : BadOk c b task input path := by
  obtain ⟨o, h0, e, h1, h2, h3, h4, h5, h6, h7, h8, h9, h10⟩ := h
  exact ⟨o, h0.mono k, e, k.mem_exec h1, h2.mono k, h3.mono k, h4, h5, h6, h7, h8, k.mem_handlers h9, k.mem_handlers h10⟩

theorem addBad_spec {c : Ctx} {task : Task} {path : String}
    {ev ev' : Eval} {P : List Execution} {input : FileUuid} {a : Unit} (h : Inv c.G ev P)
    (hk : c.Knows task.checker) (ho : OfficialKnown c task) (hi : input ∈ allFiles ev.dag)
    (hr : addBad c.fs task input path ev = .ok (a, ev')) :
    Inv c.G ev' P ∧ Step c ev ev' [] [.sample (.checker (nameOf path)), .sample (.failed (nameOf path))] ∧
    ev'.senders = ev.senders ∧ BadOk c ev' task input path := by
  simp only [addBad, bind_ok] at hr
  obtain ⟨output, eva, ha, _, evb, hb, e3, ev4, hc, h4⟩ := hr
  obtain ⟨ib, sb, hsb, mb, pb⟩ := provideFresh_spec h ha hb
  have hi := sb.ext.allFiles hi
  simp only [checkBad, bind_ok, onExec_ok, pure_ok] at hc
  obtain ⟨e0, ev0, h0, e1, ev1, h1, e2, ev2, h2, _, ev3, rfl, rfl, rfl⟩ := hc
  obtain ⟨i0, s0, hs0, r0, b0, l0, -⟩ := execute_spec ib hk h0
  obtain ⟨i1, s1, hs1, r1, o1, I, rfl⟩ := includeOfficial_spec i0 ho r0 h1
  have x1 := (s0.trans0 s1).ext
  have i1' := ((i1.other (e' := { ({ e0 with inputs := I } : Execution) with limits := unrestricted })
    rfl rfl rfl rfl rfl rfl rfl rfl).input (x1.allFiles hi) "input.txt" false).input (x1.allFiles mb)
    "output.txt" false
  have r1' := ((r1.other (e' := { ({ e0 with inputs := I } : Execution) with limits := unrestricted })
    rfl rfl rfl).input input "input.txt" false).input output "output.txt" false
  have o1' := ((o1.other (e' := { ({ e0 with inputs := I } : Execution) with limits := unrestricted })
    rfl).input input "input.txt" false).input output "output.txt" false
  have g1 : (addInput (addInput { ({ e0 with inputs := I } : Execution) with limits := unrestricted } input
      "input.txt" false) output "output.txt" false).inputs.get? "input.txt" = some ⟨input, false⟩ := by
    simp [get?_addInput]
  have g2 : (addInput (addInput { ({ e0 with inputs := I } : Execution) with limits := unrestricted } input
      "input.txt" false) output "output.txt" false).inputs.get? "output.txt" = some ⟨output, false⟩ := by
    simp [get?_addInput]
  obtain ⟨f, rfl, i2, e2⟩ := captureStdout_spec i1' h2
  have i3 := i2.onExec (mem_execUuids_head) (.sample (.checker (nameOf path))) ev2.pending
  have s2 : Step c ev1 ev2 [] [] := Step.ofNextOr3 e2
  have q2 : ev2.senders = ev1.senders := by rcases e2 with ⟨_, rfl⟩ | ⟨_, _, rfl⟩ <;> rfl
  have s3 := ((((sb.trans0 s0).trans0 s1).trans0 s2).trans0
    (Step.handler c ev2 e0.uuid (hd := .sample (.checker (nameOf path))) rfl))
  obtain ⟨i6, s6, hs6, ⟨g, m6⟩, o6, rep⟩ := addSampleExec_some i3
    (by simp [isComp, addInput, b0.tag]) h4
  have x2 : Ext c.G ev1 ev' := s2.ext.trans ((Step.handler c ev2 e0.uuid
    (hd := .sample (.checker (nameOf path))) rfl).ext.trans s6.ext)
  refine ⟨i6, by simpa [scoringOf] using s3.trans s6, ?_, ?_⟩
  · rw [hs6]; exact q2.trans (hs1.trans (hs0.trans hsb))
  · refine ⟨output, pb.mono (x1.trans x2), _, m6, ?_, ?_, g1, g2, rfl, rfl, rfl, ?_, rep⟩
    · rw [List.append_nil] at r1'
      exact (r1'.mono x2).other rfl rfl rfl
    · exact (o1'.mono x2).other rfl
    · apply s6.ext.mem_handlers; simp [addInput]

/-- The events of a bad output. -/
def Spec.badEvents (path : String) : List SampleEvent := [.checker (nameOf path), .failed (nameOf path)]

theorem bads_spec {c : Ctx} {task : Task} {P : List Execution} {input : FileUuid}
    (hk : c.Knows task.checker) (ho : OfficialKnown c task) :
    ∀ {paths : List String} {ev ev' : Eval} {a : Unit}, Inv c.G ev P → input ∈ allFiles ev.dag →
    each (addBad c.fs task input) paths ev = .ok (a, ev') →
    Inv c.G ev' P ∧ Step c ev ev' [] ((paths.flatMap Spec.badEvents).map Handler.sample) ∧
    ev'.senders = ev.senders ∧ ∀ p ∈ paths, BadOk c ev' task input p := by
  intro paths
  induction paths with
  | nil =>
    intro ev ev' a h _ hr
    simp only [each, pure_ok] at hr
    obtain ⟨-, rfl⟩ := hr
    exact ⟨h, .refl _ _, rfl, by simp⟩
  | cons p ps ih =>
    intro ev ev' a h hi hr
    simp only [each, bind_ok] at hr
    obtain ⟨_, ev1, h1, h2⟩ := hr
    obtain ⟨i1, s1, hs1, p1⟩ := addBad_spec h hk ho hi h1
    obtain ⟨i2, s2, hs2, p2⟩ := ih i1 (s1.ext.allFiles hi) h2
    refine ⟨i2, by simpa [Spec.badEvents] using s1.trans s2, hs2.trans hs1, fun q hq => ?_⟩
    rcases List.mem_cons.1 hq with rfl | hq
    · exact p1.mono s2.ext
    · exact p2 q hq

/-- What is known after the executions have been added. -/
theorem fuzz_done {n : Uuid} {cfg : DagConfig} {fs : FS} {task : Task} {seed : Nat → Nat} {sols : List Src}
    {ev ev' : Eval} {a b : Unit} {outputs : List String} (hne : outputs ≠ [])
    (h : Fits n task sols) (hb : buildDag fs task seed sols (start n cfg) = .ok (a, ev))
    (hr : addFuzz fs task (some outputs) ev = .ok (b, ev')) :
    let c := ctxOf fs cfg task sols
    Done c ev ∧ Done c ev' ∧
    Step c ev ev' [] ((fuzzGeneration :: outputs.flatMap Spec.badEvents).map Handler.sample) ∧
    ev'.senders = ev.senders ∧
    ∃ input, Spec.FuzzInput fs ev' task input ∧ ∀ p ∈ outputs, Spec.BadJudged fs ev' task input p := by
  intro c
  obtain ⟨d1, -, -⟩ := buildDag_done h hb
  have hk := known (fs := fs) (cfg := cfg) h
  cases outputs with
  | nil => exact absurd rfl hne
  | cons p ps =>
    simp only [addFuzz, bind_ok] at hr
    obtain ⟨⟨input, e⟩, ev1, h1, _, ev2, h2, h3⟩ := hr
    obtain ⟨i1, s1, hs1, m1, p1⟩ := fuzzInput_spec (c := c) d1.inv hk.generator hk.official h1 h2
    obtain ⟨i2, s2, hs2, p2⟩ := bads_spec (c := c) hk.checker hk.official i1 m1 h3
    have s := s1.trans s2
    have d2 : Done c ev' := ⟨i2, s.side [] d1.side⟩
    refine ⟨d1, d2, s, hs2.trans hs1, input, ?_, fun q hq => ?_⟩
    · obtain ⟨e, h1, h2, h3, h4, h5, h6, h7, h8, h9, h10⟩ := p1.mono s2.ext
      exact ⟨e, h2.runs d2 hk.generator h1 (fun _ => Iff.rfl), h3.spec d2 hk.official (fun _ hq => hq), h4, h5, h6, h7,
        h8, h9, h10⟩
    · obtain ⟨o, h0, e, h1, h2, h3, h4⟩ := p2 q hq
      refine ⟨o, e, h0.copy, h2.runs d2 hk.checker h1 (fun q => ?_), h3.spec d2 hk.official (fun q hq => ?_), h4⟩
      · simp only [List.mem_cons]; grind
      · simp only [List.mem_cons, List.not_mem_nil, or_false] at hq ⊢; grind

theorem includeOfficial_gentle (n : Nat) (fs : FS) (official : Option (Src × String)) (e : Execution) (h : n ≤ e.uuid) :
    Gentle n (includeOfficial fs official e) (fun e' => n ≤ e'.uuid) := by
  cases official with
  | none => exact Gentle.pure h
  | some p =>
    refine Gentle.bind' (Q := fun _ => True) ?_ (fun f => Gentle.pure h)
    unfold executableOf prepareBound
    refine Gentle.bind' (Q := fun _ => True) ?_ (fun _ => Gentle.look _)
    exact (prepare_gentle n fs p.1).bind (fun comp hc => bindCompilation_gentle n _ _ hc)

theorem addFuzz_tame {fs : FS} {task : Task} {outputs : Option (List String)} {ev ev' : Eval} {a : Unit}
    (hr : addFuzz fs task outputs ev = .ok (a, ev')) : Tame ev.next ev ev' := by
  have hbad : ∀ input path, Gentle ev.next (addBad fs task input path) (fun _ => True) := by
    intro input path
    unfold addBad checkBad
    refine Gentle.fresh.bind' (fun output => (provideFile_gentle _ fs _ _).bind' (fun _ => ?_))
    refine Gentle.bind (Q := fun e => ev.next ≤ e.uuid) ?_ (fun e he =>
      addSampleExec_gentle _ _ _ (by rintro x ⟨⟩; exact he))
    refine (execute_gentle _ fs _ _).bind (fun e he => ?_)
    refine (includeOfficial_gentle _ fs _ e he).bind (fun e he => ?_)
    refine (captureStdout_gentle _ _ _ (by exact he)).bind (fun e he => ?_)
    exact (onExec_gentle _ _ _ he.1).bind' (fun _ => Gentle.pure he.1)
  have : Gentle ev.next (addFuzz fs task outputs) (fun _ => True) := by
    rcases outputs with _ | ⟨_ | ⟨p, ps⟩⟩
    · exact Gentle.fail
    · exact Gentle.pure trivial
    · refine Gentle.bind (Q := fun r => ev.next ≤ r.2.uuid) ?_ (fun r hr => ?_)
      · unfold generate
        refine (execute_gentle _ fs _ _).bind (fun e he => ?_)
        refine (includeOfficial_gentle _ fs _ e he).bind (fun e he => ?_)
        exact stdoutOf_gentle _ _ (by exact he)
      · refine (addSampleExec_gentle _ _ _ (by rintro x ⟨⟩; exact hr)).bind' (fun _ => ?_)
        exact Gentle.each (fun p => hbad _ p)
  exact (this ev a ev' (Nat.le_refl _) hr).1

theorem addFuzz_safe (fs : FS) (task : Task) (outputs : List String) :
    Safe fs (addFuzz fs task (some outputs)) (fun _ => True) := by
  cases outputs with
  | nil => exact Safe.pure trivial
  | cons p ps =>
    refine Safe.bind' (Q := fun _ => True) ?_ (fun r => ?_)
    · refine (execute_safe fs _ _).bind' (fun e => ?_)
      refine (includeOfficial_safe fs _ _).bind' (fun e => ?_)
      exact (stdoutOf_safe fs _).mono (fun _ _ => trivial)
    · refine (addSampleExec_safe fs _ _).bind' (fun _ => Safe.each (fun p _ => ?_))
      unfold addBad
      refine Safe.fresh.bind' (fun output => (provideFile_safe fs _ _).bind' (fun _ => ?_))
      refine Safe.bind' (Q := fun _ => True) ?_ (fun e => addSampleExec_safe fs _ _)
      refine (execute_safe fs _ _).bind' (fun e => ?_)
      refine (includeOfficial_safe fs _ _).bind' (fun e => ?_)
      refine (captureStdout_safe fs _ _).bind' (fun e => ?_)
      exact (Safe.upd _).bind' (fun _ => Safe.pure trivial)

/-! ## The theorems -/

section

variable {n : Uuid} {cfg : DagConfig} {fs : FS} {task : Task} {seed : Nat → Nat} {sols : List Src}
  {ev ev' : Eval} {a b : Unit} {outputs : List String}

/-- **C130** Without the directory nothing is done, it is an error; without a file in it nothing is done. -/
theorem fuzz_no_outputs :
    (addFuzz fs task none ev = .error (.missingFile badOutputsDir)) ∧
    (addFuzz fs task (some []) ev = .ok ((), ev)) := ⟨rfl, rfl⟩

theorem fuzz_empty (h : addFuzz fs task (some []) ev = .ok (b, ev')) : ev' = ev := by
  cases h; rfl

/-- **C130** The DAG of a task is still accepted by the server after these executions have been added to it. -/
theorem fuzz_accepted (h : Fits n task sols) (hb : buildDag fs task seed sols (start n cfg) = .ok (a, ev))
    (hr : addFuzz fs task (some outputs) ev = .ok (b, ev')) :
    CheckDag.checkDag ev'.dag (callbacks ev') = .ok () := by
  by_cases hne : outputs = []
  · subst hne
    rw [fuzz_empty hr]
    exact (buildDag_done h hb).1.accepted
  · exact (fuzz_done hne h hb hr).2.1.accepted

/-- **C130** The checker is run on each bad output, with the same input, which the generator makes from the seed 42. -/
theorem fuzz_tried (h : Fits n task sols) (hb : buildDag fs task seed sols (start n cfg) = .ok (a, ev))
    (hr : addFuzz fs task (some outputs) ev = .ok (b, ev')) (hne : outputs ≠ []) :
    ∃ input, Spec.FuzzInput fs ev' task input ∧ ∀ p ∈ outputs, Spec.BadJudged fs ev' task input p :=
  (fuzz_done hne h hb hr).2.2.2.2

/-- **C130** These are all the events added: one for the generation, and for each bad output whether the checker has
given an outcome and whether it has failed. -/
theorem fuzz_events (h : Fits n task sols) (hb : buildDag fs task seed sols (start n cfg) = .ok (a, ev))
    (hr : addFuzz fs task (some outputs) ev = .ok (b, ev')) (hne : outputs ≠ []) :
    ev'.handlers.filterMap (fun p => match p.2 with | .sample s => some s | _ => none) =
      ev.handlers.filterMap (fun p => match p.2 with | .sample s => some s | _ => none) ++
      fuzzGeneration :: outputs.flatMap (fun p => [.checker (nameOf p), .failed (nameOf p)]) := by
  obtain ⟨-, -, s, -, -⟩ := fuzz_done hne h hb hr
  have e : (fun p : ExecutionUuid × Handler => match p.2 with | .sample s => some s | _ => none) =
      fun p => sampleOf p.2 := by
    funext p; cases p.2 <;> rfl
  rw [e, sampleOf_scoring, s.scoring, List.filterMap_append, sampleOf_scoring, List.filterMap_map]
  congr 1
  exact List.filterMap_some ..

/-- **C130** No outcome, and so no score, is added: no solution is judged because of a bad output. -/
theorem fuzz_no_outcome (h : Fits n task sols) (hb : buildDag fs task seed sols (start n cfg) = .ok (a, ev))
    (hr : addFuzz fs task (some outputs) ev = .ok (b, ev')) :
    ev'.handlers.filterMap (fun p => match p.2 with | .customChecker st tc sol => some (st, tc, sol) | _ => none) =
      ev.handlers.filterMap (fun p => match p.2 with | .customChecker st tc sol => some (st, tc, sol) | _ => none) := by
  by_cases hne : outputs = []
  · subst hne
    rw [fuzz_empty hr]
  obtain ⟨-, -, s, -, -⟩ := fuzz_done hne h hb hr
  have key : ∀ l : List (ExecutionUuid × Handler),
      l.filterMap (fun p => match p.2 with | .customChecker st tc sol => some (st, tc, sol) | _ => none) =
      (l.filterMap scoringOf).filterMap (fun h => match h with | .customChecker st tc sol => some (st, tc, sol) | _ => none) := by
    intro l
    rw [List.filterMap_filterMap]
    congr 1
    funext p
    obtain ⟨u, h⟩ := p
    cases h <;> rfl
  rw [key, key, s.scoring, List.filterMap_append, List.filterMap_map]
  simp [List.filterMap_eq_nil_iff]

/-- **C130** The executions of the task, the files provided for it and those that will be written are as before, and
so are the callbacks on its executions. -/
theorem fuzz_undisturbed (h : Fits n task sols) (hb : buildDag fs task seed sols (start n cfg) = .ok (a, ev))
    (hr : addFuzz fs task (some outputs) ev = .ok (b, ev')) :
    (∀ e ∈ allExecs ev.dag, e ∈ allExecs ev'.dag ∧
      ev'.handlers.filter (fun p => p.1 == e.uuid) = ev.handlers.filter (fun p => p.1 == e.uuid)) ∧
    (∀ f p, ev.dag.providedFiles.get? f = some p → ev'.dag.providedFiles.get? f = some p) ∧
    (∀ f w, ev.writes.get? f = some w → ev'.writes.get? f = some w) ∧
    ev'.senders = ev.senders ∧ ev'.dag.config = ev.dag.config := by
  by_cases hne : outputs = []
  · subst hne
    rw [fuzz_empty hr]
    exact ⟨fun e he => ⟨he, rfl⟩, fun _ _ hp => hp, fun _ _ hw => hw, rfl, rfl⟩
  obtain ⟨d, d', s, hs, -⟩ := fuzz_done hne h hb hr
  obtain ⟨l, hl, hl'⟩ := (addFuzz_tame hr).handlers
  refine ⟨fun e he => ⟨s.ext.mem_exec he, ?_⟩, fun f p hp => ?_, s.ext.writes, hs, s.ext.config⟩
  · rw [hl, List.filter_append]
    have hlt : e.uuid < ev.next := d.inv.boundE e.uuid (by
      simp only [execUuids, List.map_nil, List.append_nil, List.mem_map]
      exact ⟨e, he, rfl⟩)
    have : l.filter (fun p => p.1 == e.uuid) = [] := by
      rw [List.filter_eq_nil_iff]
      intro p hp
      have h5 : ev.next ≤ p.1 := hl' p hp
      simp only [beq_iff_eq]
      intro h6
      rw [h6] at h5
      exact absurd hlt (Nat.not_lt.2 h5)
    rw [this, List.append_nil]
  · obtain ⟨p', h1, h2⟩ := s.ext.provided f p hp
    rcases h2 with rfl | h2
    · exact h1
    · obtain ⟨path, hg⟩ := Option.isSome_iff_exists.1 h2
      obtain ⟨k, h3, h4⟩ := d.side.graders f path p hg hp
      obtain ⟨k', h5, h6⟩ := d'.side.graders f path p' hg h1
      rw [h3] at h5
      cases h5
      rw [h1, h4, h6]

/-- **C130** Nothing else is added: a new execution is a compilation or one of these, a new file to write is an
executable. -/
theorem fuzz_nothing_else (hr : addFuzz fs task (some outputs) ev = .ok (b, ev')) :
    (∀ e ∈ allExecs ev'.dag, e ∈ allExecs ev.dag ∨ e.tag = some "compilation" ∨ ∃ s, Watched ev' e.uuid s) ∧
    (∀ f w, ev'.writes.get? f = some w → ev.writes.get? f = some w ∨ w.executable = true) := by
  have t := addFuzz_tame hr
  exact ⟨fun e he => (t.execs e he).imp id (fun h => h.2), t.writes⟩

/-- **C130** No message is sent for the bad outputs, except for the compilations. -/
theorem fuzz_silent (h : Fits n task sols) (hb : buildDag fs task seed sols (start n cfg) = .ok (a, ev))
    (hr : addFuzz fs task (some outputs) ev = .ok (b, ev')) :
    ∃ l, ev'.pending = ev.pending ++ l ∧ ∀ t ∈ l, ∃ path, t = .compilation path := by
  by_cases hne : outputs = []
  · subst hne
    rw [fuzz_empty hr]
    exact ⟨[], by simp, by simp⟩
  obtain ⟨-, -, s, -, -⟩ := fuzz_done hne h hb hr
  obtain ⟨l, hl⟩ := s.ext.pending
  refine ⟨l, hl, fun t ht => ?_⟩
  have h1 := s.topics
  rw [hl, List.filter_append, List.append_nil] at h1
  have h2 : l.filter mainTopic = [] := by
    have := congrArg List.length h1
    simp only [List.length_append] at this
    exact List.eq_nil_of_length_eq_zero (by omega)
  have h3 := List.filter_eq_nil_iff.1 h2 t ht
  cases t <;> first | exact ⟨_, rfl⟩ | exact absurd rfl h3

/-- **C130** When the directory exists, adding the executions fails only because a file is missing or cannot be
read. -/
theorem fuzz_only_missing_files {err : Err} (hr : addFuzz fs task (some outputs) ev = .error err) :
    ∃ path, err = .missingFile path ∧ (fs.key path = none ∨ fs.present path = false) :=
  (addFuzz_safe fs task outputs ev).1 err hr

/-- **C130** What is shown.  A bad output on which the checker ends with success and an outcome shows nothing, and nothing
else shows nothing: an outcome that is not valid shows an error, a checker that fails shows another, with its status.
The error of the generation is not taken for that of an output. -/
theorem fuzz_shown (name : String) (hn : name ≠ "the generator") (status : ExecutionStatus) (valid stderr : Bool) :
    ((fuzzNote (.checker name) status valid stderr = none ∧ fuzzNote (.failed name) status valid stderr = none) ↔
      valid = true ∧ status = .success) ∧
    (valid = false → fuzzNote (.checker name) status valid stderr = some (.badOutcome name)) ∧
    (status ≠ .success → fuzzNote (.failed name) status valid stderr = some (.checkerFailed name status stderr)) ∧
    fuzzNote fuzzGeneration status valid stderr =
      (if status = .success then none else some (.notGenerated status stderr)) := by
  have h0 : SampleEvent.failed name ≠ fuzzGeneration := by
    intro h; exact hn (SampleEvent.failed.inj h)
  refine ⟨?_, ?_, ?_, ?_⟩
  · cases valid <;> by_cases h : status = .success <;> simp [fuzzNote, h, h0]
  · rintro rfl; simp [fuzzNote]
  · intro h; simp [fuzzNote, h, h0]
  · simp [fuzzNote, fuzzGeneration]

end

/-! ## An example -/

/-- Two bad outputs. -/
def Sample.bads : List String := ["/data/bad_outputs/a.txt", "/data/bad_outputs/b.txt"]

/-- The sample task is built and the checker tried: three executions more. -/
theorem Sample.fuzz_built : ∃ a ev b ev',
    buildDag Build.Sample.fs Sample.task Sample.seed Sample.sols (start 10 {}) = .ok (a, ev) ∧
    addFuzz Build.Sample.fs Sample.task (some Sample.bads) ev = .ok (b, ev') ∧
    (allExecs ev'.dag).length = (allExecs ev.dag).length + 3 := by
  have key : Sample.holds (fun ev => match addFuzz Build.Sample.fs Sample.task (some Sample.bads) ev with
      | .ok p => decide ((allExecs p.2.dag).length = (allExecs ev.dag).length + 3)
      | .error _ => false) (buildDag Build.Sample.fs Sample.task Sample.seed Sample.sols (start 10 {})) = true := by
    decide +kernel
  obtain ⟨a, ev, h1, h2⟩ := Sample.of_holds key
  split at h2
  · rename_i p hp
    obtain ⟨b, ev'⟩ := p
    exact ⟨a, ev, b, ev', h1, hp, of_decide_eq_true h2⟩
  · cases h2

/-- The hypotheses hold for the sample task. -/
example : ∃ a ev b ev',
    buildDag Build.Sample.fs Sample.task Sample.seed Sample.sols (start 10 {}) = .ok (a, ev) ∧
    addFuzz Build.Sample.fs Sample.task (some Sample.bads) ev = .ok (b, ev') ∧
    CheckDag.checkDag ev'.dag (callbacks ev') = .ok () ∧
    ∃ input, Spec.FuzzInput Build.Sample.fs ev' Sample.task input ∧
      Spec.BadJudged Build.Sample.fs ev' Sample.task input "/data/bad_outputs/b.txt" := by
  obtain ⟨a, ev, b, ev', h1, h2, -⟩ := Sample.fuzz_built
  obtain ⟨i, h3, h4⟩ := fuzz_tried Sample.task_fits h1 h2 (by simp [Sample.bads])
  exact ⟨a, ev, b, ev', h1, h2, fuzz_accepted Sample.task_fits h1 h2, i, h3, h4 _ (by simp [Sample.bads])⟩

/-- An output the checker accepts shows nothing; one it fails on is shown with the status. -/
example : fuzzNote (.failed "a.txt") .success true true = none ∧ fuzzNote (.checker "a.txt") .success true true = none ∧
    fuzzNote (.failed "a.txt") (.returnCode 1) true true = some (.checkerFailed "a.txt" (.returnCode 1) true) := by
  decide +kernel

end TM.Terry
