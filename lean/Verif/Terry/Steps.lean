import Verif.Terry.Spec
import Verif.Build.Bridge
/-!
# What the steps of the construction of a Terry task do
-/
namespace TM.Terry
open TM TM.Build DagSpec Build.Spec Terry.Spec

/-- The official solution is known. -/
def OfficialKnown (c : Ctx) (task : Task) : Prop := ∀ s name, task.official = some (s, name) → c.Knows s

/-- The executable of the official solution is in the sandbox. -/
def HasOff (ev : Eval) (task : Task) (over : List String) (e : Execution) : Prop :=
  ∀ s name, task.official = some (s, name) → name ∉ over →
    ∃ f, e.inputs.get? name = some ⟨f, true⟩ ∧ ev.exes.get? s.id = some f

theorem HasOff.mono {G : FileUuid → Prop} {a b : Eval} {task : Task} {over : List String} {e : Execution}
    (h : HasOff a task over e) (k : Ext G a b) : HasOff b task over e := by
  intro s name hs hn
  obtain ⟨f, h1, h2⟩ := h s name hs hn
  exact ⟨f, h1, k.exes _ _ h2⟩

theorem HasOff.other {ev : Eval} {task : Task} {over : List String} {e e' : Execution}
    (h : HasOff ev task over e) (hi : e'.inputs = e.inputs) : HasOff ev task over e' := by
  intro s name hs hn
  rw [hi]; exact h s name hs hn

theorem HasOff.input {ev : Eval} {task : Task} {over : List String} {e : Execution}
    (h : HasOff ev task over e) (f : FileUuid) (path : String) (x : Bool) :
    HasOff ev task (path :: over) (addInput e f path x) := by
  intro s name hs hn
  simp only [List.mem_cons, not_or] at hn
  rw [get?_addInput, if_neg hn.1]
  exact h s name hs hn.2

theorem includeOfficial_spec {c : Ctx} {task : Task} {ev ev' : Eval} {P : List Execution} {e e' : Execution}
    {src : Src} {args over : List String}
    (h : Inv c.G ev (e :: P)) (hk : OfficialKnown c task) (hrun : RunOf c ev src args over e)
    (hr : includeOfficial c.fs task.official e ev = .ok (e', ev')) :
    Inv c.G ev' (e' :: P) ∧ Step c ev ev' [] [] ∧ ev'.senders = ev.senders ∧
    RunOf c ev' src args (officialPaths task ++ over) e' ∧ HasOff ev' task [] e' ∧
    ∃ I, e' = { e with inputs := I } := by
  unfold includeOfficial at hr
  cases ho : task.official with
  | none =>
    simp only [ho, pure_ok] at hr
    obtain ⟨rfl, rfl⟩ := hr
    refine ⟨h, .refl _ _, rfl, ?_, ?_, e.inputs, rfl⟩
    · simpa [officialPaths, ho] using hrun
    · intro s name hs; rw [ho] at hs; cases hs
  | some p =>
    obtain ⟨s, name⟩ := p
    simp only [ho, executableOf, bind_ok, look_ok, pure_ok] at hr
    obtain ⟨f, ev2, ⟨_, ev1, h1, hf, rfl⟩, rfl, rfl⟩ := hr
    obtain ⟨i1, s1, hs1, g, hg⟩ := prepareBound_spec h (hk s name ho) h1
    rw [hg, Option.getD_some] at hf
    subst hf
    have hm : g ∈ allFiles ev1.dag := i1.exes _ (AMap.mem_of_get? hg)
    refine ⟨i1.input hm name true, s1, hs1, ?_, ?_, _, rfl⟩
    · have := (hrun.mono s1.ext).input g name true
      simpa [officialPaths, ho] using this
    · intro s' name' hs' _
      rw [ho] at hs'
      simp only [Option.some.injEq, Prod.mk.injEq] at hs'
      obtain ⟨rfl, rfl⟩ := hs'
      exact ⟨g, by rw [get?_addInput, if_pos rfl], hg⟩

/-- The file is written to `dest` at the end, when the files are kept and it is not a dry run. -/
def Kept (ev : Eval) (f : FileUuid) (dest : String) : Prop :=
  ev.dag.config.dryRun = false → ev.dag.config.copyExe = true → ev.writes.get? f = some ⟨dest, false, false⟩

theorem Kept.mono {G : FileUuid → Prop} {a b : Eval} {f : FileUuid} {dest : String}
    (h : Kept a f dest) (k : Ext G a b) : Kept b f dest := by
  intro h1 h2; rw [k.config] at h1 h2; exact k.writes _ _ (h h1 h2)

theorem copyTo_spec {c : Ctx} {ev ev' : Eval} {P : List Execution} {f : FileUuid} {dest : String}
    {a : Unit} (h : Inv c.G ev P) (hf : f ∈ allFiles ev.dag ∨ f ∈ outsOf P)
    (hw : ev.writes.get? f = none) (hd : ev.dag.config.copyExe = true → c.mayWrite dest)
    (hr : copyTo f dest ev = .ok (a, ev')) :
    Inv c.G ev' P ∧ Step c ev ev' [] [] ∧ ev'.senders = ev.senders ∧ Kept ev' f dest ∧
    ev'.dag = ev.dag ∧ ev'.exes = ev.exes := by
  simp only [copyTo, bind_ok, look_ok] at hr
  obtain ⟨b, ev1, ⟨rfl, rfl⟩, hr⟩ := hr
  split at hr
  · rename_i hc
    obtain ⟨h1, h2, h3, h4, h5⟩ := write_step h hf hw (hd hc) hr
    exact ⟨h1, h2, h3, fun hdry _ => h4 hdry, h5⟩
  · rename_i hc
    simp only [pure_ok] at hr
    obtain ⟨-, rfl⟩ := hr
    exact ⟨h, .refl _ _, rfl, fun _ h2 => absurd h2 hc, rfl, rfl⟩

theorem bindAndAdd_spec {c : Ctx} {t : Topic} {ev ev' : Eval} {P : List Execution}
    {e : Execution} {a : Unit} (h : Inv c.G ev (e :: P)) (ht : mainTopic t = true)
    (htag : isComp e = false) (hr : bindAndAdd e t ev = .ok (a, ev')) :
    Inv c.G ev' P ∧ Step c ev ev' [t] [] ∧ ev'.senders = ev.senders ∧ ev'.writes = ev.writes ∧
    (∃ f, { e with stderr := some f, captureStderr := some (10 * 1024),
                   config := ev.dag.config } ∈ allExecs ev'.dag) ∧
    (∀ f ∈ e.outputFiles, f ∈ allFiles ev'.dag) ∧ (e.uuid, .report t) ∈ ev'.handlers := by
  simp only [bindAndAdd, bind_ok, bindCallbacks_ok] at hr
  obtain ⟨_, ev1, rfl, e2, ev2, h2, h3⟩ := hr
  have hu : e.uuid ∈ execUuids ev.dag (e :: P) := by simp [execUuids]
  have i1 := h.onExec hu (.report t) (ev.pending ++ [t])
  obtain ⟨f1, rfl, i2, e1⟩ := captureStderr_spec i1 h2
  obtain ⟨i4, x4, m4, o4, -, hh4, -, -, hw4, hs4, -⟩ := addExec_spec i2 h3
  have s1 := Step.bind c ev e.uuid ht
  have s2 := s1.then0 (Step.ofNextOr3 e1)
  have s4 := s2.then0 (Step.addExec i2 htag h3)
  have q1 : ev2.senders = ev.senders ∧ ev2.writes = ev.writes ∧ ev2.dag = ev.dag ∧
      ev2.handlers = ev.handlers ++ [(e.uuid, .report t)] := by
    rcases e1 with ⟨_, rfl⟩ | ⟨_, _, rfl⟩ <;> simp
  refine ⟨i4, s4, hs4.trans q1.1, hw4.trans q1.2.1, ⟨f1, ?_⟩, ?_, ?_⟩
  · rw [← q1.2.2.1]; exact m4
  · intro f hf
    apply o4
    simp only [Execution.outputFiles, List.mem_append] at hf ⊢
    rcases hf with hf | hf | hf
    · exact Or.inl hf
    · right; left
      rcases e1 with ⟨h5, _⟩ | ⟨h5, _⟩
      · rw [h5] at hf; exact hf
      · rw [h5] at hf; simp at hf
    · exact Or.inr (Or.inr hf)
  · rw [hh4, q1.2.2.2]; simp

/-! ## Generation -/

/-- Where the input of a solution is kept. -/
def inDest (task : Task) (src : Src) : String := task.path ++ "/bin/io/" ++ nameOf src.path ++ ".in"
/-- Where the output of a solution is kept. -/
def outDest (task : Task) (src : Src) : String := task.path ++ "/bin/io/" ++ nameOf src.path ++ ".out"

/-- How the input of a solution comes to be. -/
def GenOk (c : Ctx) (ev : Eval) (task : Task) (sol seed : Nat) (input : FileUuid) : Prop :=
  ∃ e ∈ allExecs ev.dag, RunOf c ev task.generator [toString seed, "0"] (officialPaths task) e ∧
    HasOff ev task [] e ∧ e.stdin = none ∧ e.stdout = some input ∧ e.stdoutRedirectPath = none ∧
    e.captureStderr = some (10 * 1024) ∧
    e.limits = { task.generator.lang.limits defaultLimits with allowMultiprocess := true } ∧
    e.tag = some "generation" ∧ (e.uuid, .report (generationOf sol seed)) ∈ ev.handlers

theorem GenOk.mono {c : Ctx} {a b : Eval} {task : Task} {sol seed : Nat} {input : FileUuid}
    (h : GenOk c a task sol seed input) (k : Ext c.G a b) : GenOk c b task sol seed input := by
  obtain ⟨e, h1, h2, h3, h4, h5, h6, h7, h8, h9, h10⟩ := h
  exact ⟨e, k.mem_exec h1, h2.mono k, h3.mono k, h4, h5, h6, h7, h8, h9, k.mem_handlers h10⟩

theorem generateAndBind_spec {c : Ctx} {task : Task} {sol seed : Nat} {src : Src}
    {ev ev' : Eval} {P : List Execution} {input : FileUuid} (h : Inv c.G ev P)
    (hk : c.Knows task.generator) (ho : OfficialKnown c task)
    (hd : ev.dag.config.copyExe = true → c.mayWrite (inDest task src))
    (hr : generateAndBind c.fs task sol src seed ev = .ok (input, ev')) :
    Inv c.G ev' P ∧ Step c ev ev' [generationOf sol seed] [] ∧ ev'.senders = ev.senders ∧
    input ∈ allFiles ev'.dag ∧ GenOk c ev' task sol seed input ∧ Kept ev' input (inDest task src) := by
  simp only [generateAndBind, generate, bind_ok, pure_ok] at hr
  obtain ⟨⟨f, e2⟩, ev2, ⟨e0, ev0, h0, e1, ev1, h1, h2⟩, _, ev3, h3, _, ev4, h4, rfl, rfl⟩ := hr
  obtain ⟨i0, s0, hs0, r0, b0, l0, -⟩ := execute_spec h hk h0
  obtain ⟨i1, s1, hs1, r1, o1, I, rfl⟩ := includeOfficial_spec i0 ho r0 h1
  have i1' := i1.other (e' := { ({ e0 with inputs := I } : Execution) with
    limits := { e0.limits with allowMultiprocess := true }
    tag := some "generation" }) rfl rfl rfl rfl rfl rfl rfl rfl
  obtain ⟨rfl, i2, e2⟩ := stdoutOf_spec i1' h2
  have e2' : f = ev1.next ∧ ev2 = { ev1 with next := ev1.next + 1 } := by
    rcases e2 with ⟨h5, _⟩ | ⟨_, h5, h6⟩
    · have h5 : e0.stdout = some f := h5
      rw [b0.stdout] at h5; cases h5
    · exact ⟨h5, h6⟩
  obtain ⟨rfl, rfl⟩ := e2'
  have s2 := (s0.trans0 s1).trans0 (Step.ofNext c ev1 (ev1.next + 1) (Nat.le_succ _))
  obtain ⟨i3, s3, hs3, w3, -, -⟩ := copyTo_spec i2
    (Or.inr (by simp [outsOf, Execution.outputFiles])) (i1.writes_lt (Nat.le_refl ev1.next))
    (fun hc => hd (by rw [← (s0.trans0 s1).ext.config]; exact hc)) h3
  obtain ⟨i4, s4, hs4, -, ⟨g, m4⟩, o4, rep⟩ := bindAndAdd_spec i3 (t := generationOf sol seed) rfl rfl h4
  have x2 := (Ext.ofNext c.G ev1 (ev1.next + 1) (Nat.le_succ _)).trans (s3.ext.trans s4.ext)
  refine ⟨i4, (s2.trans0 s3).trans0 s4, ?_, ?_, ?_, w3.mono s4.ext⟩
  · rw [hs4, hs3]; exact hs1.trans hs0
  · exact o4 _ (by simp [Execution.outputFiles])
  · refine ⟨_, m4, ?_, ?_, b0.stdin, rfl, b0.stdoutPath, rfl, ?_, rfl, rep⟩
    · rw [List.append_nil] at r1
      exact (r1.mono x2).other rfl rfl rfl
    · exact (o1.mono x2).other rfl
    · simp [l0]

/-! ## Validation -/

/-- How the input of a solution is validated. -/
def ValOk (c : Ctx) (ev : Eval) (task : Task) (sol : Nat) (input : FileUuid) (handle : Option FileUuid) : Prop :=
  match task.validator with
  | none => handle = none
  | some v => ∃ f, handle = some f ∧ ∃ e ∈ allExecs ev.dag, RunOf c ev v [] (officialPaths task) e ∧
    HasOff ev task [] e ∧ e.stdin = some input ∧ e.stdinRedirectPath = none ∧ e.stdout = some f ∧
    e.captureStderr = some (10 * 1024) ∧
    e.limits = { v.lang.limits defaultLimits with allowMultiprocess := true } ∧
    e.tag = some "generation" ∧ (e.uuid, .report (validationOf sol)) ∈ ev.handlers

theorem ValOk.mono {c : Ctx} {a b : Eval} {task : Task} {sol : Nat} {input : FileUuid}
    {handle : Option FileUuid} (h : ValOk c a task sol input handle) (k : Ext c.G a b) :
    ValOk c b task sol input handle := by
  unfold ValOk at *
  cases hv : task.validator with
  | none => simpa only [hv] using h
  | some v =>
    simp only [hv] at h ⊢
    obtain ⟨f, h0, e, h1, h2, h3, h4, h5, h6, h7, h8, h9, h10⟩ := h
    exact ⟨f, h0, e, k.mem_exec h1, h2.mono k, h3.mono k, h4, h5, h6, h7, h8, h9, k.mem_handlers h10⟩

theorem validateMaybe_spec {c : Ctx} {task : Task} {sol : Nat}
    {ev ev' : Eval} {P : List Execution} {input : FileUuid} {handle : Option FileUuid} (h : Inv c.G ev P)
    (hk : ∀ v, task.validator = some v → c.Knows v) (ho : OfficialKnown c task)
    (hi : input ∈ allFiles ev.dag)
    (hr : validateMaybe c.fs task sol input ev = .ok (handle, ev')) :
    Inv c.G ev' P ∧ Step c ev ev' (task.validator.toList.map (fun _ => validationOf sol)) [] ∧
    ev'.senders = ev.senders ∧ (∀ f, handle = some f → f ∈ allFiles ev'.dag) ∧
    ValOk c ev' task sol input handle := by
  unfold validateMaybe at hr
  unfold ValOk
  cases hv : task.validator with
  | none =>
    simp only [hv, pure_ok] at hr
    obtain ⟨rfl, rfl⟩ := hr
    exact ⟨h, .refl _ _, rfl, by simp, rfl⟩
  | some v =>
    simp only [hv, validateAndBind, validate, bind_ok, pure_ok] at hr
    obtain ⟨f, _, ⟨⟨f, e2⟩, ev2, ⟨e0, ev0, h0, e1, ev1, h1, h2⟩, _, ev4, h4, rfl, rfl⟩, rfl, rfl⟩ := hr
    obtain ⟨i0, s0, hs0, r0, b0, l0, -⟩ := execute_spec h (hk v hv) h0
    obtain ⟨i1, s1, hs1, r1, o1, I, rfl⟩ := includeOfficial_spec i0 ho r0 h1
    have i1' := (i1.stdin ((s0.trans0 s1).ext.allFiles hi)).other (e' := { ({ e0 with inputs := I } : Execution) with
      limits := { e0.limits with allowMultiprocess := true }
      stdin := some input
      tag := some "generation" }) rfl rfl rfl rfl rfl rfl rfl rfl
    obtain ⟨rfl, i2, e2⟩ := stdoutOf_spec i1' h2
    have e2' : f = ev1.next ∧ ev2 = { ev1 with next := ev1.next + 1 } := by
      rcases e2 with ⟨h5, _⟩ | ⟨_, h5, h6⟩
      · have h5 : e0.stdout = some f := h5
        rw [b0.stdout] at h5; cases h5
      · exact ⟨h5, h6⟩
    obtain ⟨rfl, rfl⟩ := e2'
    have s2 := (s0.trans0 s1).trans0 (Step.ofNext c ev1 (ev1.next + 1) (Nat.le_succ _))
    obtain ⟨i4, s4, hs4, -, ⟨g, m4⟩, o4, rep⟩ := bindAndAdd_spec i2 (t := validationOf sol) rfl rfl h4
    have x2 := (Ext.ofNext c.G ev1 (ev1.next + 1) (Nat.le_succ _)).trans s4.ext
    refine ⟨i4, s2.trans0 s4, ?_, ?_, ?_⟩
    · rw [hs4]; exact hs1.trans hs0
    · rintro f ⟨⟩
      exact o4 _ (by simp [Execution.outputFiles])
    · refine ⟨_, rfl, _, m4, ?_, ?_, rfl, b0.stdinPath, rfl, rfl, ?_, rfl, rep⟩
      · rw [List.append_nil] at r1
        exact (r1.mono x2).other rfl rfl rfl
      · exact (o1.mono x2).other rfl
      · simp [l0]

/-! ## Solution -/

/-- How a solution is run. -/
def SolOk (c : Ctx) (ev : Eval) (task : Task) (sol : Nat) (src : Src) (input : FileUuid) (handle : Option FileUuid)
    (output : FileUuid) : Prop :=
  ∃ e ∈ allExecs ev.dag, RunOf c ev src [] (handle.toList.map (fun _ => "wait_for_validation")) e ∧
    (∀ h, handle = some h → e.inputs.get? "wait_for_validation" = some ⟨h, false⟩) ∧
    e.stdin = some input ∧ e.stdinRedirectPath = none ∧ e.stdout = some output ∧ e.stdoutRedirectPath = none ∧
    e.captureStderr = some (10 * 1024) ∧
    e.limits = { src.lang.limits defaultLimits with
      cpuTime := some (20 * task.second), wallTime := some (25 * task.second) } ∧
    e.tag = some "evaluation" ∧ (e.uuid, .report (solutionOf sol)) ∈ ev.handlers

theorem SolOk.mono {c : Ctx} {a b : Eval} {task : Task} {sol : Nat} {src : Src} {input : FileUuid}
    {handle : Option FileUuid} {output : FileUuid} (h : SolOk c a task sol src input handle output)
    (k : Ext c.G a b) : SolOk c b task sol src input handle output := by
  obtain ⟨e, h1, h2, h3, h4, h5, h6, h7, h8, h9, h10, h11⟩ := h
  exact ⟨e, k.mem_exec h1, h2.mono k, h3, h4, h5, h6, h7, h8, h9, h10, k.mem_handlers h11⟩

theorem solveAndBind_spec {c : Ctx} {task : Task} {sol : Nat} {src : Src}
    {ev ev' : Eval} {P : List Execution} {input output : FileUuid} {handle : Option FileUuid} (h : Inv c.G ev P)
    (hk : c.Knows src) (hd : ev.dag.config.copyExe = true → c.mayWrite (outDest task src))
    (hi : input ∈ allFiles ev.dag) (hh : ∀ f, handle = some f → f ∈ allFiles ev.dag)
    (hr : solveAndBind c.fs task sol src input handle ev = .ok (output, ev')) :
    Inv c.G ev' P ∧ Step c ev ev' [solutionOf sol] [] ∧ ev'.senders = ev.senders ∧
    output ∈ allFiles ev'.dag ∧ SolOk c ev' task sol src input handle output ∧
    Kept ev' output (outDest task src) := by
  simp only [solveAndBind, solve, bind_ok, pure_ok] at hr
  obtain ⟨⟨f, e2⟩, ev2, ⟨e0, ev0, h0, ⟨f', e1⟩, ev1, h1, he2, rfl⟩, _, ev3, h3, _, ev4, h4, rfl, rfl⟩ := hr
  simp only [Prod.mk.injEq] at he2
  obtain ⟨rfl, rfl⟩ := he2
  obtain ⟨i0, s0, hs0, r0, b0, l0, -⟩ := execute_spec h hk h0
  have i1 := (i0.stdin (s0.ext.allFiles hi)).other
    (e' := { e0 with stdin := some input, tag := some "evaluation" }) rfl rfl rfl rfl rfl rfl rfl rfl
  have r1 : RunOf c ev0 src [] [] { e0 with stdin := some input, tag := some "evaluation" } := r0.other rfl rfl rfl
  generalize hE : waitFor { e0 with stdin := some input, tag := some "evaluation" } handle = E at h1
  have hEf : Inv c.G ev0 (E :: P) ∧ RunOf c ev0 src [] (handle.toList.map (fun _ => "wait_for_validation")) E ∧
      (∀ h, handle = some h → E.inputs.get? "wait_for_validation" = some ⟨h, false⟩) ∧
      ∃ I, E = { e0 with stdin := some input, tag := some "evaluation", inputs := I } := by
    subst hE
    cases handle with
    | none => exact ⟨i1, r1, by simp, e0.inputs, rfl⟩
    | some g =>
      refine ⟨i1.input (s0.ext.allFiles (hh g rfl)) _ _, r1.input g _ _, ?_, _, rfl⟩
      rintro _ ⟨⟩
      rw [waitFor, get?_addInput, if_pos rfl]
  clear hE
  obtain ⟨i2, r2, w2, I, rfl⟩ := hEf
  obtain ⟨rfl, i3, e3⟩ := stdoutOf_spec i2 h1
  have e3' : f' = ev0.next ∧ ev1 = { ev0 with next := ev0.next + 1 } := by
    rcases e3 with ⟨h5, _⟩ | ⟨_, h5, h6⟩
    · have h5 : e0.stdout = some f' := h5
      rw [b0.stdout] at h5; cases h5
    · exact ⟨h5, h6⟩
  obtain ⟨rfl, rfl⟩ := e3'
  have s3 := s0.trans0 (Step.ofNext c ev0 (ev0.next + 1) (Nat.le_succ _))
  have i4 := i3.other (e' := { ({ e0 with
      stdin := some input, tag := some "evaluation", inputs := I
      stdout := some ev0.next } : Execution) with limits := { e0.limits with
    cpuTime := some (20 * task.second), wallTime := some (25 * task.second) } }) rfl rfl rfl rfl rfl rfl rfl rfl
  obtain ⟨i5, s5, hs5, w5, -, -⟩ := copyTo_spec i4
    (Or.inr (by simp [outsOf, Execution.outputFiles])) (i0.writes_lt (Nat.le_refl ev0.next))
    (fun hc => hd (by rw [← s0.ext.config]; exact hc)) h3
  obtain ⟨i6, s6, hs6, -, ⟨g, m6⟩, o6, rep⟩ := bindAndAdd_spec i5 (t := solutionOf sol) rfl rfl h4
  have x2 := (Ext.ofNext c.G ev0 (ev0.next + 1) (Nat.le_succ _)).trans (s5.ext.trans s6.ext)
  refine ⟨i6, (s3.trans0 s5).trans0 s6, ?_, ?_, ?_, w5.mono s6.ext⟩
  · rw [hs6, hs5]; exact hs0
  · exact o6 _ (by simp [Execution.outputFiles])
  · refine ⟨_, m6, (r2.mono x2).other rfl rfl rfl, w2, rfl, b0.stdinPath, rfl, b0.stdoutPath, rfl, ?_, rfl, rep⟩
    simp [l0]

/-! ## Checker -/

/-- How the output of a solution is checked. -/
def ChkOk (c : Ctx) (ev : Eval) (task : Task) (sol : Nat) (input output : FileUuid) : Prop :=
  ∃ e ∈ allExecs ev.dag, RunOf c ev task.checker ["input.txt", "output.txt"]
      ("output.txt" :: "input.txt" :: officialPaths task) e ∧
    HasOff ev task ["output.txt", "input.txt"] e ∧
    e.inputs.get? "input.txt" = some ⟨input, false⟩ ∧ e.inputs.get? "output.txt" = some ⟨output, false⟩ ∧
    e.captureStdout = some (1024 * 1024) ∧ e.captureStderr = some (10 * 1024) ∧ e.limits = unrestricted ∧
    (e.uuid, outcomeHandler sol) ∈ ev.handlers ∧ (e.uuid, .report (checkerOf sol)) ∈ ev.handlers

theorem ChkOk.mono {c : Ctx} {a b : Eval} {task : Task} {sol : Nat} {input output : FileUuid}
    (h : ChkOk c a task sol input output) (k : Ext c.G a b) : ChkOk c b task sol input output := by
  obtain ⟨e, h1, h2, h3, h4, h5, h6, h7, h8, h9, h10⟩ := h
  exact ⟨e, k.mem_exec h1, h2.mono k, h3.mono k, h4, h5, h6, h7, h8, k.mem_handlers h9, k.mem_handlers h10⟩

theorem checkAndBind_spec {c : Ctx} {task : Task} {sol : Nat}
    {ev ev' : Eval} {P : List Execution} {input output : FileUuid} {a : Unit} (h : Inv c.G ev P)
    (hk : c.Knows task.checker) (ho : OfficialKnown c task)
    (hi : input ∈ allFiles ev.dag) (hout : output ∈ allFiles ev.dag)
    (hr : checkAndBind c.fs task sol input output ev = .ok (a, ev')) :
    Inv c.G ev' P ∧ Step c ev ev' [checkerOf sol] [outcomeHandler sol] ∧ ev'.senders = ev.senders ∧
    ChkOk c ev' task sol input output := by
  simp only [checkAndBind, check, bind_ok, onExec_ok, pure_ok] at hr
  obtain ⟨e3, ev4, ⟨e0, ev0, h0, e1, ev1, h1, e2, ev2, h2, _, ev3, rfl, rfl, rfl⟩, h4⟩ := hr
  obtain ⟨i0, s0, hs0, r0, b0, l0, -⟩ := execute_spec h hk h0
  obtain ⟨i1, s1, hs1, r1, o1, I, rfl⟩ := includeOfficial_spec i0 ho r0 h1
  have x1 := (s0.trans0 s1).ext
  have i1' := ((i1.other (e' := { ({ e0 with inputs := I } : Execution) with limits := unrestricted })
    rfl rfl rfl rfl rfl rfl rfl rfl).input (x1.allFiles hi) "input.txt" false).input (x1.allFiles hout)
    "output.txt" false
  have r1' := ((r1.other (e' := { ({ e0 with inputs := I } : Execution) with limits := unrestricted })
    rfl rfl rfl).input input "input.txt" false).input output "output.txt" false
  have o1' := ((o1.other (e' := { ({ e0 with inputs := I } : Execution) with limits := unrestricted })
    rfl).input input "input.txt" false).input output "output.txt" false
  have g1 : (addInput (addInput { ({ e0 with inputs := I } : Execution) with limits := unrestricted } input
      "input.txt" false) output "output.txt" false).inputs.get? "input.txt" = some ⟨input, false⟩ := by
    simp [get?_addInput]
  have g2 : (addInput (addInput { ({ e0 with inputs := I } : Execution) with limits := unrestricted } input
      "input.txt" false) output "output.txt" false).inputs.get? "output.txt" = some ⟨output, false⟩ := by
    simp [get?_addInput]
  obtain ⟨f, rfl, i2, e2⟩ := captureStdout_spec i1' h2
  have i3 := i2.onExec (mem_execUuids_head) (outcomeHandler sol) ev2.pending
  have s2 : Step c ev1 ev2 [] [] := Step.ofNextOr3 e2
  have q2 : ev2.senders = ev1.senders := by rcases e2 with ⟨_, rfl⟩ | ⟨_, _, rfl⟩ <;> rfl
  have s3 := (((s0.trans0 s1).trans0 s2).trans0 (Step.handler c ev2 e0.uuid (hd := outcomeHandler sol) rfl))
  obtain ⟨i6, s6, hs6, -, ⟨g, m6⟩, o6, rep⟩ := bindAndAdd_spec i3 (t := checkerOf sol) rfl
    (by simp [isComp, addInput, b0.tag]) h4
  have x2 : Ext c.G ev1 ev' := s2.ext.trans ((Step.handler c ev2 e0.uuid (hd := outcomeHandler sol) rfl).ext.trans s6.ext)
  refine ⟨i6, by simpa [scoringOf] using s3.trans s6, ?_, ?_⟩
  · rw [hs6]; exact q2.trans (hs1.trans hs0)
  · refine ⟨_, m6, ?_, ?_, g1, g2, rfl, rfl, rfl, ?_, rep⟩
    · rw [List.append_nil] at r1'
      exact (r1'.mono x2).other rfl rfl rfl
    · exact (o1'.mono x2).other rfl
    · apply s6.ext.mem_handlers; simp [addInput]

end TM.Terry
