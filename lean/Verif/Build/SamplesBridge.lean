import Verif.Build.SamplesTame
/-!
# The samples: from the invariants to the specification
-/
namespace TM.Build
open TM DagSpec Spec

theorem SValOk.spec {c : Ctx} {ev : Eval} (h : Done c ev) {v : InputValidator} (hk : v.Known c)
    {name : String} {input : FileUuid} {handle : Option FileUuid}
    (hv : SValOk c ev v name input handle) : SampleValidated c.fs ev v name input handle := by
  cases v with
  | assumeValid => exact hv
  | custom src args =>
    obtain ⟨f, h0, e, h1, h2, h3, h4, h5, h6, h7, h8, h9, h11, h10⟩ := hv
    exact ⟨f, e, h0, h2.runs h hk h1 (fun _ => Iff.rfl), h4, h3, h5, h6, h7, h8, h9, h11, h10⟩

theorem SOutOk.spec {c : Ctx} {ev : Eval} (h : Done c ev) {task : Task} {g : OutputGenerator}
    (hk : g.Known c) {name : String} {input f : FileUuid} {handle : Option FileUuid}
    (hg : SOutOk c ev task g name input handle f) :
    SampleSolved c.fs ev task g name input handle f := by
  cases g with
  | notAvailable => exact hg.1
  | staticFile path => exact ProvidedFrom.copy hg
  | custom src args =>
    obtain ⟨e, h1, h2, h3, h4, h5, h6, h7, h9, h8⟩ := hg
    exact ⟨e, h2.runs h hk h1 (ioPaths_eq task handle), h3, h4, h5, h6, h7, h9, h8⟩

theorem SCheckOk.spec {c : Ctx} {ev : Eval} (h : Done c ev) {checker : Checker}
    (hk : checker.Known c) {name : String} {input correct test : FileUuid} {k : Execution}
    (hm : k ∈ allExecs ev.dag) (hc : SCheckOk c ev checker name input correct test k) :
    SampleChecked c.fs ev checker name input correct test k := by
  obtain ⟨h2, h4, h3⟩ := hc
  refine ⟨hm, h4, ?_⟩
  cases checker with
  | whiteDiff => exact ⟨h3.1, h3.2.1, h3.2.2.1, h3.2.2.2, h2⟩
  | custom src =>
    refine ⟨h3.1.runs h hk hm (fun q => ?_), h3.2.1, h3.2.2.1, h3.2.2.2.1,
      h3.2.2.2.2.1, h3.2.2.2.2.2, h2⟩
    simp only [List.mem_cons, List.not_mem_nil, or_false]
    grind

theorem SPairOk.spec {c : Ctx} {ev : Eval} (h : Done c ev) {task : Task} {v : InputValidator}
    {off : Option OutputGenerator} {checker : Checker} {p : SamplePair}
    (hv : v.Known c) (ho : ∀ g, off = some g → g.Known c) (hk : checker.Known c)
    (hp : SPairOk c ev task v off checker p) : SampleTested c.fs ev task v off checker p := by
  obtain ⟨i, hd, h1, h2, h3⟩ := hp
  refine ⟨i, hd, h1.copy, h2.spec h hv, fun g hg => ?_⟩
  obtain ⟨o, q, k, h4, h5, h6, h7⟩ := h3 g hg
  exact ⟨o, q, k, h5.copy, h6.spec h (ho g hg), h7.spec h hk h4⟩

/-- The event a handler shows, if it is one of the samples. -/
def sampleOf : Handler → Option SampleEvent
  | .sample s => some s
  | _ => none

theorem sampleOf_scoring (l : List (ExecutionUuid × Handler)) :
    l.filterMap (fun p => sampleOf p.2) = (l.filterMap scoringOf).filterMap sampleOf := by
  rw [List.filterMap_filterMap]
  congr 1
  funext p
  obtain ⟨u, h⟩ := p
  cases h <;> rfl

theorem scoringFrom_no_sample (t : TaskType) : ∀ (l : List (Nat × Nat × Nat)) (k : Nat),
    (t.scoringFrom k l).filterMap sampleOf = [] := by
  intro l
  induction l with
  | nil => intro k; rfl
  | cons x l ih =>
    intro k
    rw [TaskType.scoringFrom, List.filterMap_append, ih]
    cases t with
    | batch c => cases c <;> rfl
    | communication s a b => simp [TaskType.scoring, sampleOf]
    | none => rfl

/-- What is known after the executions of the samples have been added. -/
theorem samples_done {n : Uuid} {cfg : DagConfig} {fs : FS} {root : String} {task : Task}
    {sols : List Src} {io : GeneratedIo} {ev ev' : Eval} {v : InputValidator} {off : Option OutputGenerator}
    {checker : Checker} {pairs : List SamplePair} {a : Unit}
    (h : Fits n task (sols ++ sampleSources v off)) (ht : task.type = .batch checker)
    (hb : buildDag fs root task sols (start n cfg) = .ok (io, ev))
    (hr : addSamples fs task v off pairs ev = .ok (a, ev')) :
    let c := ctxOf fs root task (sols ++ sampleSources v off)
    Done c ev ∧ Done c ev' ∧
    Step c ev ev' [] ((pairs.flatMap (sampleEvents v off checker)).map .sample) ∧
    ev'.senders = ev.senders ∧
    ev.handlers.filterMap (fun p => sampleOf p.2) = [] ∧
    ∀ p ∈ pairs, SampleTested fs ev' task v off checker p := by
  intro c
  have K := ctx_known (fs := fs) (root := root) h
  have K' : task.Known c root sols := { K with sols := fun s hs => K.sols s (by simp [hs]) }
  have hb' : buildDag c.fs root task sols (start n cfg) = .ok (io, ev) := hb
  obtain ⟨h1, h2, -, -⟩ := buildDag_spec K' h.testcaseIds h.owned (start_inv h cfg) hb'
  have d1 : Done c ev := ⟨h1, h2.step.side [] (start_side n cfg)⟩
  have hv : v.Known c := by
    cases v with
    | assumeValid => trivial
    | custom s a => exact K.sols s (by simp [sampleSources, validatorSources])
  have ho : ∀ g, off = some g → g.Known c := by
    rintro g rfl
    cases g with
    | notAvailable => trivial
    | staticFile p => trivial
    | custom s a => exact K.sols s (by simp [sampleSources, outputSources])
  have hk : checker.Known c := by
    have := K.type
    rw [ht] at this
    exact this
  simp only [addSamples, ht] at hr
  obtain ⟨i2, s2, hs2, p2⟩ := samples_spec (c := c) hv ho hk h1 hr
  have d2 : Done c ev' := ⟨i2, s2.side [] d1.side⟩
  refine ⟨d1, d2, s2, hs2, ?_, fun p hp => (p2 p hp).spec d2 hv ho hk⟩
  rw [sampleOf_scoring, h2.step.scoring, List.filterMap_append]
  simp only [scoringFrom_no_sample, List.append_nil]
  rfl

end TM.Build
