import Verif.Build.Comm
/-!
# The DAG of a whole task
-/
namespace TM.Build
open TM DagSpec

/-! ## One evaluation -/

/-- The messages about the evaluation of a solution on a testcase. -/
def TaskType.topics (st tc sol : Nat) : TaskType → List Topic
  | .batch _ => [.evaluation st tc sol 0 1, .checker st tc sol]
  | .communication _ n _ =>
    (List.range n).map (fun j => .evaluation st tc sol j n) ++ [.checker st tc sol]
  | .none => []

/-- The score senders made for an evaluation, when there already are `k`. -/
def TaskType.senders (k st tc sol : Nat) : TaskType → List SenderInfo
  | .communication _ n _ => [⟨k, st, tc, sol, n + 1⟩]
  | _ => []

/-- The handlers that take part in the score of an evaluation. -/
def TaskType.scoring (k st tc sol : Nat) : TaskType → List Handler
  | .batch checker => [.scoreZeroOnFailure st tc sol, checker.handler st tc sol]
  | .communication _ n _ => List.replicate n (.processOutcome k) ++ [.managerOutcome k]
  | .none => []

/-- The same for a list of evaluations (subtask, testcase, solution). -/
def TaskType.scoringFrom (t : TaskType) : Nat → List (Nat × Nat × Nat) → List Handler
  | _, [] => []
  | k, e :: l => t.scoring k e.1 e.2.1 e.2.2 ++
      t.scoringFrom (k + (t.senders k e.1 e.2.1 e.2.2).length) l

/-- The same for a list of evaluations (subtask, testcase, solution). -/
def TaskType.sendersFrom (t : TaskType) : Nat → List (Nat × Nat × Nat) → List SenderInfo
  | _, [] => []
  | k, e :: l => t.senders k e.1 e.2.1 e.2.2 ++
      t.sendersFrom (k + (t.senders k e.1 e.2.1 e.2.2).length) l

theorem TaskType.sendersFrom_append (t : TaskType) (l m : List (Nat × Nat × Nat)) : ∀ k,
    t.sendersFrom k (l ++ m) = t.sendersFrom k l ++
      t.sendersFrom (k + (t.sendersFrom k l).length) m := by
  induction l with
  | nil => intro k; simp [sendersFrom]
  | cons e l ih =>
    intro k
    simp only [List.cons_append, sendersFrom, ih, List.length_append, List.append_assoc,
      Nat.add_assoc]

theorem TaskType.scoringFrom_append (t : TaskType) (l m : List (Nat × Nat × Nat)) : ∀ k,
    t.scoringFrom k (l ++ m) = t.scoringFrom k l ++
      t.scoringFrom (k + (t.sendersFrom k l).length) m := by
  induction l with
  | nil => intro k; simp [scoringFrom, sendersFrom]
  | cons e l ih =>
    intro k
    simp only [List.cons_append, scoringFrom, sendersFrom, ih, List.length_append,
      List.append_assoc, Nat.add_assoc]

/-- How a solution is evaluated on a testcase. -/
def EvalOk (c : Ctx) (ev : Eval) (task : Task) (st tc sol : Nat) (src : Src) (input : FileUuid)
    (handle output : Option FileUuid) : Prop :=
  match task.type with
  | .batch checker =>
    ∃ f, output = some f ∧ BatchOk c ev task checker st tc sol src input handle f
  | .communication manager n io =>
    ∃ sender, CommOk c ev task manager n io st tc sol src input handle
      (input :: output.toList) sender
  | .none => True

theorem EvalOk.mono {c : Ctx} {a b : Eval} {task : Task} {st tc sol : Nat} {src : Src}
    {input : FileUuid} {handle output : Option FileUuid}
    (h : EvalOk c a task st tc sol src input handle output) (x : Ext c.G a b) :
    EvalOk c b task st tc sol src input handle output := by
  unfold EvalOk at h ⊢
  cases ht : task.type with
  | batch checker =>
    simp only [ht] at h ⊢
    obtain ⟨f, h1, h2⟩ := h
    exact ⟨f, h1, h2.mono x⟩
  | communication manager n io =>
    simp only [ht] at h ⊢
    obtain ⟨s, h1⟩ := h
    exact ⟨s, h1.mono x⟩
  | none => simp only

/-- The sources of a task type are known. -/
def TaskType.Known (c : Ctx) : TaskType → Prop
  | .batch checker => checker.Known c
  | .communication manager _ _ => c.Knows manager
  | .none => True

/-- A step in which the evaluations `l` were added. -/
structure Prog (c : Ctx) (t : TaskType) (ev ev' : Eval) (ts : List Topic)
    (l : List (Nat × Nat × Nat)) : Prop where
  step : Step c ev ev' ts (t.scoringFrom ev.senders.length l)
  senders : ev'.senders = ev.senders ++ t.sendersFrom ev.senders.length l

theorem Prog.refl (c : Ctx) (t : TaskType) (ev : Eval) : Prog c t ev ev [] [] :=
  ⟨.refl _ _, by simp [TaskType.sendersFrom]⟩

theorem Prog.trans {c : Ctx} {t : TaskType} {x y z : Eval} {t1 t2 : List Topic}
    {l1 l2 : List (Nat × Nat × Nat)} (h : Prog c t x y t1 l1) (k : Prog c t y z t2 l2) :
    Prog c t x z (t1 ++ t2) (l1 ++ l2) := by
  refine ⟨?_, ?_⟩
  · have := h.step.trans k.step
    rw [TaskType.scoringFrom_append]
    rw [h.senders, List.length_append] at this
    exact this
  · rw [k.senders, h.senders, TaskType.sendersFrom_append]
    simp

theorem Prog.ofStep {c : Ctx} {t : TaskType} {x y : Eval} {ts : List Topic}
    (h : Step c x y ts []) (hs : y.senders = x.senders) : Prog c t x y ts [] :=
  ⟨h, by simp [TaskType.sendersFrom, hs]⟩

theorem evaluate_spec {c : Ctx} {task : Task} {st tc sol : Nat} {src : Src}
    {ev ev' : Eval} {P : List Execution} {input : FileUuid} {handle output : Option FileUuid}
    {a : Unit} (h : Inv c.G ev P) (hs : c.Knows src) (hk : task.type.Known c)
    (hi : input ∈ allFiles ev.dag) (hh : ∀ f, handle = some f → f ∈ allFiles ev.dag)
    (hc : ∀ f, output = some f → f ∈ allFiles ev.dag ∧ Hidden c ev f ∧ f ≠ input ∧
      handle ≠ some f) (hid : Hidden c ev input)
    (hr : task.type.evaluate c.fs task st tc sol src input handle output ev = .ok (a, ev')) :
    Inv c.G ev' P ∧ Prog c task.type ev ev' (task.type.topics st tc sol) [(st, tc, sol)] ∧
    EvalOk c ev' task st tc sol src input handle output := by
  unfold EvalOk
  cases ht : task.type with
  | batch checker =>
    simp only [ht, TaskType.evaluate] at hr
    obtain ⟨h1, h2, h3, h4⟩ := batchEvaluate_spec h hs (by simpa only [ht, TaskType.Known] using hk) hi hh hc hr
    exact ⟨h1, ⟨by simpa [TaskType.scoringFrom, TaskType.scoring, TaskType.topics] using h2,
      by simp [TaskType.sendersFrom, TaskType.senders, h3]⟩, h4⟩
  | communication manager n io =>
    simp only [ht, TaskType.evaluate] at hr
    obtain ⟨h1, h2, h3, h4⟩ := commEvaluate_spec
      (hid := input :: output.toList) (by
        intro x hx
        simp only [List.mem_cons, Option.mem_toList, Option.mem_def] at hx
        rcases hx with rfl | hx
        · exact hid
        · exact (hc x hx).2.1) h hs (by simpa only [ht, TaskType.Known] using hk) hi hh hr
    exact ⟨h1, ⟨by simpa [TaskType.scoringFrom, TaskType.scoring, TaskType.topics] using h2,
      by simp [TaskType.sendersFrom, TaskType.senders, h3]⟩, _, h4⟩
  | none =>
    simp only [ht, TaskType.evaluate, pure_ok] at hr
    obtain ⟨-, rfl⟩ := hr
    exact ⟨h, ⟨by simpa [TaskType.scoringFrom, TaskType.scoring, TaskType.topics] using Step.refl c ev,
      by simp [TaskType.sendersFrom, TaskType.senders]⟩, trivial⟩

theorem prepareDag_spec {c : Ctx} {t : TaskType} {ev ev' : Eval} {P : List Execution} {a : Unit}
    (h : Inv c.G ev P) (hk : t.Known c) (hr : t.prepareDag c.fs ev = .ok (a, ev')) :
    Inv c.G ev' P ∧ Prog c t ev ev' [] [] := by
  have stay : ∀ {ev'}, ev = ev' → Inv c.G ev' P ∧ Prog c t ev ev' [] [] := by
    rintro _ rfl; exact ⟨h, .refl _ _ _⟩
  cases t with
  | batch checker =>
    cases checker with
    | whiteDiff => simp only [TaskType.prepareDag, pure_ok] at hr; exact stay hr.2
    | custom src =>
      obtain ⟨h1, h2, h3, -⟩ := prepareBound_spec h hk hr
      exact ⟨h1, .ofStep h2 h3⟩
  | communication manager n io =>
    obtain ⟨h1, h2, h3, -⟩ := prepareBound_spec h hk hr
    exact ⟨h1, .ofStep h2 h3⟩
  | none => simp only [TaskType.prepareDag, pure_ok] at hr; exact stay hr.2

theorem evaluateAll_spec {c : Ctx} {task : Task} {st tc : Nat} {P : List Execution}
    {input : FileUuid} {handle output : Option FileUuid} (hk : task.type.Known c)
    {sols : List Src} : ∀ {i : Nat} {ev ev' : Eval} {a : Unit}, (∀ s ∈ sols, c.Knows s) →
    Inv c.G ev P → input ∈ allFiles ev.dag → (∀ f, handle = some f → f ∈ allFiles ev.dag) →
    (∀ f, output = some f → f ∈ allFiles ev.dag ∧ Hidden c ev f ∧ f ≠ input ∧ handle ≠ some f) →
    Hidden c ev input →
    each (fun p => task.type.evaluate c.fs task st tc p.1 p.2 input handle output)
      (enumFrom i sols) ev = .ok (a, ev') →
    Inv c.G ev' P ∧
    Prog c task.type ev ev' ((List.range' i sols.length).flatMap (task.type.topics st tc ·))
      ((List.range' i sols.length).map (fun j => (st, tc, j))) ∧
    ∀ j src, sols[j]? = some src → EvalOk c ev' task st tc (i + j) src input handle output := by
  induction sols with
  | nil =>
    intro i ev ev' a _ h _ _ _ _ hr
    simp only [enumFrom, each, pure_ok] at hr
    obtain ⟨-, rfl⟩ := hr
    exact ⟨h, .refl _ _ _, by simp⟩
  | cons s sols ih =>
    intro i ev ev' a hs h hi hh hc hid hr
    simp only [enumFrom, each, bind_ok] at hr
    obtain ⟨_, ev1, h1, h2⟩ := hr
    obtain ⟨i1, p1, e1⟩ := evaluate_spec h (hs s (by simp)) hk hi hh hc hid h1
    have x1 := p1.step.ext
    obtain ⟨i2, p2, e2⟩ := ih (fun s h => hs s (by simp [h])) i1 (x1.allFiles hi)
      (fun f hf => x1.allFiles (hh f hf)) (fun f hf => ⟨x1.allFiles (hc f hf).1,
        (hc f hf).2.1.mono p1.step, (hc f hf).2.2⟩) (hid.mono p1.step) h2
    refine ⟨i2, ?_, ?_⟩
    · simpa [List.range'_succ] using p1.trans p2
    · intro j src hj
      cases j with
      | zero =>
        simp only [List.getElem?_cons_zero, Option.some.injEq] at hj
        subst hj
        exact e1.mono p2.step.ext
      | succ j =>
        rw [show i + (j + 1) = i + 1 + j by omega]
        exact e2 j src (by simpa using hj)

/-! ## One testcase -/

/-- The files of a testcase exist, and all that is done with it. -/
structure TcOk (c : Ctx) (ev : Eval) (root : String) (task : Task) (sols : List Src) (st : Subtask)
    (tc : Testcase) (input : FileUuid) (output : Option FileUuid) : Prop where
  inputFile : input ∈ allFiles ev.dag
  generated : GenOk c ev tc.input st.id tc.id input
  inputWritten : Written ev input (inputDest root tc.id)
  outputWritten : ∃ f, output = some f ∧ f ∈ allFiles ev.dag ∧ Written ev f (outputDest task tc.id)
  rest : ∃ handle, ValOk c ev st.validator st.id st.name tc.id input handle ∧
    OutOk c ev task tc.output st.id tc.id input handle output ∧
    ∀ j src, sols[j]? = some src → EvalOk c ev task st.id tc.id j src input handle output

theorem TcOk.mono {c : Ctx} {a b : Eval} {root : String} {task : Task} {sols : List Src}
    {st : Subtask} {tc : Testcase} {input : FileUuid} {output : Option FileUuid}
    (h : TcOk c a root task sols st tc input output) (x : Ext c.G a b) :
    TcOk c b root task sols st tc input output := by
  obtain ⟨f, h1, h2, h3⟩ := h.outputWritten
  obtain ⟨hd, h4, h5, h6⟩ := h.rest
  exact ⟨x.allFiles h.inputFile, h.generated.mono x, h.inputWritten.mono x,
    ⟨f, h1, x.allFiles h2, h3.mono x⟩, hd, h4.mono x, h5.mono x, fun j s hj => (h6 j s hj).mono x⟩

/-- The messages about a testcase of its subtask. -/
def Testcase.topics (task : Task) (nsols : Nat) (st : Subtask) (tc : Testcase) : List Topic :=
  tc.input.topics st.id tc.id ++ st.validator.topics st.id tc.id ++ tc.output.topics st.id tc.id ++
    (List.range nsols).flatMap (task.type.topics st.id tc.id ·)

/-- The sources of a task are known and its files may be written. -/
structure Task.Known (c : Ctx) (root : String) (task : Task) (sols : List Src) : Prop where
  type : task.type.Known c
  sols : ∀ s ∈ sols, c.Knows s
  input : ∀ k tc, task.testcases.get? k = some tc → tc.input.Known c
  output : ∀ k tc, task.testcases.get? k = some tc → tc.output.Known c
  validator : ∀ st ∈ task.subtasks.values, st.validator.Known c
  writeInput : ∀ k tc, task.testcases.get? k = some tc → c.mayWrite (inputDest root tc.id)
  writeOutput : ∀ k tc, task.testcases.get? k = some tc → c.mayWrite (outputDest task tc.id)

theorem buildTestcase_spec {c : Ctx} {root : String} {task : Task} {sols : List Src}
    {st : Subtask} {io io' : GeneratedIo} {k : Nat} {ev ev' : Eval} {P : List Execution}
    (hk : task.Known c root sols) (hst : st ∈ task.subtasks.values) (h : Inv c.G ev P)
    (hr : buildTestcase c.fs root task sols st io k ev = .ok (io', ev')) :
    ∃ tc input output, task.testcases.get? k = some tc ∧ io' = io.insert tc.id (input, output) ∧
      Inv c.G ev' P ∧
      Prog c task.type ev ev' (tc.topics task sols.length st)
        ((List.range sols.length).map (fun j => (st.id, tc.id, j))) ∧
      TcOk c ev' root task sols st tc input output := by
  unfold buildTestcase at hr
  cases ht : task.testcases.get? k with
  | none => simp only [ht, fail_ok] at hr
  | some tc =>
    simp only [ht, bind_ok, pure_ok] at hr
    obtain ⟨input, ev1, h1, handle, ev2, h2, output, ev3, h3, _, ev4, h4, rfl, rfl⟩ := hr
    obtain ⟨i1, s1, q1, f1, g1, w1, hd1⟩ := generateAndBind_spec h (hk.input _ _ ht)
      (hk.writeInput _ _ ht) h1
    obtain ⟨i2, s2, q2, f2, v2⟩ := validateAndBind_spec i1 (hk.validator _ hst) f1 h2
    obtain ⟨i3, s3, q3, ⟨f, rfl, f3, w3, hd3⟩, o3⟩ := outputAndBind_spec i2 (hk.output _ _ ht)
      (hk.writeOutput _ _ ht) (s2.ext.allFiles f1) f2 h3
    obtain ⟨i4, p4, e4⟩ := evaluateAll_spec hk.type hk.sols i3
      (s3.ext.allFiles (s2.ext.allFiles f1)) (fun f hf => s3.ext.allFiles (f2 f hf))
      (by rintro _ ⟨⟩; exact ⟨f3, hd3⟩) ((hd1.mono s2).mono s3) h4
    have x34 := p4.step.ext
    have x24 := s3.ext.trans x34
    have x14 := s2.ext.trans x24
    refine ⟨tc, input, _, rfl, rfl, i4, ?_, x14.allFiles f1, g1.mono x14, w1.mono x14,
      ⟨f, rfl, x34.allFiles f3, w3.mono x34⟩, handle, v2.mono x24, o3.mono x34, ?_⟩
    · have := ((Prog.ofStep (t := task.type) s1 q1).trans (.ofStep s2 q2)).trans
        (.ofStep s3 q3)
      have := this.trans p4
      simpa [Testcase.topics, List.range_eq_range'] using this
    · intro j src hj
      simpa using e4 j src hj

/-! ## The testcases of a subtask -/

/-- The testcase with a given id. -/
def Task.testcase (task : Task) (k : Nat) : Option Testcase := task.testcases.get? k

/-- The messages about the testcases of a subtask. -/
def Subtask.topics (task : Task) (nsols : Nat) (st : Subtask) : List Topic :=
  (st.owned.filterMap task.testcase).flatMap (·.topics task nsols st)

/-- The evaluations of a subtask. -/
def Subtask.evaluations (nsols : Nat) (st : Subtask) : List (Nat × Nat × Nat) :=
  st.owned.flatMap (fun k => (List.range nsols).map (fun j => (st.id, k, j)))

/-- The generated files of testcase `k` of a subtask. -/
def Built (c : Ctx) (ev : Eval) (root : String) (task : Task) (sols : List Src) (io : GeneratedIo)
    (st : Subtask) (k : Nat) : Prop :=
  ∃ tc input output, task.testcases.get? k = some tc ∧ io.get? k = some (input, output) ∧
    TcOk c ev root task sols st tc input output

theorem Built.mono {c : Ctx} {a b : Eval} {root : String} {task : Task} {sols : List Src}
    {io : GeneratedIo} {st : Subtask} {k : Nat} (h : Built c a root task sols io st k)
    (x : Ext c.G a b) : Built c b root task sols io st k := by
  obtain ⟨tc, i, o, h1, h2, h3⟩ := h
  exact ⟨tc, i, o, h1, h2, h3.mono x⟩

theorem Built.other {c : Ctx} {a : Eval} {root : String} {task : Task} {sols : List Src}
    {io io' : GeneratedIo} {st : Subtask} {k : Nat} (h : Built c a root task sols io st k)
    (x : io'.get? k = io.get? k) : Built c a root task sols io' st k := by
  obtain ⟨tc, i, o, h1, h2, h3⟩ := h
  exact ⟨tc, i, o, h1, x.trans h2, h3⟩

theorem subtask_spec {c : Ctx} {root : String} {task : Task} {sols : List Src}
    {st : Subtask} {P : List Execution} (hk : task.Known c root sols)
    (hid : ∀ k tc, task.testcases.get? k = some tc → tc.id = k)
    (hst : st ∈ task.subtasks.values) {owned : List Nat} :
    ∀ {io io' : GeneratedIo} {ev ev' : Eval}, owned.Nodup → Inv c.G ev P →
    eachWith (buildTestcase c.fs root task sols st) owned io ev = .ok (io', ev') →
    Inv c.G ev' P ∧
    Prog c task.type ev ev' ((owned.filterMap task.testcase).flatMap (·.topics task sols.length st))
      (owned.flatMap (fun k => (List.range sols.length).map (fun j => (st.id, k, j)))) ∧
    (∀ k, k ∉ owned → io'.get? k = io.get? k) ∧
    ∀ k ∈ owned, Built c ev' root task sols io' st k := by
  induction owned with
  | nil =>
    intro io io' ev ev' _ h hr
    simp only [eachWith, pure_ok] at hr
    obtain ⟨rfl, rfl⟩ := hr
    exact ⟨h, .refl _ _ _, fun _ _ => rfl, by simp⟩
  | cons k owned ih =>
    intro io io' ev ev' hn h hr
    simp only [eachWith, bind_ok] at hr
    obtain ⟨io1, ev1, h1, h2⟩ := hr
    obtain ⟨tc, input, output, ht, rfl, i1, p1, t1⟩ := buildTestcase_spec hk hst h h1
    rw [List.nodup_cons] at hn
    obtain ⟨i2, p2, g2, b2⟩ := ih hn.2 i1 h2
    have hkid := hid _ _ ht
    refine ⟨i2, ?_, ?_, ?_⟩
    · have := p1.trans p2
      simpa [List.filterMap_cons, Task.testcase, ht, hkid] using this
    · intro j hj
      rw [List.mem_cons, not_or] at hj
      rw [g2 j hj.2, AMap.get?_insert, if_neg]
      rw [hkid]; exact hj.1
    · intro j hj
      rcases List.mem_cons.1 hj with rfl | hj
      · refine ⟨tc, input, output, ht, ?_, t1.mono p2.step.ext⟩
        rw [g2 _ hn.1, AMap.get?_insert, if_pos hkid.symm]
      · exact b2 j hj

/-! ## All the subtasks -/

theorem subtasks_spec {c : Ctx} {root : String} {task : Task} {sols : List Src}
    {P : List Execution} (hk : task.Known c root sols)
    (hid : ∀ k tc, task.testcases.get? k = some tc → tc.id = k) {sts : List Subtask} :
    ∀ {io io' : GeneratedIo} {ev ev' : Eval}, (∀ st ∈ sts, st ∈ task.subtasks.values) →
    (sts.flatMap (·.owned)).Nodup → Inv c.G ev P →
    eachWith (fun io (st : Subtask) =>
      eachWith (buildTestcase c.fs root task sols st) st.owned io) sts io ev = .ok (io', ev') →
    Inv c.G ev' P ∧
    Prog c task.type ev ev' (sts.flatMap (·.topics task sols.length))
      (sts.flatMap (·.evaluations sols.length)) ∧
    (∀ k, k ∉ sts.flatMap (·.owned) → io'.get? k = io.get? k) ∧
    ∀ st ∈ sts, ∀ k ∈ st.owned, Built c ev' root task sols io' st k := by
  induction sts with
  | nil =>
    intro io io' ev ev' _ _ h hr
    simp only [eachWith, pure_ok] at hr
    obtain ⟨rfl, rfl⟩ := hr
    exact ⟨h, .refl _ _ _, fun _ _ => rfl, by simp⟩
  | cons st sts ih =>
    intro io io' ev ev' hm hn h hr
    simp only [eachWith, bind_ok] at hr
    obtain ⟨io1, ev1, h1, h2⟩ := hr
    rw [List.flatMap_cons, List.nodup_append] at hn
    obtain ⟨hn1, hn2, hn3⟩ := hn
    obtain ⟨i1, p1, g1, b1⟩ := subtask_spec hk hid (hm st (by simp)) hn1 h h1
    obtain ⟨i2, p2, g2, b2⟩ := ih (fun s hs => hm s (by simp [hs])) hn2 i1 h2
    refine ⟨i2, ?_, ?_, ?_⟩
    · simpa [Subtask.topics, Subtask.evaluations] using p1.trans p2
    · intro k hk
      rw [List.flatMap_cons, List.mem_append, not_or] at hk
      rw [g2 k hk.2, g1 k hk.1]
    · intro s hs k hks
      rcases List.mem_cons.1 hs with rfl | hs
      · refine ((b1 k hks).mono p2.step.ext).other (g2 k ?_)
        intro hk2
        exact hn3 k hks k hk2 rfl
      · exact b2 s hs k hks

/-! ## The testcases of the other subtasks -/

/-- The messages about the inherited testcases of a subtask. -/
def Subtask.inheritedTopics (st : Subtask) : List Topic :=
  (st.testcases.filter (fun k => decide (k ∉ st.owned))).flatMap (st.validator.topics st.id ·)

/-- An inherited testcase is validated for the subtask. -/
def Revalidated (c : Ctx) (ev : Eval) (io : GeneratedIo) (st : Subtask) (k : Nat) : Prop :=
  ∃ input output handle, io.get? k = some (input, output) ∧
    ValOk c ev st.validator st.id st.name k input handle

theorem Revalidated.mono {c : Ctx} {a b : Eval} {io : GeneratedIo} {st : Subtask} {k : Nat}
    (h : Revalidated c a io st k) (x : Ext c.G a b) : Revalidated c b io st k := by
  obtain ⟨i, o, hd, h1, h2⟩ := h
  exact ⟨i, o, hd, h1, h2.mono x⟩

theorem revalidateList_spec {c : Ctx} {task : Task} {st : Subtask} {P : List Execution}
    {io : GeneratedIo} {t : TaskType}
    (hid : ∀ k tc, task.testcases.get? k = some tc → tc.id = k) (hv : st.validator.Known c)
    {l : List Nat} : ∀ {ev ev' : Eval} {a : Unit}, Inv c.G ev P →
    (∀ k i o, io.get? k = some (i, o) → i ∈ allFiles ev.dag) →
    each (fun tcId =>
      if tcId ∈ st.owned then pure ()
      else match task.testcases.get? tcId with
        | none => fail .panicNoTestcase
        | some tc =>
          match io.get? tcId with
          | none => fail .panicNoInput
          | some (input, _) => do
            let _ ← st.validator.validateAndBind c.fs st.id st.name tc.id input
            return ()) l ev = .ok (a, ev') →
    Inv c.G ev' P ∧
    Prog c t ev ev'
      ((l.filter (fun k => decide (k ∉ st.owned))).flatMap (st.validator.topics st.id ·)) [] ∧
    ∀ k ∈ l, k ∉ st.owned → Revalidated c ev' io st k := by
  induction l with
  | nil =>
    intro ev ev' a h _ hr
    simp only [each, pure_ok] at hr
    obtain ⟨-, rfl⟩ := hr
    exact ⟨h, .refl _ _ _, by simp⟩
  | cons k l ih =>
    intro ev ev' a h hio hr
    simp only [each, bind_ok] at hr
    obtain ⟨_, ev1, h1, h2⟩ := hr
    by_cases ho : k ∈ st.owned
    · simp only [ho, if_true, pure_ok] at h1
      obtain ⟨-, rfl⟩ := h1
      obtain ⟨i2, p2, r2⟩ := ih h hio h2
      refine ⟨i2, by simpa [List.filter_cons, ho] using p2, ?_⟩
      intro j hj hjo
      rcases List.mem_cons.1 hj with rfl | hj
      · exact absurd ho hjo
      · exact r2 j hj hjo
    · simp only [ho, if_false] at h1
      cases ht : task.testcases.get? k with
      | none => simp only [ht, fail_ok] at h1
      | some tc =>
        simp only [ht] at h1
        cases hg : io.get? k with
        | none => simp only [hg, fail_ok] at h1
        | some p =>
          obtain ⟨input, output⟩ := p
          simp only [hg, bind_ok, pure_ok] at h1
          obtain ⟨handle, _, h1, -, rfl⟩ := h1
          obtain ⟨i1, s1, q1, -, v1⟩ := validateAndBind_spec h hv (hio _ _ _ hg) h1
          obtain ⟨i2, p2, r2⟩ := ih i1 (fun k i o hk => s1.ext.allFiles (hio k i o hk)) h2
          have hkid := hid _ _ ht
          refine ⟨i2, ?_, ?_⟩
          · have := (Prog.ofStep (t := t) s1 q1).trans p2
            simpa [List.filter_cons, ho, hkid] using this
          · intro j hj hjo
            rcases List.mem_cons.1 hj with rfl | hj
            · exact ⟨input, output, handle, hg, by rw [← hkid]; exact v1.mono p2.step.ext⟩
            · exact r2 j hj hjo

theorem revalidateAll_spec {c : Ctx} {task : Task} {P : List Execution}
    {io : GeneratedIo} {t : TaskType}
    (hid : ∀ k tc, task.testcases.get? k = some tc → tc.id = k)
    {sts : List Subtask} : ∀ {ev ev' : Eval} {a : Unit}, (∀ st ∈ sts, st.validator.Known c) →
    Inv c.G ev P → (∀ k i o, io.get? k = some (i, o) → i ∈ allFiles ev.dag) →
    each (revalidate c.fs task io) sts ev = .ok (a, ev') →
    Inv c.G ev' P ∧ Prog c t ev ev' (sts.flatMap (·.inheritedTopics)) [] ∧
    ∀ st ∈ sts, ∀ k ∈ st.testcases, k ∉ st.owned → Revalidated c ev' io st k := by
  induction sts with
  | nil =>
    intro ev ev' a _ h _ hr
    simp only [each, pure_ok] at hr
    obtain ⟨-, rfl⟩ := hr
    exact ⟨h, .refl _ _ _, by simp⟩
  | cons st sts ih =>
    intro ev ev' a hv h hio hr
    simp only [each, bind_ok] at hr
    obtain ⟨_, ev1, h1, h2⟩ := hr
    obtain ⟨i1, p1, r1⟩ := revalidateList_spec (t := t) hid (hv st (by simp)) h hio h1
    obtain ⟨i2, p2, r2⟩ := ih (fun s hs => hv s (by simp [hs])) i1
      (fun k i o hk => p1.step.ext.allFiles (hio k i o hk)) h2
    refine ⟨i2, by simpa [Subtask.inheritedTopics] using p1.trans p2, ?_⟩
    intro s hs k hk hko
    rcases List.mem_cons.1 hs with rfl | hs
    · exact (r1 k hk hko).mono p2.step.ext
    · exact r2 s hs k hk hko

/-! ## Everything -/

/-- All the messages about a task, besides the compilations. -/
def Task.topics (task : Task) (nsols : Nat) : List Topic :=
  task.subtasks.values.flatMap (·.topics task nsols) ++
    task.subtasks.values.flatMap (·.inheritedTopics)

/-- All the evaluations: (subtask, testcase, solution). -/
def Task.evaluations (task : Task) (nsols : Nat) : List (Nat × Nat × Nat) :=
  task.subtasks.values.flatMap (·.evaluations nsols)

theorem each_check {α : Type} {q : α → Bool} {err : Err} {l : List α} : ∀ {ev ev' : Eval} {a : Unit},
    each (fun p => if q p then pure () else fail err) l ev = .ok (a, ev') →
    ev' = ev ∧ ∀ p ∈ l, q p = true := by
  induction l with
  | nil =>
    intro ev ev' a hr
    simp only [each, pure_ok] at hr
    exact ⟨hr.2.symm, by simp⟩
  | cons p l ih =>
    intro ev ev' a hr
    simp only [each, bind_ok] at hr
    obtain ⟨_, ev1, h1, h2⟩ := hr
    by_cases hq : q p = true
    · simp only [hq, if_true, pure_ok] at h1
      obtain ⟨-, rfl⟩ := h1
      obtain ⟨h3, h4⟩ := ih h2
      refine ⟨h3, fun x hx => ?_⟩
      rcases List.mem_cons.1 hx with rfl | hx
      · exact hq
      · exact h4 x hx
    · simp only [hq, fail_ok, Bool.false_eq_true, if_false] at h1

theorem buildDag_spec {c : Ctx} {root : String} {task : Task} {sols : List Src}
    {io : GeneratedIo} {ev ev' : Eval} {P : List Execution} (hk : task.Known c root sols)
    (hid : ∀ k tc, task.testcases.get? k = some tc → tc.id = k)
    (hn : (task.subtasks.values.flatMap (·.owned)).Nodup) (h : Inv c.G ev P)
    (hr : buildDag c.fs root task sols ev = .ok (io, ev')) :
    Inv c.G ev' P ∧
    Prog c task.type ev ev' (task.topics sols.length) (task.evaluations sols.length) ∧
    (∀ st ∈ task.subtasks.values, ∀ k ∈ st.owned, Built c ev' root task sols io st k) ∧
    (∀ st ∈ task.subtasks.values, ∀ k ∈ st.testcases, k ∉ st.owned →
      Revalidated c ev' io st k) := by
  simp only [buildDag, bind_ok, pure_ok] at hr
  obtain ⟨_, ev1, h1, io1, ev2, h2, _, ev3, h3, _, ev4, h4, rfl, rfl⟩ := hr
  obtain ⟨i1, p1⟩ := prepareDag_spec h hk.type h1
  obtain ⟨i2, p2, g2, b2⟩ := subtasks_spec hk hid (fun _ h => h) hn i1 h2
  obtain ⟨rfl, -⟩ := each_check h3
  have hio : ∀ k i o, io1.get? k = some (i, o) → i ∈ allFiles ev3.dag := by
    intro k i o hg
    by_cases hko : k ∈ task.subtasks.values.flatMap (·.owned)
    · obtain ⟨st, hst, hks⟩ := List.mem_flatMap.1 hko
      obtain ⟨tc, i', o', -, h5, h6⟩ := b2 st hst k hks
      rw [hg] at h5
      cases h5
      exact h6.inputFile
    · rw [g2 k hko] at hg
      cases hg
  obtain ⟨i4, p4, r4⟩ := revalidateAll_spec (t := task.type) hid hk.validator i2 hio h4
  refine ⟨i4, ?_, fun st hst k hk => (b2 st hst k hk).mono p4.step.ext, r4⟩
  have := (p1.trans p2).trans p4
  simpa [Task.topics, Task.evaluations] using this

end TM.Build
