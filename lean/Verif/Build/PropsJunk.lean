import Verif.Build.Junk
import Verif.Build.PropsSamples
/-!
# C127: the custom checker is tried on junk
-/
namespace TM.Build
open TM DagSpec Spec

/-! ## Specification -/

/-- The checker is run on the junk: on the input and the official output given, with the junk as the output of a
contestant. -/
def Spec.JunkTried (fs : FS) (ev : Eval) (src : Src) (input official : FileUuid) (j : Junk) : Prop :=
  ∃ k ∈ allExecs ev.dag, ∃ test p,
    Runs fs ev src ["input", "correct_output", "test_output"] ["input", "correct_output", "test_output"] k ∧
    k.inputs.get? "input" = some ⟨input, false⟩ ∧ k.inputs.get? "correct_output" = some ⟨official, false⟩ ∧
    k.inputs.get? "test_output" = some ⟨test, false⟩ ∧
    ev.dag.providedFiles.get? test = some p ∧ p.content = some j.bytes ∧
    k.captureStdout = some 128 ∧ k.captureStderr = some (10 * 1024) ∧
    Watched ev k.uuid (.checker j.description)

/-- The input and the official output of a testcase of the task. -/
def Spec.IoOf (task : Task) (io : GeneratedIo) (input official : FileUuid) : Prop :=
  ∃ k tc, task.testcases.get? k = some tc ∧ io.get? k = some (input, some official)

/-! ## Lemmas -/

theorem buildDag_io {n : Uuid} {cfg : DagConfig} {fs : FS} {root : String} {task : Task}
    {sols : List Src} {io : GeneratedIo} {ev : Eval} (h : Fits n task sols)
    (hr : buildDag fs root task sols (start n cfg) = .ok (io, ev)) {k : Nat} {i o : FileUuid}
    (hk : io.get? k = some (i, some o)) :
    i ∈ allFiles ev.dag ∧ o ∈ allFiles ev.dag ∧ ∃ tc, task.testcases.get? k = some tc := by
  have hr' : buildDag (ctxOf fs root task sols).fs root task sols (start n cfg) = .ok (io, ev) := hr
  obtain ⟨-, -, h3, -⟩ := buildDag_done h hr
  have hown : k ∈ task.subtasks.values.flatMap (·.owned) := by
    by_cases hko : k ∈ task.subtasks.values.flatMap (·.owned)
    · exact hko
    · exfalso
      simp only [buildDag, bind_ok, pure_ok] at hr'
      obtain ⟨_, ev1, h1, io1, ev2, h2, _, ev3, -, _, ev4, -, rfl, -⟩ := hr'
      obtain ⟨i1, p1⟩ := prepareDag_spec (start_inv h cfg) (ctx_known h).type h1
      obtain ⟨-, -, g2, -⟩ := subtasks_spec (ctx_known h) h.testcaseIds (fun _ h => h) h.owned i1 h2
      rw [g2 k hko] at hk
      cases hk
  obtain ⟨st, hst, hks⟩ := List.mem_flatMap.1 hown
  obtain ⟨tc, i', o', h4, h5, h6⟩ := h3 st hst k hks
  rw [hk] at h5
  cases h5
  obtain ⟨f, h7, h8, -⟩ := h6.outputWritten
  cases h7
  exact ⟨h6.inputFile, h8, tc, h4⟩

/-- The junk and the checker that is run on it. -/
def JunkOk (c : Ctx) (key : List Nat → FileStoreKey) (ev : Eval) (checker : Checker) (input official : FileUuid)
    (j : Junk) : Prop :=
  ∃ k ∈ allExecs ev.dag, ∃ test, ev.dag.providedFiles.get? test = some ⟨key j.bytes, some j.bytes, none⟩ ∧ ¬ c.G test ∧
    SCheckOk c ev checker j.description input official test k

theorem JunkOk.mono {c : Ctx} {key : List Nat → FileStoreKey} {a b : Eval} {checker : Checker}
    {input official : FileUuid} {j : Junk} (h : JunkOk c key a checker input official j) (x : Ext c.G a b) :
    JunkOk c key b checker input official j := by
  obtain ⟨k, h1, test, h2, h3, h4⟩ := h
  obtain ⟨p, h5, h6⟩ := x.provided _ _ h2
  rcases h6 with rfl | h6
  · exact ⟨k, x.mem_exec h1, test, h5, h3, h4.mono x⟩
  · exact absurd h6 h3

theorem addJunkOutput_spec {c : Ctx} {key : List Nat → FileStoreKey} {checker : Checker} {j : Junk}
    {input official : FileUuid} {ev ev' : Eval} {P : List Execution} {a : Unit}
    (h : Inv c.G ev P) (hk : checker.Known c) (hi : input ∈ allFiles ev.dag) (ho : official ∈ allFiles ev.dag)
    (hr : addJunkOutput c.fs key checker input official j ev = .ok (a, ev')) :
    Inv c.G ev' P ∧ Step c ev ev' [] [.sample (checker.event j.description)] ∧ ev'.senders = ev.senders ∧
    JunkOk c key ev' checker input official j := by
  simp only [addJunkOutput, provideContent, bind_ok, fresh_ok, upd_ok] at hr
  obtain ⟨test, ev1, ⟨rfl, rfl⟩, _, ev2, rfl, e, ev3, h3, h4⟩ := hr
  obtain ⟨i1, x1, m1⟩ := h.provideFresh ⟨key j.bytes, some j.bytes, none⟩
  have s1 := Step.provideFresh h ⟨key j.bytes, some j.bytes, none⟩
  obtain ⟨i2, s2, hs2, k, hk2, hc2⟩ := checkSample_spec i1 hk (x1.allFiles hi) (x1.allFiles ho) m1 h3 h4
  refine ⟨i2, s1.trans0 s2, hs2, k, hk2, ev.next, ?_, h.fresh_not_grader, hc2⟩
  obtain ⟨p, h5, h6⟩ := s2.ext.provided ev.next ⟨key j.bytes, some j.bytes, none⟩ (by simp [DagData.provide])
  rcases h6 with rfl | h6
  · exact h5
  · exact absurd h6 h.fresh_not_grader

theorem junk_spec {c : Ctx} {key : List Nat → FileStoreKey} {checker : Checker} {input official : FileUuid}
    {P : List Execution} (hk : checker.Known c) :
    ∀ {js : List Junk} {ev ev' : Eval} {a : Unit}, Inv c.G ev P → input ∈ allFiles ev.dag →
    official ∈ allFiles ev.dag → each (addJunkOutput c.fs key checker input official) js ev = .ok (a, ev') →
    Inv c.G ev' P ∧ Step c ev ev' [] (js.map (fun j => .sample (checker.event j.description))) ∧
    ev'.senders = ev.senders ∧ ∀ j ∈ js, JunkOk c key ev' checker input official j := by
  intro js
  induction js with
  | nil =>
    intro ev ev' a h _ _ hr
    simp only [each, pure_ok] at hr
    obtain ⟨-, rfl⟩ := hr
    exact ⟨h, .refl _ _, rfl, by simp⟩
  | cons p ps ih =>
    intro ev ev' a h hi ho hr
    simp only [each, bind_ok] at hr
    obtain ⟨_, ev1, h1, h2⟩ := hr
    obtain ⟨i1, s1, hs1, p1⟩ := addJunkOutput_spec h hk hi ho h1
    obtain ⟨i2, s2, hs2, p2⟩ := ih i1 (s1.ext.allFiles hi) (s1.ext.allFiles ho) h2
    refine ⟨i2, by simpa using s1.trans s2, hs2.trans hs1, fun q hq => ?_⟩
    rcases List.mem_cons.1 hq with rfl | hq
    · exact p1.mono s2.ext
    · exact p2 q hq

theorem junkTestcase_some {task : Task} {io : GeneratedIo} {i o : FileUuid}
    (h : junkTestcase task io = some (i, o)) : ∃ k, io.get? k = some (i, some o) := by
  unfold junkTestcase at h
  obtain ⟨k, -, h2⟩ := List.exists_of_findSome?_eq_some h
  refine ⟨k, ?_⟩
  split at h2
  · rename_i h3
    cases h2
    exact h3
  · cases h2

/-- What is known after the executions have been added. -/
theorem junk_done {n : Uuid} {cfg : DagConfig} {fs : FS} {root : String} {task : Task} {sols : List Src}
    {io : GeneratedIo} {ev ev' : Eval} {key : List Nat → FileStoreKey} {src : Src} {a : Unit} {i o : FileUuid}
    (h : Fits n task sols) (ht : task.type = .batch (.custom src))
    (hb : buildDag fs root task sols (start n cfg) = .ok (io, ev)) (hj : junkTestcase task io = some (i, o))
    (hr : addJunk fs key task io ev = .ok (a, ev')) :
    let c := ctxOf fs root task sols
    Done c ev ∧ Done c ev' ∧
    Step c ev ev' [] (junkOutputs.map (fun j => .sample (.checker j.description))) ∧ ev'.senders = ev.senders ∧
    ∀ j ∈ junkOutputs, JunkTried fs ev' src i o j := by
  intro c
  obtain ⟨d1, -, -, -⟩ := buildDag_done h hb
  have hk : (Checker.custom src).Known c := by
    have := (ctx_known (fs := fs) (root := root) h).type
    rw [ht] at this
    exact this
  obtain ⟨k, hk0⟩ := junkTestcase_some hj
  obtain ⟨hi, ho, -⟩ := buildDag_io h hb hk0
  simp only [addJunk, ht, hj] at hr
  obtain ⟨i2, s2, hs2, p2⟩ := junk_spec (c := c) hk d1.inv hi ho hr
  have d2 : Done c ev' := ⟨i2, s2.side [] d1.side⟩
  refine ⟨d1, d2, s2, hs2, fun j hm => ?_⟩
  obtain ⟨e, h1, test, h2, -, h4⟩ := p2 j hm
  obtain ⟨-, -, h5⟩ := h4.spec d2 hk h1
  exact ⟨e, h1, test, _, h5.1, h5.2.1, h5.2.2.1, h5.2.2.2.1, h2, rfl, h5.2.2.2.2.1, h5.2.2.2.2.2.1, h5.2.2.2.2.2.2⟩

theorem addJunk_tame {fs : FS} {key : List Nat → FileStoreKey} {task : Task} {io : GeneratedIo} {ev ev' : Eval} {a : Unit}
    (hr : addJunk fs key task io ev = .ok (a, ev')) : Tame ev.next ev ev' := by
  have : Gentle ev.next (addJunk fs key task io) (fun _ => True) := by
    unfold addJunk
    split
    · split
      · exact Gentle.pure trivial
      · refine Gentle.each (fun j => ?_)
        unfold addJunkOutput
        refine Gentle.fresh.bind' (fun test => ?_)
        refine Gentle.bind' (Q := fun _ => True) ?_ (fun _ => ?_)
        · exact Gentle.quiet (fun _ => rfl) (fun _ => rfl) (fun _ => rfl) (fun _ => rfl)
        · intro ev a ev' hn hm
          obtain ⟨e, ev1, h1, h2⟩ := bind_ok.1 hm
          exact ⟨checkSample_tame hn h1 h2, trivial⟩
    · exact Gentle.pure trivial
  exact (this ev a ev' (Nat.le_refl _) hr).1

theorem addJunk_safe (fs : FS) (key : List Nat → FileStoreKey) (task : Task) (io : GeneratedIo) :
    Safe fs (addJunk fs key task io) (fun _ => True) := by
  unfold addJunk
  split
  · split
    · exact Safe.pure trivial
    · refine Safe.each (fun j _ => ?_)
      unfold addJunkOutput
      refine Safe.fresh.bind' (fun test => ?_)
      refine (Safe.upd _).bind' (fun _ => ?_)
      exact (checkSample_safe fs _ _ _ _ _).bind' (fun e => addExec_safe fs e)
  · exact Safe.pure trivial

theorem junkTestcase_exists {n : Uuid} {cfg : DagConfig} {fs : FS} {root : String} {task : Task} {sols : List Src}
    {io : GeneratedIo} {ev : Eval} (h : Fits n task sols)
    (hb : buildDag fs root task sols (start n cfg) = .ok (io, ev)) {st : Subtask} {k : Nat}
    (hst : st ∈ task.subtasks.values) (hk : k ∈ st.owned) : ∃ p, junkTestcase task io = some p := by
  obtain ⟨-, -, h3, -⟩ := buildDag_done h hb
  obtain ⟨tc, i, o, h4, h5, h6⟩ := h3 st hst k hk
  obtain ⟨f, rfl, -⟩ := h6.outputWritten
  cases hj : junkTestcase task io with
  | some p => exact ⟨p, rfl⟩
  | none =>
    unfold junkTestcase at hj
    have := List.findSome?_eq_none_iff.1 hj k (AMap.mem_keys_iff.2 ⟨tc, h4⟩)
    rw [h5] at this
    cases this

/-! ## The theorems -/

section

variable {n : Uuid} {cfg : DagConfig} {fs : FS} {root : String} {task : Task} {sols : List Src}
  {io : GeneratedIo} {ev ev' : Eval} {key : List Nat → FileStoreKey} {src : Src}

/-- **C127** Without a custom checker nothing is done. -/
theorem junk_only_custom (ht : ∀ src, task.type ≠ .batch (.custom src)) :
    addJunk fs key task io ev = .ok ((), ev) := by
  unfold addJunk
  cases h : task.type with
  | batch c =>
    cases c with
    | custom src => exact absurd h (ht src)
    | _ => rfl
  | _ => rfl

/-- Nothing is done, or the checker is tried on the files of a testcase. -/
theorem junk_cases (h : Fits n task sols) (hb : buildDag fs root task sols (start n cfg) = .ok (io, ev))
    (hr : addJunk fs key task io ev = .ok ((), ev')) :
    ev' = ev ∨ ∃ src i o, task.type = .batch (.custom src) ∧ junkTestcase task io = some (i, o) := by
  cases hj : junkTestcase task io with
  | some p =>
    by_cases ht : ∃ src, task.type = .batch (.custom src)
    · obtain ⟨src, ht⟩ := ht
      exact .inr ⟨src, p.1, p.2, ht, rfl⟩
    · left
      rw [junk_only_custom (fun src h1 => ht ⟨src, h1⟩)] at hr
      cases hr; rfl
  | none =>
    left
    by_cases ht : ∃ src, task.type = .batch (.custom src)
    · obtain ⟨src, ht⟩ := ht
      simp only [addJunk, ht, hj] at hr
      cases hr; rfl
    · rw [junk_only_custom (fun src h1 => ht ⟨src, h1⟩)] at hr
      cases hr; rfl

/-- **C127** The DAG of a task is still accepted by the server after these executions have been added to it. -/
theorem junk_accepted (h : Fits n task sols) (hb : buildDag fs root task sols (start n cfg) = .ok (io, ev))
    (hr : addJunk fs key task io ev = .ok ((), ev')) : CheckDag.checkDag ev'.dag (callbacks ev') = .ok () := by
  rcases junk_cases h hb hr with rfl | ⟨src, i, o, ht, hj⟩
  · exact (buildDag_done h hb).1.accepted
  · exact (junk_done h ht hb hj hr).2.1.accepted

/-- **C127** If a batch task with a custom checker has a subtask with a testcase, then the checker is run on each of the
four junk outputs, on the input and the official output of the same testcase. -/
theorem junk_tried (h : Fits n task sols) (ht : task.type = .batch (.custom src))
    (hb : buildDag fs root task sols (start n cfg) = .ok (io, ev))
    (hne : ∃ st ∈ task.subtasks.values, st.owned ≠ [])
    (hr : addJunk fs key task io ev = .ok ((), ev')) :
    ∃ i o, IoOf task io i o ∧
      JunkTried fs ev' src i o ⟨"empty file", []⟩ ∧
      JunkTried fs ev' src i o ⟨"bytes from 0 to 255", List.range 256⟩ ∧
      JunkTried fs ev' src i o ⟨"ASCII from 32 to 127", List.range' 32 96⟩ ∧
      JunkTried fs ev' src i o ⟨"wibble monster", "wibble monster".toUTF8.data.toList.map (·.toNat)⟩ := by
  obtain ⟨st, hst, hne⟩ := hne
  obtain ⟨k, hk⟩ := List.exists_mem_of_ne_nil _ hne
  obtain ⟨⟨i, o⟩, hj⟩ := junkTestcase_exists h hb hst hk
  obtain ⟨-, -, -, -, p⟩ := junk_done h ht hb hj hr
  obtain ⟨k, hk0⟩ := junkTestcase_some hj
  obtain ⟨-, -, tc, htc⟩ := buildDag_io h hb hk0
  exact ⟨i, o, ⟨k, tc, htc, hk0⟩, p _ (by decide +kernel), p _ (by decide +kernel), p _ (by decide +kernel),
    p _ (by decide +kernel)⟩

/-- **C127** These are all the events added, one for each junk output. -/
theorem junk_events (h : Fits n task sols) (ht : task.type = .batch (.custom src))
    (hb : buildDag fs root task sols (start n cfg) = .ok (io, ev))
    (hne : ∃ st ∈ task.subtasks.values, st.owned ≠ [])
    (hr : addJunk fs key task io ev = .ok ((), ev')) :
    ev'.handlers.filterMap (fun p => match p.2 with | .sample s => some s | _ => none) =
      ev.handlers.filterMap (fun p => match p.2 with | .sample s => some s | _ => none) ++
      [.checker "empty file", .checker "bytes from 0 to 255", .checker "ASCII from 32 to 127",
       .checker "wibble monster"] := by
  obtain ⟨st, hst, hne⟩ := hne
  obtain ⟨k, hk⟩ := List.exists_mem_of_ne_nil _ hne
  obtain ⟨⟨i, o⟩, hj⟩ := junkTestcase_exists h hb hst hk
  obtain ⟨-, -, s, -, -⟩ := junk_done h ht hb hj hr
  have e : (fun p : ExecutionUuid × Handler => match p.2 with | .sample s => some s | _ => none) =
      fun p => sampleOf p.2 := by
    funext p; cases p.2 <;> rfl
  rw [e, sampleOf_scoring, s.scoring, List.filterMap_append, sampleOf_scoring]
  rfl

/-- **C127** The executions of the task, the files provided for it and those that will be written are as before, and
so are the callbacks on its executions. -/
theorem junk_undisturbed (h : Fits n task sols) (hb : buildDag fs root task sols (start n cfg) = .ok (io, ev))
    (hr : addJunk fs key task io ev = .ok ((), ev')) :
    (∀ e ∈ allExecs ev.dag, e ∈ allExecs ev'.dag ∧
      ev'.handlers.filter (fun p => p.1 == e.uuid) = ev.handlers.filter (fun p => p.1 == e.uuid)) ∧
    (∀ f p, ev.dag.providedFiles.get? f = some p → ev'.dag.providedFiles.get? f = some p) ∧
    (∀ f w, ev.writes.get? f = some w → ev'.writes.get? f = some w) ∧
    ev'.senders = ev.senders ∧ ev'.dag.config = ev.dag.config := by
  rcases junk_cases h hb hr with rfl | ⟨src, i, o, ht, hj⟩
  · exact ⟨fun e he => ⟨he, rfl⟩, fun _ _ hp => hp, fun _ _ hw => hw, rfl, rfl⟩
  obtain ⟨d, d', s, hs, -⟩ := junk_done h ht hb hj hr
  obtain ⟨l, hl, hl'⟩ := (addJunk_tame hr).handlers
  refine ⟨fun e he => ⟨s.ext.mem_exec he, ?_⟩, fun f p hp => ?_, s.ext.writes, hs, s.ext.config⟩
  · rw [hl, List.filter_append]
    have hlt : e.uuid < ev.next := d.inv.boundE e.uuid (by
      simp only [execUuids, List.map_nil, List.append_nil, List.mem_map]
      exact ⟨e, he, rfl⟩)
    have : l.filter (fun p => p.1 == e.uuid) = [] := by
      rw [List.filter_eq_nil_iff]
      intro p hp
      have h5 : ev.next ≤ p.1 := hl' p hp
      simp only [beq_iff_eq]
      intro h6
      rw [h6] at h5
      exact absurd hlt (Nat.not_lt.2 h5)
    rw [this, List.append_nil]
  · obtain ⟨p', h1, h2⟩ := s.ext.provided f p hp
    rcases h2 with rfl | h2
    · exact h1
    · obtain ⟨path, hg⟩ := Option.isSome_iff_exists.1 h2
      obtain ⟨k, h3, h4⟩ := d.side.graders f path p hg hp
      obtain ⟨k', h5, h6⟩ := d'.side.graders f path p' hg h1
      rw [h3] at h5
      cases h5
      rw [h1, h4, h6]

/-- **C127** Nothing else is added: a new execution is a compilation or one of those of the junk, a new file to
write is an executable. -/
theorem junk_nothing_else (hr : addJunk fs key task io ev = .ok ((), ev')) :
    (∀ e ∈ allExecs ev'.dag, e ∈ allExecs ev.dag ∨ e.tag = some "compilation" ∨ ∃ s, Watched ev' e.uuid s) ∧
    (∀ f w, ev'.writes.get? f = some w → ev.writes.get? f = some w ∨ w.executable = true) := by
  have t := addJunk_tame hr
  exact ⟨fun e he => (t.execs e he).imp id (fun h => h.2), t.writes⟩

/-- **C127** No message is sent for the junk, except for the compilations. -/
theorem junk_silent (h : Fits n task sols) (hb : buildDag fs root task sols (start n cfg) = .ok (io, ev))
    (hr : addJunk fs key task io ev = .ok ((), ev')) :
    ∃ l, ev'.pending = ev.pending ++ l ∧ ∀ t ∈ l, ∃ path, t = .compilation path := by
  rcases junk_cases h hb hr with rfl | ⟨src, i, o, ht, hj⟩
  · exact ⟨[], by simp, by simp⟩
  obtain ⟨-, -, s, -, -⟩ := junk_done h ht hb hj hr
  obtain ⟨l, hl⟩ := s.ext.pending
  refine ⟨l, hl, fun t ht => ?_⟩
  have h1 := s.topics
  rw [hl, List.filter_append, List.append_nil] at h1
  have h2 : l.filter mainTopic = [] := by
    have := congrArg List.length h1
    simp only [List.length_append] at this
    exact List.eq_nil_of_length_eq_zero (by omega)
  have h3 := List.filter_eq_nil_iff.1 h2 t ht
  cases t <;> first | exact ⟨_, rfl⟩ | exact absurd rfl h3

/-- **C127** Adding the executions fails only because a file is missing or cannot be read. -/
theorem junk_only_missing_files {err : Err} (hr : addJunk fs key task io ev = .error err) :
    ∃ path, err = .missingFile path ∧ (fs.key path = none ∨ fs.present path = false) :=
  (addJunk_safe fs key task io ev).1 err hr

/-- **C127** Nothing is said about a junk output exactly when the checker succeeds on it and gives it 0 points; the
error tells the score and the message, or that the checker is broken. -/
theorem junk_shown (description : String) (o : Outcome) :
    (junkNote description o = none ↔ o.status = .success ∧ o.score = some (.num 0)) ∧
    (∀ x, o.status = .success → o.score = some x → x ≠ .num 0 →
      junkNote description o = some (.scored description x o.message)) ∧
    (o.status ≠ .success ∨ o.score = none → junkNote description o = some (.checkerBroken description)) := by
  simp only [junkNote, Outcome.success, beq_iff_eq]
  refine ⟨?_, ?_, ?_⟩
  · by_cases h : o.status = .success
    · simp only [h, ↓reduceIte, true_and]
      cases o.score with
      | none => simp
      | some x =>
        cases x with
        | nan => simp [notZero]
        | num x => simp [notZero]
    · simp [h]
  · intro x h1 h2 h3
    simp only [h1, h2, ↓reduceIte]
    cases x with
    | nan => simp [notZero]
    | num x =>
      have : x ≠ 0 := fun h => h3 (by rw [h])
      simp [notZero, this]
  · rintro (h | h)
    · simp [h]
    · simp [h]

end

/-! ## An example -/

/-- The sample task is built and the checker tried: four executions more. -/
theorem Sample.junk_built : ∃ io ev ev', buildDag Sample.fs "/task" Sample.batch Sample.sols (start 10 {}) = .ok (io, ev) ∧
    addJunk Sample.fs (fun b => ⟨toString b⟩) Sample.batch io ev = .ok ((), ev') ∧
    (allExecs ev'.dag).length = (allExecs ev.dag).length + 4 := by
  have key : holds (fun io ev => match addJunk Sample.fs (fun b => ⟨toString b⟩) Sample.batch io ev with
      | .ok p => decide ((allExecs p.2.dag).length = (allExecs ev.dag).length + 4)
      | .error _ => false) (buildDag Sample.fs "/task" Sample.batch Sample.sols (start 10 {})) = true := by decide +kernel
  obtain ⟨io, ev, h1, h2⟩ := of_holds key
  split at h2
  · rename_i p hp
    obtain ⟨⟨⟩, ev'⟩ := p
    exact ⟨io, ev, ev', h1, hp, of_decide_eq_true h2⟩
  · cases h2

/-- The hypotheses hold for the sample task. -/
example : ∃ io ev ev', buildDag Sample.fs "/task" Sample.batch Sample.sols (start 10 {}) = .ok (io, ev) ∧
    addJunk Sample.fs (fun b => ⟨toString b⟩) Sample.batch io ev = .ok ((), ev') ∧
    CheckDag.checkDag ev'.dag (callbacks ev') = .ok () ∧
    ∃ i o, IoOf Sample.batch io i o ∧
      JunkTried Sample.fs ev' { Sample.cppSrc 2 "checker" with copyExe := true } i o ⟨"empty file", []⟩ := by
  obtain ⟨io, ev, ev', h1, h2, -⟩ := Sample.junk_built
  obtain ⟨i, o, h3, h4, -⟩ := junk_tried Sample.batch_fits rfl h1 (by decide +kernel) h2
  exact ⟨io, ev, ev', h1, h2, junk_accepted Sample.batch_fits h1 h2, i, o, h3, h4⟩

/-- A junk output that scores is shown, one that does not is not. -/
example : junkNote "empty file" { status := .success, score := some (.num 0) } = none ∧
    junkNote "empty file" { status := .success, score := some (.num (1/2)), message := "ok" } =
      some (.scored "empty file" (.num (1/2)) "ok") ∧
    junkNote "empty file" { status := .returnCode 1 } = some (.checkerBroken "empty file") := by decide +kernel

end TM.Build
