import Verif.Build.Task
/-!
# How building the DAG can fail
-/
namespace TM.Build
open TM DagSpec

/-- The error is about a file that is not there or that cannot be read. -/
def Missing (fs : FS) (e : Err) : Prop :=
  ∃ path, e = .missingFile path ∧ (fs.key path = none ∨ fs.present path = false)

/-- `m` fails only because of missing files, and its result satisfies `Q`. -/
def Safe (fs : FS) (m : B α) (Q : α → Prop) : Prop :=
  ∀ ev, (∀ e, m ev = .error e → Missing fs e) ∧ ∀ a ev', m ev = .ok (a, ev') → Q a

theorem Safe.pure {fs : FS} {a : α} {Q : α → Prop} (h : Q a) : Safe fs (pure a : B α) Q := by
  refine fun ev => ⟨fun e he => ?_, fun b ev' hb => ?_⟩
  · cases he
  · obtain ⟨rfl, -⟩ := pure_ok.1 hb; exact h

theorem Safe.bind {fs : FS} {m : B α} {f : α → B β} {Q : α → Prop} {R : β → Prop}
    (h : Safe fs m Q) (k : ∀ a, Q a → Safe fs (f a) R) : Safe fs (m >>= f) R := by
  refine fun ev => ⟨fun e he => ?_, fun b ev' hb => ?_⟩
  · have he : B.andThen m f ev = .error e := he
    unfold B.andThen at he
    cases hm : m ev with
    | error e' => rw [hm] at he; cases he; exact (h ev).1 _ hm
    | ok p =>
      obtain ⟨a, ev1⟩ := p
      rw [hm] at he
      exact (k a ((h ev).2 a ev1 hm) ev1).1 e he
  · obtain ⟨a, ev1, h1, h2⟩ := bind_ok.1 hb
    exact (k a ((h ev).2 a ev1 h1) ev1).2 b ev' h2

/-- Sequencing when the result does not matter. -/
theorem Safe.bind' {fs : FS} {m : B α} {f : α → B β} {Q : α → Prop} {R : β → Prop}
    (h : Safe fs m Q) (k : ∀ a, Safe fs (f a) R) : Safe fs (m >>= f) R :=
  h.bind (fun a _ => k a)

theorem Safe.mono {fs : FS} {m : B α} {Q R : α → Prop} (h : Safe fs m Q) (k : ∀ a, Q a → R a) :
    Safe fs m R := fun ev => ⟨(h ev).1, fun a ev' ha => k a ((h ev).2 a ev' ha)⟩

theorem Safe.fresh {fs : FS} : Safe fs fresh (fun _ => True) :=
  fun ev => ⟨fun e he => (by cases he), fun _ _ _ => trivial⟩

theorem Safe.upd {fs : FS} (f : Eval → Eval) : Safe fs (upd f) (fun _ => True) :=
  fun ev => ⟨fun e he => (by cases he), fun _ _ _ => trivial⟩

theorem Safe.look {fs : FS} (f : Eval → α) : Safe fs (look f) (fun _ => True) :=
  fun ev => ⟨fun e he => (by cases he), fun _ _ _ => trivial⟩

theorem Safe.ite {fs : FS} {p : Prop} [Decidable p] {m n : B α} {Q : α → Prop}
    (h : p → Safe fs m Q) (k : ¬ p → Safe fs n Q) : Safe fs (if p then m else n) Q := by
  by_cases hp : p
  · rw [if_pos hp]; exact h hp
  · rw [if_neg hp]; exact k hp

theorem Safe.eachWith {fs : FS} {f : σ → α → B σ} {I : σ → Prop} {l : List α}
    (h : ∀ s x, x ∈ l → I s → Safe fs (f s x) I) : ∀ {s : σ}, I s →
    Safe fs (eachWith f l s) I := by
  induction l with
  | nil => intro s hs; exact Safe.pure hs
  | cons x l ih =>
    intro s hs
    exact (h s x (by simp) hs).bind
      (fun a ha => ih (fun s y hy => h s y (by simp [hy])) ha)

theorem Safe.each {fs : FS} {f : α → B Unit} {l : List α}
    (h : ∀ x ∈ l, Safe fs (f x) (fun _ => True)) : Safe fs (each f l) (fun _ => True) := by
  induction l with
  | nil => exact Safe.pure trivial
  | cons x l ih =>
    exact (h x (by simp)).bind' (fun _ => ih (fun y hy => h y (by simp [hy])))

/-! ## The functions -/

theorem provideFile_safe (fs : FS) (f : FileUuid) (path : String) :
    Safe fs (provideFile fs f path) (fun _ => True) := by
  unfold provideFile
  cases h : fs.key path with
  | some k => exact Safe.upd _
  | none =>
    refine fun ev => ⟨fun e he => ?_, fun _ _ _ => trivial⟩
    cases he
    exact ⟨path, rfl, Or.inl h⟩

theorem newExecution_safe (fs : FS) (cmd : ExecutionCommand) :
    Safe fs (newExecution cmd) (fun e => e.stdin = none) :=
  Safe.fresh.bind' (fun _ => Safe.pure rfl)

theorem stdoutOf_safe (fs : FS) (e : Execution) :
    Safe fs (stdoutOf e) (fun p => p.2.stdin = e.stdin) := by
  unfold stdoutOf
  cases e.stdout with
  | none => exact Safe.fresh.bind' (fun _ => Safe.pure rfl)
  | some f => exact Safe.pure rfl

theorem stderrOf_safe (fs : FS) (e : Execution) :
    Safe fs (stderrOf e) (fun p => p.2.stdin = e.stdin) := by
  unfold stderrOf
  cases e.stderr with
  | none => exact Safe.fresh.bind' (fun _ => Safe.pure rfl)
  | some f => exact Safe.pure rfl

theorem outputOf_safe (fs : FS) (e : Execution) (path : String) :
    Safe fs (outputOf e path) (fun _ => True) := by
  unfold outputOf
  refine Safe.fresh.bind' (fun f => ?_)
  cases e.outputs.get? path with
  | none => exact Safe.pure trivial
  | some o => exact Safe.pure trivial

theorem captureStdout_safe (fs : FS) (e : Execution) (n : Nat) :
    Safe fs (captureStdout e n) (fun x => x.stdin = e.stdin) :=
  (stdoutOf_safe fs e).bind (fun _ h => Safe.pure h)

theorem captureStderr_safe (fs : FS) (e : Execution) (n : Nat) :
    Safe fs (captureStderr e n) (fun x => x.stdin = e.stdin) :=
  (stderrOf_safe fs e).bind (fun _ h => Safe.pure h)

theorem addExec_safe (fs : FS) (e : Execution) : Safe fs (addExec e) (fun _ => True) :=
  Safe.fresh.bind' (fun _ => Safe.upd _)

theorem bindCallbacks_safe (fs : FS) (u : ExecutionUuid) (t : Topic) :
    Safe fs (bindCallbacks u t) (fun _ => True) :=
  (Safe.upd _).bind' (fun _ => Safe.upd _)

theorem addDep_safe (fs : FS) (e : Execution) (d : DepSpec) (h : e.stdin = none) :
    Safe fs (addDep fs e d) (fun x => x.stdin = none) :=
  Safe.fresh.bind' (fun _ => (provideFile_safe fs _ _).bind' (fun _ => Safe.pure h))

theorem addArg_safe (fs : FS) (s : Src) (e : Execution) (a : String) (h : e.stdin = none) :
    Safe fs (addArg fs s e a) (fun x => x.stdin = none) :=
  Safe.ite (fun _ => addDep_safe fs e _ h) (fun _ => Safe.pure h)

theorem writeBin_safe (fs : FS) (s : Src) (copy : Bool) (exe : FileUuid) :
    Safe fs (writeBin s copy exe) (fun _ => True) := by
  unfold writeBin
  split
  · exact Safe.upd _
  · exact Safe.pure trivial

theorem finalize_safe (fs : FS) (s : Src) (c : Compiler) (copy : Bool) :
    Safe fs (finalize fs s c copy) (fun _ => True) := by
  unfold finalize
  refine (newExecution_safe fs _).bind (fun e he => ?_)
  refine (Safe.eachWith (I := fun x => x.stdin = none)
    (fun e d _ h => addDep_safe fs e d h) he).bind (fun e he => ?_)
  refine Safe.fresh.bind' (fun _ => ?_)
  refine (provideFile_safe fs _ _).bind' (fun _ => ?_)
  refine Safe.bind' (Q := fun _ => True) ?_ (fun e => ?_)
  · cases compilationGrader s with
    | none => exact Safe.pure trivial
    | some g => exact (provideFile_safe fs _ _).bind' (fun _ => Safe.pure trivial)
  · refine (outputOf_safe fs _ _).bind' (fun p => ?_)
    exact (writeBin_safe fs _ _ _).bind' (fun _ => Safe.pure trivial)

theorem prepare_safe (fs : FS) (s : Src) : Safe fs (prepare fs s) (fun _ => True) := by
  unfold prepare
  refine (Safe.look _).bind' (fun cell => (Safe.look _).bind' (fun copy => ?_))
  cases cell with
  | some f => exact Safe.pure trivial
  | none =>
    cases s.lang.compiler with
    | some c =>
      refine (finalize_safe fs s c copy).bind' (fun p => ?_)
      refine (captureStdout_safe fs _ _).bind' (fun e => ?_)
      refine (captureStderr_safe fs _ _).bind' (fun e => ?_)
      refine (addExec_safe fs _).bind' (fun _ => ?_)
      exact (Safe.upd _).bind' (fun _ => Safe.pure trivial)
    | none =>
      refine Safe.fresh.bind' (fun _ => ?_)
      refine (writeBin_safe fs _ _ _).bind' (fun _ => ?_)
      refine (Safe.upd _).bind' (fun _ => ?_)
      exact (provideFile_safe fs _ _).bind' (fun _ => Safe.pure trivial)

theorem bindCompilation_safe (fs : FS) (s : Src) (r : Option ExecutionUuid) :
    Safe fs (bindCompilation s r) (fun _ => True) := by
  cases r with
  | none => exact Safe.pure trivial
  | some u => exact (bindCallbacks_safe fs _ _).bind' (fun _ => Safe.upd _)

theorem prepareBound_safe (fs : FS) (s : Src) : Safe fs (prepareBound fs s) (fun _ => True) :=
  (prepare_safe fs s).bind' (fun r => bindCompilation_safe fs s r)

theorem execute_safe (fs : FS) (s : Src) (args : List String) :
    Safe fs (execute fs s args) (fun e => e.stdin = none) := by
  unfold execute
  refine (prepare_safe fs s).bind' (fun comp => ?_)
  refine (newExecution_safe fs _).bind (fun e he => ?_)
  refine (Safe.eachWith (I := fun x => x.stdin = none)
    (fun e a _ h => addArg_safe fs s e a h) he).bind (fun e he => ?_)
  refine (Safe.look _).bind' (fun exe => ?_)
  refine (Safe.eachWith (I := fun x => x.stdin = none)
    (fun e d _ h => addDep_safe fs e d h) (by exact he)).bind (fun e he => ?_)
  refine Safe.bind (Q := fun x => x.stdin = none) ?_ (fun e he => ?_)
  · cases runtimeGrader s with
    | none => exact Safe.pure he
    | some g => exact (provideFile_safe fs _ _).bind' (fun _ => Safe.pure he)
  · exact (bindCompilation_safe fs s comp).bind' (fun _ => Safe.pure he)

theorem bindExecIo_safe (fs : FS) (task : Task) (e : Execution) (input : FileUuid)
    (handle : Option FileUuid) : Safe fs (bindExecIo task e input handle) (fun _ => True) := by
  unfold bindExecIo
  cases task.outfile with
  | none => exact (stdoutOf_safe fs _).mono (fun _ _ => trivial)
  | some o => exact outputOf_safe fs _ _

theorem addOptional_safe (fs : FS) (t : Topic) (e : Option Execution) :
    Safe fs (addOptional t e) (fun _ => True) := by
  cases e with
  | none => exact Safe.pure trivial
  | some e =>
    refine (captureStderr_safe fs _ _).bind' (fun e => ?_)
    refine (bindCallbacks_safe fs _ _).bind' (fun _ => ?_)
    exact (Safe.upd _).bind' (fun _ => addExec_safe fs _)

theorem static_safe {α : Type} (fs : FS) (path : String) {m : B α} {Q : α → Prop}
    (h : Safe fs m Q) :
    Safe fs (if fs.present path then m else fail (.missingFile path)) Q := by
  refine Safe.ite (fun _ => h) (fun hp => fun ev => ⟨fun e he => ?_, fun a ev' ha => ?_⟩)
  · cases he
    exact ⟨path, rfl, Or.inr (by simpa using hp)⟩
  · cases ha

theorem generateAndBind_safe (fs : FS) (root : String) (st tc : Nat) (g : InputGenerator) :
    Safe fs (g.generateAndBind fs root st tc) (fun _ => True) := by
  unfold InputGenerator.generateAndBind
  refine Safe.bind' (Q := fun _ => True) ?_ (fun p => ?_)
  · cases g with
    | staticFile path =>
      exact static_safe fs path
        (Safe.fresh.bind' (fun _ => (provideFile_safe fs _ _).bind' (fun _ => Safe.pure trivial)))
    | custom src args =>
      exact (execute_safe fs src args).bind' (fun e =>
        (stdoutOf_safe fs _).bind' (fun _ => Safe.pure trivial))
  · exact (Safe.upd _).bind' (fun _ => (addOptional_safe fs _ _).bind' (fun _ => Safe.pure trivial))

theorem validateAndBind_safe (fs : FS) (st : Nat) (name : Option String) (tc : Nat)
    (input : FileUuid) (v : InputValidator) :
    Safe fs (v.validateAndBind fs st name tc input) (fun _ => True) := by
  unfold InputValidator.validateAndBind
  refine Safe.bind' (Q := fun _ => True) ?_ (fun p => ?_)
  · cases v with
    | assumeValid => exact Safe.pure trivial
    | custom src args =>
      exact (execute_safe fs src args).bind' (fun e =>
        (stdoutOf_safe fs _).bind' (fun _ => Safe.pure trivial))
  · exact (addOptional_safe fs _ _).bind' (fun _ => Safe.pure trivial)

theorem outputAndBind_safe (fs : FS) (task : Task) (st tc : Nat) (input : FileUuid)
    (handle : Option FileUuid) (g : OutputGenerator) :
    Safe fs (g.generateAndBind fs task st tc input handle) (fun o => o.isSome = true) := by
  unfold OutputGenerator.generateAndBind
  refine Safe.bind (Q := fun p => p.1.isSome = true) ?_ (fun p hp => ?_)
  · cases g with
    | notAvailable =>
      exact Safe.fresh.bind' (fun _ => (Safe.upd _).bind' (fun _ => Safe.pure rfl))
    | staticFile path =>
      exact static_safe fs path
        (Safe.fresh.bind' (fun _ => (provideFile_safe fs _ _).bind' (fun _ => Safe.pure rfl)))
    | custom src args =>
      exact (execute_safe fs src args).bind' (fun e =>
        (bindExecIo_safe fs task _ _ _).bind' (fun _ => Safe.pure rfl))
  · refine (addOptional_safe fs _ _).bind' (fun _ => ?_)
    refine Safe.bind' (Q := fun _ => True) ?_ (fun _ => Safe.pure hp)
    cases p.1 with
    | none => exact Safe.pure trivial
    | some f => exact Safe.upd _

theorem checkAndBind_safe (fs : FS) (st tc sol : Nat) (input correct test : FileUuid)
    (c : Checker) : Safe fs (c.checkAndBind fs st tc sol input correct test) (fun _ => True) := by
  unfold Checker.checkAndBind
  refine Safe.bind' (Q := fun _ => True) ?_ (fun e => ?_)
  · cases c with
    | whiteDiff =>
      exact (newExecution_safe fs _).bind' (fun e => (Safe.upd _).bind' (fun _ => Safe.pure trivial))
    | custom src =>
      refine (execute_safe fs src _).bind' (fun e => ?_)
      refine (captureStdout_safe fs _ _).bind' (fun e => ?_)
      refine (captureStderr_safe fs _ _).bind' (fun e => ?_)
      exact (Safe.upd _).bind' (fun _ => Safe.pure trivial)
  · exact (bindCallbacks_safe fs _ _).bind' (fun _ => addExec_safe fs _)

theorem batchEvaluate_safe (fs : FS) (task : Task) (st tc sol : Nat) (src : Src)
    (input : FileUuid) (handle correct : Option FileUuid) (checker : Checker)
    (h : correct.isSome = true) :
    Safe fs (batchEvaluate fs task st tc sol src input handle correct checker) (fun _ => True) := by
  cases correct with
  | none => cases h
  | some f =>
    unfold batchEvaluate
    refine (execute_safe fs src _).bind' (fun e => ?_)
    refine (bindExecIo_safe fs task _ _ _).bind' (fun p => ?_)
    refine (bindCallbacks_safe fs _ _).bind' (fun _ => ?_)
    refine (Safe.upd _).bind' (fun _ => ?_)
    exact (addExec_safe fs _).bind' (fun _ => checkAndBind_safe fs st tc sol _ _ _ checker)

theorem newFifos_safe (fs : FS) (n : Nat) : Safe fs (newFifos n) (fun _ => True) := by
  induction n with
  | zero => exact Safe.pure trivial
  | succ n ih =>
    exact Safe.fresh.bind' (fun _ => Safe.fresh.bind' (fun _ => ih.bind' (fun _ => Safe.pure trivial)))

theorem processExec_safe (fs : FS) (task : Task) (st tc sol : Nat) (src : Src) (io : UserIo)
    (n sender : Nat) (p : Nat × (FifoUuid × FifoUuid)) :
    Safe fs (processExec fs task st tc sol src io n sender p) (fun _ => True) := by
  obtain ⟨i, a, b⟩ := p
  unfold processExec
  refine (execute_safe fs src _).bind (fun e he => ?_)
  refine Safe.bind' (Q := fun _ => True) ?_ (fun e => ?_)
  · cases io with
    | fifoIo => exact Safe.pure trivial
    | stdIo =>
      refine Safe.ite (fun hs => ?_) (fun _ => Safe.pure trivial)
      rw [he] at hs; cases hs
  · exact (bindCallbacks_safe fs _ _).bind' (fun _ => (Safe.upd _).bind' (fun _ => Safe.pure trivial))

theorem commEvaluate_safe (fs : FS) (task : Task) (st tc sol : Nat) (src : Src)
    (input : FileUuid) (handle : Option FileUuid) (manager : Src) (n : Nat) (io : UserIo) :
    Safe fs (commEvaluate fs task st tc sol src input handle manager n io) (fun _ => True) := by
  unfold commEvaluate
  refine (newFifos_safe fs n).bind' (fun fifos => ?_)
  refine (Safe.look _).bind' (fun sender => ?_)
  refine (Safe.upd _).bind' (fun _ => ?_)
  refine (Safe.eachWith (I := fun _ => True) (fun s x _ _ =>
    (processExec_safe fs task st tc sol src io n sender x).bind' (fun _ => Safe.pure trivial))
    trivial).bind' (fun execs => ?_)
  refine (execute_safe fs manager _).bind' (fun e => ?_)
  refine (captureStdout_safe fs _ _).bind' (fun e => ?_)
  refine (captureStderr_safe fs _ _).bind' (fun e => ?_)
  refine (bindExecIo_safe fs task _ _ _).bind' (fun p => ?_)
  refine (bindCallbacks_safe fs _ _).bind' (fun _ => ?_)
  refine (Safe.upd _).bind' (fun _ => ?_)
  exact Safe.fresh.bind' (fun _ => Safe.upd _)

theorem buildTestcase_safe (fs : FS) (root : String) (task : Task) (sols : List Src)
    (st : Subtask) (io : GeneratedIo) (k : Nat) {tc : Testcase}
    (ht : task.testcases.get? k = some tc) :
    Safe fs (buildTestcase fs root task sols st io k)
      (fun io' => ∀ j, io'.get? j = none ↔ j ≠ tc.id ∧ io.get? j = none) := by
  unfold buildTestcase
  simp only [ht]
  refine (generateAndBind_safe fs root _ _ _).bind' (fun input => ?_)
  refine (validateAndBind_safe fs _ _ _ _ _).bind' (fun handle => ?_)
  refine (outputAndBind_safe fs task _ _ _ _ _).bind (fun output ho => ?_)
  refine Safe.bind' (Q := fun _ => True) ?_ (fun _ => Safe.pure ?_)
  · refine Safe.each (fun p _ => ?_)
    cases task.type with
    | batch c => exact batchEvaluate_safe fs task _ _ _ _ _ _ _ _ ho
    | communication m n io => exact commEvaluate_safe fs task _ _ _ _ _ _ _ _ _
    | none => exact Safe.pure trivial
  · intro j
    rw [AMap.get?_insert]
    split <;> simp_all

theorem prepareDag_safe (fs : FS) (t : TaskType) : Safe fs (t.prepareDag fs) (fun _ => True) := by
  cases t with
  | batch c =>
    cases c with
    | whiteDiff => exact Safe.pure trivial
    | custom s => exact prepareBound_safe fs s
  | communication m n io => exact prepareBound_safe fs m
  | none => exact Safe.pure trivial

/-- The io of the testcases `done` are there, and no other. -/
def IoFor (done : List Nat) (io : GeneratedIo) : Prop := ∀ j, io.get? j = none ↔ j ∉ done

theorem subtask_safe (fs : FS) (root : String) (task : Task) (sols : List Src) (st : Subtask)
    (hid : ∀ k tc, task.testcases.get? k = some tc → tc.id = k) {owned : List Nat} :
    ∀ {done : List Nat} {io : GeneratedIo}, (∀ k ∈ owned, ∃ tc, task.testcases.get? k = some tc) →
    IoFor done io → Safe fs (eachWith (buildTestcase fs root task sols st) owned io)
      (IoFor (done ++ owned)) := by
  induction owned with
  | nil => intro done io _ h; exact Safe.pure (by simpa using h)
  | cons k owned ih =>
    intro done io ho h
    obtain ⟨tc, ht⟩ := ho k (by simp)
    refine (buildTestcase_safe fs root task sols st io k ht).bind (fun io' h' => ?_)
    have h2 : IoFor (done ++ [k]) io' := by
      intro j
      rw [h' j, hid _ _ ht, h j]
      simp only [List.mem_append, List.mem_singleton, not_or]
      grind
    have := ih (fun x hx => ho x (by simp [hx])) h2
    simpa using this

theorem subtasks_safe (fs : FS) (root : String) (task : Task) (sols : List Src)
    (hid : ∀ k tc, task.testcases.get? k = some tc → tc.id = k) {sts : List Subtask} :
    ∀ {done : List Nat} {io : GeneratedIo},
    (∀ st ∈ sts, ∀ k ∈ st.owned, ∃ tc, task.testcases.get? k = some tc) →
    IoFor done io → Safe fs (eachWith (fun io (st : Subtask) =>
      eachWith (buildTestcase fs root task sols st) st.owned io) sts io)
      (IoFor (done ++ sts.flatMap (·.owned))) := by
  induction sts with
  | nil => intro done io _ h; exact Safe.pure (by simpa using h)
  | cons st sts ih =>
    intro done io ho h
    refine (subtask_safe fs root task sols st hid (ho st (by simp)) h).bind (fun io' h' => ?_)
    have := ih (fun x hx => ho x (by simp [hx])) h'
    simpa using this

theorem buildDag_safe (fs : FS) (root : String) (task : Task) (sols : List Src)
    (hid : ∀ k tc, task.testcases.get? k = some tc → tc.id = k)
    (hown : ∀ st ∈ task.subtasks.values, ∀ k ∈ st.owned, ∃ tc, task.testcases.get? k = some tc)
    (hall : ∀ st ∈ task.subtasks.values, ∀ k ∈ st.testcases,
      ∃ st' ∈ task.subtasks.values, k ∈ st'.owned) :
    Safe fs (buildDag fs root task sols) (fun _ => True) := by
  unfold buildDag
  refine (prepareDag_safe fs _).bind' (fun _ => ?_)
  refine (subtasks_safe fs root task sols hid (done := []) hown (by intro j; simp [AMap.get?])).bind
    (fun io hio => ?_)
  rw [List.nil_append] at hio
  refine (Safe.each (fun p hp => ?_)).bind' (fun _ => ?_)
  · refine Safe.ite (fun _ => Safe.pure trivial) (fun hc => ?_)
    exfalso
    apply hc
    have hk : p.1 ∈ task.subtasks.values.flatMap (·.owned) := by
      apply Classical.byContradiction
      intro hn
      have h1 := (hio p.1).2 hn
      exact AMap.get?_eq_none_iff.1 h1 (List.mem_map.2 ⟨p, hp, rfl⟩)
    obtain ⟨st, hst, hks⟩ := List.mem_flatMap.1 hk
    obtain ⟨tc, ht⟩ := hown st hst _ hks
    simp [AMap.contains, ht]
  · refine (Safe.each (fun st hst => ?_)).bind' (fun _ => Safe.pure trivial)
    refine Safe.each (fun k hk => Safe.ite (fun _ => Safe.pure trivial) (fun _ => ?_))
    obtain ⟨st', hst', hk'⟩ := hall st hst k hk
    obtain ⟨tc, ht⟩ := hown st' hst' k hk'
    simp only [ht]
    cases hg : io.get? k with
    | none =>
      exact absurd (List.mem_flatMap.2 ⟨st', hst', hk'⟩) ((hio k).1 hg)
    | some p =>
      obtain ⟨input, output⟩ := p
      exact (validateAndBind_safe fs _ _ _ _ _).bind' (fun _ => Safe.pure trivial)

end TM.Build
