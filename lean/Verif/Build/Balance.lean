import Verif.Build.Model
import Verif.CheckDag.Spec
/-!
# One report for each execution
-/
namespace TM.Build
open TM DagSpec

/-- The execution a handler reports to the UI. -/
def reportedBy : ExecutionUuid × Handler → Option ExecutionUuid
  | (u, .report _) => some u
  | _ => none

/-- How many reports of `u` there are more than executions with uuid `u`. -/
def gap (u : ExecutionUuid) (ev : Eval) : Int :=
  ((ev.handlers.filterMap reportedBy).count u : Int) - (((allExecs ev.dag).map (·.uuid)).count u : Int)

/-- 1 if `v` is `u`. -/
def one (u v : ExecutionUuid) : Int := if v = u then 1 else 0

/-- The uuids of the groups have been drawn. -/
def Bounded (ev : Eval) : Prop := ∀ k ∈ ev.dag.executionGroups.keys, k < ev.next

/-- Running `m` changes the gap of `u` by `d`, and the result satisfies `Q`. -/
def Gap (u : ExecutionUuid) (m : B α) (d : α → Int) (Q : α → Prop) : Prop :=
  ∀ ev a ev', Bounded ev → m ev = .ok (a, ev') → Bounded ev' ∧ gap u ev' = gap u ev + d a ∧ Q a

/-- Nothing changes. -/
abbrev Even (u : ExecutionUuid) (m : B α) : Prop := Gap u m (fun _ => 0) (fun _ => True)

theorem Gap.bind {u : ExecutionUuid} {m : B α} {f : α → B β} {d : α → Int} {Q : α → Prop}
    {d' : β → Int} {R : β → Prop} (h : Gap u m d Q)
    (k : ∀ a, Q a → Gap u (f a) (fun b => d' b - d a) R) : Gap u (m >>= f) d' R := by
  intro ev b ev' h0 hr
  obtain ⟨a, ev1, h1, h2⟩ := bind_ok.1 hr
  obtain ⟨b1, e1, q1⟩ := h _ _ _ h0 h1
  obtain ⟨b2, e2, q2⟩ := k a q1 _ _ _ b1 h2
  refine ⟨b2, ?_, q2⟩
  simp only at e2
  omega

theorem Gap.congr {u : ExecutionUuid} {m : B α} {d d' : α → Int} {Q R : α → Prop} (h : Gap u m d Q)
    (hd : ∀ a, Q a → d' a = d a) (hq : ∀ a, Q a → R a) : Gap u m d' R := by
  intro ev a ev' h0 hr
  obtain ⟨b1, e1, q1⟩ := h _ _ _ h0 hr
  exact ⟨b1, by rw [hd a q1]; exact e1, hq a q1⟩

/-- Sequencing when the first part changes nothing. -/
theorem Gap.bind0 {u : ExecutionUuid} {m : B α} {f : α → B β} {Q : α → Prop}
    {d' : β → Int} {R : β → Prop} (h : Gap u m (fun _ => 0) Q)
    (k : ∀ a, Q a → Gap u (f a) d' R) : Gap u (m >>= f) d' R :=
  h.bind (fun a ha => (k a ha).congr (fun _ _ => by simp) (fun _ h => h))

theorem Gap.pure {u : ExecutionUuid} {a : α} {d : α → Int} {Q : α → Prop} (hd : d a = 0) (hq : Q a) :
    Gap u (pure a : B α) d Q := by
  intro ev b ev' h0 hr
  obtain ⟨rfl, rfl⟩ := pure_ok.1 hr
  exact ⟨h0, by omega, hq⟩

theorem Gap.fail {u : ExecutionUuid} {e : Err} {d : α → Int} {Q : α → Prop} :
    Gap u (fail e : B α) d Q := by
  intro ev b ev' _ hr
  exact (fail_ok.1 hr).elim

theorem Gap.look {u : ExecutionUuid} {f : Eval → α} : Even u (look f) := by
  intro ev b ev' h0 hr
  obtain ⟨-, rfl⟩ := look_ok.1 hr
  exact ⟨h0, by simp, trivial⟩

theorem Gap.fresh {u : ExecutionUuid} : Even u fresh := by
  intro ev b ev' h0 hr
  obtain ⟨-, rfl⟩ := fresh_ok.1 hr
  exact ⟨fun k hk => Nat.lt_succ_of_lt (h0 k hk), by simp [gap], trivial⟩

theorem Gap.upd {u : ExecutionUuid} {f : Eval → Eval} {d : Int}
    (h : ∀ ev, gap u (f ev) = gap u ev + d)
    (hb : ∀ ev, (f ev).dag.executionGroups = ev.dag.executionGroups ∧ (f ev).next = ev.next) :
    Gap u (upd f) (fun _ => d) (fun _ => True) := by
  intro ev b ev' h0 hr
  rw [upd_ok] at hr
  subst hr
  refine ⟨?_, h ev, trivial⟩
  unfold Bounded
  rw [(hb ev).1, (hb ev).2]
  exact h0

theorem Gap.each {u : ExecutionUuid} {f : α → B Unit} {l : List α} (h : ∀ x ∈ l, Even u (f x)) :
    Even u (each f l) := by
  induction l with
  | nil => exact Gap.pure rfl trivial
  | cons x l ih => exact (h x (by simp)).bind0 (fun _ _ => ih (fun y hy => h y (by simp [hy])))

theorem Gap.eachWith {u : ExecutionUuid} {f : σ → α → B σ} {l : List α} {d : σ → Int} {Q : σ → Prop}
    (h : ∀ s x, x ∈ l → Q s → Gap u (f s x) (fun s' => d s' - d s) Q) :
    ∀ s, Q s → Gap u (eachWith f l s) (fun s' => d s' - d s) Q := by
  induction l with
  | nil => intro s hs; exact Gap.pure (by omega) hs
  | cons x l ih =>
    intro s hs
    refine (h s x (by simp) hs).bind (fun s1 hs1 => ?_)
    exact (ih (fun s y hy => h s y (by simp [hy])) s1 hs1).congr (fun _ _ => by omega) (fun _ h => h)

theorem Gap.eachWith0 {u : ExecutionUuid} {f : σ → α → B σ} {l : List α} {Q : σ → Prop}
    (h : ∀ s x, x ∈ l → Q s → Gap u (f s x) (fun _ => 0) Q) (s : σ) (hs : Q s) :
    Gap u (Build.eachWith f l s) (fun _ => 0) Q :=
  (Gap.eachWith (d := fun _ => 0) (fun s x hx hs => (h s x hx hs).congr (fun _ _ => by omega)
    (fun _ h => h)) s hs).congr (fun _ _ => by omega) (fun _ h => h)

/-! ## The elementary steps -/

section
variable (u : ExecutionUuid)

theorem newExecution_gap (c : ExecutionCommand) : Even u (newExecution c) :=
  Gap.fresh.bind0 (fun _ _ => Gap.pure rfl trivial)

theorem stdoutOf_gap (e : Execution) :
    Gap u (stdoutOf e) (fun _ => 0) (fun p => p.2.uuid = e.uuid) := by
  unfold stdoutOf
  cases e.stdout with
  | some f => exact Gap.pure rfl rfl
  | none => exact Gap.fresh.bind0 (fun _ _ => Gap.pure rfl rfl)

theorem stderrOf_gap (e : Execution) :
    Gap u (stderrOf e) (fun _ => 0) (fun p => p.2.uuid = e.uuid) := by
  unfold stderrOf
  cases e.stderr with
  | some f => exact Gap.pure rfl rfl
  | none => exact Gap.fresh.bind0 (fun _ _ => Gap.pure rfl rfl)

theorem outputOf_gap (e : Execution) (path : String) :
    Gap u (outputOf e path) (fun _ => 0) (fun p => p.2.uuid = e.uuid) := by
  unfold outputOf
  refine Gap.fresh.bind0 (fun f _ => ?_)
  cases e.outputs.get? path with
  | some f => exact Gap.pure rfl rfl
  | none => exact Gap.pure rfl rfl

theorem captureStdout_gap (e : Execution) (n : Nat) :
    Gap u (captureStdout e n) (fun _ => 0) (fun e' => e'.uuid = e.uuid) :=
  (stdoutOf_gap u e).bind0 (fun _ h => Gap.pure rfl h)

theorem captureStderr_gap (e : Execution) (n : Nat) :
    Gap u (captureStderr e n) (fun _ => 0) (fun e' => e'.uuid = e.uuid) :=
  (stderrOf_gap u e).bind0 (fun _ h => Gap.pure rfl h)

theorem provideFile_gap (fs : FS) (f : FileUuid) (path : String) : Even u (provideFile fs f path) := by
  unfold provideFile
  cases fs.key path with
  | none => exact Gap.fail
  | some k =>
    refine Gap.upd (fun ev => ?_) (fun ev => ⟨rfl, rfl⟩)
    simp [gap, DagData.provide, allExecs]

theorem provideContent_gap (f : FileUuid) (k : FileStoreKey) (c : List Nat) :
    Even u (provideContent f k c) :=
  Gap.upd (fun ev => by simp [gap, DagData.provide, allExecs]) (fun ev => ⟨rfl, rfl⟩)

theorem writeFileTo_gap (f : FileUuid) (dest : String) (x : Bool) : Even u (writeFileTo f dest x) := by
  refine Gap.upd (fun ev => ?_) (fun ev => ?_)
  · split <;> simp [gap]
  · split <;> exact ⟨rfl, rfl⟩

theorem onExec_gap (v : ExecutionUuid) (h : Handler) (hh : reportedBy (v, h) = none) :
    Even u (onExec v h) :=
  Gap.upd (fun ev => by simp [gap, hh]) (fun ev => ⟨rfl, rfl⟩)

theorem bindCallbacks_gap (v : ExecutionUuid) (t : Topic) :
    Gap u (bindCallbacks v t) (fun _ => one u v) (fun _ => True) := by
  refine Gap.bind0 (Q := fun _ => True) (Gap.upd (d := 0) (fun ev => by simp [gap])
    (fun ev => ⟨rfl, rfl⟩)) (fun _ _ => ?_)
  refine Gap.upd (fun ev => ?_) (fun ev => ⟨rfl, rfl⟩)
  simp only [gap, List.filterMap_append, List.count_append, one]
  simp only [List.filterMap_cons, reportedBy, List.filterMap_nil, List.count_cons, List.count_nil,
    beq_iff_eq]
  split <;> simp <;> omega

/-- How many of the executions have uuid `u`. -/
def many (es : List Execution) : Int := ((es.map (·.uuid)).count u : Int)

theorem many_append (es fs : List Execution) : many u (es ++ fs) = many u es + many u fs := by
  simp [many]

theorem many_one (e : Execution) : many u [e] = one u e.uuid := by
  simp only [many, one, List.map_cons, List.map_nil, List.count_cons, List.count_nil, beq_iff_eq]
  split <;> rfl

/-- A group with a fresh uuid is added. -/
def pushGroup (ev : Eval) (g : ExecutionGroup) : Eval :=
  { ev with
    next := ev.next + 1
    dag := { ev.dag with executionGroups := ev.dag.executionGroups.insert ev.next g } }

theorem freshGroup_gap {ev : Eval} (h : Bounded ev) (g : ExecutionGroup) :
    Bounded (pushGroup ev g) ∧ gap u (pushGroup ev g) = gap u ev - many u g.executions := by
  have he : ev.dag.executionGroups.erase ev.next = ev.dag.executionGroups := by
    unfold AMap.erase
    apply List.filter_eq_self.2
    intro p hp
    have := h p.1 (List.mem_map.2 ⟨p, hp, rfl⟩)
    have := Nat.ne_of_lt this
    simpa using this
  refine ⟨?_, ?_⟩
  · intro k hk
    simp only [pushGroup, AMap.insert, he, AMap.keys, List.map_cons, List.mem_cons] at hk
    rcases hk with rfl | hk
    · exact Nat.lt_succ_self _
    · exact Nat.lt_succ_of_lt (h k hk)
  · simp only [pushGroup, gap, allExecs, AMap.insert, he, List.flatMap_cons, List.map_append, List.count_append,
      many]
    omega

theorem addExec_gap (e : Execution) :
    Gap u (addExec e) (fun _ => - one u e.uuid) (fun _ => True) := by
  intro ev a ev' h0 hr
  simp only [addExec, bind_ok, fresh_ok, upd_ok] at hr
  obtain ⟨_, _, ⟨rfl, rfl⟩, rfl⟩ := hr
  obtain ⟨E, hE⟩ : ∃ E : Execution, E = { e with config := ev.dag.config } := ⟨_, rfl⟩
  obtain ⟨h1, h2⟩ := freshGroup_gap u h0 { uuid := ev.next, executions := [E] }
  have hu : E.uuid = e.uuid := by rw [hE]
  subst hE
  refine ⟨h1, ?_, trivial⟩
  rw [many_one] at h2
  refine Eq.trans h2 ?_
  simp only
  omega

theorem addGroup_gap (es : List Execution) (fifo : List FifoUuid) :
    Gap u (fresh >>= fun g => addGroup { uuid := g, executions := es, fifo := fifo })
      (fun _ => - many u es) (fun _ => True) := by
  intro ev a ev' h0 hr
  simp only [addGroup, bind_ok, fresh_ok, upd_ok] at hr
  obtain ⟨_, _, ⟨rfl, rfl⟩, rfl⟩ := hr
  obtain ⟨f, hf⟩ : ∃ f : Execution → Execution, f = fun e => { e with config := ev.dag.config } :=
    ⟨_, rfl⟩
  obtain ⟨h1, h2⟩ := freshGroup_gap u h0 { uuid := ev.next, executions := es.map f, fifo := fifo }
  have h3 : many u (es.map f) = many u es := by
    simp [many, Function.comp_def, hf]
  subst hf
  refine ⟨h1, ?_, trivial⟩
  refine Eq.trans h2 ?_
  simp only
  omega

/-! ## Source files -/

theorem addDep_gap (fs : FS) (e : Execution) (d : DepSpec) :
    Gap u (addDep fs e d) (fun _ => 0) (fun e' => e'.uuid = e.uuid) :=
  Gap.fresh.bind0 (fun _ _ => (provideFile_gap u fs _ _).bind0 (fun _ _ => Gap.pure rfl rfl))

theorem addDeps_gap (fs : FS) (ds : List DepSpec) (e : Execution) :
    Gap u (eachWith (addDep fs) ds e) (fun _ => 0) (fun e' => e'.uuid = e.uuid) :=
  Gap.eachWith0 (Q := fun e' => e'.uuid = e.uuid) (fun s d _ hs =>
    (addDep_gap u fs s d).congr (fun _ _ => rfl) (fun _ h => h.trans hs)) e rfl

theorem writeBin_gap (s : Src) (copy : Bool) (exe : FileUuid) : Even u (writeBin s copy exe) := by
  unfold writeBin
  split
  · exact writeFileTo_gap u _ _ _
  · exact Gap.pure rfl trivial

theorem finalize_gap (fs : FS) (s : Src) (c : Compiler) (copy : Bool) :
    Even u (finalize fs s c copy) := by
  unfold finalize
  refine (newExecution_gap u _).bind0 (fun e _ => ?_)
  refine (addDeps_gap u fs _ _).bind0 (fun e _ => ?_)
  refine Gap.fresh.bind0 (fun f _ => ?_)
  refine (provideFile_gap u fs _ _).bind0 (fun _ _ => ?_)
  refine Gap.bind0 (Q := fun _ => True) ?_ (fun e _ => ?_)
  · cases compilationGrader s with
    | none => exact Gap.pure rfl trivial
    | some g => exact (provideFile_gap u fs _ _).bind0 (fun _ _ => Gap.pure rfl trivial)
  refine (outputOf_gap u _ _).bind0 (fun p _ => ?_)
  exact (writeBin_gap u _ _ _).bind0 (fun _ _ => Gap.pure rfl trivial)

/-- The compilation, if any. -/
def maybe (r : Option ExecutionUuid) : Int := match r with
  | some v => one u v
  | none => 0

theorem prepare_gap (fs : FS) (s : Src) :
    Gap u (prepare fs s) (fun r => - maybe u r) (fun _ => True) := by
  unfold prepare
  refine Gap.look.bind0 (fun cell _ => Gap.look.bind0 (fun copy _ => ?_))
  cases cell with
  | some f => exact Gap.pure rfl trivial
  | none =>
    cases s.lang.compiler with
    | none =>
      refine Gap.fresh.bind0 (fun f _ => (writeBin_gap u _ _ _).bind0 (fun _ _ => ?_))
      refine Gap.bind0 (Q := fun _ => True)
        (Gap.upd (fun ev => by simp [gap]) (fun _ => ⟨rfl, rfl⟩)) (fun _ _ => ?_)
      exact (provideFile_gap u fs _ _).bind0 (fun _ _ => Gap.pure rfl trivial)
    | some c =>
      refine (finalize_gap u fs s c copy).bind0 (fun p _ => ?_)
      refine (captureStdout_gap u _ _).bind0 (fun e1 h1 => ?_)
      refine (captureStderr_gap u _ _).bind0 (fun e2 h2 => ?_)
      refine (addExec_gap u _).bind (fun _ _ => ?_)
      refine Gap.bind0 (Q := fun _ => True)
        (Gap.upd (fun ev => by simp [gap]) (fun _ => ⟨rfl, rfl⟩)) (fun _ _ => ?_)
      exact Gap.pure (by simp [maybe]) trivial

theorem bindCompilation_gap (s : Src) (r : Option ExecutionUuid) :
    Gap u (bindCompilation s r) (fun _ => maybe u r) (fun _ => True) := by
  cases r with
  | none => exact Gap.pure rfl trivial
  | some v =>
    exact (bindCallbacks_gap u v _).bind (fun _ _ => (onExec_gap u v _ rfl).congr
      (fun _ _ => by simp [maybe]) (fun _ h => h))

theorem prepareBound_gap (fs : FS) (s : Src) : Even u (prepareBound fs s) :=
  (prepare_gap u fs s).bind (fun r _ => (bindCompilation_gap u s r).congr
    (fun _ _ => by simp) (fun _ h => h))

theorem addArg_gap (fs : FS) (s : Src) (e : Execution) (a : String) :
    Gap u (addArg fs s e a) (fun _ => 0) (fun e' => e'.uuid = e.uuid) := by
  unfold addArg
  simp only
  split
  · exact addDep_gap u fs e _
  · exact Gap.pure rfl rfl

theorem execute_gap (fs : FS) (s : Src) (args : List String) : Even u (execute fs s args) := by
  unfold execute
  refine (prepare_gap u fs s).bind (fun comp _ => ?_)
  have rest : ∀ {d : Int}, d = maybe u comp → ∀ {e : Execution},
      Gap u (bindCompilation s comp >>= fun _ => (pure e : B Execution)) (fun _ => d)
        (fun _ => True) := by
    intro d hd e
    exact (bindCompilation_gap u s comp).bind (fun _ _ => Gap.pure (by omega) trivial)
  refine (newExecution_gap u _).bind0 (fun e _ => ?_)
  refine Gap.bind0 (Q := fun _ => True) ((Gap.eachWith0 (Q := fun _ => True)
    (fun e a _ _ => (addArg_gap u fs s e a).congr (fun _ _ => rfl) (fun _ _ => trivial)) _ trivial))
    (fun e _ => ?_)
  refine Gap.look.bind0 (fun exe _ => ?_)
  refine (addDeps_gap u fs _ _).bind0 (fun e _ => ?_)
  refine Gap.bind0 (Q := fun _ => True) ?_ (fun e _ => rest (by omega))
  cases runtimeGrader s with
  | none => exact Gap.pure rfl trivial
  | some g => exact (provideFile_gap u fs _ _).bind0 (fun _ _ => Gap.pure rfl trivial)

/-! ## The pieces of a testcase -/

theorem addOptional_gap (t : Topic) (e : Option Execution) : Even u (addOptional t e) := by
  cases e with
  | none => exact Gap.pure rfl trivial
  | some e =>
    refine (captureStderr_gap u e _).bind0 (fun e' _ => ?_)
    refine (bindCallbacks_gap u _ _).bind (fun _ _ => ?_)
    refine (onExec_gap u _ _ rfl).bind0 (fun _ _ => ?_)
    exact (addExec_gap u e').congr (fun _ _ => by omega) (fun _ h => h)

theorem bindExecIo_gap (task : Task) (e : Execution) (input : FileUuid) (handle : Option FileUuid) :
    Gap u (bindExecIo task e input handle) (fun _ => 0) (fun p => p.2.uuid = e.uuid) := by
  unfold bindExecIo
  cases task.outfile <;> cases task.infile <;> cases handle <;>
    first
    | exact stdoutOf_gap u _
    | exact outputOf_gap u _ _

theorem generateAndBind_gap (fs : FS) (root : String) (st tc : Nat) (g : InputGenerator) :
    Even u (g.generateAndBind fs root st tc) := by
  unfold InputGenerator.generateAndBind
  refine Gap.bind0 (Q := fun _ => True) ?_ (fun p _ => (writeFileTo_gap u _ _ _).bind0 (fun _ _ =>
    (addOptional_gap u _ _).bind0 (fun _ _ => Gap.pure rfl trivial)))
  cases g with
  | staticFile path =>
    simp only [InputGenerator.generate]
    split
    · exact Gap.fresh.bind0 (fun f _ => (provideFile_gap u fs _ _).bind0 (fun _ _ => Gap.pure rfl trivial))
    · exact Gap.fail
  | custom src args =>
    exact (execute_gap u fs src args).bind0 (fun e _ => (stdoutOf_gap u _).bind0 (fun _ _ =>
      Gap.pure rfl trivial))

theorem validateAndBind_gap (fs : FS) (st : Nat) (name : Option String) (tc : Nat)
    (input : FileUuid) (v : InputValidator) : Even u (v.validateAndBind fs st name tc input) := by
  unfold InputValidator.validateAndBind
  refine Gap.bind0 (Q := fun _ => True) ?_ (fun p _ =>
    (addOptional_gap u _ _).bind0 (fun _ _ => Gap.pure rfl trivial))
  cases v with
  | assumeValid => exact Gap.pure rfl trivial
  | custom src args =>
    exact (execute_gap u fs src args).bind0 (fun e _ => (stdoutOf_gap u _).bind0 (fun _ _ =>
      Gap.pure rfl trivial))

theorem outputAndBind_gap (fs : FS) (task : Task) (st tc : Nat)
    (input : FileUuid) (handle : Option FileUuid) (g : OutputGenerator) :
    Even u (g.generateAndBind fs task st tc input handle) := by
  unfold OutputGenerator.generateAndBind
  refine Gap.bind0 (Q := fun _ => True) ?_ (fun p _ => (addOptional_gap u _ _).bind0 (fun _ _ =>
    Gap.bind0 (Q := fun _ => True) ?_ (fun _ _ => Gap.pure rfl trivial)))
  · cases g with
    | notAvailable =>
      exact Gap.fresh.bind0 (fun f _ => (provideContent_gap u _ _ _).bind0 (fun _ _ =>
        Gap.pure rfl trivial))
    | staticFile path =>
      simp only [OutputGenerator.generate]
      split
      · exact Gap.fresh.bind0 (fun f _ => (provideFile_gap u fs _ _).bind0 (fun _ _ => Gap.pure rfl trivial))
      · exact Gap.fail
    | custom src args =>
      exact (execute_gap u fs src args).bind0 (fun e _ => (bindExecIo_gap u _ _ _ _).bind0 (fun _ _ =>
        Gap.pure rfl trivial))
  · unfold writeOutput
    split
    · exact Gap.pure rfl trivial
    · exact writeFileTo_gap u _ _ _

theorem checkAndBind_gap (fs : FS) (st tc sol : Nat) (input correct test : FileUuid) (c : Checker) :
    Even u (c.checkAndBind fs st tc sol input correct test) := by
  unfold Checker.checkAndBind
  refine Gap.bind0 (Q := fun _ => True) ?_ (fun e _ => (bindCallbacks_gap u _ _).bind (fun _ _ =>
    (addExec_gap u e).congr (fun _ _ => by omega) (fun _ h => h)))
  cases c with
  | whiteDiff =>
    exact (newExecution_gap u _).bind0 (fun e _ => (onExec_gap u _ _ rfl).bind0 (fun _ _ =>
      Gap.pure rfl trivial))
  | custom src =>
    refine (execute_gap u fs src _).bind0 (fun e _ => ?_)
    refine (captureStdout_gap u _ _).bind0 (fun e _ => ?_)
    refine (captureStderr_gap u _ _).bind0 (fun e _ => ?_)
    exact (onExec_gap u _ _ rfl).bind0 (fun _ _ => Gap.pure rfl trivial)

theorem batchEvaluate_gap (fs : FS) (task : Task) (st tc sol : Nat) (src : Src) (input : FileUuid)
    (handle correct : Option FileUuid) (checker : Checker) :
    Even u (batchEvaluate fs task st tc sol src input handle correct checker) := by
  unfold batchEvaluate
  cases correct with
  | none => exact Gap.fail
  | some correct =>
    refine (execute_gap u fs src _).bind0 (fun e _ => ?_)
    refine (bindExecIo_gap u _ _ _ _).bind0 (fun p _ => ?_)
    refine (bindCallbacks_gap u _ _).bind (fun _ _ => ?_)
    refine (onExec_gap u _ _ rfl).bind0 (fun _ _ => ?_)
    refine (addExec_gap u _).bind (fun _ _ => ?_)
    exact (checkAndBind_gap u fs _ _ _ _ _ _ _).congr (fun _ _ => by simp) (fun _ h => h)

theorem newFifos_gap (n : Nat) : Even u (newFifos n) := by
  induction n with
  | zero => exact Gap.pure rfl trivial
  | succ n ih =>
    exact Gap.fresh.bind0 (fun _ _ => Gap.fresh.bind0 (fun _ _ => ih.bind0 (fun _ _ =>
      Gap.pure rfl trivial)))

theorem processExec_gap (fs : FS) (task : Task) (st tc sol : Nat) (src : Src) (io : UserIo)
    (n sender : Nat) (p : Nat × (FifoUuid × FifoUuid)) :
    Gap u (processExec fs task st tc sol src io n sender p) (fun e => one u e.uuid)
      (fun _ => True) := by
  unfold processExec
  refine (execute_gap u fs src _).bind0 (fun e _ => ?_)
  refine Gap.bind0 (Q := fun _ => True) ?_ (fun e _ => ?_)
  · cases io with
    | fifoIo => exact Gap.pure rfl trivial
    | stdIo =>
      simp only
      split
      · exact Gap.fail
      · exact Gap.pure rfl trivial
  refine (bindCallbacks_gap u _ _).bind (fun _ _ => ?_)
  refine (onExec_gap u _ _ rfl).bind0 (fun _ _ => ?_)
  exact Gap.pure (by simp) trivial

theorem commEvaluate_gap (fs : FS) (task : Task) (st tc sol : Nat) (src : Src) (input : FileUuid)
    (handle : Option FileUuid) (manager : Src) (n : Nat) (io : UserIo) :
    Even u (commEvaluate fs task st tc sol src input handle manager n io) := by
  unfold commEvaluate
  refine (newFifos_gap u n).bind0 (fun fifos _ => ?_)
  refine Gap.look.bind0 (fun sender _ => ?_)
  refine Gap.bind0 (Q := fun _ => True) (Gap.upd (fun ev => by simp [gap]) (fun _ => ⟨rfl, rfl⟩))
    (fun _ _ => ?_)
  refine Gap.bind (Q := fun _ => True) (Gap.eachWith (d := many u) (Q := fun _ => True)
    (fun acc p _ _ => ?_) [] trivial) (fun execs _ => ?_)
  · refine (processExec_gap u fs task st tc sol src io n sender p).bind (fun e _ => ?_)
    exact Gap.pure (by rw [many_append, many_one]; omega) trivial
  refine (execute_gap u fs manager _).bind0 (fun e _ => ?_)
  refine (captureStdout_gap u _ _).bind0 (fun e _ => ?_)
  refine (captureStderr_gap u _ _).bind0 (fun e _ => ?_)
  refine (bindExecIo_gap u _ _ _ _).bind0 (fun p _ => ?_)
  refine (bindCallbacks_gap u _ _).bind (fun _ _ => ?_)
  refine (onExec_gap u _ _ rfl).bind0 (fun _ _ => ?_)
  refine (addGroup_gap u _ _).congr (fun _ _ => ?_) (fun _ h => h)
  simp only [many_append, many_one]
  simp only [many, List.map_nil, List.count_nil]
  omega

/-! ## The whole -/

theorem evaluate_gap (fs : FS) (task : Task) (st tc sol : Nat) (src : Src) (input : FileUuid)
    (handle correct : Option FileUuid) (t : TaskType) :
    Even u (t.evaluate fs task st tc sol src input handle correct) := by
  cases t with
  | batch c => exact batchEvaluate_gap u fs task st tc sol src input handle correct c
  | communication m n io => exact commEvaluate_gap u fs task st tc sol src input handle m n io
  | none => exact Gap.pure rfl trivial

theorem prepareDag_gap (fs : FS) (t : TaskType) : Even u (t.prepareDag fs) := by
  cases t with
  | batch c => cases c with
    | whiteDiff => exact Gap.pure rfl trivial
    | custom s => exact prepareBound_gap u fs s
  | communication m n io => exact prepareBound_gap u fs m
  | none => exact Gap.pure rfl trivial

theorem buildTestcase_gap (fs : FS) (root : String) (task : Task) (sols : List Src) (st : Subtask)
    (io : GeneratedIo) (k : Nat) : Even u (buildTestcase fs root task sols st io k) := by
  unfold buildTestcase
  cases task.testcases.get? k with
  | none => exact Gap.fail
  | some tc =>
    refine (generateAndBind_gap u fs _ _ _ _).bind0 (fun _ _ => ?_)
    refine (validateAndBind_gap u fs _ _ _ _ _).bind0 (fun _ _ => ?_)
    refine (outputAndBind_gap u fs _ _ _ _ _ _).bind0 (fun _ _ => ?_)
    exact (Gap.each (fun p _ => evaluate_gap u fs _ _ _ _ _ _ _ _ _)).bind0 (fun _ _ =>
      Gap.pure rfl trivial)

theorem revalidate_gap (fs : FS) (task : Task) (io : GeneratedIo) (st : Subtask) :
    Even u (revalidate fs task io st) := by
  refine Gap.each (fun k _ => ?_)
  split
  · exact Gap.pure rfl trivial
  · split
    · exact Gap.fail
    · split
      · exact Gap.fail
      · exact (validateAndBind_gap u fs _ _ _ _ _).bind0 (fun _ _ => Gap.pure rfl trivial)

theorem buildDag_gap (fs : FS) (root : String) (task : Task) (sols : List Src) :
    Even u (buildDag fs root task sols) := by
  unfold buildDag
  refine (prepareDag_gap u fs _).bind0 (fun _ _ => ?_)
  refine Gap.bind0 (Q := fun _ => True) (Gap.eachWith0 (fun io st _ _ => Gap.eachWith0 (fun io k _ _ =>
    buildTestcase_gap u fs root task sols st io k) _ trivial) _ trivial) (fun io _ => ?_)
  refine Gap.bind0 (Q := fun _ => True) (Gap.each (fun p _ => ?_)) (fun _ _ => ?_)
  · split
    · exact Gap.pure rfl trivial
    · exact Gap.fail
  · exact (Gap.each (fun st _ => revalidate_gap u fs task io st)).bind0 (fun _ _ =>
      Gap.pure rfl trivial)

end
end TM.Build
