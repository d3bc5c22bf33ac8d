import Verif.Build.SamplesLemmas
/-!
# What the executions for the sample files leave alone
-/
namespace TM.Build
open TM DagSpec

/-- From `a` to `b` there are new executions, with identifiers from `n` on: compilations and executions of the
samples; the new handlers are on executions with identifiers from `n` on, the new files to write are executables. -/
structure Tame (n : Nat) (a b : Eval) : Prop where
  next : a.next ≤ b.next
  execs : ∀ e ∈ allExecs b.dag, e ∈ allExecs a.dag ∨
    (n ≤ e.uuid ∧ (e.tag = some "compilation" ∨ ∃ s, (e.uuid, .sample s) ∈ b.handlers))
  handlers : ∃ l, b.handlers = a.handlers ++ l ∧ ∀ p ∈ l, n ≤ p.1
  writes : ∀ f w, b.writes.get? f = some w → a.writes.get? f = some w ∨ w.executable = true

theorem Tame.refl (n : Nat) (a : Eval) : Tame n a a :=
  ⟨Nat.le_refl _, fun _ h => Or.inl h, ⟨[], by simp, by simp⟩, fun _ _ h => Or.inl h⟩

theorem Tame.trans {n : Nat} {a b c : Eval} (h : Tame n a b) (k : Tame n b c) : Tame n a c := by
  obtain ⟨l, hl, hl'⟩ := h.handlers
  obtain ⟨m, hm, hm'⟩ := k.handlers
  refine ⟨Nat.le_trans h.next k.next, fun e he => ?_, ⟨l ++ m, by rw [hm, hl, List.append_assoc], ?_⟩,
    fun f w hw => ?_⟩
  · rcases k.execs e he with h1 | h1
    · rcases h.execs e h1 with h2 | ⟨h2, h3⟩
      · exact Or.inl h2
      · refine Or.inr ⟨h2, h3.imp id (fun ⟨s, hs⟩ => ⟨s, ?_⟩)⟩
        rw [hm]; simp [hs]
    · exact Or.inr h1
  · intro p hp
    rcases List.mem_append.1 hp with hp | hp
    · exact hl' p hp
    · exact hm' p hp
  · rcases k.writes f w hw with h1 | h1
    · exact h.writes f w h1
    · exact Or.inr h1

/-- Only `next`, the provided files, the executables and the messages are changed. -/
theorem Tame.of {n : Nat} {a b : Eval} (h1 : a.next ≤ b.next)
    (h2 : b.dag.executionGroups = a.dag.executionGroups) (h3 : b.handlers = a.handlers)
    (h4 : b.writes = a.writes) : Tame n a b :=
  ⟨h1, fun e he => Or.inl (by simpa [allExecs, h2] using he), ⟨[], by simp [h3], by simp⟩,
    fun f w hw => Or.inl (by rw [← h4]; exact hw)⟩

/-- `m` does only tame things. -/
def Gentle (n : Nat) (m : B α) (Q : α → Prop) : Prop :=
  ∀ ev a ev', n ≤ ev.next → m ev = .ok (a, ev') → Tame n ev ev' ∧ Q a

theorem Gentle.pure {n : Nat} {a : α} {Q : α → Prop} (h : Q a) : Gentle n (pure a : B α) Q := by
  intro ev b ev' hn hr
  obtain ⟨rfl, rfl⟩ := pure_ok.1 hr
  exact ⟨.refl _ _, h⟩

theorem Gentle.bind {n : Nat} {m : B α} {f : α → B β} {Q : α → Prop} {R : β → Prop}
    (h : Gentle n m Q) (k : ∀ a, Q a → Gentle n (f a) R) : Gentle n (m >>= f) R := by
  intro ev b ev' hn hr
  obtain ⟨a, ev1, h1, h2⟩ := bind_ok.1 hr
  obtain ⟨t1, q1⟩ := h ev a ev1 hn h1
  obtain ⟨t2, q2⟩ := k a q1 ev1 b ev' (Nat.le_trans hn t1.next) h2
  exact ⟨t1.trans t2, q2⟩

theorem Gentle.bind' {n : Nat} {m : B α} {f : α → B β} {Q : α → Prop} {R : β → Prop}
    (h : Gentle n m Q) (k : ∀ a, Gentle n (f a) R) : Gentle n (m >>= f) R := h.bind (fun a _ => k a)

theorem Gentle.mono {n : Nat} {m : B α} {Q R : α → Prop} (h : Gentle n m Q) (k : ∀ a, Q a → R a) :
    Gentle n m R := fun ev a ev' hn hr => ⟨(h ev a ev' hn hr).1, k a (h ev a ev' hn hr).2⟩

theorem Gentle.fail {n : Nat} {e : Err} {Q : α → Prop} : Gentle n (fail e : B α) Q := by
  intro ev b ev' hn hr
  cases hr

theorem Gentle.fresh {n : Nat} : Gentle n fresh (fun u => n ≤ u) := by
  intro ev b ev' hn hr
  obtain ⟨rfl, rfl⟩ := fresh_ok.1 hr
  exact ⟨.of (Nat.le_succ _) rfl rfl rfl, hn⟩

theorem Gentle.look {n : Nat} (f : Eval → α) : Gentle n (look f) (fun _ => True) := by
  intro ev b ev' hn hr
  obtain ⟨rfl, rfl⟩ := look_ok.1 hr
  exact ⟨.refl _ _, trivial⟩

theorem Gentle.upd {n : Nat} {f : Eval → Eval} (h : ∀ ev, Tame n ev (f ev)) :
    Gentle n (upd f) (fun _ => True) := by
  intro ev b ev' hn hr
  obtain rfl := upd_ok.1 hr
  exact ⟨h ev, trivial⟩

theorem Gentle.quiet {n : Nat} {f : Eval → Eval} (h1 : ∀ ev, (f ev).next = ev.next)
    (h2 : ∀ ev, (f ev).dag.executionGroups = ev.dag.executionGroups) (h3 : ∀ ev, (f ev).handlers = ev.handlers)
    (h4 : ∀ ev, (f ev).writes = ev.writes) : Gentle n (Build.upd f) (fun _ => True) :=
  Gentle.upd (fun ev => .of (by rw [h1 ev]; exact Nat.le_refl _) (h2 ev) (h3 ev) (h4 ev))

theorem Gentle.ite {n : Nat} {p : Prop} [Decidable p] {m k : B α} {Q : α → Prop}
    (h : Gentle n m Q) (h' : Gentle n k Q) : Gentle n (if p then m else k) Q := by
  split <;> assumption

theorem Gentle.eachWith {n : Nat} {f : σ → α → B σ} {I : σ → Prop} {l : List α}
    (h : ∀ s x, I s → Gentle n (f s x) I) : ∀ {s : σ}, I s → Gentle n (eachWith f l s) I := by
  induction l with
  | nil => intro s hs; exact Gentle.pure hs
  | cons x l ih =>
    intro s hs
    exact (h s x hs).bind (fun a ha => ih ha)

theorem Gentle.each {n : Nat} {f : α → B Unit} {l : List α}
    (h : ∀ x, Gentle n (f x) (fun _ => True)) : Gentle n (each f l) (fun _ => True) := by
  induction l with
  | nil => exact Gentle.pure trivial
  | cons x l ih => exact (h x).bind' (fun _ => ih)

/-! ## The functions -/

theorem provideFile_gentle (n : Nat) (fs : FS) (f : FileUuid) (path : String) :
    Gentle n (provideFile fs f path) (fun _ => True) := by
  unfold provideFile
  cases fs.key path with
  | none => exact Gentle.fail
  | some k => exact Gentle.upd (fun ev => .of (Nat.le_refl _) rfl rfl rfl)

theorem newExecution_gentle (n : Nat) (cmd : ExecutionCommand) :
    Gentle n (newExecution cmd) (fun e => n ≤ e.uuid) :=
  Gentle.fresh.bind (fun _ h => Gentle.pure h)

theorem stdoutOf_gentle (n : Nat) (e : Execution) (h : n ≤ e.uuid) :
    Gentle n (stdoutOf e) (fun p => n ≤ p.2.uuid) := by
  unfold stdoutOf
  cases e.stdout with
  | none => exact Gentle.fresh.bind' (fun _ => Gentle.pure h)
  | some f => exact Gentle.pure h

theorem stderrOf_gentle (n : Nat) (e : Execution) (h : n ≤ e.uuid) :
    Gentle n (stderrOf e) (fun p => n ≤ p.2.uuid ∧ p.2.tag = e.tag) := by
  unfold stderrOf
  cases e.stderr with
  | none => exact Gentle.fresh.bind' (fun _ => Gentle.pure ⟨h, rfl⟩)
  | some f => exact Gentle.pure ⟨h, rfl⟩

theorem outputOf_gentle (n : Nat) (e : Execution) (path : String) (h : n ≤ e.uuid) :
    Gentle n (outputOf e path) (fun p => n ≤ p.2.uuid) := by
  unfold outputOf
  refine Gentle.fresh.bind' (fun f => ?_)
  cases e.outputs.get? path with
  | none => exact Gentle.pure h
  | some o => exact Gentle.pure h

theorem captureStdout_gentle (n : Nat) (e : Execution) (m : Nat) (h : n ≤ e.uuid) :
    Gentle n (captureStdout e m) (fun x => n ≤ x.uuid ∧ x.tag = e.tag) := by
  have : Gentle n (stdoutOf e) (fun p => n ≤ p.2.uuid ∧ p.2.tag = e.tag) := by
    unfold stdoutOf
    cases e.stdout with
    | none => exact Gentle.fresh.bind' (fun _ => Gentle.pure ⟨h, rfl⟩)
    | some f => exact Gentle.pure ⟨h, rfl⟩
  exact this.bind (fun _ h => Gentle.pure h)

theorem captureStderr_gentle (n : Nat) (e : Execution) (m : Nat) (h : n ≤ e.uuid) :
    Gentle n (captureStderr e m) (fun x => n ≤ x.uuid ∧ x.tag = e.tag) :=
  (stderrOf_gentle n e h).bind (fun _ h => Gentle.pure h)

theorem allExecs_add {d : DagData} {g : GroupUuid} {e x : Execution}
    (h : x ∈ allExecs (d.addExecution g e)) : x ∈ allExecs d ∨ (x.uuid = e.uuid ∧ x.tag = e.tag) := by
  simp only [allExecs, DagData.addExecution, List.mem_flatMap] at h ⊢
  obtain ⟨p, hp, hx⟩ := h
  simp only [AMap.insert, List.mem_cons] at hp
  rcases hp with rfl | hp
  · right
    simp only [List.map_cons, List.map_nil, List.mem_singleton] at hx
    subst hx
    exact ⟨rfl, rfl⟩
  · exact Or.inl ⟨p, (List.mem_filter.1 hp).1, hx⟩

theorem addExec_tame {n : Nat} {e : Execution} {ev ev' : Eval} {a : Unit} (h : n ≤ e.uuid)
    (ht : e.tag = some "compilation" ∨ ∃ s, (e.uuid, .sample s) ∈ ev.handlers)
    (hr : addExec e ev = .ok (a, ev')) : Tame n ev ev' := by
  rw [addExec_ok] at hr
  subst hr
  refine ⟨Nat.le_succ _, fun x hx => ?_, ⟨[], by simp, by simp⟩, fun f w hw => Or.inl hw⟩
  rcases allExecs_add hx with hx | ⟨h1, h2⟩
  · exact Or.inl hx
  · rw [h1, h2]; exact Or.inr ⟨h, ht⟩

theorem onExec_gentle (n : Nat) (u : ExecutionUuid) (hd : Handler) (h : n ≤ u) :
    Gentle n (onExec u hd) (fun _ => True) :=
  Gentle.upd (fun ev => ⟨Nat.le_refl _, fun _ he => Or.inl he, ⟨[(u, hd)], rfl, by simpa using h⟩,
    fun _ _ hw => Or.inl hw⟩)

theorem bindCallbacks_gentle (n : Nat) (u : ExecutionUuid) (t : Topic) (h : n ≤ u) :
    Gentle n (bindCallbacks u t) (fun _ => True) := by
  unfold bindCallbacks
  refine Gentle.bind' (Q := fun _ => True) ?_ (fun _ => onExec_gentle n u _ h)
  exact Gentle.quiet (fun _ => rfl) (fun _ => rfl) (fun _ => rfl) (fun _ => rfl)

theorem addDep_gentle (n : Nat) (fs : FS) (e : Execution) (d : DepSpec) (h : n ≤ e.uuid) :
    Gentle n (addDep fs e d) (fun x => n ≤ x.uuid) :=
  Gentle.fresh.bind' (fun _ => (provideFile_gentle n fs _ _).bind' (fun _ => Gentle.pure h))

theorem addArg_gentle (n : Nat) (fs : FS) (s : Src) (e : Execution) (a : String) (h : n ≤ e.uuid) :
    Gentle n (addArg fs s e a) (fun x => n ≤ x.uuid) :=
  Gentle.ite (addDep_gentle n fs e _ h) (Gentle.pure h)

theorem writeBin_gentle (n : Nat) (s : Src) (copy : Bool) (exe : FileUuid) :
    Gentle n (writeBin s copy exe) (fun _ => True) := by
  unfold writeBin
  split
  · refine Gentle.upd (fun ev => ?_)
    split
    · exact .refl _ _
    · refine ⟨Nat.le_refl _, fun _ he => Or.inl he, ⟨[], by simp, by simp⟩, fun f w hw => ?_⟩
      dsimp only at hw
      rw [AMap.get?_insert] at hw
      split at hw
      · cases hw; exact Or.inr rfl
      · exact Or.inl hw
  · exact Gentle.pure trivial

theorem finalize_gentle (n : Nat) (fs : FS) (s : Src) (c : Compiler) (copy : Bool) :
    Gentle n (finalize fs s c copy) (fun p => n ≤ p.1.uuid) := by
  unfold finalize
  refine (newExecution_gentle n _).bind (fun e he => ?_)
  refine (Gentle.eachWith (I := fun x => n ≤ x.uuid)
    (fun e d h => addDep_gentle n fs e d h) (by exact he)).bind (fun e he => ?_)
  refine Gentle.fresh.bind' (fun _ => ?_)
  refine (provideFile_gentle n fs _ _).bind' (fun _ => ?_)
  refine Gentle.bind (Q := fun x => n ≤ x.uuid) ?_ (fun e he => ?_)
  · cases compilationGrader s with
    | none => exact Gentle.pure he
    | some g =>
      refine (provideFile_gentle n fs _ _).bind' (fun _ => Gentle.pure ?_)
      split <;> exact he
  · refine (outputOf_gentle n _ _ he).bind (fun p hp => ?_)
    exact (writeBin_gentle n _ _ _).bind' (fun _ => Gentle.pure hp)

theorem prepare_gentle (n : Nat) (fs : FS) (s : Src) :
    Gentle n (prepare fs s) (fun r => ∀ u, r = some u → n ≤ u) := by
  unfold prepare
  refine (Gentle.look _).bind' (fun cell => (Gentle.look _).bind' (fun copy => ?_))
  cases cell with
  | some f => exact Gentle.pure (by simp)
  | none =>
    cases s.lang.compiler with
    | some c =>
      refine (finalize_gentle n fs s c copy).bind (fun p hp => ?_)
      refine (captureStdout_gentle n _ _ (by exact hp)).bind (fun e he => ?_)
      refine (captureStderr_gentle n _ _ he.1).bind (fun e' he' => ?_)
      refine Gentle.bind' (Q := fun _ => True) ?_ (fun _ => ?_)
      · intro ev a ev' hn hr
        refine ⟨addExec_tame (by exact he'.1) (Or.inl ?_) hr, trivial⟩
        exact he'.2.trans he.2
      · refine Gentle.bind' (Q := fun _ => True) ?_ (fun _ => Gentle.pure ?_)
        · exact Gentle.quiet (fun _ => rfl) (fun _ => rfl) (fun _ => rfl) (fun _ => rfl)
        rintro _ ⟨⟩
        exact he'.1
    | none =>
      refine Gentle.fresh.bind' (fun _ => ?_)
      refine (writeBin_gentle n _ _ _).bind' (fun _ => ?_)
      refine Gentle.bind' (Q := fun _ => True) ?_ (fun _ => ?_)
      · exact Gentle.quiet (fun _ => rfl) (fun _ => rfl) (fun _ => rfl) (fun _ => rfl)
      exact (provideFile_gentle n fs _ _).bind' (fun _ => Gentle.pure (by simp))

theorem bindCompilation_gentle (n : Nat) (s : Src) (r : Option ExecutionUuid) (h : ∀ u, r = some u → n ≤ u) :
    Gentle n (bindCompilation s r) (fun _ => True) := by
  cases r with
  | none => exact Gentle.pure trivial
  | some u => exact (bindCallbacks_gentle n _ _ (h u rfl)).bind' (fun _ => onExec_gentle n _ _ (h u rfl))

theorem execute_gentle (n : Nat) (fs : FS) (s : Src) (args : List String) :
    Gentle n (execute fs s args) (fun e => n ≤ e.uuid) := by
  unfold execute
  refine (prepare_gentle n fs s).bind (fun comp hc => ?_)
  refine (newExecution_gentle n _).bind (fun e he => ?_)
  refine (Gentle.eachWith (I := fun x => n ≤ x.uuid)
    (fun e a h => addArg_gentle n fs s e a h) he).bind (fun e he => ?_)
  refine (Gentle.look _).bind' (fun exe => ?_)
  refine (Gentle.eachWith (I := fun x => n ≤ x.uuid)
    (fun e d h => addDep_gentle n fs e d h) (by exact he)).bind (fun e he => ?_)
  refine Gentle.bind (Q := fun x => n ≤ x.uuid) ?_ (fun e he => ?_)
  · cases runtimeGrader s with
    | none => exact Gentle.pure he
    | some g => exact (provideFile_gentle n fs _ _).bind' (fun _ => Gentle.pure he)
  · exact (bindCompilation_gentle n s comp hc).bind' (fun _ => Gentle.pure he)

theorem bindExecIo_gentle (n : Nat) (task : Task) (e : Execution) (input : FileUuid)
    (handle : Option FileUuid) (h : n ≤ e.uuid) :
    Gentle n (bindExecIo task e input handle) (fun p => n ≤ p.2.uuid) := by
  unfold bindExecIo
  have : n ≤ (match handle with
      | none => (match task.infile with
        | none => { e with stdin := some input }
        | some infile => addInput e input infile false)
      | some f => addInput (match task.infile with
        | none => { e with stdin := some input }
        | some infile => addInput e input infile false) f "wait_for_validation" false).uuid := by
    cases task.infile <;> cases handle <;> exact h
  cases task.outfile with
  | none => exact stdoutOf_gentle n _ this
  | some o => exact outputOf_gentle n _ _ this

theorem addSampleExec_gentle (n : Nat) (s : SampleEvent) (e : Option Execution)
    (h : ∀ x, e = some x → n ≤ x.uuid) : Gentle n (addSampleExec s e) (fun _ => True) := by
  cases e with
  | none => exact Gentle.pure trivial
  | some e =>
    refine (captureStderr_gentle n e 1024 (h e rfl)).bind (fun e he => ?_)
    intro ev a ev' hn hr
    obtain ⟨_, ev1, h1, h2⟩ := bind_ok.1 hr
    have t1 := (onExec_gentle n e.uuid (.sample s) he.1 ev _ ev1 hn h1).1
    rw [onExec_ok] at h1
    refine ⟨t1.trans (addExec_tame he.1 (Or.inr ⟨s, ?_⟩) h2), trivial⟩
    rw [h1]; simp

theorem validate_gentle (n : Nat) (fs : FS) (st : Nat) (name : Option String) (tc : Nat) (input : FileUuid)
    (v : InputValidator) :
    Gentle n (v.validate fs st name tc input) (fun p => ∀ x, p.2 = some x → n ≤ x.uuid) := by
  cases v with
  | assumeValid => exact Gentle.pure (by simp)
  | custom src args =>
    unfold InputValidator.validate
    refine (execute_gentle n fs src args).bind (fun e he => ?_)
    refine (stdoutOf_gentle n _ ?_).bind (fun p hp => Gentle.pure ?_)
    · cases name <;> exact he
    · rintro _ ⟨⟩; exact hp

theorem generate_gentle (n : Nat) (fs : FS) (task : Task) (tc : Nat) (input : FileUuid) (handle : Option FileUuid)
    (g : OutputGenerator) :
    Gentle n (g.generate fs task tc input handle) (fun p => ∀ x, p.2 = some x → n ≤ x.uuid) := by
  cases g with
  | notAvailable =>
    unfold OutputGenerator.generate
    refine Gentle.fresh.bind' (fun _ => ?_)
    refine Gentle.bind' (Q := fun _ => True) ?_ (fun _ => Gentle.pure (by simp))
    exact Gentle.quiet (fun _ => rfl) (fun _ => rfl) (fun _ => rfl) (fun _ => rfl)
  | staticFile path =>
    unfold OutputGenerator.generate
    refine Gentle.ite ?_ Gentle.fail
    exact Gentle.fresh.bind' (fun _ => (provideFile_gentle n fs _ _).bind' (fun _ => Gentle.pure (by simp)))
  | custom src args =>
    unfold OutputGenerator.generate
    refine (execute_gentle n fs src args).bind (fun e he => ?_)
    refine (bindExecIo_gentle n task _ input handle ?_).bind (fun p hp => Gentle.pure ?_)
    · exact he
    · rintro _ ⟨⟩; exact hp

theorem checkSample_tame {n : Nat} {fs : FS} {name : String} {input correct test : FileUuid} {checker : Checker}
    {ev ev1 ev2 : Eval} {e : Execution} {a : Unit} (hn : n ≤ ev.next)
    (h1 : checker.checkSample fs name input correct test ev = .ok (e, ev1))
    (h2 : addExec e ev1 = .ok (a, ev2)) : Tame n ev ev2 := by
  cases checker with
  | whiteDiff =>
    simp only [Checker.checkSample] at h1
    obtain ⟨e0, ev0, g0, h1⟩ := bind_ok.1 h1
    obtain ⟨t0, q0⟩ := newExecution_gentle n _ ev e0 ev0 hn g0
    obtain ⟨_, ev3, g1, h1⟩ := bind_ok.1 h1
    obtain ⟨rfl, rfl⟩ := pure_ok.1 h1
    have t1 := (onExec_gentle n _ _ (by exact q0) ev0 _ _ (Nat.le_trans hn t0.next) g1).1
    refine (t0.trans t1).trans (addExec_tame (by exact q0) (Or.inr ⟨.diff name, ?_⟩) h2)
    rw [onExec_ok] at g1
    rw [g1]; simp
  | custom src =>
    simp only [Checker.checkSample] at h1
    obtain ⟨e0, ev0, g0, h1⟩ := bind_ok.1 h1
    obtain ⟨t0, q0⟩ := execute_gentle n fs src _ ev e0 ev0 hn g0
    obtain ⟨e3, ev3, g1, h1⟩ := bind_ok.1 h1
    obtain ⟨t1, q1⟩ := captureStdout_gentle n _ _ (by exact q0) ev0 e3 ev3 (Nat.le_trans hn t0.next) g1
    have t01 := t0.trans t1
    obtain ⟨e4, ev4, g2, h1⟩ := bind_ok.1 h1
    obtain ⟨t2, q2⟩ := captureStderr_gentle n _ _ q1.1 ev3 e4 ev4 (Nat.le_trans hn t01.next) g2
    have t02 := t01.trans t2
    obtain ⟨_, ev5, g3, h1⟩ := bind_ok.1 h1
    obtain ⟨rfl, rfl⟩ := pure_ok.1 h1
    have t3 := (onExec_gentle n _ _ (by exact q2.1) ev4 _ _ (Nat.le_trans hn t02.next) g3).1
    refine (t02.trans t3).trans (addExec_tame (by exact q2.1) (Or.inr ⟨.checker name, ?_⟩) h2)
    rw [onExec_ok] at g3
    rw [g3]; simp

theorem addSample_gentle (n : Nat) (fs : FS) (task : Task) (v : InputValidator) (off : Option OutputGenerator)
    (checker : Checker) (p : SamplePair) :
    Gentle n (addSample fs task v off checker p) (fun _ => True) := by
  unfold addSample
  refine Gentle.fresh.bind' (fun input => (provideFile_gentle n fs _ _).bind' (fun _ => ?_))
  refine (validate_gentle n fs 0 _ 0 input v).bind (fun q hq => ?_)
  refine (addSampleExec_gentle n _ _ hq).bind' (fun _ => ?_)
  cases off with
  | none => exact Gentle.pure trivial
  | some g =>
    unfold solveSample
    refine Gentle.fresh.bind' (fun output => (provideFile_gentle n fs _ _).bind' (fun _ => ?_))
    refine (generate_gentle n fs task 0 input _ g).bind (fun r hr => ?_)
    obtain ⟨correct, sol⟩ := r
    cases correct with
    | none => exact Gentle.fail
    | some correct =>
      refine (addSampleExec_gentle n _ _ hr).bind' (fun _ => ?_)
      intro ev a ev' hn hm
      obtain ⟨e, ev1, h1, h2⟩ := bind_ok.1 hm
      exact ⟨checkSample_tame hn h1 h2, trivial⟩

theorem addSamples_tame {fs : FS} {task : Task} {v : InputValidator} {off : Option OutputGenerator}
    {pairs : List SamplePair} {ev ev' : Eval} {a : Unit}
    (hr : addSamples fs task v off pairs ev = .ok (a, ev')) : Tame ev.next ev ev' := by
  have : Gentle ev.next (addSamples fs task v off pairs) (fun _ => True) := by
    unfold addSamples
    split
    · exact Gentle.each (fun p => addSample_gentle _ _ _ _ _ _ p)
    · exact Gentle.pure trivial
  exact (this ev a ev' (Nat.le_refl _) hr).1

/-! ## The errors -/

theorem addSampleExec_safe (fs : FS) (s : SampleEvent) (e : Option Execution) :
    Safe fs (addSampleExec s e) (fun _ => True) := by
  cases e with
  | none => exact Safe.pure trivial
  | some e =>
    refine (captureStderr_safe fs _ _).bind' (fun e => ?_)
    exact (Safe.upd _).bind' (fun _ => addExec_safe fs _)

theorem validate_safe (fs : FS) (st : Nat) (name : Option String) (tc : Nat) (input : FileUuid)
    (v : InputValidator) : Safe fs (v.validate fs st name tc input) (fun _ => True) := by
  cases v with
  | assumeValid => exact Safe.pure trivial
  | custom src args =>
    refine (execute_safe fs src args).bind' (fun e => ?_)
    exact (stdoutOf_safe fs _).bind' (fun _ => Safe.pure trivial)

theorem generate_safe (fs : FS) (task : Task) (tc : Nat) (input : FileUuid) (handle : Option FileUuid)
    (g : OutputGenerator) : Safe fs (g.generate fs task tc input handle) (fun p => p.1 ≠ none) := by
  cases g with
  | notAvailable =>
    unfold OutputGenerator.generate
    exact Safe.fresh.bind' (fun _ => (Safe.upd _).bind' (fun _ => Safe.pure (by simp)))
  | staticFile path =>
    unfold OutputGenerator.generate
    exact static_safe fs path
      (Safe.fresh.bind' (fun _ => (provideFile_safe fs _ _).bind' (fun _ => Safe.pure (by simp))))
  | custom src args =>
    unfold OutputGenerator.generate
    refine (execute_safe fs src args).bind' (fun e => ?_)
    exact (bindExecIo_safe fs task _ input handle).bind' (fun p => Safe.pure (by simp))

theorem checkSample_safe (fs : FS) (name : String) (input correct test : FileUuid) (checker : Checker) :
    Safe fs (checker.checkSample fs name input correct test) (fun _ => True) := by
  cases checker with
  | whiteDiff =>
    exact (newExecution_safe fs _).bind' (fun e => (Safe.upd _).bind' (fun _ => Safe.pure trivial))
  | custom src =>
    refine (execute_safe fs src _).bind' (fun e => ?_)
    refine (captureStdout_safe fs _ _).bind' (fun e => (captureStderr_safe fs _ _).bind' (fun e => ?_))
    exact (Safe.upd _).bind' (fun _ => Safe.pure trivial)

theorem addSample_safe (fs : FS) (task : Task) (v : InputValidator) (off : Option OutputGenerator)
    (checker : Checker) (p : SamplePair) :
    Safe fs (addSample fs task v off checker p) (fun _ => True) := by
  unfold addSample
  refine Safe.fresh.bind' (fun input => (provideFile_safe fs _ _).bind' (fun _ => ?_))
  refine (validate_safe fs 0 _ 0 input v).bind' (fun q => ?_)
  refine (addSampleExec_safe fs _ _).bind' (fun _ => ?_)
  cases off with
  | none => exact Safe.pure trivial
  | some g =>
    unfold solveSample
    refine Safe.fresh.bind' (fun output => (provideFile_safe fs _ _).bind' (fun _ => ?_))
    refine (generate_safe fs task 0 input _ g).bind (fun r hr => ?_)
    obtain ⟨correct, sol⟩ := r
    cases correct with
    | none => exact absurd rfl hr
    | some correct =>
      refine (addSampleExec_safe fs _ _).bind' (fun _ => ?_)
      exact (checkSample_safe fs _ _ _ _ _).bind' (fun e => addExec_safe fs e)

theorem addSamples_safe (fs : FS) (task : Task) (v : InputValidator) (off : Option OutputGenerator)
    (pairs : List SamplePair) : Safe fs (addSamples fs task v off pairs) (fun _ => True) := by
  unfold addSamples
  split
  · exact Safe.each (fun p _ => addSample_safe fs task v off _ p)
  · exact Safe.pure trivial

end TM.Build
