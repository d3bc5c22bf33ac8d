import Verif.Booklet.Spec
import Verif.Build.Balance
/-!
# What building a booklet adds, exactly
-/
namespace TM.Booklet
open TM TM.Build TM.Text DagSpec Build.Spec Spec

/-- The report of a callback. -/
def reportOf : ExecutionUuid × Handler → Option (ExecutionUuid × Topic)
  | (u, .report t) => some (u, t)
  | _ => none

/-- Running `m` adds some reports and some executions, related by `Q`, and does not touch the destinations of the old files. -/
def Does (m : B α) (Q : α → List (ExecutionUuid × Topic) → List Execution → Prop) : Prop :=
  ∀ ev a ev', Bounded ev → m ev = .ok (a, ev') →
    Bounded ev' ∧ ev.next ≤ ev'.next ∧ (∀ f, f < ev.next → ev'.writes.get? f = ev.writes.get? f) ∧
    ∃ r es, ev'.pending = ev.pending ++ r.map (·.2) ∧
      ev'.handlers.filterMap reportOf = ev.handlers.filterMap reportOf ++ r ∧
      allExecs ev'.dag = es.reverse ++ allExecs ev.dag ∧ (∀ e ∈ es, e.tag = some "booklet") ∧ Q a r es

/-- Nothing is added. -/
abbrev Adds0 (m : B α) (Q : α → Prop) : Prop := Does m (fun a r es => r = [] ∧ es = [] ∧ Q a)

theorem Does.bind {m : B α} {f : α → B β} {Q : α → List (ExecutionUuid × Topic) → List Execution → Prop}
    {R : β → List (ExecutionUuid × Topic) → List Execution → Prop} (h : Does m Q)
    (k : ∀ a r es, Q a r es → Does (f a) (fun b r' es' => R b (r ++ r') (es ++ es'))) : Does (m >>= f) R := by
  intro ev b ev' h0 hr
  obtain ⟨a, ev1, h1, h2⟩ := bind_ok.1 hr
  obtain ⟨b1, n1, w1, r, es, p1, q1, e1, t1, c1⟩ := h _ _ _ h0 h1
  obtain ⟨b2, n2, w2, r', es', p2, q2, e2, t2, c2⟩ := k a r es c1 _ _ _ b1 h2
  refine ⟨b2, Nat.le_trans n1 n2, fun x hx => (w2 x (Nat.lt_of_lt_of_le hx n1)).trans (w1 x hx), r ++ r', es ++ es', ?_, ?_, ?_,
    ?_, c2⟩
  · rw [p2, p1]; simp
  · rw [q2, q1]; simp
  · rw [e2, e1]; simp
  · intro e he
    rcases List.mem_append.1 he with he | he
    · exact t1 e he
    · exact t2 e he

theorem Does.mono {m : B α} {Q R : α → List (ExecutionUuid × Topic) → List Execution → Prop} (h : Does m Q)
    (k : ∀ a r es, Q a r es → R a r es) : Does m R := by
  intro ev b ev' h0 hr
  obtain ⟨b1, n1, w1, r, es, p1, q1, e1, t1, c1⟩ := h _ _ _ h0 hr
  exact ⟨b1, n1, w1, r, es, p1, q1, e1, t1, k _ _ _ c1⟩

theorem Does.bind0 {m : B α} {f : α → B β} {Q : α → Prop}
    {R : β → List (ExecutionUuid × Topic) → List Execution → Prop} (h : Adds0 m Q)
    (k : ∀ a, Q a → Does (f a) R) : Does (m >>= f) R := by
  refine h.bind ?_
  rintro a r es ⟨rfl, rfl, ha⟩
  exact k a ha

theorem Does.pure {a : α} {Q : α → List (ExecutionUuid × Topic) → List Execution → Prop} (h : Q a [] []) :
    Does (pure a : B α) Q := by
  intro ev b ev' h0 hr
  obtain ⟨rfl, rfl⟩ := pure_ok.1 hr
  exact ⟨h0, Nat.le_refl _, fun _ _ => rfl, [], [], by simp, by simp, by simp, by simp, h⟩

theorem Does.fail {e : Err} {Q : α → List (ExecutionUuid × Topic) → List Execution → Prop} : Does (fail e : B α) Q := by
  intro ev b ev' h0 hr
  exact (fail_ok.1 hr).elim

theorem Does.look {f : Eval → α} : Adds0 (look f) (fun _ => True) := by
  intro ev b ev' h0 hr
  obtain ⟨-, rfl⟩ := look_ok.1 hr
  exact ⟨h0, Nat.le_refl _, fun _ _ => rfl, [], [], by simp, by simp, by simp, by simp, rfl, rfl, trivial⟩

theorem Does.fresh : Adds0 fresh (fun _ => True) := by
  intro ev b ev' h0 hr
  obtain ⟨-, rfl⟩ := fresh_ok.1 hr
  exact ⟨fun k hk => Nat.lt_succ_of_lt (h0 k hk), Nat.le_succ _, fun _ _ => rfl, [], [], by simp, by simp, by simp, by simp,
    rfl, rfl, trivial⟩

/-- A loop. -/
theorem Does.eachWith {f : σ → α → B σ} {I : σ → Prop} {T : α → List Topic}
    {xs : List α} (h : ∀ s x, x ∈ xs → I s → Does (f s x) (fun s' r es => I s' ∧ r.map (·.2) = T x ∧ es.map (·.uuid) = r.map (·.1))) :
    ∀ s, I s → Does (Build.eachWith f xs s)
      (fun s' r es => I s' ∧ r.map (·.2) = xs.flatMap T ∧ es.map (·.uuid) = r.map (·.1)) := by
  induction xs with
  | nil => intro s hs; exact Does.pure ⟨hs, rfl, rfl⟩
  | cons x xs ih =>
    intro s hs
    refine (h s x List.mem_cons_self hs).bind ?_
    rintro s1 r es ⟨h1, h2, h3⟩
    refine (ih (fun s y hy => h s y (List.mem_cons_of_mem _ hy)) s1 h1).mono ?_
    rintro s2 r' es' ⟨k1, k2, k3⟩
    refine ⟨k1, ?_, ?_⟩
    · rw [List.map_append, h2, k2, List.flatMap_cons]
    · rw [List.map_append, List.map_append, h3, k3]

/-- A loop that adds nothing. -/
theorem Does.eachWith0 {f : σ → α → B σ} {I : σ → Prop} {xs : List α} (h : ∀ s x, x ∈ xs → I s → Adds0 (f s x) I) (s : σ) (hs : I s) :
    Adds0 (Build.eachWith f xs s) I := by
  induction xs generalizing s with
  | nil => exact Does.pure ⟨rfl, rfl, hs⟩
  | cons x xs ih =>
    exact Does.bind0 (h s x List.mem_cons_self hs) (fun a ha => ih (fun s y hy => h s y (List.mem_cons_of_mem _ hy)) a ha)

/-! ## The elementary steps -/

theorem newExecution_does (c : ExecutionCommand) :
    Adds0 (newExecution c) (fun e => e.stdout = none ∧ e.stderr = none ∧ e.outputs = []) :=
  Does.bind0 Does.fresh (fun _ _ => Does.pure ⟨rfl, rfl, rfl, rfl, rfl⟩)

theorem stdoutOf_does (e : Execution) : Adds0 (stdoutOf e) (fun p => p.2.uuid = e.uuid ∧ p.2.tag = e.tag ∧ p.2.stderr = e.stderr) := by
  unfold stdoutOf
  cases e.stdout with
  | some f => exact Does.pure ⟨rfl, rfl, rfl, rfl, rfl⟩
  | none => exact Does.bind0 Does.fresh (fun _ _ => Does.pure ⟨rfl, rfl, rfl, rfl, rfl⟩)

theorem stderrOf_does (e : Execution) : Adds0 (stderrOf e) (fun p => p.2.uuid = e.uuid ∧ p.2.tag = e.tag ∧ p.2.stdout = e.stdout) := by
  unfold stderrOf
  cases e.stderr with
  | some f => exact Does.pure ⟨rfl, rfl, rfl, rfl, rfl⟩
  | none => exact Does.bind0 Does.fresh (fun _ _ => Does.pure ⟨rfl, rfl, rfl, rfl, rfl⟩)

/-- The same uuid, tag and streams. -/
def Same (e e' : Execution) : Prop := e'.uuid = e.uuid ∧ e'.tag = e.tag ∧ e'.stdout = e.stdout ∧ e'.stderr = e.stderr

theorem outputOf_does (e : Execution) (path : String) : Adds0 (outputOf e path) (fun p => Same e p.2) := by
  unfold outputOf
  refine Does.bind0 Does.fresh (fun f _ => ?_)
  cases e.outputs.get? path with
  | some f => exact Does.pure ⟨rfl, rfl, rfl, rfl, rfl, rfl⟩
  | none => exact Does.pure ⟨rfl, rfl, rfl, rfl, rfl, rfl⟩

theorem captureStdout_does (e : Execution) (n : Nat) :
    Adds0 (captureStdout e n) (fun e' => e'.uuid = e.uuid ∧ e'.tag = e.tag) :=
  Does.bind0 (stdoutOf_does e) (fun _ h => Does.pure ⟨rfl, rfl, h.1, h.2.1⟩)

theorem captureStderr_does (e : Execution) (n : Nat) :
    Adds0 (captureStderr e n) (fun e' => e'.uuid = e.uuid ∧ e'.tag = e.tag) :=
  Does.bind0 (stderrOf_does e) (fun _ h => Does.pure ⟨rfl, rfl, h.1, h.2.1⟩)

/-- A change of the provided files. -/
theorem Does.provide {f : Eval → Eval} (h : ∀ ev, ∃ x, f ev = { ev with dag := { ev.dag with providedFiles := x } }) :
    Adds0 (upd f) (fun _ => True) := by
  intro ev b ev' h0 hr
  rw [upd_ok] at hr
  obtain ⟨x, hx⟩ := h ev
  rw [hx] at hr
  subst hr
  exact ⟨h0, Nat.le_refl _, fun _ _ => rfl, [], [], by simp, by simp, by simp [allExecs], by simp, rfl, rfl, trivial⟩

theorem provideFile_does (fs : FS) (f : FileUuid) (path : String) : Adds0 (provideFile fs f path) (fun _ => True) := by
  unfold provideFile
  cases fs.key path with
  | none => exact Does.fail
  | some k => exact Does.provide (fun ev => ⟨_, rfl⟩)

theorem provideText_does (w : World) (f : FileUuid) (t : Text) : Adds0 (provideText w f t) (fun _ => True) :=
  Does.provide (fun ev => ⟨_, rfl⟩)

theorem onExec_does (v : ExecutionUuid) (h : Handler) (hh : reportOf (v, h) = none) : Adds0 (onExec v h) (fun _ => True) := by
  intro ev b ev' h0 hr
  simp only [onExec, upd_ok] at hr
  subst hr
  exact ⟨h0, Nat.le_refl _, fun _ _ => rfl, [], [], by simp, by simp [hh], by simp, by simp, rfl, rfl, trivial⟩

theorem bindCallbacks_does (v : ExecutionUuid) (t : Topic) : Does (bindCallbacks v t) (fun _ r es => r = [(v, t)] ∧ es = []) := by
  intro ev b ev' h0 hr
  simp only [bindCallbacks, bind_ok, upd_ok, onExec] at hr
  obtain ⟨_, _, rfl, rfl⟩ := hr
  exact ⟨h0, Nat.le_refl _, fun _ _ => rfl, [(v, t)], [], by simp, by simp [reportOf], by simp, by simp, rfl, rfl⟩

theorem addExec_does (e : Execution) (ht : e.tag = some "booklet") :
    Does (addExec e) (fun _ r es => r = [] ∧ es.map (·.uuid) = [e.uuid]) := by
  intro ev b ev' h0 hr
  simp only [addExec, bind_ok, fresh_ok, upd_ok] at hr
  obtain ⟨_, _, ⟨rfl, rfl⟩, rfl⟩ := hr
  have he : ev.dag.executionGroups.erase ev.next = ev.dag.executionGroups := by
    unfold AMap.erase
    apply List.filter_eq_self.2
    intro p hp
    have := h0 p.1 (List.mem_map.2 ⟨p, hp, rfl⟩)
    have := Nat.ne_of_lt this
    simpa using this
  refine ⟨?_, Nat.le_succ _, fun _ _ => rfl, [], [{ e with config := ev.dag.config }], by simp, by simp, ?_, ?_, rfl, rfl⟩
  · intro k hk
    simp only [DagData.addExecution, AMap.insert, he, AMap.keys, List.map_cons, List.mem_cons] at hk
    rcases hk with rfl | hk
    · exact Nat.lt_succ_self _
    · exact Nat.lt_succ_of_lt (h0 k hk)
  · simp [DagData.addExecution, AMap.insert, he, allExecs]
  · intro x hx
    rw [List.mem_singleton] at hx
    subst hx
    exact ht

/-- The new file of a stream is written: the old ones are not touched. -/
theorem logStream_does {e : Execution} (dest : String) (he : e.stderr = none) :
    Adds0 (do let (f, e) ← stderrOf e; writeAllowFail f dest; return e)
      (fun e' => e'.uuid = e.uuid ∧ e'.tag = e.tag ∧ e'.stdout = e.stdout) := by
  intro ev b ev' h0 hr
  simp only [stderrOf, he, bind_ok, fresh_ok, pure_ok, writeAllowFail, upd_ok] at hr
  obtain ⟨⟨f, e1⟩, _, ⟨_, _, ⟨rfl, rfl⟩, h1, rfl⟩, _, _, rfl, rfl, rfl⟩ := hr
  cases h1
  refine ⟨?_, ?_, ?_, [], [], ?_, ?_, ?_, by simp, rfl, rfl, rfl, rfl, rfl⟩
  · split <;> exact fun k hk => Nat.lt_succ_of_lt (h0 k hk)
  · split <;> exact Nat.le_succ _
  · intro x hx
    split
    · rfl
    · show (ev.writes.insert ev.next _).get? x = _
      rw [AMap.get?_insert, if_neg (Nat.ne_of_lt hx)]
  · split <;> simp
  · split <;> simp
  · split <;> simp

theorem logStream_does' {e : Execution} (dest : String) (he : e.stdout = none) :
    Adds0 (do let (f, e) ← stdoutOf e; writeAllowFail f dest; return e)
      (fun e' => e'.uuid = e.uuid ∧ e'.tag = e.tag) := by
  intro ev b ev' h0 hr
  simp only [stdoutOf, he, bind_ok, fresh_ok, pure_ok, writeAllowFail, upd_ok] at hr
  obtain ⟨⟨f, e1⟩, _, ⟨_, _, ⟨rfl, rfl⟩, h1, rfl⟩, _, _, rfl, rfl, rfl⟩ := hr
  cases h1
  refine ⟨?_, ?_, ?_, [], [], ?_, ?_, ?_, by simp, rfl, rfl, rfl, rfl⟩
  · split <;> exact fun k hk => Nat.lt_succ_of_lt (h0 k hk)
  · split <;> exact Nat.le_succ _
  · intro x hx
    split
    · rfl
    · show (ev.writes.insert ev.next _).get? x = _
      rw [AMap.get?_insert, if_neg (Nat.ne_of_lt hx)]
  · split <;> simp
  · split <;> simp
  · split <;> simp

theorem saveLogs_eq (root kind name : String) (e : Execution) (ev : Eval) :
    saveLogs root kind name e ev = (do
      let copy ← look (fun ev => ev.dag.config.copyLogs)
      if copy then
        let e ← (do
          let (f, e) ← stderrOf e
          writeAllowFail f (root ++ "/bin/logs/" ++ kind ++ "/" ++ name ++ ".stderr.log")
          return e)
        do
          let (f, e) ← stdoutOf e
          writeAllowFail f (root ++ "/bin/logs/" ++ kind ++ "/" ++ name ++ ".stdout.log")
          return e
      else return e : B Execution) ev := by
  unfold saveLogs
  show B.andThen _ _ _ = B.andThen _ _ _
  unfold B.andThen
  simp only [look]
  split
  · cases hs : e.stderr with
    | none =>
      simp only [stderrOf, hs]
      cases ho : e.stdout <;> simp only [stdoutOf, ho] <;> rfl
    | some f =>
      simp only [stderrOf, hs]
      cases ho : e.stdout <;> simp only [stdoutOf, ho] <;> rfl
  · rfl

theorem saveLogs_does (root kind name : String) (e : Execution) (ho : e.stdout = none) (he : e.stderr = none) :
    Adds0 (saveLogs root kind name e) (fun e' => e'.uuid = e.uuid ∧ e'.tag = e.tag) := by
  have he' : saveLogs root kind name e = _ := funext (saveLogs_eq root kind name e)
  rw [he']
  refine Does.bind0 Does.look (fun c _ => ?_)
  split
  · refine Does.bind0 (logStream_does _ he) (fun e1 h1 => ?_)
    refine (logStream_does' _ (h1.2.2.trans ho)).mono ?_
    rintro a r es ⟨rfl, rfl, h2⟩
    exact ⟨rfl, rfl, h2.1.trans h1.1, h2.2.trans h1.2.1⟩
  · exact Does.pure ⟨rfl, rfl, rfl, rfl⟩

theorem addDep_does (fs : FS) (e : Execution) (d : DepSpec) : Adds0 (addDep fs e d) (Same e) :=
  Does.bind0 Does.fresh (fun _ _ => Does.bind0 (provideFile_does _ _ _) (fun _ _ => Does.pure ⟨rfl, rfl, rfl, rfl, rfl, rfl⟩))

theorem addDeps_does (fs : FS) (ds : List DepSpec) (e : Execution) : Adds0 (eachWith (addDep fs) ds e) (Same e) := by
  refine Does.eachWith0 (I := Same e) ?_ e ⟨rfl, rfl, rfl, rfl⟩
  intro s x _ hs
  refine (addDep_does fs s x).mono ?_
  rintro a r es ⟨rfl, rfl, h⟩
  exact ⟨rfl, rfl, h.1.trans hs.1, h.2.1.trans hs.2.1, h.2.2.1.trans hs.2.2.1, h.2.2.2.trans hs.2.2.2⟩

/-! ## Pictures -/

theorem asyCompile_does (w : World) (root booklet src : String) :
    Does (asyCompile w root booklet src) (fun _ r es =>
      r.map (·.2) = [.bookletDependency booklet (String.ofList (fileName src.toList)) 0] ∧ es.map (·.uuid) = r.map (·.1)) := by
  unfold asyCompile
  refine Does.bind0 Does.fresh (fun f _ => Does.bind0 (newExecution_does _) (fun e he => ?_))
  refine Does.bind0 (provideFile_does _ _ _) (fun _ _ => ?_)
  refine (bindCallbacks_does _ _).bind ?_
  rintro _ r es ⟨rfl, rfl⟩
  refine Does.bind0 (addDeps_does _ _ _) (fun e1 h1 => ?_)
  refine Does.bind0 (outputOf_does _ _) ?_
  rintro ⟨g, e2⟩ h2
  refine Does.bind0 (saveLogs_does _ _ _ _ (h2.2.2.1.trans (h1.2.2.1.trans he.1)) (h2.2.2.2.trans (h1.2.2.2.trans he.2.1)))
    (fun e3 h3 => ?_)
  refine Does.bind0 (captureStderr_does _ _) (fun e4 h4 => ?_)
  refine Does.bind0 (onExec_does _ _ rfl) (fun _ _ => ?_)
  refine (addExec_does e4 (h4.2.trans (h3.2.trans (h2.2.1.trans (h1.2.1.trans rfl))))).bind ?_
  rintro _ r es ⟨rfl, he⟩
  refine Does.pure ⟨rfl, ?_⟩
  simp only [List.append_nil, List.nil_append, List.map_cons, List.map_nil, he, List.cons.injEq, and_true]
  exact h4.1.trans (h3.1.trans (h2.1.trans h1.1))

theorem asyCrop_does (w : World) (booklet src : String) (c : FileUuid) :
    Does (asyCrop w booklet src c) (fun _ r es =>
      r.map (·.2) = [.bookletDependency booklet (String.ofList (fileName src.toList)) 1] ∧ es.map (·.uuid) = r.map (·.1)) := by
  unfold asyCrop
  refine Does.bind0 (newExecution_does _) (fun e he => ?_)
  refine (bindCallbacks_does _ _).bind ?_
  rintro _ r es ⟨rfl, rfl⟩
  refine Does.bind0 (outputOf_does _ _) ?_
  rintro ⟨g, e2⟩ h2
  refine Does.bind0 (captureStderr_does _ _) (fun e4 h4 => ?_)
  refine Does.bind0 (onExec_does _ _ rfl) (fun _ _ => ?_)
  refine (addExec_does e4 (h4.2.trans (h2.2.1.trans rfl))).bind ?_
  rintro _ r es ⟨rfl, he⟩
  refine Does.pure ⟨rfl, ?_⟩
  simp only [List.append_nil, List.nil_append, List.map_cons, List.map_nil, he, List.cons.injEq, and_true]
  exact h4.1.trans h2.1

/-- The messages about a picture. -/
def pictureTopics (booklet src : String) : List Topic :=
  [.bookletDependency booklet (String.ofList (fileName src.toList)) 0,
   .bookletDependency booklet (String.ofList (fileName src.toList)) 1]

theorem compileAsy_does (w : World) (root booklet src : String) :
    Does (compileAsy w root booklet src) (fun _ r es => r.map (·.2) = pictureTopics booklet src ∧ es.map (·.uuid) = r.map (·.1)) := by
  refine (asyCompile_does w root booklet src).bind ?_
  rintro c r es ⟨h1, h2⟩
  refine (asyCrop_does w booklet src c).mono ?_
  rintro _ r' es' ⟨h3, h4⟩
  rw [List.map_append, List.map_append, List.map_append, h1, h2, h3, h4]
  exact ⟨rfl, rfl⟩

/-- The pictures of a statement: the sources of Asymptote whose pdf is mentioned. -/
def used (s : Statement) (f : String) : Bool := extOf f = ['a', 's', 'y'] && contains s.content (withExt f "pdf").toList

theorem pushCopy_does (w : World) (deps : List (String × FileUuid)) (path sandbox : String) :
    Adds0 (pushCopy w deps path sandbox) (fun _ => True) :=
  Does.bind0 Does.fresh (fun _ _ => Does.bind0 (provideFile_does _ _ _) (fun _ _ => Does.pure ⟨rfl, rfl, trivial⟩))

theorem Adds0.done {m : B α} {Q : α → Prop} (h : Adds0 m Q) :
    Does m (fun _ r es => True ∧ r.map (·.2) = [] ∧ es.map (·.uuid) = r.map (·.1)) := by
  refine Does.mono h ?_
  rintro a r es ⟨rfl, rfl, _⟩
  exact ⟨trivial, rfl, rfl⟩

theorem processDep_does (w : World) (root booklet : String) (logo : Option String) (s : Statement)
    (deps : List (String × FileUuid)) (f : String) :
    Does (processDep w root booklet logo s deps f) (fun _ r es => True ∧
      r.map (·.2) = (if used s f then pictureTopics booklet (joinPath s.dir f) else []) ∧ es.map (·.uuid) = r.map (·.1)) := by
  unfold processDep used
  by_cases he : extOf f = ['a', 's', 'y']
  · simp only [he, if_true, decide_true, Bool.true_and]
    by_cases hc : contains s.content (withExt f "pdf").toList = true
    · simp only [hc, if_true]
      refine (compileAsy_does _ _ _ _).bind ?_
      rintro c r es ⟨h1, h2⟩
      exact Does.pure ⟨trivial, by simpa using h1, by simpa using h2⟩
    · simp only [hc]
      exact Does.pure ⟨trivial, rfl, rfl⟩
  · simp only [he, if_false, decide_false, Bool.false_and]
    split
    · split
      · exact Does.fail
      · exact Adds0.done (pushCopy_does _ _ _ _)
      · exact Does.pure ⟨trivial, rfl, rfl⟩
    · exact Adds0.done (pushCopy_does _ _ _ _)

/-- The messages about the pictures of a statement. -/
def statementTopics (w : World) (booklet : String) (s : Statement) : List Topic :=
  ((w.files s.dir).filter (used s)).flatMap (fun f => pictureTopics booklet (joinPath s.dir f))

theorem flatMap_if {α β : Type} (l : List α) (p : α → Bool) (g : α → List β) :
    l.flatMap (fun x => if p x then g x else []) = (l.filter p).flatMap g := by
  induction l with
  | nil => rfl
  | cons x l ih =>
    rw [List.flatMap_cons, ih, List.filter_cons]
    cases p x <;> simp

theorem genDep_does (w : World) (s : Statement) (deps : List (String × FileUuid)) (g : String) :
    Adds0 (genDep w s deps g) (fun _ => True) := by
  unfold genDep
  split
  · exact pushCopy_does _ _ _ _
  · exact Does.pure ⟨rfl, rfl, trivial⟩

theorem buildDeps_does (w : World) (root booklet : String) (logo : Option String) (s : Statement) :
    Does (buildDeps w root booklet logo s) (fun _ r es =>
      r.map (·.2) = statementTopics w booklet s ∧ es.map (·.uuid) = r.map (·.1)) := by
  unfold buildDeps statementTopics
  rw [← flatMap_if]
  refine (Does.eachWith (I := fun _ => True) (fun d x _ _ => processDep_does w root booklet logo s d x) [] trivial).bind ?_
  rintro d r es ⟨-, h1, h2⟩
  refine (Does.eachWith0 (I := fun _ => True) (fun d x _ _ => genDep_does w s d x) d trivial).mono ?_
  rintro _ r' es' ⟨rfl, rfl, _⟩
  simpa using ⟨h1, h2⟩

theorem fold_same (name : String) (deps : List (String × FileUuid)) (e : Execution) :
    Same e (deps.foldl (fun e d => addInput e d.2 (name ++ "/" ++ d.1) false) e) := by
  induction deps generalizing e with
  | nil => exact ⟨rfl, rfl, rfl, rfl⟩
  | cons d ds ih => exact ih _

theorem addStatement_does (w : World) (root : String) (b : Booklet) (e₀ : Execution) (e : Execution) (h0 : Same e₀ e) (s : Statement) :
    Does (addStatement w root b e s) (fun e' r es => Same e₀ e' ∧
      r.map (·.2) = statementTopics w b.name s ∧ es.map (·.uuid) = r.map (·.1)) := by
  unfold addStatement
  refine Does.bind0 Does.fresh (fun f _ => Does.bind0 (provideText_does _ _ _) (fun _ _ => ?_))
  refine (buildDeps_does w root b.name b.logo s).bind ?_
  rintro d r es ⟨h1, h2⟩
  have := fold_same s.name d (addInput e f (s.name ++ "/statement.tex") false)
  refine Does.pure ⟨⟨this.1.trans h0.1, this.2.1.trans h0.2.1, this.2.2.1.trans h0.2.2.1, this.2.2.2.trans h0.2.2.2⟩, ?_, ?_⟩
  · simpa using h1
  · simpa using h2

/-- The messages about a booklet. -/
def bookletTopics (w : World) (b : Booklet) : List Topic := b.statements.flatMap (statementTopics w b.name) ++ [.booklet b.name]

theorem compile_does (w : World) (root : String) (b : Booklet) :
    Does (Booklet.compile w root b) (fun _ r es => r.map (·.2) = bookletTopics w b ∧ es.map (·.uuid) = r.map (·.1)) := by
  unfold Booklet.compile
  refine Does.bind0 (newExecution_does _) (fun e he => Does.bind0 (outputOf_does _ _) ?_)
  rintro ⟨out, e1⟩ h1
  refine Does.bind0 Does.fresh (fun f _ => Does.bind0 (provideText_does _ _ _) (fun _ _ => ?_))
  refine (Does.eachWith (I := Same (addInput e1 f "booklet.tex" false))
    (fun x s _ hx => addStatement_does w root b _ x hx s) _ ⟨rfl, rfl, rfl, rfl⟩).bind ?_
  rintro e2 r es ⟨h2, hr, hes⟩
  refine Does.bind0 (addDeps_does _ _ _) (fun e3 h3 => ?_)
  refine (bindCallbacks_does _ _).bind ?_
  rintro _ _ _ ⟨rfl, rfl⟩
  have hso : e3.stdout = none := h3.2.2.1.trans (h2.2.2.1.trans (h1.2.2.1.trans he.1))
  have hse : e3.stderr = none := h3.2.2.2.trans (h2.2.2.2.trans (h1.2.2.2.trans he.2.1))
  refine Does.bind0 (saveLogs_does _ _ _ _ hso hse) (fun e4 h4 => ?_)
  refine Does.bind0 (captureStdout_does _ _) (fun e5 h5 => ?_)
  refine Does.bind0 (onExec_does _ _ rfl) (fun _ _ => ?_)
  refine (addExec_does e5 (h5.2.trans (h4.2.trans (h3.2.1.trans (h2.2.1.trans (h1.2.1.trans rfl)))))).bind ?_
  rintro _ _ es' ⟨rfl, he'⟩
  refine Does.pure ⟨?_, ?_⟩
  · simp [hr, bookletTopics]
  · simp only [List.append_nil, List.nil_append, List.map_append, List.map_cons, List.map_nil, he', hes,
      List.append_cancel_left_eq, List.cons.injEq, and_true]
    exact h5.1.trans h4.1

end TM.Booklet
