import Verif.Sched.AuxEvent
/-!
Concrete runs of the scheduler, used to show that the hypotheses of the theorems are met and as
counterexamples.  `script` runs a list of messages, draining the stack after each of them with
canonical iteration orders and the given cache; every state it returns is reachable.
-/

namespace TM.Sched

/-- Boolean version of `ResultOk`. -/
def resultOkB (g : ExecutionGroup) (results : List ExecutionResult)
    (outputs : AMap FileUuid FileStoreKey) : Bool :=
  decide (results.length = g.executions.length) && decide outputs.keys.Nodup &&
    outputs.keys.all (fun f => decide (f ∈ g.outs)) && g.outs.all (fun f => decide (f ∈ outputs.keys))

theorem resultOk_of_b {g rs os} (h : resultOkB g rs os = true) : ResultOk g rs os := by
  simp only [resultOkB, Bool.and_eq_true, decide_eq_true_eq, List.all_eq_true] at h
  exact ⟨h.1.1.1, h.1.1.2, fun f => ⟨h.1.2 f, h.2 f⟩⟩

/-- The group an entry of the queue refers to. -/
def entryGroup (st : St) (e : ReadyEntry) : Option ExecutionGroup :=
  (st.clients.get? e.client).bind (fun cl => cl.dag.executionGroups.get? e.group)

/-- The answer of the cache `ans`, if it has the right shape. -/
def answer (ans : ClientUuid → GroupUuid → Option Hit) (st : St) (e : ReadyEntry) : Option Hit :=
  match ans e.client e.group, entryGroup st e with
  | some hit, some g => if resultOkB g hit.results hit.outputs then some hit else none
  | _, _ => none

/-- Canonical choices. -/
def canon (ans : ClientUuid → GroupUuid → Option Hit) (st : St) : Task → Choice
  | .fileSuccess c f => { groups := ((st.clients.get? c).bind (fun cl => cl.inputOf.get? f)).getD [] }
  | .fileFailed c f => { groups := ((st.clients.get? c).bind (fun cl => cl.inputOf.get? f)).getD [] }
  | .scheduleCached => { entries := st.ready.map (fun e => (e, answer ans st e)) }
  | .assignJobs => { workers := st.workers.keys }
  | _ => {}

theorem canon_ok (ans) (st : St) (t : Task) : ChoiceOk st t (canon ans st t) := by
  cases t <;> try trivial
  · intro cl us hc hi; simp [canon, hc, hi]
  · intro cl us hc hi; simp [canon, hc, hi]
  · refine ⟨by simp [canon, Function.comp_def], ?_⟩
    intro e hit hm cl g hc hg
    simp only [canon, List.mem_map] at hm
    obtain ⟨e', _, he⟩ := hm
    simp only [Prod.mk.injEq] at he
    obtain ⟨rfl, he⟩ := he
    simp only [answer, entryGroup, hc, Option.bind_some, hg] at he
    split at he
    · rename_i h1 h2
      cases h2
      split at he
      · cases he; rename_i h3; exact resultOk_of_b h3
      · cases he
    · cases he
  · exact List.Perm.refl _

/-- Run until the stack is empty. -/
def drain (ans : ClientUuid → GroupUuid → Option Hit) : Nat → St → Option St
  | 0, st => match st.stack with
    | [] => some st
    | _ => none
  | n + 1, st => match st.stack with
    | [] => some st
    | t :: rest => match runTask { st with stack := rest } t (canon ans st t) with
      | .ok st' => drain ans n st'
      | .error _ => none

theorem drain_reachable {ans n} {st st' : St} (h : Reachable st) (hd : drain ans n st = some st') :
    Reachable st' ∧ st'.stack = [] := by
  induction n generalizing st with
  | zero =>
    unfold drain at hd
    split at hd
    · cases hd; exact ⟨h, by assumption⟩
    · cases hd
  | succ n ih =>
    unfold drain at hd
    split at hd
    · cases hd; exact ⟨h, by assumption⟩
    · next t rest hst =>
      split at hd
      · next st1 h1 => exact ih (h.step (.task t rest _ hst (canon_ok ans st t) h1)) hd
      · cases hd

/-- Boolean version of `EventOk`. -/
def eventOkB (st : St) : Event → Bool
  | .evaluateDag c dag cb =>
      decide dag.providedFiles.keys.Nodup && decide dag.executionGroups.keys.Nodup &&
      dag.executionGroups.all (fun p => decide (p.2.uuid = p.1)) &&
      (match CheckDag.checkDag dag cb with | .ok _ => true | .error _ => false) &&
      st.log.all (fun o => match o with | .ev (.evaluateDag c' _ _) => decide (c' ≠ c) | _ => true)
  | .fileReady c f _ => st.log.any (fun o => match o with
      | .ev (.evaluateDag c' dag _) => decide (c' = c) && decide (f ∈ dag.providedFiles.keys)
      | _ => false)
  | .workerResult w results outputs => match st.workers.get? w with
      | some (some (c, u)) => match st.clients.get? c with
        | some cl => match cl.dag.executionGroups.get? u with
          | some g => resultOkB g results outputs
          | none => true
        | none => true
      | _ => true
  | .workerConnected w => (st.workers.get? w).isNone
  | _ => true

theorem eventOk_of_b {st : St} {e : Event} (h : eventOkB st e = true) : EventOk st e := by
  cases e with
  | evaluateDag c dag cb =>
    simp only [eventOkB, Bool.and_eq_true, decide_eq_true_eq, List.all_eq_true] at h
    refine ⟨⟨h.1.1.1.1, h.1.1.1.2, fun k g hm => h.1.1.2 (k, g) hm⟩, ?_, ?_⟩
    · have := h.1.2
      split at this
      · assumption
      · cases this
    · intro d b hm
      have := h.2 _ hm
      simp at this
  | fileReady c f k =>
    simp only [eventOkB, List.any_eq_true] at h
    obtain ⟨o, ho, hb⟩ := h
    split at hb
    · simp only [Bool.and_eq_true, decide_eq_true_eq] at hb
      obtain ⟨rfl, hf⟩ := hb
      exact ⟨_, _, ho, hf⟩
    · cases hb
  | workerResult w rs os =>
    intro c u cl g h1 h2 h3
    simp only [eventOkB, h1, h2, h3] at h
    exact resultOk_of_b h
  | workerConnected w => simpa [eventOkB, EventOk] using h
  | clientDisconnected c => trivial
  | workerDisconnected w => trivial
  | status c => trivial

/-- Handle a list of messages; at most 200 steps for each. -/
def script (ans : ClientUuid → GroupUuid → Option Hit) : St → List Event → Option St
  | st, [] => some st
  | st, e :: es =>
    if eventOkB st e then
      match handle st e with
      | .error _ => none
      | .ok st' => match drain ans 200 st' with
        | none => none
        | some st'' => script ans st'' es
    else none

theorem script_reachable {ans es} {st st' : St} (h : Reachable st) (hst : st.stack = [])
    (hs : script ans st es = some st') : Reachable st' ∧ st'.stack = [] := by
  induction es generalizing st with
  | nil => simp only [script, Option.some.injEq] at hs; subst hs; exact ⟨h, hst⟩
  | cons e es ih =>
    unfold script at hs
    split at hs
    · next hok =>
      split at hs
      · cases hs
      · next st1 h1 =>
        split at hs
        · cases hs
        · next st2 h2 =>
          have := drain_reachable (h.step (.event e hst (eventOk_of_b hok) h1)) h2
          exact ih this.1 this.2 hs
    · cases hs

/-- The state after a script, from the initial state. -/
def after (ans : ClientUuid → GroupUuid → Option Hit) (es : List Event) : St :=
  (script ans {} es).getD {}

theorem after_reachable (ans es) : Reachable (after ans es) ∧ (after ans es).stack = [] := by
  unfold after
  cases h : script ans {} es with
  | none => exact ⟨.init, rfl⟩
  | some st => exact script_reachable .init rfl h

/-! ### The DAGs and messages of the examples -/

/-- An empty cache. -/
def noCache : ClientUuid → GroupUuid → Option Hit := fun _ _ => none

def good : ExecutionResult := { status := .success }
def bad : ExecutionResult := { status := .returnCode 1 }
def key (s : String) : FileStoreKey := ⟨s⟩

def gen : ExecutionGroup := { uuid := 10, executions := [{ uuid := 100, stdout := some 1 }] }
def sol : ExecutionGroup :=
  { uuid := 11
    executions := [{ uuid := 101, stdin := some 1, inputs := [("exe", ⟨0, true⟩)], stdout := some 2 }] }
def chk : ExecutionGroup :=
  { uuid := 12, executions := [{ uuid := 102, stdin := some 2, stdout := some 3 }] }

/-- generator (10) writes file 1; solution (11) reads 1 and the provided file 0, writes 2;
checker (12) reads 2, writes 3. -/
def demoDag : DagData :=
  { providedFiles := [(0, { key := key "p" })]
    executionGroups := [ (10, gen), (11, sol), (12, chk) ] }

def demoCb : WatchSet :=
  { executions := [100, 101, 102], files := [1, 3], urgentFiles := [3] }

/-- A whole evaluation: everything succeeds. -/
def demoRun : List Event :=
  [ .evaluateDag 1 demoDag demoCb, .fileReady 1 0 (key "p"),
    .workerConnected 5, .workerResult 5 [good] [(1, key "a")],
    .workerConnected 5, .workerResult 5 [good] [(2, key "b")],
    .workerConnected 5, .workerResult 5 [good] [(3, key "c")] ]

/-- A whole evaluation in which the generator fails. -/
def demoFail : List Event :=
  [ .evaluateDag 1 demoDag demoCb, .workerConnected 5, .workerResult 5 [bad] [(1, key "a")],
    .fileReady 1 0 (key "p") ]

def twin : ExecutionGroup :=
  { uuid := 20, executions := [{ uuid := 200, stdout := some 1 }, { uuid := 201 }] }
def afterTwin : ExecutionGroup := { uuid := 21, executions := [{ uuid := 202, stdin := some 1 }] }

/-- A group (20) of two executions without inputs, and a group (21) reading the output of one. -/
def twinDag : DagData := { executionGroups := [ (20, twin), (21, afterTwin) ] }

end TM.Sched
