import Verif.Terry.UiSample
import Verif.Whole.Demo
import Verif.Whole.Order
/-!
# The evaluation of a Terry task, client and server together (C94)

The client builds the DAG of the task, sends it to a server and shows what the server says.  The server is any reachable
state of the scheduler: other clients, workers that come, go and fail, cached results.
-/
namespace TM.Terry
open TM TM.Build TM.Sched DagSpec Terry.Spec
open TM.Build.Spec (start callbacks Reports reportsOn Ordered outcomeOf SameOutcomes)
open TM.Whole (Reading Ended Deterministic noticesFor)

variable {R : Type} {n : Uuid} {cfg : DagConfig} {fs : FS} {task : Task} {seed : Nat → Nat} {sols : List Src}
  {ev : Eval} {a : Unit} {st : St} {c : ClientUuid} {look : ExecutionResult → Outcome}

/-! ## Helpers -/

theorem built_runs_once (h : Fits n task sols) (hr : buildDag fs task seed sols (start n cfg) = .ok (a, ev))
    {u : GroupUuid} {g : ExecutionGroup} (hg : ev.dag.executionGroups.get? u = some g) : RunsOnce g :=
  (buildDag_done h hr).1.inv.once u g (AMap.mem_of_get? hg)

theorem built_once (h : Fits n task sols) (hr : buildDag fs task seed sols (start n cfg) = .ok (a, ev))
    (hs : Reachable st) (ha : Asked st.log c ev.dag (callbacks ev)) {g : ExecutionGroup} (hg : GroupOf st.log c g) :
    RunsOnce g :=
  built_runs_once h hr ((reachable_aux hs).hist.groupOf_dag hg ha)

theorem built_watched (h : Fits n task sols) (hr : buildDag fs task seed sols (start n cfg) = .ok (a, ev))
    {e : Execution} (he : e ∈ allExecs ev.dag) : e.uuid ∈ (callbacks ev).executions := by
  obtain ⟨t, ht, -⟩ := reported_once h hr he
  have : Reports ev e.uuid t := mem_reportsOn.1 (by rw [ht]; simp)
  exact List.mem_map.2 ⟨_, this, rfl⟩

/-! ## C94 -/

/-- **C94** When the end of the evaluation is announced, every execution of the DAG of the task was notified to the client
as done or as skipped, exactly once and not as both; no group ever ends twice. -/
theorem executions_notified (h : Fits n task sols) (hr : buildDag fs task seed sols (start n cfg) = .ok (a, ev))
    (hs : Reachable st) (ha : Asked st.log c ev.dag (callbacks ev)) :
    (∀ u, termCount st.log c u ≤ 1) ∧
    (Ended c st.log → ∀ e ∈ allExecs ev.dag,
      (noticesFor c look st.log).countP (fun x => decide (x.exec = e.uuid ∧ x.kind ≠ .start)) = 1) :=
  ⟨Whole.groups_end_once_of hs (fun _ hg => built_once h hr hs ha hg),
   fun hend _ he => Whole.executions_notified_of hs ha (fun _ he => built_watched h hr he)
    (fun _ hg => built_once h hr hs ha hg) hend he⟩

/-- **C94** What a server says about the DAG of a task comes in an order the theorems about the UI (C92, C93) admit. -/
theorem notices_in_order (h : Fits n task sols) (hr : buildDag fs task seed sols (start n cfg) = .ok (a, ev))
    (hs : Reachable st) (ha : Asked st.log c ev.dag (callbacks ev)) (hl : Reading look) :
    Ordered ev.dag (noticesFor c look st.log) :=
  Whole.ordered_of_server hs hl ha (fun _ he => built_watched h hr he) (fun _ _ hg => built_runs_once h hr hg)

/-- **C94** Two complete evaluations of a task, on whatever servers: if the executions are deterministic they end in the
same way for both clients. -/
theorem same_outcomes (h : Fits n task sols) (hr : buildDag fs task seed sols (start n cfg) = .ok (a, ev))
    {st st' : St} {c c' : ClientUuid} (hs : Reachable st) (hs' : Reachable st')
    (ha : Asked st.log c ev.dag (callbacks ev)) (ha' : Asked st'.log c' ev.dag (callbacks ev)) (hend : Ended c st.log)
    (hend' : Ended c' st'.log) (hl : Reading look) {ρ : ExecutionUuid → Outcome} (hd : Deterministic c look ρ st.log)
    (hd' : Deterministic c' look ρ st'.log) :
    SameOutcomes (noticesFor c look st.log) (noticesFor c' look st'.log) :=
  Whole.same_outcomes_of hs hs' ha ha' (fun _ he => built_watched h hr he) (fun _ hg => built_once h hr hs ha hg)
    (fun _ hg => built_once h hr hs' ha' hg) hend hend' hl hd hd'

theorem captured_of (hd : ∀ e r, Obs.out (.done c e r) ∈ st.log → ∀ sol, Reports ev e (checkerOf sol) →
    (look r).captured = true) : Captured ev (noticesFor c look st.log) := by
  intro sol u o hrep ho
  obtain ⟨r, hm, rfl⟩ := Whole.mem_done.1 (outcome_mem ho)
  exact hd _ _ hm sol hrep

/-- **C94** ... and the UI shows the same for both: of every solution the same results and the same outcome, and it says
that it is done, or that a step of it failed, for both or for none.  The checkers have to give their output: without it the
evaluation is aborted, see `one_checker_stops_all`. -/
theorem same_shown (h : Fits n task sols) (hr : buildDag fs task seed sols (start n cfg) = .ok (a, ev))
    (parse : Outcome → R) {st st' : St} {c c' : ClientUuid} (hs : Reachable st) (hs' : Reachable st')
    (ha : Asked st.log c ev.dag (callbacks ev)) (ha' : Asked st'.log c' ev.dag (callbacks ev)) (hend : Ended c st.log)
    (hend' : Ended c' st'.log) (hl : Reading look) {ρ : ExecutionUuid → Outcome} (hd : Deterministic c look ρ st.log)
    (hd' : Deterministic c' look ρ st'.log) (hcap : ∀ sol u, Reports ev u (checkerOf sol) → (ρ u).captured = true)
    {i : Nat} (hi : i < sols.length) :
    ∃ ui ui' x x', shown parse ev sols.length (noticesFor c look st.log) = some ui ∧ ui.solutions.get? i = some x ∧
      shown parse ev sols.length (noticesFor c' look st'.log) = some ui' ∧ ui'.solutions.get? i = some x' ∧
      x.seed = x'.seed ∧ x.generator = x'.generator ∧ x.validator = x'.validator ∧ x.solution = x'.solution ∧
      x.checker = x'.checker ∧ x.outcome = x'.outcome ∧
      (x.status = .done ↔ x'.status = .done) ∧ ∀ w, x.status = .failed w ↔ x'.status = .failed w := by
  have hso := same_outcomes h hr hs hs' ha ha' hend hend' hl hd hd'
  obtain ⟨g, v, s, k, hx⟩ := executions_exist h hr hi
  have hc : Captured ev (noticesFor c look st.log) :=
    captured_of (fun e r hm sol hrep => by rw [hd _ _ hm]; exact hcap _ _ hrep)
  have hc' : Captured ev (noticesFor c' look st'.log) :=
    captured_of (fun e r hm sol hrep => by rw [hd' _ _ hm]; exact hcap _ _ hrep)
  have ho := notices_in_order h hr hs ha hl
  have ho' := notices_in_order h hr hs' ha' hl
  obtain ⟨ui, x, a1, a2, a3, a4, a5, a6, a7, a8⟩ := results_shown h hr parse ho hc hi hx
  obtain ⟨ui', x', b1, b2, b3, b4, b5, b6, b7, b8⟩ := results_shown h hr parse ho' hc' hi hx
  obtain ⟨ui₂, x₂, e1, e2, e3, e4⟩ := ending_shown h hr parse ho hc hi hx
  obtain ⟨ui₂', x₂', f1, f2, f3, f4⟩ := ending_shown h hr parse ho' hc' hi hx
  rw [a1] at e1; cases e1; rw [a2] at e2; cases e2
  rw [b1] at f1; cases f1; rw [b2] at f2; cases f2
  have hfun : outcomeOf (noticesFor c look st.log) = outcomeOf (noticesFor c' look st'.log) := funext hso
  refine ⟨ui, ui', x, x', a1, a2, b1, b2, by rw [a3, b3], by rw [a4, b4, hfun], by rw [a5, b5, hfun],
    by rw [a6, b6, hfun], by rw [a7, b7, hfun], by rw [a8, b8, hfun], by rw [e3, f3, hfun], fun w => by rw [e4, f4, hfun]⟩

/-! ## Examples -/

namespace Sample
open TM.Whole.Demo

/-- The executions of the second solution. -/
def secondFails (ev : Eval) : List ExecutionUuid := withTopic ev (fun t => t = solutionOf 1)

def wholeOk (lose : Bool) (ev : Eval) : Bool :=
  match evaluation lose (secondFails ev) ev with
  | none => false
  | some st => endedB 1 st.log && deterministicB (ending (secondFails ev)) st.log &&
      decide (.ev (.evaluateDag 1 ev.dag (callbacks ev)) ∈ st.log) &&
      decide (((shown parse ev 2 (noticesFor 1 Whole.Demo.look st.log)).bind (·.solutions.get? 0)).map (·.status) = some .done ∧
        ((shown parse ev 2 (noticesFor 1 Whole.Demo.look st.log)).bind (·.solutions.get? 1)).map (·.status) =
          some (.failed "Solution failed"))

/-- A server that evaluated the task: the first solution is done, the second one failed. -/
def Evaluated (ev : Eval) (st : St) : Prop :=
  Reachable st ∧ Ended 1 st.log ∧ Deterministic 1 Whole.Demo.look (ending (secondFails ev)) st.log ∧
  Asked st.log 1 ev.dag (callbacks ev) ∧
  ((shown parse ev 2 (noticesFor 1 Whole.Demo.look st.log)).bind (·.solutions.get? 0)).map (·.status) = some .done ∧
  ((shown parse ev 2 (noticesFor 1 Whole.Demo.look st.log)).bind (·.solutions.get? 1)).map (·.status) = some (.failed "Solution failed")

theorem of_wholeOk {lose : Bool} {ev : Eval} (h : wholeOk lose ev = true) : ∃ st, Evaluated ev st := by
  unfold wholeOk at h
  split at h
  · cases h
  · next st hst =>
    rw [Bool.and_eq_true, Bool.and_eq_true, Bool.and_eq_true] at h
    obtain ⟨⟨⟨h1, h2⟩, h3⟩, h4⟩ := h
    have := of_decide_eq_true h4
    exact ⟨st, evaluation_reachable hst, ended_of_b h1, deterministic_of_b h2,
      by unfold Asked; exact of_decide_eq_true h3, this.1, this.2⟩

theorem ending_captured (bad : List ExecutionUuid) (u : ExecutionUuid) : (ending bad u).captured = true := by
  unfold ending Whole.Demo.look; split <;> rfl

/-- The hypotheses of the theorems above are met: the sample task is evaluated by a server that does not lose its worker
and by one that loses it during the first job. -/
example : ∃ a ev st st', buildDag Build.Sample.fs Sample.task Sample.seed Sample.sols (start 10 {}) = .ok (a, ev) ∧ Evaluated ev st ∧
    Evaluated ev st' ∧ ∀ sol u, Reports ev u (checkerOf sol) → (ending (secondFails ev) u).captured = true := by
  have : TM.Terry.Sample.holds (fun ev => wholeOk false ev && wholeOk true ev)
      (buildDag Build.Sample.fs Sample.task Sample.seed Sample.sols (start 10 {})) = true := by decide +kernel
  obtain ⟨a, ev, h1, h2⟩ := TM.Terry.Sample.of_holds this
  rw [Bool.and_eq_true] at h2
  obtain ⟨st, h3⟩ := of_wholeOk h2.1
  obtain ⟨st', h4⟩ := of_wholeOk h2.2
  exact ⟨a, ev, st, st', h1, h3, h4, fun _ u _ => ending_captured _ u⟩

end Sample
end TM.Terry
