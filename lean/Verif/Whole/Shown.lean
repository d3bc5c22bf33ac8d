import Verif.Whole.Order
import Verif.Ui.PropsScores
import Verif.Ui.Sample
import Verif.Whole.Demo
/-!
# What the UI shows of an evaluation on a server (C71, C72)
-/
namespace TM.Whole
open TM TM.Build TM.Sched TM.DagSpec TM.Ui Build.Spec Ui.Spec

variable {n : Uuid} {cfg : DagConfig} {fs : FS} {root : String} {task : Build.Task} {sols : List Src}
  {io : GeneratedIo} {ev : Eval} {st : St} {c : ClientUuid} {look : ExecutionResult → Outcome}
  {mx : Nat → Rat} {agg : Score.Aggregator} {order : Nat → List Nat}
  {ms : AMap Nat Score.Manager} {checks : List (Nat × List SolCheck)} {pick : Live → List Nat} {l : Live}

/-- **C71** What a server says about the DAG of a task comes in order: an execution starts and ends after
the ones that produce its inputs ended with success, it ends once and does not start again. -/
theorem task_notices_in_order (h : Fits n task sols)
    (hr : buildDag fs root task sols (start n cfg) = .ok (io, ev)) (hs : Reachable st)
    (ha : Asked st.log c ev.dag (callbacks ev)) (hl : Reading look) :
    Ordered ev.dag (noticesFor c look st.log) :=
  ordered_of_server hs hl ha (fun _ he => built_watched h hr he) (fun _ _ hg => built_runs_once h hr hg)

/-- **C71** The result the UI shows for a testcase of a solution of a batch task is the one the outcomes of
the two executions call for, whatever the server, its workers and the other clients do.  Missing: the
communication tasks, see `communication_status_lost`. -/
theorem task_status_shown_partial (h : Fits n task sols) (hk : Keyed task)
    (htc : ∀ st ∈ task.subtasks.values, st.testcases.Nodup)
    (hr : buildDag fs root task sols (start n cfg) = .ok (io, ev)) {checker : Checker}
    (ht : task.type = .batch checker) {sub : Build.Subtask} (hsub : sub ∈ task.subtasks.values) {k : Nat}
    (hown : k ∈ sub.owned) {j : Nat} (hj : j < sols.length)
    (hs : Reachable st) (ha : Asked st.log c ev.dag (callbacks ev)) (hlook : Reading look)
    (hms : newManagers (scoreTask task mx agg) order (List.range sols.length) = some ms)
    (hl : Live.follow pick ev ms checks (noticesFor c look st.log) = some l) {s : State}
    (hui : l.ui task = some s) :
    ∃ e ∈ allExecs ev.dag, ∃ q ∈ allExecs ev.dag, Reports ev e.uuid (.evaluation sub.id k j 0 1) ∧
      Reports ev q.uuid (.checker sub.id k j) ∧
      ∃ x, (s.evaluations.get? j).bind (·.testcases.get? k) = some x ∧
        x.status = batchStatus checker e.uuid q.uuid (noticesFor c look st.log) ∧
        x.score = batchScore checker e.uuid q.uuid (noticesFor c look st.log) := by
  obtain ⟨e, q, f, g1, g2, -, -, g5, g6, -⟩ := batch_executions h hr ht hsub hown hj
  exact ⟨e, g1, q, g2, g5, g6, status_shown_partial h hk htc hr ht hsub hown hj g1 g2 g5 g6 hms
    (task_notices_in_order h hr hs ha hlook) hl hui⟩

/-- **C72** Two complete evaluations of a batch task, on whatever servers: if the executions are
deterministic the checks of the solutions give the same outcomes. -/
theorem task_checks_same (h : Fits n task sols) (hk : Keyed task) (hw : task.testcases.Wf)
    (hcov : Covered task) (htc : ∀ st ∈ task.subtasks.values, st.testcases.Nodup)
    (hr : buildDag fs root task sols (start n cfg) = .ok (io, ev)) {checker : Checker}
    (ht : task.type = .batch checker) {st' : St} {c' : ClientUuid}
    (hs : Reachable st) (hs' : Reachable st') (ha : Asked st.log c ev.dag (callbacks ev))
    (ha' : Asked st'.log c' ev.dag (callbacks ev)) (hend : Ended c st.log) (hend' : Ended c' st'.log)
    (hlook : Reading look) {ρ : ExecutionUuid → Outcome} (hd : Deterministic c look ρ st.log)
    (hd' : Deterministic c' look ρ st'.log)
    {order' : Nat → List Nat} {ms' : AMap Nat Score.Manager} {pick' : Live → List Nat} {l' : Live}
    (horder : ∀ j, (scoreTask task mx agg).Order (order j)) (horder' : ∀ j, (scoreTask task mx agg).Order (order' j))
    (hms : newManagers (scoreTask task mx agg) order (List.range sols.length) = some ms)
    (hms' : newManagers (scoreTask task mx agg) order' (List.range sols.length) = some ms')
    (hpick : ∀ l, (scoreTask task mx agg).Order (pick l)) (hpick' : ∀ l, (scoreTask task mx agg).Order (pick' l))
    (hchecks : ∀ p ∈ checks, p.1 < sols.length)
    (hl : Live.follow pick ev ms checks (noticesFor c look st.log) = some l)
    (hl' : Live.follow pick' ev ms' checks (noticesFor c' look st'.log) = some l')
    {s s' : State} (hui : l.ui task = some s) (hui' : l'.ui task = some s') (nfkc : List Char → List Char)
    {r r' : List CheckOutcome} (hrun : runSolutionChecks task nfkc s = some r)
    (hrun' : runSolutionChecks task nfkc s' = some r') (o : CheckOutcome) : o ∈ r ↔ o ∈ r' :=
  checks_schedule_independent h hk hw hcov htc hr ht horder horder' hms hms' hpick hpick' hchecks
    (task_notices_in_order h hr hs ha hlook) (task_notices_in_order h hr hs' ha' hlook)
    (same_outcomes h hr hs hs' ha ha' hend hend' hlook hd hd') hl hl' hui hui' nfkc hrun hrun' o

open TM.Whole.Demo

/-- What the UI shows of the evaluation of the sample on a server. -/
def shownOk (lose : Bool) (ev : Eval) : Bool :=
  match evaluation lose (failing ev) ev with
  | none => false
  | some st => endedB 1 st.log && deterministicB (ending (failing ev)) st.log &&
      decide (.ev (.evaluateDag 1 ev.dag (callbacks ev)) ∈ st.log) &&
      match Ui.Sample.live Build.Sample.batch ev (noticesFor 1 TM.Whole.Demo.look st.log) with
      | none => false
      | some l => match l.ui Build.Sample.batch with
        | none => false
        | some s => decide (
            Ui.Sample.shown Build.Sample.batch s 0 1 = some (.runtimeError, some (.num 0)) ∧
            Ui.Sample.shown Build.Sample.batch s 1 1 = some (.partialScore "half", some (.num (1/2))))

/-- The hypotheses of the theorems above are met: with a server that loses a worker, and without. -/
example : ∃ io ev, buildDag Build.Sample.fs "/task" Build.Sample.batch Build.Sample.sols (start 10 {}) =
      .ok (io, ev) ∧ ∀ lose, ∃ st ms l s, evaluation lose (failing ev) ev = some st ∧ Reachable st ∧ Ended 1 st.log ∧
      Deterministic 1 TM.Whole.Demo.look (ending (failing ev)) st.log ∧ Asked st.log 1 ev.dag (callbacks ev) ∧
      newManagers (scoreTask Build.Sample.batch Ui.Sample.maxScore .min) (fun _ => Ui.Sample.subtaskOrder)
        (List.range Build.Sample.sols.length) = some ms ∧
      Live.follow (fun _ => Ui.Sample.subtaskOrder) ev ms Ui.Sample.solChecks
        (noticesFor 1 TM.Whole.Demo.look st.log) = some l ∧
      l.ui Build.Sample.batch = some s ∧
      Ui.Sample.shown Build.Sample.batch s 0 1 = some (.runtimeError, some (.num 0)) ∧
      Ui.Sample.shown Build.Sample.batch s 1 1 = some (.partialScore "half", some (.num (1/2))) := by
  have : Build.Sample.holds (fun _ ev => shownOk false ev && shownOk true ev)
      (buildDag Build.Sample.fs "/task" Build.Sample.batch Build.Sample.sols (start 10 {})) = true := by
    decide +kernel
  obtain ⟨io, ev, h1, h2⟩ := Build.Sample.of_holds this
  rw [Bool.and_eq_true] at h2
  refine ⟨io, ev, h1, fun lose => ?_⟩
  have h : shownOk lose ev = true := by cases lose; exact h2.1; exact h2.2
  unfold shownOk at h
  split at h
  · cases h
  · next st hst =>
    rw [Bool.and_eq_true, Bool.and_eq_true, Bool.and_eq_true] at h
    obtain ⟨⟨⟨a, b⟩, d⟩, e⟩ := h
    split at e
    · cases e
    · next l hl =>
      split at e
      · cases e
      · next s hs =>
        obtain ⟨ms, hms, hf⟩ := Ui.Sample.of_live hl
        have he := of_decide_eq_true e
        exact ⟨st, ms, l, s, hst, evaluation_reachable hst, ended_of_b a, deterministic_of_b b,
          by unfold Asked; exact of_decide_eq_true d, hms, hf, hs, he.1, he.2⟩

end TM.Whole
