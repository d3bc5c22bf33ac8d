import Verif.Whole.Props
/-!
# A whole evaluation of the sample tasks

The sample DAGs are evaluated by a scheduler with one worker, that is lost while it does its first job if
`lose` says so and comes back.
-/
namespace TM.Whole.Demo
open TM TM.Build TM.Sched TM.DagSpec Build.Spec Whole

/-- The result of an execution: the first solution fails on the second testcase. -/
def resultOf (bad : List ExecutionUuid) (e : Execution) : ExecutionResult :=
  if e.uuid ∈ bad then { status := .returnCode 1 } else { status := .success, stdout := some [48] }

/-- What the worker answers to its job. -/
def reply (bad : List ExecutionUuid) (st : St) : Option Event :=
  match st.workers.get? 5 with
  | some (some (c, u)) => match (st.clients.get? c).bind (fun cl => cl.dag.executionGroups.get? u) with
    | some g => some (.workerResult 5 (g.executions.map (resultOf bad)) (g.outs.map (fun f => (f, ⟨toString f⟩))))
    | none => none
  | _ => none

/-- The worker works as long as there is something to do. -/
def work (bad : List ExecutionUuid) : Nat → St → Option St
  | 0, _ => none
  | k + 1, st => match script noCache st [.workerConnected 5] with
    | none => none
    | some st => match reply bad st with
      | none => some st
      | some e => match script noCache st [e] with
        | none => none
        | some st => work bad k st

theorem work_reachable {bad : List ExecutionUuid} : ∀ {k : Nat} {st st' : St}, Reachable st → st.stack = [] →
    work bad k st = some st' → Reachable st' := by
  intro k
  induction k with
  | zero => intro st st' _ _ h; cases h
  | succ k ih =>
    intro st st' h1 h2 h3
    unfold work at h3
    split at h3
    · cases h3
    · next s hs =>
      obtain ⟨h4, h5⟩ := script_reachable h1 h2 hs
      split at h3
      · cases h3; exact h4
      · split at h3
        · cases h3
        · next s' hs' =>
          obtain ⟨h6, h7⟩ := script_reachable h4 h5 hs'
          exact ih h6 h7 h3

/-- Client 1 asks for the evaluation, sends the files, and the worker does everything. -/
def evaluation (lose : Bool) (bad : List ExecutionUuid) (ev : Eval) : Option St :=
  (script noCache {} ([.evaluateDag 1 ev.dag (callbacks ev)] ++
      (if lose then [.workerConnected 5] else []) ++
      (ev.dag.providedFiles.map (fun p => .fileReady 1 p.1 p.2.key)) ++
      (if lose then [.workerDisconnected 5] else []))).bind (work bad 100)

theorem evaluation_reachable {lose : Bool} {bad : List ExecutionUuid} {ev : Eval} {st : St}
    (h : evaluation lose bad ev = some st) : Reachable st := by
  unfold evaluation at h
  rw [Option.bind_eq_some_iff] at h
  obtain ⟨s, h1, h2⟩ := h
  obtain ⟨h3, h4⟩ := script_reachable .init rfl h1
  exact work_reachable h3 h4 h2

/-- The client reads a half where the status is good. -/
def look (r : ExecutionResult) : Outcome :=
  { status := r.status, shown := "exited", score := r.stdout.map (fun _ => .num (1/2)), message := "half" }

theorem look_reading : Reading look := fun _ => rfl

theorem look_numbers : ∀ r x, (look r).score = some x → ∃ q, x = .num q := by
  intro r x h
  simp only [look, Option.map_eq_some_iff] at h
  obtain ⟨-, -, rfl⟩ := h
  exact ⟨_, rfl⟩

/-- How the executions end. -/
def ending (bad : List ExecutionUuid) (e : ExecutionUuid) : Outcome :=
  look (if e ∈ bad then { status := .returnCode 1 } else { status := .success, stdout := some [48] })

/-- The executions of the first solution on the second testcase. -/
def failing (ev : Eval) : List ExecutionUuid :=
  ((allExecs ev.dag).filter (fun e => match reportsOn ev e.uuid with
    | [.evaluation 1 1 0 _ _] => true
    | _ => false)).map (·.uuid)

/-- `Ended`, computed. -/
def endedB (c : ClientUuid) : List Obs → Bool
  | [] => false
  | .out (.evaluationDone c') :: pre => (decide (c' = c) && Connected c pre) || endedB c pre
  | _ :: pre => endedB c pre

theorem ended_of_b {c : ClientUuid} : ∀ {log : List Obs}, endedB c log = true → Ended c log := by
  intro log
  induction log with
  | nil => intro h; cases h
  | cons o log ih =>
    intro h
    have more : endedB c log = true → Ended c (o :: log) := by
      intro h
      obtain ⟨post, pre, rfl, hc⟩ := ih h
      exact ⟨o :: post, pre, rfl, hc⟩
    unfold endedB at h
    split at h
    · cases h
    · next c' pre heq =>
      cases heq
      simp only [Bool.or_eq_true, Bool.and_eq_true, decide_eq_true_eq] at h
      rcases h with ⟨rfl, h⟩ | h
      · exact ⟨[], _, rfl, h⟩
      · exact more h
    · next heq => cases heq; exact more h

/-- `Deterministic`, computed. -/
def deterministicB (ρ : ExecutionUuid → Outcome) (log : List Obs) : Bool :=
  log.all (fun o => match o with
    | .out (.done 1 e r) => decide (look r = ρ e)
    | _ => true)

theorem deterministic_of_b {ρ : ExecutionUuid → Outcome} {log : List Obs} (h : deterministicB ρ log = true) :
    Deterministic 1 look ρ log := by
  intro e r hm
  have := List.all_eq_true.1 h _ hm
  simpa using this

/-- The evaluation of the sample: the failing solution gets a 0. -/
def demoOk (lose : Bool) (msg : String) (ev : Eval) : Bool :=
  match evaluation lose (failing ev) ev with
  | none => false
  | some st => endedB 1 st.log && deterministicB (ending (failing ev)) st.log &&
      decide (.ev (.evaluateDag 1 ev.dag (callbacks ev)) ∈ st.log) &&
      match ev.follow (noticesFor 1 look st.log) with
      | .error _ => false
      | .ok k => decide (scoresGiven k 1 1 0 = [(.num 0, msg)] ∧ scoresGiven k 1 1 1 = [(.num (1/2), "half")])

theorem of_demoOk {lose : Bool} {msg : String} {ev : Eval} (h : demoOk lose msg ev = true) :
    ∃ st k, Reachable st ∧ Ended 1 st.log ∧ Deterministic 1 look (ending (failing ev)) st.log ∧
      Asked st.log 1 ev.dag (callbacks ev) ∧ ev.follow (noticesFor 1 look st.log) = .ok k ∧
      scoresGiven k 1 1 0 = [(.num 0, msg)] ∧ scoresGiven k 1 1 1 = [(.num (1/2), "half")] := by
  unfold demoOk at h
  split at h
  · cases h
  · next st hst =>
    rw [Bool.and_eq_true, Bool.and_eq_true, Bool.and_eq_true] at h
    obtain ⟨⟨⟨h1, h2⟩, h3⟩, h4⟩ := h
    split at h4
    · cases h4
    · next k hk =>
      have := of_decide_eq_true h4
      exact ⟨st, k, evaluation_reachable hst, ended_of_b h1, deterministic_of_b h2, by unfold Asked; exact of_decide_eq_true h3, hk,
        this.1, this.2⟩

/-- The hypotheses of C63 and C64 are met: the sample batch task is evaluated twice, the second time by a
server that loses the worker during the first job. -/
example : ∃ io ev, buildDag Build.Sample.fs "/task" Build.Sample.batch Build.Sample.sols (start 10 {}) =
      .ok (io, ev) ∧
    (∃ st k, Reachable st ∧ Ended 1 st.log ∧ Deterministic 1 look (ending (failing ev)) st.log ∧
      Asked st.log 1 ev.dag (callbacks ev) ∧ ev.follow (noticesFor 1 look st.log) = .ok k ∧
      scoresGiven k 1 1 0 = [(.num 0, "exited")] ∧ scoresGiven k 1 1 1 = [(.num (1/2), "half")]) ∧
    (∃ st k, Reachable st ∧ Ended 1 st.log ∧ Deterministic 1 look (ending (failing ev)) st.log ∧
      Asked st.log 1 ev.dag (callbacks ev) ∧ ev.follow (noticesFor 1 look st.log) = .ok k ∧
      scoresGiven k 1 1 0 = [(.num 0, "exited")] ∧ scoresGiven k 1 1 1 = [(.num (1/2), "half")]) := by
  have : Build.Sample.holds (fun _ ev => demoOk false "exited" ev && demoOk true "exited" ev)
      (buildDag Build.Sample.fs "/task" Build.Sample.batch Build.Sample.sols (start 10 {})) = true := by
    decide +kernel
  obtain ⟨io, ev, h1, h2⟩ := Build.Sample.of_holds this
  rw [Bool.and_eq_true] at h2
  exact ⟨io, ev, h1, of_demoOk h2.1, of_demoOk h2.2⟩

/-- ... and so is the sample communication task. -/
example : ∃ io ev, buildDag Build.Sample.fs "/task" Build.Sample.communication Build.Sample.sols
      (start 10 {}) = .ok (io, ev) ∧
    (∃ st k, Reachable st ∧ Ended 1 st.log ∧ Deterministic 1 look (ending (failing ev)) st.log ∧
      Asked st.log 1 ev.dag (callbacks ev) ∧ ev.follow (noticesFor 1 look st.log) = .ok k ∧
      scoresGiven k 1 1 0 = [(.num 0, "exited")] ∧ scoresGiven k 1 1 1 = [(.num (1/2), "half")]) := by
  have : Build.Sample.holds (fun _ ev => demoOk false "exited" ev)
      (buildDag Build.Sample.fs "/task" Build.Sample.communication Build.Sample.sols (start 10 {})) = true := by
    decide +kernel
  obtain ⟨io, ev, h1, h2⟩ := Build.Sample.of_holds this
  exact ⟨io, ev, h1, of_demoOk h2⟩

end TM.Whole.Demo
