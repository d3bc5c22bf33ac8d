import Verif.Terry.PropsUi
/-!
# Examples of what the UI of a Terry task shows (C92, C93)
-/
namespace TM.Terry
open TM TM.Build DagSpec Terry.Spec
open TM.Build.Spec (start callbacks Reports reportsOn Ordered Fed outcomeOf firsts firstsFrom)
open TM.Ui (orderedFrom orderedOk_ordered)

namespace Sample

/-- The executions whose topic satisfies `f`. -/
def withTopic (ev : Eval) (f : Topic → Bool) : List ExecutionUuid :=
  ((allExecs ev.dag).filter (fun e => (reportsOn ev e.uuid).any f)).map (·.uuid)

/-- They are done, with success. -/
def went (ev : Eval) (f : Topic → Bool) : List Notice := (withTopic ev f).map (fun u => .done u { status := .success })

/-- What the checker says. -/
def parse (o : Outcome) : String := o.message

def compiles (p : Topic) : Bool := match p with | .compilation _ => true | _ => false
def compilesOther (p : Topic) : Bool := match p with | .compilation p => p ≠ "/task/checker.cpp" | _ => false
def generates (p : Topic) : Bool := match p with | .generation _ _ => true | _ => false
def validates (p : Topic) : Bool := match p with | .validation _ _ => true | _ => false
def solves (p : Topic) : Bool := match p with | .evaluation _ _ _ _ _ => true | _ => false
def checks (p : Topic) : Bool := match p with | .checker _ _ _ => true | _ => false

/-- Everything is compiled and generated; the first solution is run and checked, the second one fails. -/
def usual (ev : Eval) : List Notice :=
  went ev compiles ++ went ev generates ++ went ev validates ++
  (withTopic ev (fun t => t = solutionOf 0)).map .started ++ went ev (fun t => t = solutionOf 0) ++
  (withTopic ev (fun t => t = checkerOf 0)).map (fun u => .done u { status := .success, message := "{...}" }) ++
  (withTopic ev (fun t => t = solutionOf 1)).map (fun u => .done u { status := .returnCode 1 }) ++
  (withTopic ev (fun t => t = checkerOf 1)).map .skipped

/-- The checker does not compile and is not run. -/
def noChecker (ev : Eval) : List Notice :=
  (withTopic ev (fun t => t = .compilation "/task/checker.cpp")).map (fun u => .done u { status := .returnCode 1 }) ++
  (withTopic ev checks).map .skipped

/-- The solutions are run. -/
def solutions (ev : Eval) : List Notice := went ev generates ++ went ev validates ++ went ev solves

/-- The sandbox of the first checker fails, the second one is fine. -/
def badSandbox (ev : Eval) : List Notice :=
  went ev compiles ++ went ev generates ++ went ev validates ++ went ev (fun t => t = solutionOf 0) ++
  (withTopic ev (fun t => t = checkerOf 0)).map (fun u => .done u { status := .internalError "no space left", captured := false }) ++
  went ev (fun t => t = solutionOf 1) ++ went ev (fun t => t = checkerOf 1)

/-- What the UI shows of a solution, if the notices may come in that order. -/
def status (ev : Eval) (ns : List Notice) (i : Nat) : Option Status :=
  if orderedFrom ev.dag [] ns then ((shown parse ev 2 ns).bind (·.solutions.get? i)).map (·.status) else none

/-- The notices are possible and at the end the status of solution `i` is `s`. -/
def Shows (ev : Eval) (ns : List Notice) (i : Nat) (s : Status) : Prop :=
  Ordered ev.dag ns ∧ ∃ ui x, shown parse ev 2 ns = some ui ∧ ui.solutions.get? i = some x ∧ x.status = s

theorem of_status {ev : Eval} {ns : List Notice} {i : Nat} {s : Status} (h : status ev ns i = some s) : Shows ev ns i s := by
  unfold status at h
  split at h
  · next ho =>
    refine ⟨orderedOk_ordered ho, ?_⟩
    rw [Option.map_eq_some_iff] at h
    obtain ⟨x, h1, h2⟩ := h
    rw [Option.bind_eq_some_iff] at h1
    obtain ⟨ui, h3, h4⟩ := h1
    exact ⟨ui, x, h3, h4, h2⟩
  · cases h

/-- Every execution is over. -/
def complete (ev : Eval) (ns : List Notice) : Bool :=
  (allExecs ev.dag).all (fun e => ns.any (fun x => x.exec == e.uuid && decide (x.kind ≠ .start)))

theorem of_complete {ev : Eval} {ns : List Notice} (h : complete ev ns = true) :
    ∀ e ∈ allExecs ev.dag, ∃ x ∈ ns, x.exec = e.uuid ∧ x.kind ≠ .start := by
  intro e he
  have := List.all_eq_true.1 h e he
  obtain ⟨x, hx, hx2⟩ := List.any_eq_true.1 this
  rw [Bool.and_eq_true, beq_iff_eq, decide_eq_true_eq] at hx2
  exact ⟨x, hx, hx2.1, hx2.2⟩

end Sample

open TM.Terry.Sample in
/-- The usual evaluation of the sample task. -/
example : ∃ a ev, buildDag Build.Sample.fs Sample.task Sample.seed Sample.sols (start 10 {}) = .ok (a, ev) ∧
    (∀ e ∈ allExecs ev.dag, ∃ x ∈ usual ev, x.exec = e.uuid ∧ x.kind ≠ .start) ∧ (follow parse ev 2 (usual ev)).2 = true ∧
    Shows ev (usual ev) 0 .done ∧ Shows ev (usual ev) 1 (.failed "Solution failed") ∧
    ((shown parse ev 2 (usual ev)).bind (·.solutions.get? 0)).bind (·.outcome) = some "{...}" := by
  have : TM.Terry.Sample.holds (fun ev => complete ev (usual ev) && decide ((follow parse ev 2 (usual ev)).2 = true ∧
      status ev (usual ev) 0 = some .done ∧ status ev (usual ev) 1 = some (.failed "Solution failed") ∧
      ((shown parse ev 2 (usual ev)).bind (·.solutions.get? 0)).bind (·.outcome) = some "{...}"))
      (buildDag Build.Sample.fs Sample.task Sample.seed Sample.sols (start 10 {})) = true := by decide +kernel
  obtain ⟨a, ev, h1, h2⟩ := TM.Terry.Sample.of_holds this
  rw [Bool.and_eq_true] at h2
  obtain ⟨h4, h5, h6, h7⟩ := of_decide_eq_true h2.2
  have h3 := h2.1
  exact ⟨a, ev, h1, of_complete h3, h4, of_status h5, of_status h6, h7⟩

open TM.Terry.Sample in
/-- **C93** ... with a checker that does not compile a solution is shown at the end of the evaluation as solved (as if the
checker had yet to be run) or as skipped, depending on the order in which its executions end; they end in the same way in
both cases. -/
theorem status_by_chance : ∃ a ev, buildDag Build.Sample.fs Sample.task Sample.seed Sample.sols (start 10 {}) = .ok (a, ev) ∧
    ∃ ns ns' : List Notice, ns.Perm ns' ∧ (∀ e ∈ allExecs ev.dag, ∃ x ∈ ns, x.exec = e.uuid ∧ x.kind ≠ .start) ∧
      Shows ev ns 0 .solved ∧ Shows ev ns' 0 .skipped := by
  have : TM.Terry.Sample.holds (fun ev => complete ev (went ev compilesOther ++ (noChecker ev ++ Sample.solutions ev)) && decide (
      status ev (went ev compilesOther ++ (noChecker ev ++ Sample.solutions ev)) 0 = some .solved ∧
      status ev (went ev compilesOther ++ (Sample.solutions ev ++ noChecker ev)) 0 = some .skipped))
      (buildDag Build.Sample.fs Sample.task Sample.seed Sample.sols (start 10 {})) = true := by decide +kernel
  obtain ⟨a, ev, h1, h2⟩ := TM.Terry.Sample.of_holds this
  rw [Bool.and_eq_true] at h2
  obtain ⟨h3, h4⟩ := of_decide_eq_true h2.2
  exact ⟨a, ev, h1, _, _, List.Perm.append_left _ List.perm_append_comm, of_complete h2.1, of_status h3, of_status h4⟩

open TM.Terry.Sample in
/-- **C93** ... if the sandbox of a checker fails the evaluation of all the solutions is aborted: the second one, whose
checker succeeded, is left as if its input had just been validated. -/
theorem one_checker_stops_all : ∃ a ev, buildDag Build.Sample.fs Sample.task Sample.seed Sample.sols (start 10 {}) = .ok (a, ev) ∧
    ∃ (ns : List Notice) (c : ExecutionUuid) (o : Outcome), (follow parse ev 2 ns).2 = false ∧
      Reports ev c (checkerOf 1) ∧ outcomeOf ns c = some o ∧ o.status = .success ∧ Shows ev ns 1 .validated := by
  have : TM.Terry.Sample.holds (fun ev => decide ((follow parse ev 2 (badSandbox ev)).2 = false ∧
      status ev (badSandbox ev) 1 = some .validated) &&
      (withTopic ev (fun t => t = checkerOf 1)).any (fun c => decide (Topic.checker 0 0 1 ∈ reportsOn ev c ∧
        (outcomeOf (badSandbox ev) c).map (·.status) = some .success)))
      (buildDag Build.Sample.fs Sample.task Sample.seed Sample.sols (start 10 {})) = true := by decide +kernel
  obtain ⟨a, ev, h1, h2⟩ := TM.Terry.Sample.of_holds this
  rw [Bool.and_eq_true] at h2
  obtain ⟨h3, h4⟩ := of_decide_eq_true h2.1
  obtain ⟨c, -, h6⟩ := List.any_eq_true.1 h2.2
  obtain ⟨h7, h8⟩ := of_decide_eq_true h6
  rw [Option.map_eq_some_iff] at h8
  obtain ⟨o, h9, h10⟩ := h8
  exact ⟨a, ev, h1, _, c, o, h3, mem_reportsOn.1 h7, h9, h10, of_status h4⟩

end TM.Terry
