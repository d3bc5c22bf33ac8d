import Verif.Sched.Measure
import Verif.Sched.Demo
/-! # C14 and C41: no panic, and the handling of every message ends -/

namespace TM.Sched
open TM.DagSpec

/-- One step of the handling of a message: a call or a loop iteration, with admissible answers of the
environment (iteration orders of the hash maps, answers of the cache). -/
def Inner (st st' : St) : Prop :=
  ∃ t rest ch, st.stack = t :: rest ∧ ChoiceOk st t ch ∧ runTask { st with stack := rest } t ch = .ok st'

theorem Inner.step {st st' : St} (h : Inner st st') : Step st st' := by
  obtain ⟨t, rest, ch, h1, h2, h3⟩ := h
  exact .task t rest ch h1 h2 h3

/-- The handling of a message, from the reception to the moment the scheduler waits for the next
one. -/
inductive InnerStar : St → St → Prop
  | refl (st) : InnerStar st st
  | head {st st1 st2} : Inner st st1 → InnerStar st1 st2 → InnerStar st st2

/-- C14, reception: no admissible message makes the dispatch of the main loop fail. -/
theorem never_panics_event {st : St} (h : Reachable st) {e : Event} (he : EventOk st e) :
    ∃ st', handle st e = .ok st' :=
  handle_total (reachable_inv h) he

/-- C14, handling: whatever is pending, whatever the order in which the maps are visited (`ch` is not
even required to be admissible), no step fails: every group, client and file handle looked up exists
and no group is empty. -/
theorem never_panics_step {st : St} (h : Reachable st) {t rest} (hst : st.stack = t :: rest)
    (ch : Choice) : ∃ st', runTask { st with stack := rest } t ch = .ok st' :=
  runTask_total (reachable_inv h) hst

/-- C41: the handling of a message does not go on forever. -/
theorem handling_terminates (run : Nat → St) (h : Reachable (run 0)) :
    ¬ ∀ n, Inner (run n) (run (n + 1)) := by
  intro hall
  have hr : ∀ n, Reachable (run n) := by
    intro n
    induction n with
    | zero => exact h
    | succ n ih => exact .step ih (hall n).step
  have key : ∀ p : Nat × Nat, Acc Less p → ∀ n, (m1 (run n), m2 (run n)) = p → False := by
    intro p hp
    induction hp with
    | intro p _ ih =>
      intro n hn
      obtain ⟨t, rest, ch, h1, h2, h3⟩ := hall n
      refine ih (m1 (run (n + 1)), m2 (run (n + 1))) ?_ (n + 1) rfl
      rw [← hn]
      exact task_less (reachable_inv (hr n)) h1 h2 (taskStep_of_run h3)
  exact key _ (less_wf.apply _) 0 rfl

/-- C41: from every state the pending work can be, and by `handling_terminates` and
`never_panics_step` always is, completed: the scheduler gets back to waiting for a message. -/
theorem handling_completes {st : St} (h : Reachable st) :
    ∃ st', InnerStar st st' ∧ Reachable st' ∧ st'.stack = [] := by
  have key : ∀ p : Nat × Nat, Acc Less p → ∀ st, Reachable st → (m1 st, m2 st) = p →
      ∃ st', InnerStar st st' ∧ Reachable st' ∧ st'.stack = [] := by
    intro p hp
    induction hp with
    | intro p _ ih =>
      intro st h hm
      cases hst : st.stack with
      | nil => exact ⟨st, .refl st, h, hst⟩
      | cons t rest =>
        have hok := canon_ok noCache st t
        obtain ⟨st1, h1⟩ := never_panics_step h hst (canon noCache st t)
        have hi : Inner st st1 := ⟨t, rest, _, hst, hok, h1⟩
        have hl := task_less (reachable_inv h) hst hok (taskStep_of_run h1)
        rw [hm] at hl
        obtain ⟨st', a, b, c⟩ := ih _ hl st1 (.step h hi.step) rfl
        exact ⟨st', .head hi a, b, c⟩
  exact key _ (less_wf.apply _) st h rfl

/-- Every admissible message can be received and completely handled. -/
theorem message_handled {st : St} (h : Reachable st) (hst : st.stack = []) {e : Event}
    (he : EventOk st e) : ∃ st1 st', handle st e = .ok st1 ∧ InnerStar st1 st' ∧ st'.stack = [] ∧
      Reachable st' := by
  obtain ⟨st1, h1⟩ := never_panics_event h he
  obtain ⟨st', a, b, c⟩ := handling_completes (.step h (.event e hst he h1))
  exact ⟨st1, st', h1, a, c, b⟩

/-- The hypotheses are met, with work left to do. -/
example : ∃ st e, Reachable st ∧ st.stack = [] ∧ EventOk st e ∧
    ∀ st1, handle st e = .ok st1 → st1.stack ≠ [] := by
  refine ⟨after noCache [.evaluateDag 1 demoDag demoCb], .workerConnected 5,
    (after_reachable _ _).1, (after_reachable _ _).2, eventOk_of_b (by decide), ?_⟩
  intro st1 h
  have : handle (after noCache [.evaluateDag 1 demoDag demoCb]) (.workerConnected 5) =
    .ok (handleWorkerConnected ((after noCache [.evaluateDag 1 demoDag demoCb]).obs
      (.ev (.workerConnected 5))) 5) := rfl
  rw [this] at h
  cases h
  simp [handleWorkerConnected, St.push]

/-- `EventOk` cannot be dropped: a worker answering with the wrong number of results stops the
scheduler. -/
theorem wrong_answer_fatal : ∃ st e, Reachable st ∧ st.stack = [] ∧
    handle st e = .error .badResultCount :=
  ⟨after noCache [.evaluateDag 1 demoDag demoCb, .workerConnected 5], .workerResult 5 [] [],
    (after_reachable _ _).1, (after_reachable _ _).2, rfl⟩

end TM.Sched
