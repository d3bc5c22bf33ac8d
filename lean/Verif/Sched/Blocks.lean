import Verif.Sched.PropsNotify
/-!
# The messages about an execution are sent at once

What a client is told about a group that is sent to a worker, completed or skipped is sent right after.
-/
namespace TM.Sched
open TM.DagSpec

/-- The trace of a reachable state. -/
def Trace (log : List Obs) : Prop := ∃ st, Reachable st ∧ st.log = log

/-- What comes right before an entry. -/
def BlockAt : Obs → List Obs → Prop
  | .out (.started c e w), pre => ∃ mid g keys pre0, pre = mid ++ .out (.workerJob w c g keys) :: pre0 ∧
      (∀ x ∈ mid, ∃ e', x = .out (.started c e' w)) ∧ e ∈ g.executions.map (·.uuid)
  | .out (.done c e r), pre => ∃ mid g rs os b pre0 y, pre = mid ++ .completed c g rs os b :: pre0 ∧
      (∀ x ∈ mid, ∃ e' r', x = .out (.done c e' r')) ∧ (y, r) ∈ g.executions.zip rs ∧ y.uuid = e
  | .out (.skipped c e), pre => ∃ mid g pre0, pre = mid ++ .skipped c g :: pre0 ∧
      (∀ x ∈ mid, ∃ e', x = .out (.skipped c e')) ∧ e ∈ g.executions.map (·.uuid)
  | .out (.workerJob _ _ _ _), pre => Trace pre
  | .completed _ _ _ _ _, pre => Trace pre
  | .skipped _ _, pre => Trace pre
  | _, _ => True

/-- ... for every entry. -/
def Blocks : List Obs → Prop
  | [] => True
  | o :: log => BlockAt o log ∧ Blocks log

theorem Blocks.split {post pre : List Obs} {o : Obs} (h : Blocks (post ++ o :: pre)) : BlockAt o pre := by
  induction post with
  | nil => exact h.1
  | cons a l ih => exact ih h.2

theorem Blocks.inert {log l : List Obs} (h : Blocks log) (hl : ∀ o ∈ l, ∀ pre, BlockAt o pre) :
    Blocks (l ++ log) := by
  induction l with
  | nil => exact h
  | cons a l ih => exact ⟨hl a (by simp) _, ih (fun o ho => hl o (by simp [ho]))⟩

/-- The entries of a block after its head. -/
theorem Blocks.outs {log : List Obs} {head : Obs} {l : List Obs} (h : Blocks (head :: log))
    (hl : ∀ o ∈ l, ∀ mid, (∀ x ∈ mid, x ∈ l) → BlockAt o (mid ++ head :: log)) :
    Blocks (l ++ head :: log) := by
  induction l with
  | nil => exact h
  | cons a l ih =>
    refine ⟨hl a (by simp) l (by intro x hx; simp [hx]), ih (fun o ho mid hm => ?_)⟩
    exact hl o (by simp [ho]) mid (fun x hx => by simp [hm x hx])

theorem blockAt_send (cl c f s) : ∀ o ∈ ((sendMsgs cl c f s).map Obs.out).reverse, ∀ pre, BlockAt o pre := by
  intro o ho pre
  simp only [List.mem_reverse, List.mem_map] at ho
  obtain ⟨a, ha, rfl⟩ := ho
  unfold sendMsgs at ha
  split at ha
  · split at ha
    · cases ha
    · rw [List.mem_singleton] at ha; subst ha; trivial
  · cases ha

theorem blocks_task {st st' : St} {t : Task} {ch : Choice} (htr : Trace st.log)
    (hs : TaskStep st t ch st') (h : Blocks st.log) : Blocks st'.log := by
  cases hs with
  | fileSuccessNone c f ch cl hc hi => exact h.inert (blockAt_send _ _ _ _)
  | fileSuccessSome c f ch cl us hc hi => exact h.inert (blockAt_send _ _ _ _)
  | fileFailedNone c f ch cl hc hi => exact h.inert (blockAt_send _ _ _ _)
  | fileFailedSome c f ch cl us hc hi => exact h.inert (blockAt_send _ _ _ _)
  | cachedMiss e rest hits ch cl g hc hn hg hi => exact ⟨trivial, h⟩
  | cachedHit e hit rest hits ch cl g hc hn hg hi => exact ⟨trivial, h⟩
  | assignEnd ws ch hw => exact ⟨trivial, h⟩
  | checkDone c ch cl hc hd => exact ⟨trivial, h⟩
  | skipOne c f failed ch u us cl g fs hc hm hg =>
    show Blocks (((skipMsgs cl c g).map Obs.out).reverse ++ .skipped c g :: st.log)
    have key : ∀ o ∈ ((skipMsgs cl c g).map Obs.out).reverse,
        ∃ e, o = .out (.skipped c e) ∧ e ∈ g.executions.map (·.uuid) := by
      intro o ho
      simp only [List.mem_reverse, List.mem_map] at ho
      obtain ⟨a, ha, rfl⟩ := ho
      obtain ⟨e, he, rfl⟩ := List.mem_map.1 ha
      exact ⟨e, rfl, (List.mem_filter.1 he).1⟩
    refine Blocks.outs ⟨htr, h⟩ ?_
    intro o ho mid hmid
    obtain ⟨e, rfl, he⟩ := key o ho
    refine ⟨mid, g, st.log, rfl, fun x hx => ?_, he⟩
    obtain ⟨e', rfl, -⟩ := key x (hmid x hx)
    exact ⟨e', rfl⟩
  | assignJob w ws ch e0 ready cl g keys hw hp hc hg hk =>
    show Blocks (((startMsgs cl e0.client w g).map Obs.out).reverse ++
      .out (.workerJob w e0.client g keys) :: st.log)
    have key : ∀ o ∈ ((startMsgs cl e0.client w g).map Obs.out).reverse,
        ∃ e, o = .out (.started e0.client e w) ∧ e ∈ g.executions.map (·.uuid) := by
      intro o ho
      simp only [List.mem_reverse, List.mem_map] at ho
      obtain ⟨a, ha, rfl⟩ := ho
      obtain ⟨e, he, rfl⟩ := List.mem_map.1 ha
      exact ⟨e, rfl, (List.mem_filter.1 he).1⟩
    refine Blocks.outs ⟨htr, h⟩ ?_
    intro o ho mid hmid
    obtain ⟨e, rfl, he⟩ := key o ho
    refine ⟨mid, g, keys, st.log, rfl, fun x hx => ?_, he⟩
    obtain ⟨e', rfl, -⟩ := key x (hmid x hx)
    exact ⟨e', rfl⟩
  | completed c g rs os b ch cl extra hc he hx =>
    show Blocks (extra ++ (((doneMessages c cl.callbacks.executions g.executions rs).map
      Obs.out).reverse ++ .completed c g rs os b :: st.log))
    have key : ∀ o ∈ ((doneMessages c cl.callbacks.executions g.executions rs).map Obs.out).reverse,
        ∃ y r, o = .out (.done c y.uuid r) ∧ (y, r) ∈ g.executions.zip rs := by
      intro o ho
      simp only [List.mem_reverse, List.mem_map] at ho
      obtain ⟨a, ha, rfl⟩ := ho
      obtain ⟨p, hp, rfl⟩ := List.mem_map.1 ha
      exact ⟨p.1, p.2, rfl, (List.mem_filter.1 hp).1⟩
    refine Blocks.inert (Blocks.outs ⟨htr, h⟩ ?_) ?_
    · intro o ho mid hmid
      obtain ⟨y, r, rfl, hy⟩ := key o ho
      refine ⟨mid, g, rs, os, b, st.log, y, rfl, fun x hx => ?_, hy, rfl⟩
      obtain ⟨y', r', rfl, -⟩ := key x (hmid x hx)
      exact ⟨_, _, rfl⟩
    · intro o ho pre
      rcases he with rfl | rfl
      · cases ho
      · rw [List.mem_singleton] at ho; subst ho; trivial
  | _ => exact h

theorem blocks_event {st st' : St} {e : Event}
    (hs : EventStep (st.obs (.ev e)) e st') (h : Blocks st.log) : Blocks st'.log := by
  have one : ∀ e, Blocks (.ev e :: st.log) := fun e => ⟨trivial, h⟩
  cases hs with
  | clientDisconnected c =>
    obtain ⟨l, hl, hi⟩ := disconnect_log (st.obs (.ev (.clientDisconnected c))) c
    rw [hl]
    refine Blocks.inert (one _) ?_
    intro o ho pre
    rcases hi o ho with ⟨_, rfl⟩ | ⟨_, _, rfl⟩ <;> trivial
  | status c ws hws => exact ⟨trivial, one _⟩
  | _ => exact one _

theorem reachable_blocks {st : St} (h : Reachable st) : Blocks st.log := by
  induction h with
  | init => trivial
  | step hr hs ih =>
    cases hs with
    | event e hst hok hh => exact blocks_event (eventStep_of_handle hh) ih
    | task t rest ch hst hok hh =>
      rename_i st _
      obtain ⟨ready, clients, workers, stack, log⟩ := st
      simp only at hst
      subst hst
      exact blocks_task (st := ⟨ready, clients, workers, rest, log⟩) ⟨_, hr, rfl⟩ (taskStep_of_run hh) ih

end TM.Sched
