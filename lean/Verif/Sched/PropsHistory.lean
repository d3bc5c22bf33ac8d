import Verif.Sched.Lemmas
/-!
# Properties of the scheduler: what its trace can contain

`Reachable st` ranges over every history of messages from any number of clients and workers, every
iteration order of the hash maps and every content of the cache.  `st.log` is the trace, newest entry
first: `st.log = post ++ o :: pre` reads "`o` happened, after `pre` and before `post`".
The vocabulary is in `Verif.Sched.Spec`; it only reads the trace.
-/

namespace TM.Sched
open TM.DagSpec

/-! ## C03 -/

/-- C03: when a job is sent to a worker, the group belongs to the DAG its client asked to evaluate,
every input of the group was already provided by that client or produced by a group of the same
client that succeeded, and the job maps exactly the inputs of the group to the contents recorded for
them. -/
theorem job_inputs_exist {st : St} (h : Reachable st) {post pre w c g keys}
    (hl : st.log = post ++ .out (.workerJob w c g keys) :: pre) :
    GroupOf pre c g ∧
    (∀ f ∈ g.deps, Provided pre c f ∨
      ∃ g', GroupOf pre c g' ∧ Succeeded pre c g' ∧ f ∈ g'.outs) ∧
    (∀ f ∈ g.deps, ∃ k, keyOf c f pre = some k ∧ keys.get? f = some k) ∧
    (∀ f, f ∉ g.deps → keys.get? f = none) := by
  have hh := (reachable_aux h).hist
  rw [hl] at hh
  have hp : Hist pre := Hist.suffix (post := post ++ [.out (.workerJob w c g keys)]) (by simpa using hh)
  obtain ⟨_, _, h3, h4, h5, _⟩ := hh.split
  refine ⟨h3, ?_, ?_, ?_⟩
  · intro f hf
    rcases h4 f hf with h6 | ⟨g', h6, h7⟩
    · exact Or.inl h6
    · exact Or.inr ⟨g', hp.succeeded_groupOf h6, h6, h7⟩
  · intro f hf
    obtain ⟨k, hk⟩ := hp.available_key (h4 f hf)
    exact ⟨k, hk, by rw [h5, if_pos hf, hk]⟩
  · intro f hf; rw [h5, if_neg hf]

/-- A run in which the job of a group with a provided and a produced input is sent. -/
example : ∃ st post pre keys g, Reachable st ∧ st.log = post ++ .out (.workerJob 5 1 g keys) :: pre ∧
    g.uuid = 11 ∧ g.deps = [1, 0] ∧ keys.get? 0 = some (key "p") ∧ keys.get? 1 = some (key "a") := by
  have hm : ∃ o ∈ (after noCache demoRun).log, ∃ g keys, o = .out (.workerJob 5 1 g keys) ∧ g.uuid = 11 ∧
      g.deps = [1, 0] ∧ keys.get? 0 = some (key "p") ∧ keys.get? 1 = some (key "a") := by
    refine ⟨.out (.workerJob 5 1 sol
      [(0, key "p"), (1, key "a")]), by decide, _, _, rfl, by decide⟩
  obtain ⟨o, ho, g, keys, rfl, h1⟩ := hm
  obtain ⟨post, pre, he⟩ := List.append_of_mem ho
  exact ⟨_, post, pre, keys, g, (after_reachable _ _).1, he, h1⟩

/-! ## C04 -/

/-- The group runs once: it waits for inputs or has a single execution.  (A group without inputs is
queued once per execution, scheduler.rs:334-337.) -/
def RunsOnce (g : ExecutionGroup) : Prop := g.deps ≠ [] ∨ g.executions.length = 1

/-- C04, partial: a group that waits for inputs, or has one execution, ends at most once (it is
completed once or skipped once).  Missing: groups of several executions without inputs, for which the
claim is false (`group_ends_twice`) and the bound is `group_ends_bounded`. -/
theorem group_ends_once_partial {st : St} (h : Reachable st) {c g} (hg : GroupOf st.log c g)
    (h1 : RunsOnce g) : termCount st.log c g.uuid ≤ 1 := by
  have := (reachable_aux h).hist.term_le hg
  rwa [mult_le_one h1] at this

/-- The bound for every group: once per execution if it has no inputs, once otherwise. -/
theorem group_ends_bounded {st : St} (h : Reachable st) {c g} (hg : GroupOf st.log c g) :
    termCount st.log c g.uuid ≤ if g.deps = [] then g.executions.length else 1 :=
  (reachable_aux h).hist.term_le hg

/-- C04: a group is never both completed and skipped. -/
theorem group_not_done_and_skipped {st : St} (h : Reachable st) {c g g' rs os b}
    (hc : Obs.completed c g rs os b ∈ st.log) (hs : Obs.skipped c g' ∈ st.log) :
    g.uuid ≠ g'.uuid :=
  (reachable_aux h).hist.not_both hc hs

/-- The run of `twinDag` with one worker: the group of two executions is executed twice. -/
def twinRun : List Event :=
  [ .evaluateDag 1 twinDag {}, .workerConnected 5, .workerResult 5 [good, good] [(1, key "a")],
    .workerConnected 5, .workerResult 5 [good] [],
    .workerConnected 5, .workerResult 5 [bad, good] [(1, key "b")] ]

/-- The unrestricted C04 is false: a group of two executions without inputs ends twice, the second
time failing after having succeeded. -/
theorem group_ends_twice : ∃ st c g, Reachable st ∧ GroupOf st.log c g ∧
    termCount st.log c g.uuid = 2 ∧ Succeeded st.log c g ∧ Failed st.log c g := by
  refine ⟨after noCache twinRun, 1,
    twin,
    (after_reachable _ _).1, ⟨twinDag, {}, ?_, rfl⟩, ?_, ?_, ?_⟩
  · unfold Asked; decide
  · decide
  · exact ⟨[good, good], [(1, key "a")], false, by decide, by decide⟩
  · exact ⟨[bad, good], [(1, key "b")], false, by decide, bad, by decide, by decide⟩

/-- Non-vacuity: in the whole run of `demoDag` each group ends exactly once. -/
example : Reachable (after noCache demoRun) ∧
    termCount (after noCache demoRun).log 1 10 = 1 ∧ termCount (after noCache demoRun).log 1 11 = 1 ∧
    termCount (after noCache demoRun).log 1 12 = 1 := ⟨(after_reachable _ _).1, by decide⟩

/-! ## C05 -/

/-- Group `g` depends on a group that failed, directly or through groups that were skipped. -/
inductive Blocked (log : List Obs) (c : ClientUuid) : ExecutionGroup → Prop
  | failed {g g' f} : Failed log c g' → f ∈ g'.outs → f ∈ g.deps → Blocked log c g
  | skipped {g g' f} : Skipped log c g' → Blocked log c g' → f ∈ g'.outs → f ∈ g.deps →
      Blocked log c g

/-- Group `g` of client `c` reads, directly or through other groups, an output of `g0`. -/
inductive Downstream (log : List Obs) (c : ClientUuid) (g0 : ExecutionGroup) : ExecutionGroup → Prop
  | direct {g f} : GroupOf log c g → f ∈ g0.outs → f ∈ g.deps → Downstream log c g0 g
  | step {g g' f} : Downstream log c g0 g' → GroupOf log c g → f ∈ g'.outs → f ∈ g.deps →
      Downstream log c g0 g

theorem Blocked.mono {log log' : List Obs} (h : ∀ o ∈ log, o ∈ log') {c g}
    (hb : Blocked log c g) : Blocked log' c g := by
  induction hb with
  | failed h1 h2 h3 =>
    obtain ⟨a, b, d, hk, hs⟩ := h1
    exact .failed ⟨a, b, d, h _ hk, hs⟩ h2 h3
  | skipped h1 _ h2 h3 ih => exact .skipped (h _ h1) ih h2 h3

/-- C05: a group is skipped only because of a failed group it depends on, directly or through other
skipped groups. -/
theorem skipped_only_if_blocked {st : St} (h : Reachable st) {c g} (hs : Skipped st.log c g) :
    Blocked st.log c g := by
  have hh := (reachable_aux h).hist
  generalize st.log = log at hh hs
  induction log generalizing g with
  | nil => cases hs
  | cons o log ih =>
    have hmono : ∀ x ∈ log, x ∈ o :: log := fun x hx => List.mem_cons_of_mem _ hx
    rcases List.mem_cons.1 hs with hs | hs
    · subst hs
      obtain ⟨_, _, ⟨f, hf, g', h1, h2⟩, _⟩ := hh.1
      rcases h1 with ⟨a, b, d, hk, hq⟩ | h1
      · exact .failed ⟨a, b, d, hmono _ hk, hq⟩ h2 hf
      · exact .skipped (hmono _ h1) ((ih hh.2 h1).mono hmono) h2 hf
    · exact (ih hh.2 hs).mono hmono

/-- C05, partial: once a group has failed or was skipped, no group depending on it, directly or not,
is ever executed: neither sent to a worker nor taken from the cache.  Missing: a failed group of
several executions without inputs, for which the claim is false (`dependents_run_after_failure`). -/
theorem dependents_never_run_partial {st : St} (h : Reachable st) {c g0 g}
    (hf : (Failed st.log c g0 ∧ RunsOnce g0) ∨ Skipped st.log c g0)
    (hd : Downstream st.log c g0 g) :
    (∀ w k, Obs.out (.workerJob w c g k) ∉ st.log) ∧
    (∀ rs os b, Obs.completed c g rs os b ∉ st.log) := by
  have hh := (reachable_aux h).hist
  have hg0 : GroupOf st.log c g0 := by
    rcases hf with ⟨⟨_, _, _, hm, _⟩, _⟩ | hm
    · exact hh.completed_groupOf hm
    · exact hh.skipped_groupOf hm
  have hns : ¬ Succeeded st.log c g0 := by
    intro hs
    rcases hf with ⟨hf, h1⟩ | hf
    · exact hh.not_succeeded_failed (mult_le_one h1) hs hf
    · exact hh.not_succeeded_skipped hs hf
  have key : ∃ f ∈ g.deps, ¬ Available st.log c f := by
    induction hd with
    | direct hg h1 h2 => exact ⟨_, h2, fun ha => hns (hh.available_succeeded hg0 h1 ha)⟩
    | @step g g' f hd' hg h1 h2 ih =>
      refine ⟨f, h2, fun ha => ?_⟩
      have hg' : GroupOf st.log c g' := by cases hd' <;> assumption
      obtain ⟨rs, os, b, hm, _⟩ := hh.available_succeeded hg' h1 ha
      obtain ⟨f', hf', hn⟩ := ih
      exact hn (hh.completed_avail hm f' hf')
  obtain ⟨f, hfd, hn⟩ := key
  exact ⟨fun w k hm => hn (hh.job_avail hm f hfd), fun rs os b hm => hn (hh.completed_avail hm f hfd)⟩

/-- The restriction is needed: in `twinRun` the dependent group 21 runs although group 20 fails (it
succeeded the first time it was executed). -/
theorem dependents_run_after_failure : ∃ st c g0 g, Reachable st ∧ Failed st.log c g0 ∧
    Downstream st.log c g0 g ∧ ∃ w k, Obs.out (.workerJob w c g k) ∈ st.log := by
  refine ⟨after noCache twinRun, 1,
    twin,
    afterTwin,
    (after_reachable _ _).1, ?_, ?_, 5, [(1, key "a")], by decide⟩
  · exact ⟨[bad, good], [(1, key "b")], false, by decide, bad, by decide, by decide⟩
  · refine .direct (f := 1) ⟨twinDag, {}, ?_, rfl⟩ (by decide) (by decide)
    unfold Asked; decide

/-- Non-vacuity: in `demoFail` the generator fails and the two other groups are skipped. -/
example : ∃ g0 g, Reachable (after noCache demoFail) ∧ Failed (after noCache demoFail).log 1 g0 ∧
    RunsOnce g0 ∧ Skipped (after noCache demoFail).log 1 g ∧ g.uuid = 12 := by
  refine ⟨gen,
    chk,
    (after_reachable _ _).1, ⟨[bad], [(1, key "a")], false, by decide, bad, by decide, by decide⟩,
    Or.inr rfl, ?_, rfl⟩
  unfold Skipped; decide

/-! ## C06 -/

/-- File `f` exists at the end when the groups for which `σ` is true succeed and the others fail: it
is provided, or its producer succeeds and all the inputs of its producer exist. -/
inductive FileExists (dag : DagData) (σ : GroupUuid → Bool) : FileUuid → Prop
  | provided {f} : f ∈ dag.providedFiles.keys → FileExists dag σ f
  | produced {f u g} : dag.executionGroups.get? u = some g → f ∈ g.outs → σ u = true →
      (∀ f' ∈ g.deps, FileExists dag σ f') → FileExists dag σ f

/-- Group `u` of the DAG runs: all its inputs exist. -/
def Runs (dag : DagData) (σ : GroupUuid → Bool) (u : GroupUuid) : Prop :=
  ∃ g, dag.executionGroups.get? u = some g ∧ ∀ f ∈ g.deps, FileExists dag σ f

/-- The successes observed by client `c` are those of `σ`. -/
def SuccessIs (log : List Obs) (c : ClientUuid) (σ : GroupUuid → Bool) : Prop :=
  ∀ g rs os b, Obs.completed c g rs os b ∈ log → ((∀ r ∈ rs, r.status = .success) ↔ σ g.uuid = true)

def Completed (log : List Obs) (c : ClientUuid) (u : GroupUuid) : Prop :=
  ∃ g rs os b, Obs.completed c g rs os b ∈ log ∧ g.uuid = u

def WasSkipped (log : List Obs) (c : ClientUuid) (u : GroupUuid) : Prop :=
  ∃ g, Obs.skipped c g ∈ log ∧ g.uuid = u

theorem completed_runs {log : List Obs} (hh : Hist log) {c dag cb σ} (ha : Asked log c dag cb)
    (hσ : SuccessIs log c σ) : ∀ g rs os b, Obs.completed c g rs os b ∈ log → Runs dag σ g.uuid := by
  have key : ∀ pre : List Obs, ∀ post, log = post ++ pre → ∀ g rs os b,
      Obs.completed c g rs os b ∈ pre → Runs dag σ g.uuid := by
    intro pre
    induction pre with
    | nil => intro _ _ _ _ _ _ hm; cases hm
    | cons o pre ih =>
      intro post he g rs os b hm
      have ih := ih (post ++ [o]) (by simp [he])
      rcases List.mem_cons.1 hm with hm | hm
      · subst hm
        have hh' := hh
        rw [he] at hh
        obtain ⟨_, hg, _, hav, _⟩ := hh.split
        have hsub : ∀ x ∈ pre, x ∈ log := by intro x hx; rw [he]; simp [hx]
        refine ⟨g, hh'.groupOf_dag (groupOf_mono hsub hg) ha, ?_⟩
        intro f hf
        rcases hav f hf with hp | ⟨g', ⟨rs', os', b', hm', hs'⟩, hf'⟩
        · exact .provided (hh'.provided_key ha (provided_mono hsub hp))
        · have hgd := hh'.groupOf_dag (hh'.completed_groupOf (hsub _ hm')) ha
          obtain ⟨g1, h1, h2⟩ := ih _ _ _ _ hm'
          rw [hgd] at h1; cases h1
          exact .produced hgd hf' ((hσ _ _ _ _ (hsub _ hm')).1 hs') h2
      · exact ih _ _ _ _ hm
  exact key log [] rfl

theorem skipped_not_runs {log : List Obs} (hh : Hist log) {c dag cb σ} (ha : Asked log c dag cb)
    (hσ : SuccessIs log c σ) : ∀ g, Obs.skipped c g ∈ log → ¬ Runs dag σ g.uuid := by
  have key : ∀ pre : List Obs, ∀ post, log = post ++ pre → ∀ g,
      Obs.skipped c g ∈ pre → ¬ Runs dag σ g.uuid := by
    intro pre
    induction pre with
    | nil => intro _ _ _ hm; cases hm
    | cons o pre ih =>
      intro post he g hm
      have ih := ih (post ++ [o]) (by simp [he])
      rcases List.mem_cons.1 hm with hm | hm
      · subst hm
        have hh' := hh
        rw [he] at hh
        obtain ⟨_, hg, ⟨f, hf, g', hor, hf'⟩, _⟩ := hh.split
        have hsub : ∀ x ∈ pre, x ∈ log := by intro x hx; rw [he]; simp [hx]
        have hgd := hh'.groupOf_dag (groupOf_mono hsub hg) ha
        have hg' : GroupOf log c g' := by
          rcases hor with ⟨_, _, _, hm', _⟩ | hm'
          · exact hh'.completed_groupOf (hsub _ hm')
          · exact hh'.skipped_groupOf (hsub _ hm')
        have hgd' := hh'.groupOf_dag hg' ha
        rintro ⟨g1, h1, h2⟩
        rw [hgd] at h1; cases h1
        have hw := (hh'.wellFormed ha).files
        unfold allFiles at hw
        cases h2 f hf with
        | provided h3 =>
          exact (List.nodup_append.1 hw).2.2 f
            (List.mem_flatMap.2 ⟨_, AMap.mem_of_get? hgd', hf'⟩) f h3 rfl
        | @produced _ u'' g'' h3 h4 h5 h6 =>
          have := outs_unique (List.nodup_append.1 hw).1 (AMap.mem_of_get? h3)
            (AMap.mem_of_get? hgd') h4 hf'
          cases this
          rcases hor with ⟨rs, os, b, hm', r, hr, hr'⟩ | hm'
          · exact hr' ((hσ _ _ _ _ (hsub _ hm')).2 h5 r hr)
          · exact ih _ hm' ⟨_, hgd', h6⟩
      · exact ih _ hm
  exact key log [] rfl

/-- C06: in a run of a client in which every group ended, if the success of each group is given by
`σ`, then the completed groups are exactly those that run according to the DAG and `σ`, and the
skipped ones are exactly the others. -/
theorem outcome_determined {st : St} (h : Reachable st) {c dag cb σ} (ha : Asked st.log c dag cb)
    (hσ : SuccessIs st.log c σ)
    (hall : ∀ u g, dag.executionGroups.get? u = some g →
      Completed st.log c u ∨ WasSkipped st.log c u) :
    ∀ u g, dag.executionGroups.get? u = some g →
      (Completed st.log c u ↔ Runs dag σ u) ∧ (WasSkipped st.log c u ↔ ¬ Runs dag σ u) := by
  have hh := (reachable_aux h).hist
  intro u g hg
  have h1 : Completed st.log c u → Runs dag σ u := by
    rintro ⟨g', rs, os, b, hm, rfl⟩; exact completed_runs hh ha hσ _ _ _ _ hm
  have h2 : WasSkipped st.log c u → ¬ Runs dag σ u := by
    rintro ⟨g', hm, rfl⟩; exact skipped_not_runs hh ha hσ _ hm
  rcases hall u g hg with h3 | h3
  · exact ⟨⟨h1, fun _ => h3⟩, ⟨h2, fun hn => absurd (h1 h3) hn⟩⟩
  · exact ⟨⟨h1, fun hr => absurd hr (h2 h3)⟩, ⟨h2, fun _ => h3⟩⟩

/-- C06: two complete runs of the same DAG with the same successes (whatever the clients, the
workers, the disconnections and the orders) complete the same groups and skip the same groups. -/
theorem outcome_schedule_independent {st st' : St} (h : Reachable st) (h' : Reachable st')
    {c c' dag cb cb' σ}
    (ha : Asked st.log c dag cb) (ha' : Asked st'.log c' dag cb')
    (hσ : SuccessIs st.log c σ) (hσ' : SuccessIs st'.log c' σ)
    (hall : ∀ u g, dag.executionGroups.get? u = some g →
      Completed st.log c u ∨ WasSkipped st.log c u)
    (hall' : ∀ u g, dag.executionGroups.get? u = some g →
      Completed st'.log c' u ∨ WasSkipped st'.log c' u) :
    ∀ u g, dag.executionGroups.get? u = some g →
      (Completed st.log c u ↔ Completed st'.log c' u) ∧
      (WasSkipped st.log c u ↔ WasSkipped st'.log c' u) := by
  intro u g hg
  have h1 := outcome_determined h ha hσ hall u g hg
  have h2 := outcome_determined h' ha' hσ' hall' u g hg
  exact ⟨h1.1.trans h2.1.symm, h1.2.trans h2.2.symm⟩

/-- Another schedule of `demoDag`: the worker running the generator is lost, another one takes over;
the checker fails. -/
def demoRetry : List Event :=
  [ .evaluateDag 2 demoDag {}, .workerConnected 6, .workerDisconnected 6, .fileReady 2 0 (key "p"),
    .workerConnected 7, .workerResult 7 [good] [(1, key "a")],
    .workerConnected 8, .workerResult 8 [good] [(2, key "b")],
    .workerConnected 7, .workerResult 7 [bad] [(3, key "c")] ]

/-- Boolean form of `SuccessIs`, for the examples. -/
def successIsB (log : List Obs) (c : ClientUuid) (σ : GroupUuid → Bool) : Bool :=
  log.all (fun o => match o with
    | .completed c' g rs _ _ => decide (c' ≠ c) ||
        (decide (∀ r ∈ rs, r.status = .success) == σ g.uuid)
    | _ => true)

theorem successIs_of_b {log c σ} (h : successIsB log c σ = true) : SuccessIs log c σ := by
  intro g rs os b hm
  have := List.all_eq_true.1 h _ hm
  simp only [ne_eq, not_true, decide_false, Bool.false_or, beq_iff_eq] at this
  rw [← this, decide_eq_true_iff]

/-- Non-vacuity: two different complete runs of `demoDag` with the same successes. -/
example : ∃ σ, Asked (after noCache demoRetry).log 2 demoDag {} ∧
    SuccessIs (after noCache demoRetry).log 2 σ ∧
    (∀ u g, demoDag.executionGroups.get? u = some g → Completed (after noCache demoRetry).log 2 u) ∧
    SuccessIs (after noCache (demoRun.take 7 ++ [.workerResult 5 [bad] [(3, key "c")]])).log 1 σ := by
  refine ⟨fun u => decide (u ≠ 12), by unfold Asked; decide, successIs_of_b (by decide), ?_,
    successIs_of_b (by decide)⟩
  intro u g hg
  have hu : u = 10 ∨ u = 11 ∨ u = 12 := by
    have := AMap.mem_of_get? hg
    simp [demoDag] at this
    grind
  rcases hu with rfl | rfl | rfl
  · exact ⟨gen, [good], [(1, key "a")],
      false, by decide, rfl⟩
  · exact ⟨sol, [good], [(2, key "b")], false, by decide, rfl⟩
  · exact ⟨chk, [bad],
      [(3, key "c")], false, by decide, rfl⟩

/-! ## C07 -/

/-- C07, partial: when the end of the evaluation is announced to a connected client, every group of
its DAG was completed or skipped, no worker is executing a group that runs once, and no such group
is sent to a worker afterwards.  Missing: the last two points for groups of several executions
without inputs, for which they are false (`announced_too_early`). -/
theorem announced_only_when_finished_partial {st : St} (h : Reachable st) {post pre c dag cb}
    (hl : st.log = post ++ .out (.evaluationDone c) :: pre) (hc : Connected c pre = true)
    (ha : Asked st.log c dag cb) {u g} (hg : dag.executionGroups.get? u = some g) :
    (Completed pre c u ∨ WasSkipped pre c u) ∧
    (RunsOnce g → (∀ w, workerAt w pre ≠ some (some (c, u))) ∧
      ∀ w keys, Obs.out (.workerJob w c g keys) ∉ post) := by
  have hh := (reachable_aux h).hist
  rw [hl] at hh
  have hp : Hist pre := Hist.suffix (post := post ++ [_]) (by simpa using hh)
  rcases hh.split with ⟨l, rfl, hcl⟩ | ⟨_, dag', cb', ha', hall⟩
  · simp [Connected] at hc
  · have hh' := (reachable_aux h).hist
    have : dag' = dag := (hh'.asked_unique ha (cb' := cb') (by rw [hl]; unfold Asked at *; simp [ha'])).1
    subst this
    obtain ⟨h1, h2⟩ := hall u g hg
    have hwf := (hh'.asked_ok ha).1
    have hu : g.uuid = u := hwf.keyed _ _ (AMap.mem_of_get? hg)
    subst hu
    refine ⟨?_, fun h3 => ⟨fun w => h2 (mult_le_one h3) w, ?_⟩⟩
    · rcases hp.term_cases ⟨_, _, ha', hg⟩ h1 with ⟨rs, os, b, hm⟩ | hm
      · exact Or.inl ⟨_, _, _, _, hm, rfl⟩
      · exact Or.inr ⟨_, hm, rfl⟩
    · intro w keys
      refine Hist.no_job_after (pre := .out (.evaluationDone c) :: pre) (by simpa using hh) (mult_le_one h3) ?_ w keys
      rw [termCount_cons]; omega

/-- One group of two executions. -/
def soloTwin : DagData :=
  { executionGroups := [ (20, { uuid := 20, executions := [{ uuid := 200 }, { uuid := 201 }] }) ] }

/-- The restriction is needed: with a group of two executions the end is announced and the group is
then sent to a worker again. -/
theorem announced_too_early : ∃ st post pre w g keys, Reachable st ∧
    st.log = post ++ .out (.evaluationDone 1) :: pre ∧ Connected 1 pre = true ∧
    GroupOf st.log 1 g ∧ Obs.out (.workerJob w 1 g keys) ∈ post := by
  refine ⟨after noCache [.evaluateDag 1 soloTwin {}, .workerConnected 5,
      .workerResult 5 [good, good] [], .workerConnected 5],
    ((after noCache [.evaluateDag 1 soloTwin {}, .workerConnected 5,
      .workerResult 5 [good, good] [], .workerConnected 5]).log.take 3),
    ((after noCache [.evaluateDag 1 soloTwin {}, .workerConnected 5,
      .workerResult 5 [good, good] [], .workerConnected 5]).log.drop 4), 5,
    { uuid := 20, executions := [{ uuid := 200 }, { uuid := 201 }] }, [],
    (after_reachable _ _).1, by decide, by decide, ⟨soloTwin, {}, ?_, rfl⟩, by decide⟩
  unfold Asked; decide

/-- Non-vacuity: the end of `demoRun` is announced while the client is connected. -/
example : ∃ post pre, (after noCache demoRun).log = post ++ .out (.evaluationDone 1) :: pre ∧
    Connected 1 pre = true :=
  ⟨[], (after noCache demoRun).log.drop 1, by decide, by decide⟩

/-! ## C13 -/

/-- The receiver of a message to a client, except the answers to its status requests. -/
def addressee : Out → Option ClientUuid
  | .started c _ _ => some c
  | .done c _ _ => some c
  | .skipped c _ => some c
  | .fileReady c _ _ _ _ => some c
  | .evaluationDone c => some c
  | _ => none

/-- C13: after a client left, no group of it is sent to a worker, completed or skipped, the cache is
not consulted for it, and it gets no message, except the announcement of the end sent at once (and
the answers to status requests). -/
theorem gone_client_left_alone {st : St} (h : Reachable st) {post pre c}
    (hl : st.log = post ++ .ev (.clientDisconnected c) :: pre) (hs : Seen pre c) :
    (∀ w g keys, Obs.out (.workerJob w c g keys) ∉ post) ∧
    (∀ g rs os b, Obs.completed c g rs os b ∉ post) ∧ (∀ g, Obs.skipped c g ∉ post) ∧
    (∀ u, Obs.cacheLookup c u ∉ post) ∧
    (∀ x, addressee x = some c → ∀ post' pre', post = post' ++ .out x :: pre' →
      x = .evaluationDone c ∧ pre' = []) := by
  have hh := (reachable_aux h).hist
  rw [hl] at hh
  have key : ∀ {o : Obs}, o ∈ post → ∃ pre', HistOk o (pre' ++ .ev (.clientDisconnected c) :: pre) ∧
      Connected c (pre' ++ .ev (.clientDisconnected c) :: pre) = false := by
    intro o ho
    obtain ⟨a, b, rfl⟩ := List.append_of_mem ho
    refine ⟨b, Hist.split (post := a) (by simpa using hh), ?_⟩
    exact Hist.gone (Hist.suffix (post := a ++ [o]) (by simpa using hh)) hs
  refine ⟨?_, ?_, ?_, ?_, ?_⟩
  · intro w g keys hm
    obtain ⟨p, h1, h2⟩ := key hm
    have := h1.1; rw [h2] at this; cases this
  · intro g rs os b hm
    obtain ⟨p, h1, h2⟩ := key hm
    have := h1.1; rw [h2] at this; cases this
  · intro g hm
    obtain ⟨p, h1, h2⟩ := key hm
    have := h1.1; rw [h2] at this; cases this
  · intro u hm
    obtain ⟨p, h1, h2⟩ := key hm
    have := h1.1; rw [h2] at this; cases this
  · intro x hx post' pre' he
    subst he
    have h1 : HistOk (.out x) (pre' ++ .ev (.clientDisconnected c) :: pre) :=
      Hist.split (post := post') (by simpa using hh)
    have h2 : Connected c (pre' ++ .ev (.clientDisconnected c) :: pre) = false :=
      Hist.gone (Hist.suffix (post := post' ++ [.out x]) (by simpa using hh)) hs
    cases x with
    | started c' e w => cases hx; have := h1.1; rw [h2] at this; cases this
    | done c' e r => cases hx; have := h1.1; rw [h2] at this; cases this
    | skipped c' e => cases hx; have := h1.1; rw [h2] at this; cases this
    | fileReady c' f k s u => cases hx; have := h1.1; rw [h2] at this; cases this
    | evaluationDone c' =>
      cases hx
      refine ⟨rfl, ?_⟩
      rcases h1 with ⟨l, h3, h4⟩ | ⟨h3, _⟩
      · cases pre' with
        | nil => rfl
        | cons a p =>
          simp only [List.cons_append, List.cons.injEq] at h3
          obtain ⟨_, rfl⟩ := h3
          have := Hist.gone (post := p) (pre := pre) (c := c)
            (Hist.suffix (post := post' ++ [.out (.evaluationDone c), a]) (by simpa using hh)) hs
          rw [this] at h4; cases h4
      · rw [h2] at h3; cases h3
    | status c' ws r n => cases hx
    | workerJob w c' g k => cases hx
    | stopJob w u => cases hx

/-- C13: when a client leaves, none of its groups stays in the queue, each worker executing one of
its groups is told to stop it, and the queue entries and the data of the other clients, and the
workers, are not touched. -/
theorem client_leaves_cleanly {st st' : St} (h : Reachable st) (hst : st.stack = []) {c}
    (hs : handle st (.clientDisconnected c) = .ok st') :
    (∀ e ∈ st'.ready, e.client ≠ c) ∧
    (∀ e, e.client ≠ c → (e ∈ st'.ready ↔ e ∈ st.ready)) ∧
    (∀ c', c' ≠ c → st'.clients.get? c' = st.clients.get? c') ∧
    st'.clients.get? c = none ∧ st'.workers = st.workers ∧
    (∀ w u, workerAt w st.log = some (some (c, u)) →
      ∃ post, st'.log = post ++ .ev (.clientDisconnected c) :: st.log ∧
        Obs.out (.stopJob w u) ∈ post) := by
  have hI := reachable_inv h
  have a := reachable_aux h
  have hev : EventStep (st.obs (.ev (.clientDisconnected c))) (.clientDisconnected c) st' :=
    eventStep_of_handle hs
  cases hev
  obtain ⟨l, hl, hq, hj⟩ := handleClientDisconnected_stop (st.obs (.ev (.clientDisconnected c))) c
  rw [hl]
  have hcl : ∀ e : ReadyEntry, (st.clients.erase c).contains e.client = true →
      e.client ≠ c := by
    intro e he hce
    rw [hce] at he
    simp [AMap.contains] at he
  refine ⟨?_, ?_, ?_, ?_, rfl, ?_⟩
  · intro e he
    exact hcl e (List.mem_filter.1 he).2
  · intro e hne
    constructor
    · intro he; exact (List.mem_filter.1 he).1
    · intro he
      refine List.mem_filter.2 ⟨he, ?_⟩
      obtain ⟨cl, h1, _⟩ := hI.readyLive e he
      show (st.clients.erase c).contains e.client = true
      rw [AMap.contains, AMap.get?_erase_ne _ hne, h1]; rfl
  · intro c' hne; exact AMap.get?_erase_ne _ hne
  · exact AMap.get?_erase_self _ _
  · intro w u hw
    rw [← a.work] at hw
    exact ⟨l, rfl, hj w u (mem_jobsOf.2 (AMap.mem_of_get? hw))⟩

/-- Non-vacuity: the client leaves while a worker executes its generator. -/
example : ∃ pre, (after noCache (demoRun.take 3 ++ [.clientDisconnected 1])).log =
    [.out (.stopJob 5 10), .out (.evaluationDone 1)] ++ .ev (.clientDisconnected 1) :: pre ∧
    Seen pre 1 ∧ workerAt 5 pre = some (some (1, 10)) :=
  ⟨(after noCache (demoRun.take 3)).log, by decide, ⟨demoDag, demoCb, by decide⟩, by decide⟩

/-! ## C15 -/

/-- C15: the cache is consulted for a group only if the cache mode of its client allows it, and a
result is taken from the cache only for such a group; with mode `nothing` none is. -/
theorem cache_used_only_if_allowed {st : St} (h : Reachable st) {c dag cb}
    (ha : Asked st.log c dag cb) :
    (∀ u, Obs.cacheLookup c u ∈ st.log → ∃ g, dag.executionGroups.get? u = some g ∧
      CacheAllowed dag.config.cacheMode g) ∧
    (∀ g rs os, Obs.completed c g rs os true ∈ st.log → CacheAllowed dag.config.cacheMode g) ∧
    (dag.config.cacheMode = .nothing → ∀ g rs os b, Obs.completed c g rs os b ∈ st.log → b = false ∧
      ∃ w keys, Obs.out (.workerJob w c g keys) ∈ st.log ∧
        Obs.ev (.workerResult w rs os) ∈ st.log) := by
  have hh := (reachable_aux h).hist
  have hlook : ∀ u, Obs.cacheLookup c u ∈ st.log → ∃ g, dag.executionGroups.get? u = some g ∧
      CacheAllowed dag.config.cacheMode g := by
    intro u hm
    obtain ⟨post, pre, he, ⟨_, dag', cb', g, h1, h2, h3⟩, _⟩ := hh.mem hm
    have : dag' = dag := (hh.asked_unique ha (cb' := cb') (by rw [he]; unfold Asked at *; simp [h1])).1
    subst this; exact ⟨g, h2, h3⟩
  have hcomp : ∀ g rs os, Obs.completed c g rs os true ∈ st.log →
      CacheAllowed dag.config.cacheMode g := by
    intro g rs os hm
    obtain ⟨post, pre, he, h1, _⟩ := hh.mem hm
    have hl : Obs.cacheLookup c g.uuid ∈ st.log := by
      rw [he]; simp [h1.2.2.2.2.2.2 rfl]
    obtain ⟨g', h2, h3⟩ := hlook _ hl
    have := hh.groupOf_dag (hh.completed_groupOf hm) ha
    rw [this] at h2; cases h2; exact h3
  refine ⟨hlook, hcomp, ?_⟩
  intro hn g rs os b hm
  cases b with
  | true => have := hcomp g rs os hm; rw [hn] at this; exact this.elim
  | false =>
    obtain ⟨post, pre, he, h1, _⟩ := hh.mem hm
    obtain ⟨w, k, h2, h3⟩ := h1.2.2.2.2.2.1 rfl
    exact ⟨rfl, w, k, by rw [he]; simp [h2], by rw [he]; simp [h3]⟩

/-- C15: a result is stored in the cache only if it came from a worker and no execution of the group
had an internal error. -/
theorem cache_insert_only_results {st : St} (h : Reachable st) {c u}
    (hm : Obs.cacheInsert c u ∈ st.log) : ∃ g rs os, Obs.completed c g rs os false ∈ st.log ∧
      g.uuid = u ∧ ∀ r ∈ rs, r.status.isInternalError = false := by
  obtain ⟨post, pre, he, ⟨g, rs, os, h1, h2, h3⟩, _⟩ := (reachable_aux h).hist.mem hm
  exact ⟨g, rs, os, by rw [he]; simp [h1], h2, h3⟩

/-- A cache that knows the generator of `demoDag`. -/
def genCache : ClientUuid → GroupUuid → Option Hit :=
  fun _ u => if u = 10 then some ⟨[good], [(1, key "a")]⟩ else none

/-- Non-vacuity: with mode `everything` the generator is taken from the cache; with its tag excluded
it is not looked up. -/
example : ∃ g rs os, Obs.completed 1 g rs os true ∈
    (after genCache [.evaluateDag 1 demoDag demoCb]).log :=
  ⟨gen, [good], [(1, key "a")], by decide⟩

end TM.Sched
