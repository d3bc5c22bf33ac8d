import Verif.Worker.ProtoLemmas
import Verif.Worker.PropsJob
/-!
# C46: the protocol between a worker and the server

`Hist` (in `ProtoLemmas`) is the specification of the histories of a worker: rounds made of the
connection, the assignment of a job, its completion on the worker, the report to the scheduler of
those results with, for each output, the handle of the file the worker produced.
-/
namespace TM.Worker

/-- No assertion fails and no unexpected message arrives, in the worker or in its manager, whatever
the interleaving of the threads and of the kill requests. -/
theorem protocol_never_fails (store : List FileStoreKey) (s : Sys) (h : Reach store s) :
    s.failed = none := by
  obtain ⟨stage, a, b, hi⟩ := reach_inv h
  exact hi.2.1

theorem free_iff {s : Sys} {stage : Stage} {a b : Nat} (h : s.Inv stage a b) :
    s.free = true ↔ stage = .free := by
  obtain ⟨h1, _, _⟩ := h
  obtain ⟨cur, th, mb, up, down, mgr, store, free, killed, log, failed⟩ := s
  simp only at *
  generalize nk down = d at h1
  have hrep : ∀ {m st o p}, Rep m st o p → st ≠ .free := by
    intro m st o p hr
    rcases hr with ⟨_, _, q⟩ | ⟨_, _, _, _, _, q, _⟩ <;> rw [q] <;> simp
  cases h1 <;> simp_all [hrep]
  all_goals (first | (rename_i hr; exact hrep hr) | (rename_i hr _; exact hrep hr))

/-- The history is made of well-formed rounds: every job assigned gets exactly one result, the one
the worker computed with the files it produced, before the worker is available again; and the
scheduler sees the worker as free exactly between a connection and the next assignment. -/
theorem rounds_well_formed (store : List FileStoreKey) (s : Sys) (h : Reach store s) :
    ∃ stage, Hist s.log stage ∧ (s.free = true ↔ stage = .free) := by
  obtain ⟨stage, a, b, hi⟩ := reach_inv h
  exact ⟨stage, hi.2.2, free_iff hi⟩

/-- No deadlock: if the worker is not waiting for a job, some thread can go on by itself. -/
theorem no_deadlock (store : List FileStoreKey) (s : Sys) (h : Reach store s)
    (hf : s.free = false) : ∃ s', Internal s s' := by
  obtain ⟨stage, a, b, h1, h2, h3⟩ := reach_inv h
  obtain ⟨cur, th, mb, up, down, mgr, store', free, killed, log, failed⟩ := s
  simp only at *
  subst hf h2
  have hdown : ∀ s : Sys, s.failed = none → nk s.down ≠ [] → ∃ s', Internal s s' := by
    intro s hs hn
    cases hd : s.down with
    | nil => rw [hd] at hn; exact absurd rfl hn
    | cons m rest => exact ⟨_, .main s (fun _ => false) m rest hs hd⟩
  generalize hnk : nk down = d at h1
  cases h1 with
  | atServer outputs ps hr hp =>
    cases ps with
    | nil => exact ⟨_, .manager _ .getWork [] rfl rfl⟩
    | cons p ps => exact ⟨_, .manager _ (prov p) (ps.map prov ++ [.getWork]) rfl rfl⟩
  | assigned hj => exact hdown _ rfl (by simp [hnk])
  | fetching job ks1 ks2 hw hne =>
    cases ks1 with
    | cons k ks1 => exact ⟨_, .manager _ (.askFile k) (ks1.map .askFile) rfl rfl⟩
    | nil =>
      refine hdown _ rfl ?_
      simp only [hnk]
      cases ks2 with
      | nil => exact absurd rfl hne
      | cons k ks2 => simp
  | running =>
    rename_i job handles
    exact ⟨_, .finish _ job handles (job.group.executions.map (fun _ => ⟨.success, false, false,
      {}, none, none⟩)) [] rfl rfl (by simp) AMap.wf_nil⟩
  | done job results outputs hwf => exact ⟨_, .manager _ (.workerDone results outputs) [] rfl rfl⟩
  | asking hr => exact hdown _ rfl (by simp [hnk])
  | mailed hr => exact ⟨_, .take _ _ _ rfl rfl rfl⟩
  | sending ps rest hr hp =>
    cases rest with
    | nil => exact ⟨_, .complete _ _ rfl rfl⟩
    | cons u rest => exact ⟨_, .provide _ _ u rest rfl rfl⟩

theorem lt_wf : WellFounded Lt := by
  have h := (Prod.lex (α := Nat) (β := Nat) Nat.lt_wfRel Nat.lt_wfRel).wf
  refine Subrelation.wf ?_ h
  intro p q hpq
  rcases hpq with h | ⟨h1, h2⟩
  · exact Prod.Lex.left _ _ h
  · obtain ⟨p1, p2⟩ := p
    obtain ⟨q1, q2⟩ := q
    simp only at h1 h2
    subst h1
    exact Prod.Lex.right _ h2

/-- No livelock: from a reachable state the threads cannot go on for ever by themselves, so the worker
always gets back to waiting for a job (`no_deadlock`), with the result of the current one reported
(`rounds_well_formed`). -/
theorem rounds_terminate (store : List FileStoreKey) (s : Sys) (h : Reach store s) :
    Acc (fun s' s => Internal s s') s := by
  obtain ⟨stage, a, b, hi⟩ := reach_inv h
  have key : ∀ (p : Nat × Nat) (s : Sys) (stage : Stage) (a b : Nat), s.Inv stage a b →
      p = (a, b + s.down.length) → Acc (fun s' s => Internal s s') s := by
    intro p
    induction p using lt_wf.induction with
    | _ p ih =>
      intro s stage a b hi hp
      refine ⟨_, fun s' hs' => ?_⟩
      obtain ⟨stage', a', b', h', hlt⟩ := internal_inv hi hs'
      exact ih _ (hp ▸ hlt) s' stage' a' b' h' rfl
  exact key _ s stage a b hi rfl

/-- When the threads have nothing left to do, every job ever assigned has been reported and the worker
is free. -/
theorem quiescent_is_free (store : List FileStoreKey) (s : Sys) (h : Reach store s)
    (hq : ∀ s', ¬ Internal s s') : s.free = true ∧ Hist s.log .free := by
  have hf : s.free = true := by
    cases hf : s.free with
    | true => rfl
    | false =>
      obtain ⟨s', hs'⟩ := no_deadlock store s h hf
      exact absurd hs' (hq s')
  obtain ⟨stage, h1, h2⟩ := rounds_well_formed store s h
  rw [h2.1 hf] at h1
  exact ⟨hf, h1⟩

/-- The numbers of assigned jobs and of results of a history. -/
def assignments (l : List Ev) : Nat := l.countP fun | .assigned _ => true | _ => false
def reports (l : List Ev) : Nat := l.countP fun | .result _ _ => true | _ => false

/-- Hence when the worker is free as many results as jobs have been reported, and otherwise at most
one is missing. -/
theorem one_report_per_job {l : List Ev} {stage : Stage} (h : Hist l stage) :
    assignments l = reports l + match stage with
      | .offline => 0
      | .free => 0
      | .busy _ => 1
      | .reporting _ _ _ => 1 := by
  unfold assignments reports
  induction h with
  | start => rfl
  | connected _ ih => simpa [List.countP_append] using ih
  | assigned job _ ih => simp only [List.countP_append, List.countP_cons, List.countP_nil] at ih ⊢
                         simp [ih]
  | finished r o _ _ ih => simpa [List.countP_append] using ih
  | result hs _ _ ih => simp only [List.countP_append, List.countP_cons, List.countP_nil] at ih ⊢
                        simp [ih]

/-- Only the sandboxes of the current job are told to terminate by a kill request. -/
theorem kill_hits_current_job (s : Sys) (present : Nat → Bool) (g : GroupUuid)
    (h : (s.onDown present (.killJob g)).killed ≠ s.killed) :
    ∃ job handles, s.current.job = some (job, handles) ∧ job.group.uuid = g ∧
      s.current.sandboxes = true := by
  simp only [Sys.onDown] at h
  split at h
  · next job handles hj =>
    split at h
    · next hc => exact ⟨job, handles, hj, hc.1, hc.2⟩
    · exact absurd rfl h
  · exact absurd rfl h

/-! ## A concrete round, a lost kill request and a lost job -/

/-- A job reading the file "x" and writing the files 5 and 6. -/
def roundJob : Job where
  group := {
    uuid := 7
    executions := [{ uuid := 1, stdin := some 1, stdout := some 5, outputs := [("o", 6)] }] }
  depKeys := [(1, ⟨"x"⟩)]

def roundStart : Sys := Sys.start [⟨"x"⟩, ⟨"out"⟩]

/-- After the connection and the assignment of the job, which the worker has received; its store does
not have the file. -/
def roundFetching : Sys :=
  { current := { job := some (roundJob, []), missing := [(⟨"x"⟩, [1])] }
    up := [.askFile ⟨"x"⟩]
    store := [⟨"x"⟩, ⟨"out"⟩]
    log := [.connected, .assigned roundJob] }

theorem roundFetching_reach : Reach [⟨"x"⟩, ⟨"out"⟩] roundFetching := by
  have s0 : Reach [⟨"x"⟩, ⟨"out"⟩] roundStart := .start
  have s1 := s0.step (.internal (.manager _ .getWork [] rfl rfl))
  have s2 := s1.step (.assign _ roundJob rfl rfl (by
    intro f hf
    have : f = 1 := by simpa [roundJob, ExecutionGroup.deps, Execution.dependencies] using hf
    subst this
    exact ⟨⟨"x"⟩, rfl, by decide⟩))
  exact s2.step (.internal (.main _ (fun _ => false) (.work roundJob) [] rfl rfl))

def okResult : ExecutionResult := { status := .success }

/-- The end of the round: file 5 was in the store of the server, file 6 was sent. -/
def roundEnd : Sys :=
  { store := [⟨"new"⟩, ⟨"x"⟩, ⟨"out"⟩]
    free := true
    log := [.connected, .assigned roundJob,
      .finished roundJob [okResult] [(5, ⟨"out"⟩), (6, ⟨"new"⟩)],
      .result [okResult] [(6, ⟨"new"⟩), (5, ⟨"out"⟩)], .connected] }

theorem roundEnd_reach : Reach [⟨"x"⟩, ⟨"out"⟩] roundEnd := by
  have s3 := roundFetching_reach.step (.internal (.manager _ (.askFile ⟨"x"⟩) [] rfl rfl))
  have s4 := s3.step (.internal (.main _ (fun _ => false) (.provideFile ⟨"x"⟩) [] rfl rfl))
  have s5 := s4.step (.internal (.finish _ roundJob [(1, ⟨"x"⟩)] [okResult]
    [(5, ⟨"out"⟩), (6, ⟨"new"⟩)] rfl rfl rfl (by unfold AMap.Wf; decide)))
  have s6 := s5.step (.internal (.manager _ (.workerDone [okResult] [(5, ⟨"out"⟩), (6, ⟨"new"⟩)]) []
    rfl rfl))
  have s7 := s6.step (.internal (.main _ (fun _ => false) (.askFiles [6]) [] rfl rfl))
  have s8 := s7.step (.internal (.take _ _ _ rfl rfl rfl))
  have s9 := s8.step (.internal (.provide _ _ 6 [] rfl rfl))
  have s10 := s9.step (.internal (.complete _ _ rfl rfl))
  have s11 := s10.step (.internal (.manager _ (.provideFile 6 ⟨"new"⟩) [.getWork] rfl rfl))
  exact s11.step (.internal (.manager _ .getWork [] rfl rfl))

example : roundEnd.free = true ∧ assignments roundEnd.log = 1 ∧ reports roundEnd.log = 1 :=
  ⟨rfl, rfl, rfl⟩

/-- A kill request received while the worker is still waiting for the files of the job is lost: the
job is started as if nothing had happened. -/
theorem kill_lost_while_fetching :
    ∃ s s' : Sys, Reach [⟨"x"⟩, ⟨"out"⟩] s ∧ Reach [⟨"x"⟩, ⟨"out"⟩] s' ∧
      s.down = [.killJob 7] ∧ s.current.job.map (fun p => p.1.group.uuid) = some 7 ∧
      s'.down = [] ∧ s'.killed = [] ∧ s'.thread = .running roundJob [(1, ⟨"x"⟩)] := by
  have s0 := roundFetching_reach.step (.kill _ 7 rfl)
  have s1 := s0.step (.internal (.main _ (fun _ => false) (.killJob 7) [] rfl rfl))
  have s2 := s1.step (.internal (.manager _ (.askFile ⟨"x"⟩) [] rfl rfl))
  have s3 := s2.step (.internal (.main _ (fun _ => false) (.provideFile ⟨"x"⟩) [] rfl rfl))
  exact ⟨_, _, s0, s3, rfl, rfl, rfl, rfl, rfl⟩

/-- The assumption that the store of the server keeps the dependencies of the job matters: if the
client disconnects its handles are dropped, and if then the file is evicted the manager fails, without
telling anything to the scheduler (worker_manager.rs:163-165 returns before 224-231): the worker and
its job are lost. -/
theorem evicted_dependency_loses_worker :
    ∃ s : Sys, Reach [⟨"x"⟩, ⟨"out"⟩] s ∧ ∃ m rest, s.up = m :: rest ∧
      (({ s with store := [], up := rest } : Sys).onUp m).failed = some (.unknownFile ⟨"x"⟩) :=
  ⟨_, roundFetching_reach, .askFile ⟨"x"⟩, [], rfl, rfl⟩

end TM.Worker
