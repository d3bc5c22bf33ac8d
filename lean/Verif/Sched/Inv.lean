import Verif.Sched.Steps
import Verif.Sched.Spec
import Verif.CheckDag.Props
/-! The invariant of the scheduler. -/

namespace TM.Sched
open TM.DagSpec

/-! ### Counting -/

def readyCount (ready : List ReadyEntry) (c : ClientUuid) (u : GroupUuid) : Nat :=
  ready.countP (fun e => decide (e.client = c ∧ e.group = u))

def workCount (ws : AMap WorkerUuid (Option (ClientUuid × GroupUuid))) (c : ClientUuid)
    (u : GroupUuid) : Nat :=
  ws.countP (fun p => decide (p.2 = some (c, u)))

def taskCount (c : ClientUuid) (u : GroupUuid) : Task → Nat
  | .execCompleted c' g _ _ _ => if c' = c ∧ g.uuid = u then 1 else 0
  | .cachedLoop _ hits => hits.countP (fun h => decide (h.1 = c ∧ h.2.1.uuid = u))
  | _ => 0

def stackCount (stack : List Task) (c : ClientUuid) (u : GroupUuid) : Nat :=
  (stack.map (taskCount c u)).sum

def missCount (cl : Client) (u : GroupUuid) : Nat :=
  match cl.missingDeps.get? u with
  | some _ => 1
  | none => 0

@[simp] theorem stackCount_nil (c u) : stackCount [] c u = 0 := rfl
@[simp] theorem stackCount_cons (t ts c u) :
    stackCount (t :: ts) c u = taskCount c u t + stackCount ts c u := by simp [stackCount]
@[simp] theorem stackCount_append (a b c u) :
    stackCount (a ++ b) c u = stackCount a c u + stackCount b c u := by
  simp [stackCount, List.sum_append]

@[simp] theorem readyCount_nil (c u) : readyCount [] c u = 0 := rfl
theorem readyCount_cons (e es c u) : readyCount (e :: es) c u =
    readyCount es c u + if e.client = c ∧ e.group = u then 1 else 0 := by
  simp [readyCount, List.countP_cons]
@[simp] theorem readyCount_append (a b c u) :
    readyCount (a ++ b) c u = readyCount a c u + readyCount b c u := by
  simp [readyCount]

theorem readyCount_erase {ready : List ReadyEntry} {e : ReadyEntry} (h : e ∈ ready) (c u) :
    readyCount ready c u = readyCount (ready.erase e) c u +
      if e.client = c ∧ e.group = u then 1 else 0 := by
  have := (List.perm_cons_erase h).countP_eq (fun e => decide (e.client = c ∧ e.group = u))
  unfold readyCount
  rw [this, List.countP_cons]; simp

theorem readyCount_pos {ready : List ReadyEntry} {c u} :
    0 < readyCount ready c u ↔ ∃ e ∈ ready, e.client = c ∧ e.group = u := by
  simp [readyCount, List.countP_pos_iff]

theorem workCount_pos {ws : AMap WorkerUuid (Option (ClientUuid × GroupUuid))} {c u} :
    0 < workCount ws c u ↔ ∃ w, (w, some (c, u)) ∈ ws := by
  simp [workCount, List.countP_pos_iff]

theorem workCount_erase {ws : AMap WorkerUuid (Option (ClientUuid × GroupUuid))} {w j}
    (hwf : AMap.Wf ws) (h : ws.get? w = some j) (c u) :
    workCount ws c u = workCount (ws.erase w) c u + if j = some (c, u) then 1 else 0 := by
  induction ws with
  | nil => simp at h
  | cons p ws ih =>
    obtain ⟨k, v⟩ := p
    simp only [AMap.Wf, AMap.keys, List.map_cons, List.nodup_cons] at hwf
    rw [AMap.get?_cons] at h
    by_cases hk : k = w
    · subst hk
      simp at h; subst h
      have : AMap.erase ws k = ws := by
        unfold AMap.erase
        rw [List.filter_eq_self]
        intro p hp
        have : p.1 ≠ k := fun e => hwf.1 (e ▸ List.mem_map.2 ⟨p, hp, rfl⟩)
        simpa using this
      simp only [workCount, List.countP_cons]
      unfold AMap.erase at this ⊢
      simp only [List.filter_cons, ne_eq, not_true, decide_false, Bool.false_eq_true, if_false]
      simp only [ne_eq] at this
      rw [this]; simp
    · simp [hk] at h
      have := ih hwf.2 h
      have e : AMap.erase ((k, v) :: ws) w = (k, v) :: AMap.erase ws w := by
        unfold AMap.erase; simp [hk]
      rw [e]
      simp only [workCount, List.countP_cons] at this ⊢
      omega

theorem workCount_insert (ws : AMap WorkerUuid (Option (ClientUuid × GroupUuid))) (w j c u) :
    workCount (ws.insert w j) c u =
      workCount (ws.erase w) c u + if j = some (c, u) then 1 else 0 := by
  simp [workCount, AMap.insert, List.countP_cons]

theorem erase_of_get?_none {K V : Type} [DecidableEq K] {m : AMap K V} {k : K}
    (h : m.get? k = none) : m.erase k = m := by
  unfold AMap.erase
  rw [List.filter_eq_self]
  intro p hp
  have := AMap.get?_eq_none_iff.1 h
  have : p.1 ≠ k := fun e => this (e ▸ List.mem_map.2 ⟨p, hp, rfl⟩)
  simpa using this

/-! ### Entries of the trace without effect on the work of a client -/

/-- An entry that neither provides a file of client `c` nor ends one of its groups. -/
def Plain (c : ClientUuid) : Obs → Prop
  | .ev (.fileReady c' _ _) => c' ≠ c
  | .completed c' _ _ _ _ => c' ≠ c
  | .skipped c' _ => c' ≠ c
  | _ => True

theorem plain_outs (c : ClientUuid) (os : List Out) : ∀ o ∈ (os.map Obs.out).reverse, Plain c o := by
  intro o ho
  simp at ho
  obtain ⟨a, _, rfl⟩ := ho
  trivial

theorem provided_mono {log log' : List Obs} (h : ∀ o ∈ log, o ∈ log') {c f}
    (hp : Provided log c f) : Provided log' c f := by
  obtain ⟨k, hk⟩ := hp; exact ⟨k, h _ hk⟩

theorem succeeded_mono {log log' : List Obs} (h : ∀ o ∈ log, o ∈ log') {c g}
    (hp : Succeeded log c g) : Succeeded log' c g := by
  obtain ⟨a, b, d, hk, hs⟩ := hp; exact ⟨a, b, d, h _ hk, hs⟩

theorem available_mono {log log' : List Obs} (h : ∀ o ∈ log, o ∈ log') {c f}
    (hp : Available log c f) : Available log' c f := by
  rcases hp with hp | ⟨g, hg, hf⟩
  · exact Or.inl (provided_mono h hp)
  · exact Or.inr ⟨g, succeeded_mono h hg, hf⟩

theorem failedFile_mono {log log' : List Obs} (h : ∀ o ∈ log, o ∈ log') {c f}
    (hp : FailedFile log c f) : FailedFile log' c f := by
  obtain ⟨g, hg, hf⟩ := hp
  refine ⟨g, ?_, hf⟩
  rcases hg with ⟨a, b, d, hk, hs⟩ | hg
  · exact Or.inl ⟨a, b, d, h _ hk, hs⟩
  · exact Or.inr (h _ hg)

theorem seen_mono {log log' : List Obs} (h : ∀ o ∈ log, o ∈ log') {c}
    (hp : Seen log c) : Seen log' c := by
  obtain ⟨a, b, hk⟩ := hp; exact ⟨a, b, h _ hk⟩

/-- `log'` extends `log` only with entries that are plain for client `c`. -/
def PlainExt (c : ClientUuid) (log log' : List Obs) : Prop :=
  ∃ l, log' = l ++ log ∧ ∀ o ∈ l, Plain c o

section
variable {c : ClientUuid} {log log' : List Obs}

theorem PlainExt.refl (c : ClientUuid) (log : List Obs) : PlainExt c log log := ⟨[], rfl, by simp⟩
theorem PlainExt.cons (h : PlainExt c log log') (o : Obs) (ho : Plain c o) :
    PlainExt c log (o :: log') := by
  obtain ⟨l, rfl, hl⟩ := h
  exact ⟨o :: l, rfl, by simp [ho]; exact hl⟩
theorem PlainExt.outs (h : PlainExt c log log') (os : List Out) :
    PlainExt c log ((os.map Obs.out).reverse ++ log') := by
  obtain ⟨l, rfl, hl⟩ := h
  refine ⟨(os.map Obs.out).reverse ++ l, by simp, ?_⟩
  intro o ho
  rcases List.mem_append.1 ho with ho | ho
  · exact plain_outs c os o ho
  · exact hl o ho

theorem PlainExt.sub (h : PlainExt c log log') : ∀ o ∈ log, o ∈ log' := by
  obtain ⟨l, rfl, hl⟩ := h; intro o ho; simp [ho]

theorem PlainExt.mem (h : PlainExt c log log') {o : Obs} (ho : ¬ Plain c o) :
    o ∈ log' ↔ o ∈ log := by
  obtain ⟨l, rfl, hl⟩ := h
  simp only [List.mem_append]
  exact ⟨fun h => h.elim (fun h => absurd (hl o h) ho) id, Or.inr⟩

theorem PlainExt.provided (h : PlainExt c log log') {f} :
    Provided log' c f ↔ Provided log c f := by
  unfold Provided; simp [h.mem (o := Obs.ev (.fileReady c f _)) (by simp [Plain])]

theorem PlainExt.succeeded (h : PlainExt c log log') {g} :
    Succeeded log' c g ↔ Succeeded log c g := by
  unfold Succeeded; simp [h.mem (o := Obs.completed c g _ _ _) (by simp [Plain])]

theorem PlainExt.failed (h : PlainExt c log log') {g} :
    Failed log' c g ↔ Failed log c g := by
  unfold Failed; simp [h.mem (o := Obs.completed c g _ _ _) (by simp [Plain])]

theorem PlainExt.skipped (h : PlainExt c log log') {g} :
    Skipped log' c g ↔ Skipped log c g := by
  unfold Skipped; exact h.mem (o := Obs.skipped c g) (by simp [Plain])

theorem PlainExt.available (h : PlainExt c log log') {f} :
    Available log' c f ↔ Available log c f := by
  unfold Available; simp [h.provided, h.succeeded]

theorem PlainExt.failedFile (h : PlainExt c log log') {f} :
    FailedFile log' c f ↔ FailedFile log c f := by
  unfold FailedFile; simp [h.failed, h.skipped]

theorem PlainExt.term (h : PlainExt c log log') (u) :
    termCount log' c u = termCount log c u := by
  obtain ⟨l, rfl, hl⟩ := h
  unfold termCount
  rw [List.countP_append]
  have : l.countP (isTerm c u) = 0 := by
    rw [List.countP_eq_zero]
    intro o ho
    have := hl o ho
    cases o <;> simp [Plain] at this <;> simp [isTerm] <;> exact fun e => absurd e this
  omega

end

/-! ### Pending notifications -/

/-- Task `t` will tell group `u` that file `f` is resolved. -/
def Notifies (c : ClientUuid) (f : FileUuid) (u : GroupUuid) : Task → Prop
  | .fileSuccess c' f' => c' = c ∧ f' = f
  | .fileFailed c' f' => c' = c ∧ f' = f
  | .successLoop c' f' us => c' = c ∧ f' = f ∧ u ∈ us
  | .skipLoop c' f' us acc => c' = c ∧ ((f' = f ∧ u ∈ us) ∨ f ∈ acc)
  | _ => False

def Pending (stack : List Task) (c : ClientUuid) (f : FileUuid) (u : GroupUuid) : Prop :=
  ∃ t ∈ stack, Notifies c f u t

@[simp] theorem pending_nil (c f u) : ¬ Pending [] c f u := by simp [Pending]
@[simp] theorem pending_cons (t ts c f u) :
    Pending (t :: ts) c f u ↔ Notifies c f u t ∨ Pending ts c f u := by simp [Pending]
@[simp] theorem pending_append (a b c f u) :
    Pending (a ++ b) c f u ↔ Pending a c f u ∨ Pending b c f u := by
  simp [Pending, or_and_right, exists_or]

/-- The file is known to exist or to never exist. -/
def Resolved (log : List Obs) (c : ClientUuid) (f : FileUuid) : Prop :=
  Available log c f ∨ FailedFile log c f

/-! ### The invariant -/

/-- What holds of a connected client. -/
structure CInv (log : List Obs) (ready : List ReadyEntry)
    (workers : AMap WorkerUuid (Option (ClientUuid × GroupUuid))) (stack : List Task)
    (c : ClientUuid) (cl : Client) : Prop where
  wf : cl.dag.Wf
  ok : CheckDag.checkDag cl.dag cl.callbacks = .ok ()
  evald : Obs.ev (.evaluateDag c cl.dag cl.callbacks) ∈ log
  inputOf : ∀ f u, (∃ us, cl.inputOf.get? f = some us ∧ u ∈ us) ↔
    ∃ g, cl.dag.executionGroups.get? u = some g ∧ f ∈ g.deps
  miss : ∀ u fs, cl.missingDeps.get? u = some fs → fs ≠ [] ∧
    ∃ g, cl.dag.executionGroups.get? u = some g ∧ (∀ f ∈ fs, f ∈ g.deps) ∧
      ∀ f ∈ g.deps, f ∉ fs → Available log c f
  pend : ∀ u fs f, cl.missingDeps.get? u = some fs → f ∈ fs → Resolved log c f →
    Pending stack c f u
  cons : ∀ u g, cl.dag.executionGroups.get? u = some g →
    missCount cl u + readyCount ready c u + workCount workers c u + stackCount stack c u +
      termCount log c u = mult g
  avail : ∀ u g, cl.dag.executionGroups.get? u = some g →
    0 < readyCount ready c u + workCount workers c u + stackCount stack c u →
    ∀ f ∈ g.deps, Available log c f
  handles : ∀ f, Available log c f → ∃ k, cl.fileHandles.get? f = some k
  readyG : ∀ u ∈ cl.readyGroups, 0 < readyCount ready c u
  runG : ∀ u ∈ cl.runningGroups, 0 < workCount workers c u
  cover : ∀ u g, cl.dag.executionGroups.get? u = some g →
    u ∈ cl.readyGroups ∨ u ∈ cl.runningGroups ∨ 0 < missCount cl u ∨ 0 < stackCount stack c u ∨
      0 < termCount log c u

/-- What holds of a task on the stack. -/
def TaskOk (log : List Obs) (clients : AMap ClientUuid Client) : Task → Prop
  | .fileSuccess c f => Available log c f
  | .successLoop c f us => Available log c f ∧
      ∀ cl, clients.get? c = some cl → ∀ u ∈ us, ∃ g, cl.dag.executionGroups.get? u = some g
  | .fileFailed c f => FailedFile log c f
  | .skipLoop c f us acc => FailedFile log c f ∧ (∀ f' ∈ acc, FailedFile log c f') ∧
      ∀ cl, clients.get? c = some cl → ∀ u ∈ us, ∃ g, cl.dag.executionGroups.get? u = some g ∧
        f ∈ g.deps
  | .cachedLoop todo hits =>
      (∀ e hit, (e, some hit) ∈ todo → ∀ cl g, clients.get? e.client = some cl →
        cl.dag.executionGroups.get? e.group = some g → ResultOk g hit.results hit.outputs) ∧
      (∀ h ∈ hits, ∀ cl, clients.get? h.1 = some cl →
        cl.dag.executionGroups.get? h.2.1.uuid = some h.2.1 ∧
        ResultOk h.2.1 h.2.2.results h.2.2.outputs)
  | .execCompleted c g rs os _ => ∀ cl, clients.get? c = some cl →
      cl.dag.executionGroups.get? g.uuid = some g ∧ ResultOk g rs os
  | _ => True

def isCachedLoop : Task → Bool
  | .cachedLoop _ _ => true
  | _ => false

structure Inv (st : St) : Prop where
  clientsWf : AMap.Wf st.clients
  workersWf : AMap.Wf st.workers
  client : ∀ c cl, st.clients.get? c = some cl →
    CInv st.log st.ready st.workers st.stack c cl
  readyLive : ∀ e ∈ st.ready, ∃ cl, st.clients.get? e.client = some cl ∧
    ∃ g, cl.dag.executionGroups.get? e.group = some g
  workLive : ∀ w c u cl, st.workers.get? w = some (some (c, u)) → st.clients.get? c = some cl →
    ∃ g, cl.dag.executionGroups.get? u = some g
  tasks : ∀ t ∈ st.stack, TaskOk st.log st.clients t
  loops : ∀ t ∈ st.stack.tail, isCachedLoop t = false
  cachedTop : ∀ todo hits rest, st.stack = .cachedLoop todo hits :: rest →
    ∀ e, (todo.map (·.1)).count e ≤ st.ready.count e
  seenWork : ∀ w c u, st.workers.get? w = some (some (c, u)) → Seen st.log c
  seenTerm : ∀ c u, 0 < termCount st.log c u → Seen st.log c
  seenProv : ∀ c f, Provided st.log c f → ∃ dag cb, Obs.ev (.evaluateDag c dag cb) ∈ st.log ∧
    f ∈ dag.providedFiles.keys
  evUniq : ∀ c dag cb dag' cb', Obs.ev (.evaluateDag c dag cb) ∈ st.log →
    Obs.ev (.evaluateDag c dag' cb') ∈ st.log → dag' = dag ∧ cb' = cb

/-- A client keeps its invariant when nothing of its own changes. -/
theorem CInv.frame {log log' : List Obs} {ready ready' : List ReadyEntry}
    {workers workers' : AMap WorkerUuid (Option (ClientUuid × GroupUuid))} {stack stack' : List Task}
    {c : ClientUuid} {cl : Client} (h : CInv log ready workers stack c cl)
    (hr : ∀ u, readyCount ready' c u = readyCount ready c u)
    (hw : ∀ u, workCount workers' c u = workCount workers c u)
    (hs : ∀ u, stackCount stack' c u = stackCount stack c u)
    (ht : ∀ u, termCount log' c u = termCount log c u)
    (hl : ∀ o ∈ log, o ∈ log')
    (ha : ∀ f, Available log' c f → Available log c f)
    (hp : ∀ u fs f, cl.missingDeps.get? u = some fs → f ∈ fs → Resolved log' c f →
      Pending stack' c f u) :
    CInv log' ready' workers' stack' c cl where
  wf := h.wf
  ok := h.ok
  evald := hl _ h.evald
  inputOf := h.inputOf
  miss := fun u fs hm => by
    obtain ⟨h1, g, h2, h3, h4⟩ := h.miss u fs hm
    exact ⟨h1, g, h2, h3, fun f hf hn => available_mono hl (h4 f hf hn)⟩
  pend := hp
  cons := fun u g hg => by rw [hr, hw, hs, ht]; exact h.cons u g hg
  avail := fun u g hg hpos f hf => by
    rw [hr, hw, hs] at hpos
    exact available_mono hl (h.avail u g hg hpos f hf)
  handles := fun f hf => h.handles f (ha f hf)
  readyG := fun u hu => by rw [hr]; exact h.readyG u hu
  runG := fun u hu => by rw [hw]; exact h.runG u hu
  cover := fun u g hg => by rw [hs, ht]; exact h.cover u g hg

/-- Same, when moreover no file of the client gets resolved and no notification is lost. -/
theorem CInv.frame' {log log' : List Obs} {ready ready' : List ReadyEntry}
    {workers workers' : AMap WorkerUuid (Option (ClientUuid × GroupUuid))} {stack stack' : List Task}
    {c : ClientUuid} {cl : Client} (h : CInv log ready workers stack c cl)
    (hr : ∀ u, readyCount ready' c u = readyCount ready c u)
    (hw : ∀ u, workCount workers' c u = workCount workers c u)
    (hs : ∀ u, stackCount stack' c u = stackCount stack c u)
    (hl : PlainExt c log log')
    (hp : ∀ f u fs, cl.missingDeps.get? u = some fs → f ∈ fs → Pending stack c f u →
      Pending stack' c f u) :
    CInv log' ready' workers' stack' c cl := by
  refine h.frame hr hw hs (fun u => hl.term u) hl.sub (fun f => hl.available.1) ?_
  intro u fs f hm hf hres
  refine hp f u fs hm hf (h.pend u fs f hm hf ?_)
  unfold Resolved at *
  rwa [hl.available, hl.failedFile] at hres

theorem TaskOk.mono {log log' : List Obs} {clients clients' : AMap ClientUuid Client} {t : Task}
    (h : TaskOk log clients t) (hl : ∀ o ∈ log, o ∈ log')
    (hc : ∀ c cl', clients'.get? c = some cl' → ∃ cl, clients.get? c = some cl ∧ cl.dag = cl'.dag) :
    TaskOk log' clients' t := by
  cases t with
  | fileSuccess c f => exact available_mono hl h
  | successLoop c f us =>
    refine ⟨available_mono hl h.1, fun cl' hcl' u hu => ?_⟩
    obtain ⟨cl, h1, h2⟩ := hc c cl' hcl'
    rw [← h2]; exact h.2 cl h1 u hu
  | fileFailed c f => exact failedFile_mono hl h
  | skipLoop c f us acc =>
    refine ⟨failedFile_mono hl h.1, fun f' hf' => failedFile_mono hl (h.2.1 f' hf'),
      fun cl' hcl' u hu => ?_⟩
    obtain ⟨cl, h1, h2⟩ := hc c cl' hcl'
    rw [← h2]; exact h.2.2 cl h1 u hu
  | cachedLoop todo hits =>
    refine ⟨fun e hit hm cl' g hcl' hg => ?_, fun x hx cl' hcl' => ?_⟩
    · obtain ⟨cl, h1, h2⟩ := hc _ cl' hcl'
      exact h.1 e hit hm cl g h1 (by rw [h2]; exact hg)
    · obtain ⟨cl, h1, h2⟩ := hc _ cl' hcl'
      rw [← h2]; exact h.2 x hx cl h1
  | execCompleted c g rs os b =>
    intro cl' hcl'
    obtain ⟨cl, h1, h2⟩ := hc _ cl' hcl'
    rw [← h2]; exact h cl h1
  | scheduleCached => trivial
  | assignJobs => trivial
  | assignLoop ws => trivial
  | checkCompletion c => trivial

end TM.Sched
