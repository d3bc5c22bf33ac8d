import Verif.Sched.PreserveEvent
/-! What was true of the trace at the moment each entry was added. -/

namespace TM.Sched
open TM.DagSpec

/-- What is true of the earlier trace `pre` when an entry is added. -/
def HistOk : Obs → List Obs → Prop
  | .out (.workerJob w c g keys), pre =>
      Connected c pre = true ∧ workerAt w pre = some none ∧ GroupOf pre c g ∧
      (∀ f ∈ g.deps, Available pre c f) ∧
      (∀ f, keys.get? f = if f ∈ g.deps then keyOf c f pre else none) ∧
      termCount pre c g.uuid < mult g
  | .out (.started c e w), pre => Connected c pre = true ∧
      (∃ dag cb, Asked pre c dag cb ∧ e ∈ cb.executions) ∧
      ∃ g keys, Obs.out (.workerJob w c g keys) ∈ pre ∧ e ∈ g.executions.map (·.uuid)
  | .out (.done c e r), pre => Connected c pre = true ∧
      (∃ dag cb, Asked pre c dag cb ∧ e ∈ cb.executions) ∧
      ∃ g rs os b x, Obs.completed c g rs os b ∈ pre ∧ (x, r) ∈ g.executions.zip rs ∧ x.uuid = e
  | .out (.skipped c e), pre => Connected c pre = true ∧
      (∃ dag cb, Asked pre c dag cb ∧ e ∈ cb.executions) ∧
      ∃ g, Skipped pre c g ∧ e ∈ g.executions.map (·.uuid)
  | .out (.fileReady c f k s u), pre => Connected c pre = true ∧
      (∃ dag cb, Asked pre c dag cb ∧ f ∈ cb.files ∧ (u = true ↔ f ∈ cb.urgentFiles)) ∧
      keyOf c f pre = some k ∧ (s = true → Available pre c f) ∧ (s = false → FailedFile pre c f)
  | .out (.evaluationDone c), pre =>
      (∃ l, pre = .ev (.clientDisconnected c) :: l ∧ Connected c l = true) ∨
      (Connected c pre = true ∧ ∃ dag cb, Asked pre c dag cb ∧
        ∀ u g, dag.executionGroups.get? u = some g → 0 < termCount pre c u ∧
          (mult g = 1 → ∀ w, workerAt w pre ≠ some (some (c, u))))
  | .out (.stopJob w u), pre => ∃ c, workerAt w pre = some (some (c, u)) ∧ Connected c pre = false
  | .completed c g rs os b, pre => Connected c pre = true ∧ GroupOf pre c g ∧ ResultOk g rs os ∧
      (∀ f ∈ g.deps, Available pre c f) ∧ termCount pre c g.uuid < mult g ∧
      (b = false → ∃ w keys, Obs.out (.workerJob w c g keys) ∈ pre ∧
        Obs.ev (.workerResult w rs os) ∈ pre) ∧
      (b = true → Obs.cacheLookup c g.uuid ∈ pre)
  | .skipped c g, pre => Connected c pre = true ∧ GroupOf pre c g ∧
      (∃ f ∈ g.deps, FailedFile pre c f) ∧ termCount pre c g.uuid = 0 ∧ mult g = 1 ∧
      ∀ w g' keys, Obs.out (.workerJob w c g' keys) ∈ pre → g'.uuid ≠ g.uuid
  | .cacheLookup c u, pre => Connected c pre = true ∧ ∃ dag cb g, Asked pre c dag cb ∧
      dag.executionGroups.get? u = some g ∧ CacheAllowed dag.config.cacheMode g
  | .cacheInsert c u, pre => ∃ g rs os, Obs.completed c g rs os false ∈ pre ∧ g.uuid = u ∧
      ∀ r ∈ rs, r.status.isInternalError = false
  | .ev (.evaluateDag c dag cb), pre => dag.Wf ∧ CheckDag.checkDag dag cb = .ok () ∧ ¬ Seen pre c
  | .ev (.fileReady c f _), pre => ∃ dag cb, Asked pre c dag cb ∧ f ∈ dag.providedFiles.keys
  | _, _ => True

/-- `HistOk` of every entry. -/
def Hist : List Obs → Prop
  | [] => True
  | o :: log => HistOk o log ∧ Hist log

theorem Hist.split {post pre : List Obs} {o : Obs} (h : Hist (post ++ o :: pre)) : HistOk o pre := by
  induction post with
  | nil => exact h.1
  | cons a l ih => exact ih h.2

theorem Hist.suffix {post pre : List Obs} (h : Hist (post ++ pre)) : Hist pre := by
  induction post with
  | nil => exact h
  | cons a l ih => exact ih h.2

/-- Entries without effect on who is connected, on the workers and on the recorded contents. -/
def Silent : Obs → Prop
  | .ev (.status _) => True
  | .ev _ => False
  | .out (.workerJob _ _ _ _) => False
  | .completed _ _ _ _ _ => False
  | _ => True

theorem Silent.eqs {o : Obs} (h : Silent o) (log : List Obs) :
    (∀ c, Connected c (o :: log) = Connected c log) ∧
    (∀ w, workerAt w (o :: log) = workerAt w log) ∧
    (∀ c f, keyOf c f (o :: log) = keyOf c f log) := by
  cases o with
  | ev e => cases e <;> simp_all [Silent, Connected, workerAt, keyOf]
  | out x => cases x <;> simp_all [Silent, Connected, workerAt, keyOf]
  | _ => simp_all [Silent, Connected, workerAt, keyOf]

theorem silent_eqs {l : List Obs} (h : ∀ o ∈ l, Silent o) (log : List Obs) :
    (∀ c, Connected c (l ++ log) = Connected c log) ∧
    (∀ w, workerAt w (l ++ log) = workerAt w log) ∧
    (∀ c f, keyOf c f (l ++ log) = keyOf c f log) := by
  induction l with
  | nil => simp
  | cons o l ih =>
    have h1 := (h o (by simp)).eqs (l ++ log)
    have h2 := ih (fun o ho => h o (by simp [ho]))
    refine ⟨fun c => ?_, fun w => ?_, fun c f => ?_⟩
    · rw [List.cons_append, h1.1, h2.1]
    · rw [List.cons_append, h1.2.1, h2.2.1]
    · rw [List.cons_append, h1.2.2, h2.2.2]

/-- Messages that are not jobs. -/
def NotJob : Out → Prop
  | .workerJob _ _ _ _ => False
  | _ => True

theorem silent_outs {os : List Out} (h : ∀ o ∈ os, NotJob o) :
    ∀ o ∈ (os.map Obs.out).reverse, Silent o := by
  intro o ho
  simp at ho
  obtain ⟨a, ha, rfl⟩ := ho
  have := h a ha
  cases a <;> simp_all [Silent, NotJob]

theorem hist_outs {os : List Out} {log : List Obs} (h : Hist log)
    (ho : ∀ o ∈ os, ∀ l : List Obs, (∀ x ∈ l, ∃ y ∈ os, x = .out y) → HistOk (.out o) (l ++ log)) :
    Hist ((os.map Obs.out).reverse ++ log) := by
  have key : ∀ os' : List Out, (∀ o ∈ os', o ∈ os) →
      Hist ((os'.map Obs.out) ++ log) := by
    intro os'
    induction os' with
    | nil => intro _; exact h
    | cons a l ih =>
      intro hm
      refine ⟨ho a (hm a (by simp)) (l.map Obs.out) ?_, ih (fun o h => hm o (by simp [h]))⟩
      intro x hx
      obtain ⟨y, hy, rfl⟩ := List.mem_map.1 hx
      exact ⟨y, hm y (by simp [hy]), rfl⟩
  rw [← List.map_reverse]
  exact key os.reverse (fun o h => by simpa using h)

/-- Where a task comes from. -/
def TaskProv (log : List Obs) : Task → Prop
  | .cachedLoop _ hits => ∀ h ∈ hits, Obs.cacheLookup h.1 h.2.1.uuid ∈ log
  | .execCompleted c g rs os b =>
      (b = false → ∃ w keys, Obs.out (.workerJob w c g keys) ∈ log ∧
        Obs.ev (.workerResult w rs os) ∈ log) ∧
      (b = true → Obs.cacheLookup c g.uuid ∈ log)
  | _ => True

theorem TaskProv.mono {log log' : List Obs} {t : Task} (h : TaskProv log t)
    (hl : ∀ o ∈ log, o ∈ log') : TaskProv log' t := by
  cases t with
  | cachedLoop todo hits => exact fun x hx => hl _ (h x hx)
  | execCompleted c g rs os b =>
    refine ⟨fun hb => ?_, fun hb => hl _ (h.2 hb)⟩
    obtain ⟨w, k, h1, h2⟩ := h.1 hb
    exact ⟨w, k, hl _ h1, hl _ h2⟩
  | _ => trivial

def isCheck : Task → Bool
  | .checkCompletion _ => true
  | _ => false

/-- Second invariant: the state against the trace. -/
structure Aux (st : St) : Prop where
  live : ∀ c, (st.clients.get? c).isSome = Connected c st.log
  work : ∀ w, st.workers.get? w = workerAt w st.log
  keys : ∀ c cl f, st.clients.get? c = some cl → cl.fileHandles.get? f = keyOf c f st.log
  started : ∀ c cl w g keys, st.clients.get? c = some cl →
    Obs.out (.workerJob w c g keys) ∈ st.log → cl.missingDeps.get? g.uuid = none
  below : ∀ pre c post, st.stack = pre ++ .checkCompletion c :: post →
    ∀ t ∈ post, t = .scheduleCached ∨ t = .assignJobs
  prov : ∀ t ∈ st.stack, TaskProv st.log t
  jobGroup : ∀ w c g keys, Obs.out (.workerJob w c g keys) ∈ st.log → GroupOf st.log c g
  hist : Hist st.log

theorem groupOf_mono {log log' : List Obs} (h : ∀ o ∈ log, o ∈ log') {c g}
    (hp : GroupOf log c g) : GroupOf log' c g := by
  obtain ⟨d, b, h1, h2⟩ := hp; exact ⟨d, b, h _ h1, h2⟩

theorem below_push {ts rest : List Task} (hts : ∀ t ∈ ts, isCheck t = false)
    (h : ∀ pre c post, rest = pre ++ .checkCompletion c :: post →
      ∀ t ∈ post, t = .scheduleCached ∨ t = .assignJobs) :
    ∀ pre c post, ts ++ rest = pre ++ .checkCompletion c :: post →
      ∀ t ∈ post, t = .scheduleCached ∨ t = .assignJobs := by
  induction ts with
  | nil => exact h
  | cons a ts ih =>
    intro pre c post he
    cases pre with
    | nil =>
      simp only [List.nil_append, List.cons_append, List.cons.injEq] at he
      have := hts a (by simp)
      rw [he.1] at this; simp [isCheck] at this
    | cons b pre =>
      simp only [List.cons_append, List.cons.injEq] at he
      exact ih (fun t ht => hts t (by simp [ht])) pre c post he.2

/-- A task step with silent entries only. -/
theorem Aux.build {st st' : St} (a : Aux st) {t : Task} {ts rest : List Task}
    (hst : st.stack = t :: rest) (hst' : st'.stack = ts ++ rest)
    (l : List Obs) (hlog : st'.log = l ++ st.log) (hsil : ∀ o ∈ l, Silent o)
    (hw : st'.workers = st.workers)
    (hc : ∀ c, (st'.clients.get? c).isSome = (st.clients.get? c).isSome)
    (hcl : ∀ c cl', st'.clients.get? c = some cl' → ∃ cl, st.clients.get? c = some cl ∧
      cl'.fileHandles = cl.fileHandles ∧
      ∀ u, cl.missingDeps.get? u = none → cl'.missingDeps.get? u = none)
    (hts : ∀ t ∈ ts, isCheck t = false)
    (hprov : ∀ t ∈ ts, TaskProv st'.log t)
    (hh : Hist st.log → Hist st'.log) : Aux st' := by
  have he := silent_eqs hsil st.log
  rw [← hlog] at he
  have hsub : ∀ o ∈ st.log, o ∈ st'.log := by intro o ho; rw [hlog]; simp [ho]
  have hnj : ∀ w c g keys, Obs.out (.workerJob w c g keys) ∈ st'.log →
      Obs.out (.workerJob w c g keys) ∈ st.log := by
    intro w c g keys hm
    rw [hlog] at hm
    rcases List.mem_append.1 hm with hm | hm
    · exact (hsil _ hm).elim
    · exact hm
  exact {
    live := fun c => by rw [he.1, hc]; exact a.live c
    work := fun w => by rw [he.2.1, hw]; exact a.work w
    keys := by
      intro c cl' f h1
      obtain ⟨cl, h2, h3, _⟩ := hcl c cl' h1
      rw [he.2.2, h3]; exact a.keys c cl f h2
    started := by
      intro c cl' w g keys h1 h2
      obtain ⟨cl, h3, _, h4⟩ := hcl c cl' h1
      exact h4 _ (a.started c cl w g keys h3 (hnj _ _ _ _ h2))
    below := by
      rw [hst']
      refine below_push hts ?_
      intro pre c post h1
      exact a.below (t :: pre) c post (by rw [hst, h1]; rfl)
    prov := by
      intro x hx
      rw [hst'] at hx
      rcases List.mem_append.1 hx with hx | hx
      · exact hprov x hx
      · exact (a.prov x (by rw [hst]; simp [hx])).mono hsub
    jobGroup := fun w c g keys hm => groupOf_mono hsub (a.jobGroup w c g keys (hnj _ _ _ _ hm))
    hist := hh a.hist }

end TM.Sched
