import Verif.Sched.Model
/-! Case analysis of the steps of the scheduler: every successful step of a task, as an explicit
state update. -/

namespace TM.Sched

/-- The messages `send_file` sends. -/
def sendMsgs (cl : Client) (c : ClientUuid) (f : FileUuid) (status : Bool) : List Out :=
  if f ∈ cl.callbacks.files then
    match cl.fileHandles.get? f with
    | none => []
    | some key => [.fileReady c f key status (decide (f ∈ cl.callbacks.urgentFiles))]
  else []

theorem sendFile_eq {st : St} {c : ClientUuid} {cl : Client} (h : st.clients.get? c = some cl)
    (f : FileUuid) (s : Bool) : sendFile st c f s = st.emitAll (sendMsgs cl c f s) := by
  unfold sendFile sendMsgs
  simp only [h]
  split
  · cases cl.fileHandles.get? f <;> rfl
  · rfl

theorem sendFile_none {st : St} {c : ClientUuid} (h : st.clients.get? c = none)
    (f : FileUuid) (s : Bool) : sendFile st c f s = st := by
  unfold sendFile; simp only [h]

/-- What the watched executions of a group are told when it is skipped. -/
def skipMsgs (cl : Client) (c : ClientUuid) (g : ExecutionGroup) : List Out :=
  ((g.executions.map (·.uuid)).filter (fun x => decide (x ∈ cl.callbacks.executions))).map
    (Out.skipped c)

/-- What the watched executions of a group are told when it starts. -/
def startMsgs (cl : Client) (c : ClientUuid) (w : WorkerUuid) (g : ExecutionGroup) : List Out :=
  ((g.executions.map (·.uuid)).filter (fun x => decide (x ∈ cl.callbacks.executions))).map
    (fun x => Out.started c x w)

/-- Successful steps of a task popped from the stack of `st` (`st.stack` is what is below it). -/
inductive TaskStep (st : St) : Task → Choice → St → Prop
  | fileSuccessGone (c f ch) : st.clients.get? c = none → TaskStep st (.fileSuccess c f) ch st
  | fileSuccessNone (c f ch cl) : st.clients.get? c = some cl → cl.inputOf.get? f = none →
      TaskStep st (.fileSuccess c f) ch (st.emitAll (sendMsgs cl c f true))
  | fileSuccessSome (c f ch cl us) : st.clients.get? c = some cl → cl.inputOf.get? f = some us →
      TaskStep st (.fileSuccess c f) ch
        ((st.emitAll (sendMsgs cl c f true)).push [.successLoop c f ch.groups])
  | successEnd (c f ch) : TaskStep st (.successLoop c f []) ch
      (st.push [.scheduleCached, .assignJobs])
  | successGone (c f ch u us) : st.clients.get? c = none →
      TaskStep st (.successLoop c f (u :: us)) ch st
  | successSkip (c f ch u us cl g) : st.clients.get? c = some cl →
      cl.dag.executionGroups.get? u = some g → cl.missingDeps.get? u = none →
      TaskStep st (.successLoop c f (u :: us)) ch (st.push [.successLoop c f us])
  | successReady (c f ch u us cl g fs) : st.clients.get? c = some cl →
      cl.dag.executionGroups.get? u = some g → cl.missingDeps.get? u = some fs →
      setErase fs f = [] →
      TaskStep st (.successLoop c f (u :: us)) ch
        (({ st.setClient c { cl with
              missingDeps := cl.missingDeps.erase u
              readyGroups := setInsert cl.readyGroups u } with
            ready := ⟨HIGH_PRIORITY, g.priority, u, c⟩ :: st.ready } : St).push
          [.successLoop c f us])
  | successWait (c f ch u us cl g fs) : st.clients.get? c = some cl →
      cl.dag.executionGroups.get? u = some g → cl.missingDeps.get? u = some fs →
      setErase fs f ≠ [] →
      TaskStep st (.successLoop c f (u :: us)) ch
        ((st.setClient c { cl with
            missingDeps := cl.missingDeps.insert u (setErase fs f) }).push [.successLoop c f us])
  | fileFailedGone (c f ch) : st.clients.get? c = none → TaskStep st (.fileFailed c f) ch st
  | fileFailedNone (c f ch cl) : st.clients.get? c = some cl → cl.inputOf.get? f = none →
      TaskStep st (.fileFailed c f) ch (st.emitAll (sendMsgs cl c f false))
  | fileFailedSome (c f ch cl us) : st.clients.get? c = some cl → cl.inputOf.get? f = some us →
      TaskStep st (.fileFailed c f) ch
        ((st.emitAll (sendMsgs cl c f false)).push [.skipLoop c f ch.groups []])
  | skipEnd (c f failed ch) : TaskStep st (.skipLoop c f [] failed) ch
      (st.push (failed.map (fun f => Task.fileFailed c f)))
  | skipGone (c f failed ch u us) : st.clients.get? c = none →
      TaskStep st (.skipLoop c f (u :: us) failed) ch st
  | skipTwice (c f failed ch u us cl) : st.clients.get? c = some cl →
      cl.missingDeps.get? u = none →
      TaskStep st (.skipLoop c f (u :: us) failed) ch (st.push [.skipLoop c f us failed])
  | skipOne (c f failed ch u us cl g fs) : st.clients.get? c = some cl →
      cl.missingDeps.get? u = some fs → cl.dag.executionGroups.get? u = some g →
      TaskStep st (.skipLoop c f (u :: us) failed) ch
        ((((st.setClient c { cl with missingDeps := cl.missingDeps.erase u }).obs
            (.skipped c g)).emitAll (skipMsgs cl c g)).push
          [.skipLoop c f us (failed ++ g.outs)])
  | scheduleCached (ch) : TaskStep st .scheduleCached ch (st.push [.cachedLoop ch.entries []])
  | cachedEnd (hits ch) : TaskStep st (.cachedLoop [] hits) ch (st.push (hits.map
      (fun h => Task.execCompleted h.1 h.2.1 h.2.2.results h.2.2.outputs true)))
  | cachedGone (e ans rest hits ch) : st.clients.get? e.client = none →
      TaskStep st (.cachedLoop ((e, ans) :: rest) hits) ch
        (({ st with ready := st.ready.erase e } : St).push [.cachedLoop rest hits])
  | cachedNo (e ans rest hits ch cl) : st.clients.get? e.client = some cl →
      (cl.dag.config.cacheMode = .nothing ∨ ∃ g, cl.dag.executionGroups.get? e.group = some g ∧
        isCacheable g cl.dag.config.cacheMode = false) →
      TaskStep st (.cachedLoop ((e, ans) :: rest) hits) ch (st.push [.cachedLoop rest hits])
  | cachedMiss (e rest hits ch cl g) : st.clients.get? e.client = some cl →
      cl.dag.config.cacheMode ≠ .nothing → cl.dag.executionGroups.get? e.group = some g →
      isCacheable g cl.dag.config.cacheMode = true →
      TaskStep st (.cachedLoop ((e, none) :: rest) hits) ch
        ((st.obs (.cacheLookup e.client e.group)).push [.cachedLoop rest hits])
  | cachedHit (e hit rest hits ch cl g) : st.clients.get? e.client = some cl →
      cl.dag.config.cacheMode ≠ .nothing → cl.dag.executionGroups.get? e.group = some g →
      isCacheable g cl.dag.config.cacheMode = true →
      TaskStep st (.cachedLoop ((e, some hit) :: rest) hits) ch
        (({ (st.obs (.cacheLookup e.client e.group)).setClient e.client { cl with
              readyGroups := setErase cl.readyGroups g.uuid } with
            ready := st.ready.erase e } : St).push
          [.cachedLoop rest (hits ++ [(e.client, g, hit)])])
  | assignJobs (ch) : TaskStep st .assignJobs ch (st.push [.assignLoop ch.workers])
  | assignEnd (ws ch) : (ws = [] ∨ st.ready = []) →
      TaskStep st (.assignLoop ws) ch (st.obs .assigned)
  | assignSkip (w ws ch) : st.workers.get? w ≠ some none →
      TaskStep st (.assignLoop (w :: ws)) ch (st.push [.assignLoop ws])
  | assignGone (w ws ch e ready) : st.workers.get? w = some none →
      popMax st.ready = some (e, ready) → st.clients.get? e.client = none →
      TaskStep st (.assignLoop (w :: ws)) ch
        (({ st with ready := ready
                    workers := st.workers.insert w (some (e.client, e.group)) } : St).push
          [.assignLoop ws])
  | assignJob (w ws ch e ready cl g keys) : st.workers.get? w = some none →
      popMax st.ready = some (e, ready) → st.clients.get? e.client = some cl →
      cl.dag.executionGroups.get? e.group = some g → depKeys cl.fileHandles g.deps [] = .ok keys →
      TaskStep st (.assignLoop (w :: ws)) ch
        ((((({ st with ready := ready
                       workers := st.workers.insert w (some (e.client, e.group)) } : St).setClient
            e.client { cl with
              readyGroups := setErase cl.readyGroups e.group
              runningGroups := setInsert cl.runningGroups e.group }).emit
            (.workerJob w e.client g keys)).emitAll (startMsgs cl e.client w g)).push
          [.assignLoop ws])
  | checkGone (c ch) : st.clients.get? c = none → TaskStep st (.checkCompletion c) ch st
  | checkNotDone (c ch cl) : st.clients.get? c = some cl → cl.isDone = false →
      TaskStep st (.checkCompletion c) ch st
  | checkDone (c ch cl) : st.clients.get? c = some cl → cl.isDone = true →
      TaskStep st (.checkCompletion c) ch (st.emit (.evaluationDone c))
  | completedGone (c g results outputs fromCache ch) : st.clients.get? c = none →
      TaskStep st (.execCompleted c g results outputs fromCache) ch st
  | completed (c g results outputs fromCache ch cl) (extra : List Obs) :
      st.clients.get? c = some cl →
      (extra = [] ∨ extra = [.cacheInsert c g.uuid]) →
      (extra ≠ [] → fromCache = false ∧ results.any (fun r => r.status.isInternalError) = false) →
      TaskStep st (.execCompleted c g results outputs fromCache) ch
        (({ ((st.obs (.completed c g results outputs fromCache)).emitAll
              (doneMessages c cl.callbacks.executions g.executions results)).setClient c
                { cl with fileHandles := insertAll cl.fileHandles outputs } with
            log := extra ++ ((st.obs (.completed c g results outputs fromCache)).emitAll
              (doneMessages c cl.callbacks.executions g.executions results)).log } : St).push
          (g.outs.map (if results.all (fun r => r.status.isSuccess) then Task.fileSuccess c
            else Task.fileFailed c) ++ [.scheduleCached]))

theorem taskStep_of_run {st st' : St} {t : Task} {ch : Choice} (h : runTask st t ch = .ok st') :
    TaskStep st t ch st' := by
  cases t with
  | fileSuccess c f =>
    simp only [runTask, Except.ok.injEq] at h
    subst h
    unfold runFileSuccess
    cases hc : st.clients.get? c with
    | none => simp only [sendFile_none hc, hc]; exact .fileSuccessGone c f ch hc
    | some cl =>
      simp only [sendFile_eq hc]
      have hc' : (st.emitAll (sendMsgs cl c f true)).clients.get? c = some cl := hc
      simp only [hc']
      by_cases hx : cl.inputOf.contains f = true
      rotate_left
      · rw [if_neg hx]
        have hi : cl.inputOf.get? f = none := by simpa [AMap.contains] using hx
        exact .fileSuccessNone c f ch cl hc hi
      · rw [if_pos hx]
        obtain ⟨us, hi⟩ := AMap.contains_iff.1 hx
        exact .fileSuccessSome c f ch cl us hc hi
  | successLoop c f todo =>
    simp only [runTask] at h
    cases todo with
    | nil => simp only [runSuccessLoop, Except.ok.injEq] at h; subst h; exact .successEnd c f ch
    | cons u us =>
      simp only [runSuccessLoop] at h
      cases hc : st.clients.get? c with
      | none => simp only [hc, Except.ok.injEq] at h; subst h; exact .successGone c f ch u us hc
      | some cl =>
        simp only [hc] at h
        cases hg : cl.dag.executionGroups.get? u with
        | none => simp [hg] at h
        | some g =>
          simp only [hg] at h
          cases hm : cl.missingDeps.get? u with
          | none =>
            simp only [hm, Except.ok.injEq] at h; subst h
            exact .successSkip c f ch u us cl g hc hg hm
          | some fs =>
            simp only [hm] at h
            split at h
            · next he =>
              simp only [Except.ok.injEq] at h; subst h
              exact .successReady c f ch u us cl g fs hc hg hm (List.isEmpty_iff.1 he)
            · next he =>
              simp only [Except.ok.injEq] at h; subst h
              exact .successWait c f ch u us cl g fs hc hg hm (fun e => he (by simp [e]))
  | fileFailed c f =>
    simp only [runTask, Except.ok.injEq] at h
    subst h
    unfold runFileFailed
    cases hc : st.clients.get? c with
    | none => simp only [sendFile_none hc, hc]; exact .fileFailedGone c f ch hc
    | some cl =>
      simp only [sendFile_eq hc]
      have hc' : (st.emitAll (sendMsgs cl c f false)).clients.get? c = some cl := hc
      simp only [hc']
      by_cases hx : cl.inputOf.contains f = true
      rotate_left
      · rw [if_neg hx]
        have hi : cl.inputOf.get? f = none := by simpa [AMap.contains] using hx
        exact .fileFailedNone c f ch cl hc hi
      · rw [if_pos hx]
        obtain ⟨us, hi⟩ := AMap.contains_iff.1 hx
        exact .fileFailedSome c f ch cl us hc hi
  | skipLoop c f todo failed =>
    simp only [runTask] at h
    cases todo with
    | nil => simp only [runSkipLoop, Except.ok.injEq] at h; subst h; exact .skipEnd c f failed ch
    | cons u us =>
      simp only [runSkipLoop] at h
      cases hc : st.clients.get? c with
      | none => simp only [hc, Except.ok.injEq] at h; subst h; exact .skipGone c f failed ch u us hc
      | some cl =>
        simp only [hc, AMap.contains] at h
        cases hm : cl.missingDeps.get? u with
        | none =>
          simp [hm] at h; subst h
          exact .skipTwice c f failed ch u us cl hc hm
        | some fs =>
          simp only [hm, Option.isSome_some, if_true] at h
          cases hg : cl.dag.executionGroups.get? u with
          | none => simp [hg] at h
          | some g =>
            simp only [hg, Except.ok.injEq] at h; subst h
            exact .skipOne c f failed ch u us cl g fs hc hm hg
  | scheduleCached =>
    simp only [runTask, Except.ok.injEq] at h; subst h; exact .scheduleCached ch
  | cachedLoop todo hits =>
    simp only [runTask] at h
    cases todo with
    | nil => simp only [runCachedLoop, Except.ok.injEq] at h; subst h; exact .cachedEnd hits ch
    | cons p rest =>
      obtain ⟨e, ans⟩ := p
      simp only [runCachedLoop] at h
      cases hc : st.clients.get? e.client with
      | none =>
        simp only [hc, Except.ok.injEq] at h; subst h; exact .cachedGone e ans rest hits ch hc
      | some cl =>
        simp only [hc] at h
        split at h
        · next hn =>
          simp only [Except.ok.injEq] at h; subst h
          exact .cachedNo e ans rest hits ch cl hc (Or.inl hn)
        · next hn =>
          cases hg : cl.dag.executionGroups.get? e.group with
          | none => simp [hg] at h
          | some g =>
            simp only [hg] at h
            split at h
            · cases h
            split at h
            · next hi =>
              split at h
              · cases h
              cases ans with
              | none =>
                simp only [Except.ok.injEq] at h; subst h
                exact .cachedMiss e rest hits ch cl g hc hn hg hi
              | some hit =>
                simp only [Except.ok.injEq] at h; subst h
                exact .cachedHit e hit rest hits ch cl g hc hn hg hi
            · next hi =>
              simp only [Except.ok.injEq] at h; subst h
              exact .cachedNo e ans rest hits ch cl hc (Or.inr ⟨g, hg, by simpa using hi⟩)
  | assignJobs => simp only [runTask, Except.ok.injEq] at h; subst h; exact .assignJobs ch
  | assignLoop todo =>
    simp only [runTask] at h
    cases todo with
    | nil => simp only [runAssignLoop, Except.ok.injEq] at h; subst h; exact .assignEnd [] ch (Or.inl rfl)
    | cons w ws =>
      simp only [runAssignLoop] at h
      cases hw : st.workers.get? w with
      | none =>
        simp only [hw, Except.ok.injEq] at h; subst h
        exact .assignSkip w ws ch (by simp [hw])
      | some job =>
        cases job with
        | some j =>
          simp only [hw, Except.ok.injEq] at h; subst h
          exact .assignSkip w ws ch (by simp [hw])
        | none =>
          simp only [hw] at h
          cases hp : popMax st.ready with
          | none =>
            simp only [hp, Except.ok.injEq] at h; subst h
            refine .assignEnd (w :: ws) ch (Or.inr ?_)
            cases hr : st.ready with
            | nil => rfl
            | cons a b => simp [hr, popMax] at hp
          | some p =>
            obtain ⟨e, ready⟩ := p
            simp only [hp] at h
            cases hc : st.clients.get? e.client with
            | none =>
              simp only [hc, Except.ok.injEq] at h; subst h
              exact .assignGone w ws ch e ready hw hp hc
            | some cl =>
              simp only [hc] at h
              cases hg : cl.dag.executionGroups.get? e.group with
              | none => simp [hg] at h
              | some g =>
                simp only [hg] at h
                cases hk : depKeys cl.fileHandles g.deps [] with
                | error err => simp [hk] at h
                | ok keys =>
                  simp only [hk, Except.ok.injEq] at h; subst h
                  exact .assignJob w ws ch e ready cl g keys hw hp hc hg hk
  | checkCompletion c =>
    simp only [runTask, Except.ok.injEq] at h
    subst h
    unfold runCheckCompletion
    cases hc : st.clients.get? c with
    | none => exact .checkGone c ch hc
    | some cl =>
      simp only
      cases hd : cl.isDone with
      | false => exact .checkNotDone c ch cl hc hd
      | true => exact .checkDone c ch cl hc hd
  | execCompleted c g results outputs fromCache =>
    simp only [runTask, runExecCompleted] at h
    cases hc : st.clients.get? c with
    | none =>
      simp only [hc, Except.ok.injEq] at h; subst h
      exact .completedGone c g results outputs fromCache ch hc
    | some cl =>
      simp only [hc] at h
      split at h
      · cases h
      · next st1 h1 =>
        have key : ∃ extra : List Obs, (extra = [] ∨ extra = [.cacheInsert c g.uuid]) ∧
            (extra ≠ [] → fromCache = false ∧
              results.any (fun r => r.status.isInternalError) = false) ∧
            st1 = { ((st.obs (.completed c g results outputs fromCache)).emitAll
              (doneMessages c cl.callbacks.executions g.executions results)).setClient c
                { cl with fileHandles := insertAll cl.fileHandles outputs } with
              log := extra ++ ((st.obs (.completed c g results outputs fromCache)).emitAll
              (doneMessages c cl.callbacks.executions g.executions results)).log } := by
          split at h1
          · next hcond =>
            unfold cacheExecution at h1
            split at h1
            · split at h1
              · simp only [Except.ok.injEq] at h1; subst h1
                refine ⟨_, Or.inr rfl, fun _ => ?_, rfl⟩
                simpa using hcond
              · cases h1
            · cases h1
          · simp only [Except.ok.injEq] at h1; subst h1
            exact ⟨[], Or.inl rfl, fun h => absurd rfl h, rfl⟩
        obtain ⟨extra, h2, h3, rfl⟩ := key
        have := TaskStep.completed (st := st) c g results outputs fromCache ch cl extra hc h2 h3
        split at h
        · next hs => simp only [Except.ok.injEq] at h; subst h; simpa only [hs, if_true] using this
        · next hs =>
          simp only [Except.ok.injEq] at h; subst h; rw [if_neg hs] at this; exact this

/-- Successful handling of a message, with the message already in the trace of `st`. -/
inductive EventStep (st : St) : Event → St → Prop
  | evaluateDag (c dag cb) : EventStep st (.evaluateDag c dag cb) (handleEvaluateDag st c dag cb)
  | clientDisconnected (c) : EventStep st (.clientDisconnected c) (handleClientDisconnected st c)
  | fileReadyGone (c f key) : st.clients.get? c = none → EventStep st (.fileReady c f key) st
  | fileReady (c f key cl) : st.clients.get? c = some cl → EventStep st (.fileReady c f key)
      ((st.setClient c { cl with fileHandles := cl.fileHandles.insert f key }).push
        [.fileSuccess c f, .checkCompletion c])
  | resultUnknown (w rs os) : st.workers.get? w = none → EventStep st (.workerResult w rs os) st
  | resultIdle (w rs os) : st.workers.get? w = some none →
      EventStep st (.workerResult w rs os) { st with workers := st.workers.erase w }
  | resultGone (w rs os c u) : st.workers.get? w = some (some (c, u)) → st.clients.get? c = none →
      EventStep st (.workerResult w rs os)
        (({ st with workers := st.workers.erase w } : St).push [.assignJobs, .checkCompletion c])
  | result (w rs os c u cl g) : st.workers.get? w = some (some (c, u)) →
      st.clients.get? c = some cl → cl.dag.executionGroups.get? u = some g →
      g.executions.length = rs.length →
      EventStep st (.workerResult w rs os)
        ((({ st with workers := st.workers.erase w } : St).setClient c
            { cl with runningGroups := setErase cl.runningGroups u }).push
          [.execCompleted c g rs os false, .assignJobs, .checkCompletion c])
  | workerConnected (w) : EventStep st (.workerConnected w)
      (({ st with workers := st.workers.insert w none } : St).push [.assignJobs])
  | disconnectUnknown (w) : st.workers.get? w = none → EventStep st (.workerDisconnected w) st
  | disconnectFree (w job) : st.workers.get? w = some job →
      (∀ c u, job = some (c, u) → st.clients.get? c = none) →
      EventStep st (.workerDisconnected w) { st with workers := st.workers.erase w }
  | disconnect (w c u cl g) : st.workers.get? w = some (some (c, u)) →
      st.clients.get? c = some cl → cl.dag.executionGroups.get? u = some g →
      EventStep st (.workerDisconnected w)
        { ({ st with workers := st.workers.erase w } : St).setClient c { cl with
            readyGroups := setInsert cl.readyGroups u
            runningGroups := setErase cl.runningGroups u } with
          ready := ⟨HIGH_PRIORITY, g.priority, u, c⟩ :: st.ready }
  | status (c ws) : workerStatus st.clients st.workers = .ok ws →
      EventStep st (.status c) (st.emit (.status c ws
        ((st.clients.map (fun p => p.2.readyGroups.length)).sum)
        ((st.clients.map (fun p => p.2.missingDeps.length)).sum)))

theorem eventStep_of_handle {st st' : St} {e : Event} (h : handle st e = .ok st') :
    EventStep (st.obs (.ev e)) e st' := by
  unfold handle at h
  generalize st.obs (.ev e) = s at h
  cases e with
  | evaluateDag c dag cb => cases h; exact .evaluateDag c dag cb
  | clientDisconnected c => cases h; exact .clientDisconnected c
  | fileReady c f key =>
    simp only [handleFileReady, Except.ok.injEq] at h
    cases hc : s.clients.get? c with
    | none => simp only [hc] at h; subst h; exact .fileReadyGone c f key hc
    | some cl => simp only [hc] at h; subst h; exact .fileReady c f key cl hc
  | workerResult w rs os =>
    simp only [handleWorkerResult] at h
    cases hw : s.workers.get? w with
    | none => simp only [hw, Except.ok.injEq] at h; subst h; exact .resultUnknown w rs os hw
    | some job =>
      simp only [hw] at h
      cases job with
      | none => simp only [Except.ok.injEq] at h; subst h; exact .resultIdle w rs os hw
      | some j =>
        obtain ⟨c, u⟩ := j
        simp only at h
        cases hc : s.clients.get? c with
        | none =>
          simp only [hc, Except.ok.injEq] at h; subst h; exact .resultGone w rs os c u hw hc
        | some cl =>
          simp only [hc] at h
          cases hg : cl.dag.executionGroups.get? u with
          | none => simp [hg] at h
          | some g =>
            simp only [hg] at h
            split at h
            · cases h
            · next hl =>
              simp only [Except.ok.injEq] at h; subst h
              exact .result w rs os c u cl g hw hc hg (by simpa using hl)
  | workerConnected w => cases h; exact .workerConnected w
  | workerDisconnected w =>
    simp only [handleWorkerDisconnected] at h
    cases hw : s.workers.get? w with
    | none => simp only [hw, Except.ok.injEq] at h; subst h; exact .disconnectUnknown w hw
    | some job =>
      simp only [hw] at h
      cases job with
      | none => simp only [Except.ok.injEq] at h; subst h; exact .disconnectFree w none hw (by simp)
      | some j =>
        obtain ⟨c, u⟩ := j
        simp only at h
        cases hc : s.clients.get? c with
        | none =>
          simp only [hc, Except.ok.injEq] at h; subst h
          refine .disconnectFree w _ hw ?_
          intro c' u' he; cases he; exact hc
        | some cl =>
          simp only [hc] at h
          cases hg : cl.dag.executionGroups.get? u with
          | none => simp [hg] at h
          | some g =>
            simp only [hg, Except.ok.injEq] at h; subst h
            exact .disconnect w c u cl g hw hc hg
  | status c =>
    simp only [handleStatus] at h
    split at h
    · cases h
    · next ws hws => simp only [Except.ok.injEq] at h; subst h; exact .status c ws hws

end TM.Sched
