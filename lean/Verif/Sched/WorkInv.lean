import Verif.Sched.Facts
/-! Work conservation: when jobs have to be assigned, they will be. -/

namespace TM.Sched
open TM.DagSpec

/-- A worker left since the last round of job assignment ended. -/
def workerLost : List Obs → Bool
  | [] => false
  | .assigned :: _ => false
  | .ev (.workerDisconnected _) :: _ => true
  | _ :: log => workerLost log

def isAssign : Task → Bool
  | .assignLoop _ => true
  | _ => false

def isWill : Task → Bool
  | .assignLoop _ => true
  | .assignJobs => true
  | .successLoop _ _ _ => true
  | _ => false

/-- Neither the end of a round nor the loss of a worker. -/
def LostNeutral : Obs → Prop
  | .assigned => False
  | .ev (.workerDisconnected _) => False
  | _ => True

theorem workerLost_neutral {l log : List Obs} (h : ∀ o ∈ l, LostNeutral o) :
    workerLost (l ++ log) = workerLost log := by
  induction l with
  | nil => rfl
  | cons o l ih =>
    have h1 := h o (by simp)
    have h2 := ih (fun o ho => h o (by simp [ho]))
    cases o with
    | ev e => cases e <;> simp_all [LostNeutral, workerLost]
    | assigned => exact h1.elim
    | _ => simpa [workerLost] using h2

theorem lostNeutral_outs (os : List Out) : ∀ o ∈ (os.map Obs.out).reverse, LostNeutral o := by
  intro o ho
  simp at ho
  obtain ⟨a, _, rfl⟩ := ho
  trivial

structure WorkInv (st : St) : Prop where
  loopLive : ∀ c f us, Task.successLoop c f us ∈ st.stack → (st.clients.get? c).isSome = true
  assignTop : ∀ ws rest, st.stack = .assignLoop ws :: rest →
    ∀ w, st.workers.get? w = some none → w ∈ ws
  below : ∀ t ∈ st.stack.tail, isAssign t = false
  main : st.ready = [] ∨ (∀ w, st.workers.get? w ≠ some none) ∨
    (∃ t ∈ st.stack, isWill t = true) ∨ workerLost st.log = true

theorem WorkInv.build {st st' : St} {t : Task} {ts rest : List Task} (h : WorkInv st)
    (hst : st.stack = t :: rest) (hst' : st'.stack = ts ++ rest)
    (hr : st.ready = [] → st'.ready = []) (hw : st'.workers = st.workers)
    (hc : ∀ c, (st.clients.get? c).isSome = true → (st'.clients.get? c).isSome = true)
    (l : List Obs) (hlog : st'.log = l ++ st.log) (hl : ∀ o ∈ l, LostNeutral o)
    (hts : ∀ x ∈ ts, isAssign x = false)
    (hsl : ∀ c f us, Task.successLoop c f us ∈ ts → (st'.clients.get? c).isSome = true)
    (hwill : isWill t = true → ∃ x ∈ ts, isWill x = true) : WorkInv st' := by
  have hrest : ∀ x ∈ rest, isAssign x = false := by
    intro x hx; exact h.below x (by rw [hst]; simpa using hx)
  have hall : ∀ x ∈ st'.stack, isAssign x = false := by
    rw [hst']; intro x hx
    rcases List.mem_append.1 hx with hx | hx
    · exact hts x hx
    · exact hrest x hx
  refine ⟨?_, ?_, fun x hx => hall x (List.mem_of_mem_tail hx), ?_⟩
  · intro c f us hm
    rw [hst'] at hm
    rcases List.mem_append.1 hm with hm | hm
    · exact hsl c f us hm
    · exact hc c (h.loopLive c f us (by rw [hst]; simp [hm]))
  · intro ws r he
    have := hall (.assignLoop ws) (by rw [he]; simp)
    simp [isAssign] at this
  · rcases h.main with h1 | h1 | ⟨x, hx, hxw⟩ | h1
    · exact Or.inl (hr h1)
    · exact Or.inr (Or.inl (by rw [hw]; exact h1))
    · refine Or.inr (Or.inr (Or.inl ?_))
      rw [hst] at hx
      rcases List.mem_cons.1 hx with rfl | hx
      · obtain ⟨y, hy, hyw⟩ := hwill hxw
        exact ⟨y, by rw [hst']; simp [hy], hyw⟩
      · exact ⟨x, by rw [hst']; simp [hx], hxw⟩
    · refine Or.inr (Or.inr (Or.inr ?_))
      rw [hlog, workerLost_neutral hl]; exact h1

theorem live_insert {m : AMap ClientUuid Client} {c : ClientUuid} {cl cl' : Client}
    (_hc : m.get? c = some cl) :
    ∀ c1, (m.get? c1).isSome = true → ((m.insert c cl').get? c1).isSome = true := by
  intro c1 h1
  rw [AMap.get?_insert]
  split
  · rfl
  · exact h1

theorem workInv_taskStep {st st' : St} {t : Task} {ch : Choice}
    (hI : Inv { st with stack := t :: st.stack }) (hch : ChoiceOk { st with stack := t :: st.stack } t ch)
    (h : WorkInv { st with stack := t :: st.stack })
    (hs : TaskStep st t ch st') : WorkInv st' := by
  have hrest : ∀ x ∈ st.stack, isAssign x = false := fun x hx => h.below x (by simpa using hx)
  cases hs with
  | fileSuccessGone c f ch hc =>
    exact h.build (ts := []) rfl rfl id rfl (fun _ h => h) [] rfl (by simp) (by simp) (by simp)
      (by simp [isWill])
  | fileSuccessNone c f ch cl hc hi =>
    exact h.build (ts := []) rfl rfl id rfl (fun _ h => h) _ rfl (lostNeutral_outs _) (by simp) (by simp)
      (by simp [isWill])
  | fileSuccessSome c f ch cl us hc hi =>
    refine h.build (ts := [_]) rfl rfl id rfl (fun _ h => h) _ rfl (lostNeutral_outs _)
      (by simp [isAssign]) ?_ (by simp [isWill])
    intro c' f' us' hm
    simp at hm
    obtain ⟨rfl, _, _⟩ := hm
    simp [St.push, St.emitAll, hc]
  | successEnd c f ch =>
    exact h.build (ts := [_, _]) rfl rfl id rfl (fun _ h => h) [] rfl (by simp) (by simp [isAssign])
      (by simp) (by simp [isWill])
  | successGone c f ch u us hc =>
    have := h.loopLive c f (u :: us) (by simp)
    simp [hc] at this
  | successSkip c f ch u us cl g hc hg hm =>
    refine h.build (ts := [_]) rfl rfl id rfl (fun _ h => h) [] rfl (by simp)
      (by simp [isAssign]) ?_ (by simp [isWill])
    intro c' f' us' hm
    simp at hm
    obtain ⟨rfl, _, _⟩ := hm
    simp [St.push, hc]
  | successReady c f ch u us cl g fs hc hg hm he =>
    refine ⟨?_, ?_, ?_, Or.inr (Or.inr (Or.inl ⟨.successLoop c f us, by simp [St.push], rfl⟩))⟩
    · intro c' f' us' hm'
      simp only [St.push, St.setClient, List.singleton_append, List.mem_cons] at hm' ⊢
      rcases hm' with hm' | hm'
      · cases hm'; simp
      · exact live_insert hc c' (h.loopLive c' f' us' (List.mem_cons_of_mem _ hm'))
    · intro ws r he'; simp [St.push] at he'
    · intro x hx; exact hrest x (by simpa [St.push, St.setClient] using hx)
  | successWait c f ch u us cl g fs hc hg hm he =>
    refine ⟨?_, ?_, ?_, Or.inr (Or.inr (Or.inl ⟨.successLoop c f us, by simp [St.push], rfl⟩))⟩
    · intro c' f' us' hm'
      simp only [St.push, St.setClient, List.singleton_append, List.mem_cons] at hm' ⊢
      rcases hm' with hm' | hm'
      · cases hm'; simp
      · exact live_insert hc c' (h.loopLive c' f' us' (by simp [hm']))
    · intro ws r he'; simp [St.push] at he'
    · intro x hx; exact hrest x (by simpa [St.push, St.setClient] using hx)
  | fileFailedGone c f ch hc =>
    exact h.build (ts := []) rfl rfl id rfl (fun _ h => h) [] rfl (by simp) (by simp) (by simp)
      (by simp [isWill])
  | fileFailedNone c f ch cl hc hi =>
    exact h.build (ts := []) rfl rfl id rfl (fun _ h => h) _ rfl (lostNeutral_outs _) (by simp) (by simp)
      (by simp [isWill])
  | fileFailedSome c f ch cl us hc hi =>
    exact h.build (ts := [_]) rfl rfl id rfl (fun _ h => h) _ rfl (lostNeutral_outs _)
      (by simp [isAssign]) (by simp) (by simp [isWill])
  | skipEnd c f failed ch =>
    refine h.build (ts := _) rfl rfl id rfl (fun _ h => h) [] rfl (by simp) ?_ ?_ (by simp [isWill])
    · intro x hx; obtain ⟨f', _, rfl⟩ := List.mem_map.1 hx; rfl
    · intro c' f' us' hm; simp at hm
  | skipGone c f failed ch u us hc =>
    exact h.build (ts := []) rfl rfl id rfl (fun _ h => h) [] rfl (by simp) (by simp) (by simp)
      (by simp [isWill])
  | skipTwice c f failed ch u us cl hc hm =>
    exact h.build (ts := [_]) rfl rfl id rfl (fun _ h => h) [] rfl (by simp) (by simp [isAssign])
      (by simp) (by simp [isWill])
  | skipOne c f failed ch u us cl g fs hc hm hg =>
    refine h.build (ts := [_]) rfl rfl id rfl (live_insert hc)
      (((skipMsgs cl c g).map Obs.out).reverse ++ [Obs.skipped c g])
      (by simp [St.push, St.emitAll, St.obs, St.setClient]) ?_ (by simp [isAssign])
      (by simp) (by simp [isWill])
    intro o ho
    rcases List.mem_append.1 ho with ho | ho
    · exact lostNeutral_outs _ o ho
    · simp at ho; subst ho; trivial
  | scheduleCached ch =>
    exact h.build (ts := [_]) rfl rfl id rfl (fun _ h => h) [] rfl (by simp) (by simp [isAssign])
      (by simp) (by simp [isWill])
  | cachedEnd hits ch =>
    refine h.build (ts := _) rfl rfl id rfl (fun _ h => h) [] rfl (by simp) ?_ ?_ (by simp [isWill])
    · intro x hx; obtain ⟨f', _, rfl⟩ := List.mem_map.1 hx; rfl
    · intro c' f' us' hm; simp at hm
  | cachedGone e ans todo hits ch hc =>
    exact h.build (ts := [_]) rfl rfl (fun h => by simp only at h; simp [St.push, h]) rfl (fun _ h => h) [] rfl
      (by simp) (by simp [isAssign]) (by simp) (by simp [isWill])
  | cachedNo e ans todo hits ch cl hc hno =>
    exact h.build (ts := [_]) rfl rfl id rfl (fun _ h => h) [] rfl (by simp) (by simp [isAssign])
      (by simp) (by simp [isWill])
  | cachedMiss e todo hits ch cl g hc hn hg hi =>
    exact h.build (ts := [_]) rfl rfl id rfl (fun _ h => h) [.cacheLookup e.client e.group] rfl
      (by simp [LostNeutral]) (by simp [isAssign]) (by simp) (by simp [isWill])
  | cachedHit e hit todo hits ch cl g hc hn hg hi =>
    exact h.build (ts := [_]) rfl rfl (fun h => by simp only at h; simp [St.push, h]) rfl
      (live_insert hc) [.cacheLookup e.client e.group] rfl (by simp [LostNeutral])
      (by simp [isAssign]) (by simp) (by simp [isWill])
  | assignJobs ch =>
    refine ⟨?_, ?_, ?_, Or.inr (Or.inr (Or.inl ⟨.assignLoop ch.workers, by simp [St.push], rfl⟩))⟩
    · intro c f us hm
      exact h.loopLive c f us (by simpa [St.push] using hm)
    · intro ws r he w hw
      simp only [St.push, List.singleton_append, List.cons.injEq, Task.assignLoop.injEq] at he
      rw [← he.1]
      have hp : ch.workers.Perm st.workers.keys := hch
      rw [hp.mem_iff, AMap.mem_keys_iff]
      exact ⟨_, hw⟩
    · intro x hx; exact hrest x (by simpa [St.push] using hx)
  | assignEnd ws ch hw =>
    refine ⟨?_, ?_, ?_, ?_⟩
    · intro c f us hm; exact h.loopLive c f us (by simp [St.obs] at hm; simp [hm])
    · intro ws' r he
      have := hrest (.assignLoop ws') (by simp [St.obs] at he; simp [he])
      simp [isAssign] at this
    · intro x hx; exact hrest x (List.mem_of_mem_tail hx)
    · rcases hw with rfl | hw
      · refine Or.inr (Or.inl ?_)
        intro w hw
        have := h.assignTop [] st.stack rfl w hw
        cases this
      · exact Or.inl hw
  | assignSkip w ws ch hw =>
    refine ⟨?_, ?_, ?_, Or.inr (Or.inr (Or.inl ⟨.assignLoop ws, by simp [St.push], rfl⟩))⟩
    · intro c f us hm; exact h.loopLive c f us (by simpa [St.push] using hm)
    · intro ws' r he w' hw'
      simp only [St.push, List.singleton_append, List.cons.injEq, Task.assignLoop.injEq] at he
      rw [← he.1]
      have := h.assignTop (w :: ws) st.stack rfl w' hw'
      rcases List.mem_cons.1 this with rfl | h1
      · exact absurd hw' hw
      · exact h1
    · intro x hx; exact hrest x (by simpa [St.push] using hx)
  | assignGone w ws ch e ready hw hp hc =>
    exfalso
    obtain ⟨cl, h1, _⟩ := hI.readyLive e (popMax_eq hp).1
    simp only at h1
    rw [hc] at h1; cases h1
  | assignJob w ws ch e ready cl g keys hw hp hc hg hk =>
    refine ⟨?_, ?_, ?_, Or.inr (Or.inr (Or.inl ⟨.assignLoop ws, by simp [St.push], rfl⟩))⟩
    · intro c f us hm
      have := h.loopLive c f us (by simpa [St.push, St.emitAll, St.emit, St.obs, St.setClient] using hm)
      exact live_insert hc c this
    · intro ws' r he w' hw'
      simp only [St.push, List.singleton_append, List.cons.injEq, Task.assignLoop.injEq] at he
      rw [← he.1]
      have hw2 : (st.workers.insert w (some (e.client, e.group))).get? w' = some none := hw'
      rw [AMap.get?_insert] at hw2
      split at hw2
      · cases hw2
      · next hne =>
        have := h.assignTop (w :: ws) st.stack rfl w' hw2
        rcases List.mem_cons.1 this with h1 | h1
        · exact absurd h1 hne
        · exact h1
    · intro x hx
      exact hrest x (by simpa [St.push, St.emitAll, St.emit, St.obs, St.setClient] using hx)
  | checkGone c ch hc =>
    exact h.build (ts := []) rfl rfl id rfl (fun _ h => h) [] rfl (by simp) (by simp) (by simp)
      (by simp [isWill])
  | checkNotDone c ch cl hc hd =>
    exact h.build (ts := []) rfl rfl id rfl (fun _ h => h) [] rfl (by simp) (by simp) (by simp)
      (by simp [isWill])
  | checkDone c ch cl hc hd =>
    exact h.build (ts := []) rfl rfl id rfl (fun _ h => h) [_] rfl (by simp [LostNeutral]) (by simp) (by simp)
      (by simp [isWill])
  | completedGone c g results outputs fromCache ch hc =>
    exact h.build (ts := []) rfl rfl id rfl (fun _ h => h) [] rfl (by simp) (by simp) (by simp)
      (by simp [isWill])
  | completed c g results outputs fromCache ch cl extra hc he hx =>
    refine h.build (ts := _) rfl rfl id rfl (live_insert hc)
      (extra ++ (((doneMessages c cl.callbacks.executions g.executions results).map Obs.out).reverse ++
        [Obs.completed c g results outputs fromCache])) ?_ ?_ ?_ ?_ (by simp [isWill])
    · simp [St.push, St.emitAll, St.obs]
    · intro o ho
      simp only [List.mem_append, List.mem_singleton] at ho
      rcases ho with ho | ho | ho
      · rcases he with rfl | rfl
        · cases ho
        · simp at ho; subst ho; trivial
      · exact lostNeutral_outs _ o ho
      · subst ho; trivial
    · intro x hx
      rcases List.mem_append.1 hx with hx | hx
      · obtain ⟨f', _, rfl⟩ := List.mem_map.1 hx
        by_cases hb : (results.all fun r => r.status.isSuccess) = true
        · rw [if_pos hb]; rfl
        · rw [if_neg hb]; rfl
      · simp at hx; subst hx; rfl
    · intro c' f' us' hm
      rcases List.mem_append.1 hm with hm | hm
      · obtain ⟨f', _, hh⟩ := List.mem_map.1 hm
        by_cases hb : (results.all fun r => r.status.isSuccess) = true
        · rw [if_pos hb] at hh; cases hh
        · rw [if_neg hb] at hh; cases hh
      · simp at hm

theorem WorkInv.event {st st' : St} {e : Event} (h : WorkInv st) (hst : st.stack = [])
    (hs : EventStep (st.obs (.ev e)) e st') : WorkInv st' := by
  have hmain : st.ready = [] ∨ (∀ w, st.workers.get? w ≠ some none) ∨ workerLost st.log = true := by
    rcases h.main with h1 | h1 | ⟨x, hx, _⟩ | h1
    · exact Or.inl h1
    · exact Or.inr (Or.inl h1)
    · rw [hst] at hx; cases hx
    · exact Or.inr (Or.inr h1)
  cases hs with
  | evaluateDag c dag cb =>
    refine ⟨?_, ?_, ?_, Or.inr (Or.inr (Or.inl ⟨.assignJobs, ?_, rfl⟩))⟩ <;>
      simp [handleEvaluateDag, St.push, St.obs, hst, isAssign]
  | clientDisconnected c =>
    obtain ⟨l, hl, hq⟩ := handleClientDisconnected_eq (st.obs (.ev (.clientDisconnected c))) c
    rw [hl]
    refine ⟨by simp [St.obs, hst], by simp [St.obs, hst], by simp [St.obs, hst], ?_⟩
    rcases hmain with h1 | h1 | h1
    · exact Or.inl (by simp [St.obs, h1])
    · exact Or.inr (Or.inl h1)
    · refine Or.inr (Or.inr (Or.inr ?_))
      simp only [St.obs]
      rw [workerLost_neutral]
      · exact h1
      · intro o ho; obtain ⟨x, rfl⟩ := (hq o ho).2; trivial
  | fileReadyGone c f key hc =>
    refine ⟨by simp [St.obs, hst], by simp [St.obs, hst], by simp [St.obs, hst], ?_⟩
    rcases hmain with h1 | h1 | h1
    · exact Or.inl h1
    · exact Or.inr (Or.inl h1)
    · exact Or.inr (Or.inr (Or.inr h1))
  | fileReady c f key cl hc =>
    refine ⟨by simp [St.obs, St.push, St.setClient, hst], by simp [St.obs, St.push, St.setClient, hst],
      by simp [St.obs, St.push, St.setClient, hst, isAssign], ?_⟩
    rcases hmain with h1 | h1 | h1
    · exact Or.inl h1
    · exact Or.inr (Or.inl h1)
    · exact Or.inr (Or.inr (Or.inr h1))
  | resultUnknown w rs os hw =>
    refine ⟨by simp [St.obs, hst], by simp [St.obs, hst], by simp [St.obs, hst], ?_⟩
    rcases hmain with h1 | h1 | h1
    · exact Or.inl h1
    · exact Or.inr (Or.inl h1)
    · exact Or.inr (Or.inr (Or.inr h1))
  | resultIdle w rs os hw =>
    refine ⟨by simp [St.obs, hst], by simp [St.obs, hst], by simp [St.obs, hst], ?_⟩
    rcases hmain with h1 | h1 | h1
    · exact Or.inl h1
    · refine Or.inr (Or.inl ?_)
      intro w'
      simp only [St.obs, AMap.get?_erase]
      split
      · simp
      · exact h1 w'
    · exact Or.inr (Or.inr (Or.inr h1))
  | resultGone w rs os c u hw hc =>
    refine ⟨?_, ?_, ?_, Or.inr (Or.inr (Or.inl ⟨.assignJobs, ?_, rfl⟩))⟩ <;>
      simp [St.push, St.obs, hst, isAssign]
  | result w rs os c u cl g hw hc hg hlen =>
    refine ⟨?_, ?_, ?_, Or.inr (Or.inr (Or.inl ⟨.assignJobs, ?_, rfl⟩))⟩ <;>
      simp [St.push, St.obs, St.setClient, hst, isAssign]
  | workerConnected w =>
    refine ⟨?_, ?_, ?_, Or.inr (Or.inr (Or.inl ⟨.assignJobs, ?_, rfl⟩))⟩ <;>
      simp [St.push, St.obs, hst]
  | disconnectUnknown w hw =>
    exact ⟨by simp [St.obs, hst], by simp [St.obs, hst], by simp [St.obs, hst],
      Or.inr (Or.inr (Or.inr rfl))⟩
  | disconnectFree w job hw hj =>
    exact ⟨by simp [St.obs, hst], by simp [St.obs, hst], by simp [St.obs, hst],
      Or.inr (Or.inr (Or.inr rfl))⟩
  | disconnect w c u cl g hw hc hg =>
    exact ⟨by simp [St.obs, St.setClient, hst], by simp [St.obs, St.setClient, hst],
      by simp [St.obs, St.setClient, hst], Or.inr (Or.inr (Or.inr rfl))⟩
  | status c ws hws =>
    refine ⟨by simp [St.obs, St.emit, hst], by simp [St.obs, St.emit, hst],
      by simp [St.obs, St.emit, hst], ?_⟩
    rcases hmain with h1 | h1 | h1
    · exact Or.inl h1
    · exact Or.inr (Or.inl h1)
    · exact Or.inr (Or.inr (Or.inr h1))

theorem workInv_step {st st' : St} (hI : Inv st) (h : WorkInv st) (hs : Step st st') :
    WorkInv st' := by
  cases hs with
  | event e hst hok hh => exact h.event hst (eventStep_of_handle hh)
  | task t rest ch hst hok hh =>
    obtain ⟨ready, clients, workers, stack, log⟩ := st
    simp only at hst
    subst hst
    exact workInv_taskStep (st := ⟨ready, clients, workers, rest, log⟩) hI hok h (taskStep_of_run hh)

theorem reachable_work {st : St} (h : Reachable st) : WorkInv st := by
  induction h with
  | init => exact ⟨by simp, by simp, by simp, Or.inl rfl⟩
  | step hr hs ih => exact workInv_step (reachable_inv hr) ih hs

end TM.Sched
