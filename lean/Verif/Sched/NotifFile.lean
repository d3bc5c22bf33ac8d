import Verif.Sched.Notif
/-! Counting the deliveries of files. -/

namespace TM.Sched
open TM.DagSpec

/-- Pending deliveries of existing files. -/
def pOk (c : ClientUuid) (f : FileUuid) : Task → Nat
  | .fileSuccess c' f' => if c' = c ∧ f' = f then 1 else 0
  | _ => 0

/-- Pending deliveries of failed files. -/
def pKo (c : ClientUuid) (f : FileUuid) : Task → Nat
  | .fileFailed c' f' => if c' = c ∧ f' = f then 1 else 0
  | .skipLoop c' _ _ failed => if c' = c then failed.count f else 0
  | _ => 0

def pend (φ : Task → Nat) (stack : List Task) : Nat := (stack.map φ).sum

@[simp] theorem pend_nil (φ) : pend φ [] = 0 := rfl
@[simp] theorem pend_cons (φ t ts) : pend φ (t :: ts) = φ t + pend φ ts := by simp [pend]
@[simp] theorem pend_append (φ a b) : pend φ (a ++ b) = pend φ a + pend φ b := by
  simp [pend, List.sum_append]

structure NF (log : List Obs) (stack : List Task) (c : ClientUuid) (cb : WatchSet) (f : FileUuid) :
    Prop where
  ok : total (nOk c f) log + (if f ∈ cb.files then pend (pOk c f) stack else 0) =
    if f ∈ cb.files then total (sOk c f) log else 0
  le : total (nKo c f) log + pend (pKo c f) stack ≤ total (sKo c f) log
  ko : f ∈ cb.files → (∀ g, Obs.skipped c g ∈ log → f ∉ g.outs) →
    total (nKo c f) log + pend (pKo c f) stack = total (sKo c f) log

def NotifF (st : St) : Prop := ∀ c cl, st.clients.get? c = some cl → ∀ f,
  NF st.log st.stack c cl.callbacks f

/-- Entries without effect. -/
def FInert : Obs → Prop
  | .out (.fileReady ..) | .completed .. | .skipped .. | .ev (.fileReady ..) => False
  | _ => True

theorem FInert.zero {o : Obs} (h : FInert o) (c f) : nOk c f o = 0 ∧ sOk c f o = 0 ∧
    nKo c f o = 0 ∧ sKo c f o = 0 := by
  cases o with
  | ev x => cases x <;> simp_all [nOk, sOk, nKo, sKo, FInert]
  | out x => cases x <;> simp_all [nOk, sOk, nKo, sKo, FInert]
  | completed => exact h.elim
  | skipped => exact h.elim
  | _ => simp [nOk, sOk, nKo, sKo]

theorem NF.frame {log l : List Obs} {stack stack' : List Task} {c cb f} (h : NF log stack c cb f)
    (hl : ∀ o ∈ l, FInert o) (hp : pend (pOk c f) stack' = pend (pOk c f) stack)
    (hk : pend (pKo c f) stack' = pend (pKo c f) stack) : NF (l ++ log) stack' c cb f := by
  have z : ∀ o ∈ l, _ := fun o ho => (hl o ho).zero c f
  obtain ⟨h1, h2, h3⟩ := h
  have z1 := total_zero (fun o ho => (z o ho).1)
  have z2 := total_zero (fun o ho => (z o ho).2.1)
  have z3 := total_zero (fun o ho => (z o ho).2.2.1)
  have z4 := total_zero (fun o ho => (z o ho).2.2.2)
  refine ⟨?_, ?_, ?_⟩ <;> simp only [total_append, hp, hk, z1, z2, z3, z4, Nat.zero_add]
  · exact h1
  · exact h2
  · intro hf hs
    exact h3 hf (fun g hg => hs g (by simp [hg]))

theorem NotifF.frame {st st' : St} {stack : List Task} (h : NotifF { st with stack := stack })
    {l : List Obs} (hlog : st'.log = l ++ st.log) (hl : ∀ o ∈ l, FInert o)
    (hc : ∀ c cl', st'.clients.get? c = some cl' → ∃ cl, st.clients.get? c = some cl ∧
      cl'.callbacks = cl.callbacks)
    (hp : ∀ c f cl, st.clients.get? c = some cl →
      pend (pOk c f) st'.stack = pend (pOk c f) stack ∧
      pend (pKo c f) st'.stack = pend (pKo c f) stack) : NotifF st' := by
  intro c cl' h1 f
  obtain ⟨cl, h2, h3⟩ := hc c cl' h1
  rw [hlog, h3]
  exact (h c cl h2 f).frame hl (hp c f cl h2).1 (hp c f cl h2).2

theorem sendMsgs_eq (cl c f s) : sendMsgs cl c f s = if f ∈ cl.callbacks.files then
    (match cl.fileHandles.get? f with
     | none => []
     | some key => [.fileReady c f key s (decide (f ∈ cl.callbacks.urgentFiles))]) else [] := rfl

theorem same_clients {st : St} : ∀ c cl', st.clients.get? c = some cl' →
    ∃ cl, st.clients.get? c = some cl ∧ cl'.callbacks = cl.callbacks := fun _ cl' h => ⟨cl', h, rfl⟩

theorem set_clients {clients : AMap ClientUuid Client} {c : ClientUuid} {cl cl1 : Client}
    (h : clients.get? c = some cl) (h1 : cl1.callbacks = cl.callbacks) :
    ∀ c' cl', (clients.insert c cl1).get? c' = some cl' →
      ∃ cl, clients.get? c' = some cl ∧ cl'.callbacks = cl.callbacks := by
  intro c' cl' h2
  rw [AMap.get?_insert] at h2
  by_cases hc : c' = c
  · subst hc; simp at h2; subst h2; exact ⟨cl, h, h1⟩
  · simp [hc] at h2; exact ⟨cl', h2, rfl⟩

theorem count_map_tasks (c c' : ClientUuid) (f : FileUuid) (fs : List FileUuid) :
    pend (pOk c f) (fs.map (Task.fileSuccess c')) = (if c' = c then fs.count f else 0) ∧
    pend (pKo c f) (fs.map (Task.fileFailed c')) = (if c' = c then fs.count f else 0) ∧
    pend (pOk c f) (fs.map (Task.fileFailed c')) = 0 ∧
    pend (pKo c f) (fs.map (Task.fileSuccess c')) = 0 := by
  induction fs with
  | nil => simp
  | cons a l ih =>
    simp only [List.map_cons, pend_cons, ih, pOk, pKo, List.count_cons]
    by_cases hc : c' = c <;> by_cases hf : a = f <;> simp [hc, hf] <;> omega

theorem failedFile_handle {st : St} (a : Aux st) {c cl f} (hc : st.clients.get? c = some cl)
    (hf : FailedFile st.log c f) (hs : ∀ g, Obs.skipped c g ∈ st.log → f ∉ g.outs) :
    ∃ k, cl.fileHandles.get? f = some k := by
  obtain ⟨g, hg, hfo⟩ := hf
  rcases hg with ⟨rs, os, b, hm, _⟩ | hg
  · rw [a.keys c cl f hc]
    obtain ⟨post, pre, he, h1, hh⟩ := a.hist.mem hm
    obtain ⟨k, hk⟩ := AMap.mem_keys_iff.1 ((h1.2.2.1.outs f).2 hfo)
    have h0 : keyOf c f (Obs.completed c g rs os b :: pre) = some k := by simp [keyOf, hk]
    have : ∀ post : List Obs, ∃ k, keyOf c f (post ++ Obs.completed c g rs os b :: pre) = some k := by
      intro post
      induction post with
      | nil => exact ⟨k, h0⟩
      | cons o l ih =>
        obtain ⟨k', hk'⟩ := ih
        cases o with
        | ev e => cases e <;> simp only [List.cons_append, keyOf, hk'] <;> first | exact ⟨_, rfl⟩ | (split <;> simp)
        | completed c' g' rs' os' b' =>
          simp only [List.cons_append, keyOf, hk']
          split
          · cases os'.get? f <;> simp
          · simp
        | _ => exact ⟨k', hk'⟩
    rw [he]; exact this post
  · exact absurd hfo (hs g hg)

theorem notifF_task {st st' : St} {t : Task} {ch : Choice}
    (hI : Inv { st with stack := t :: st.stack }) (a : Aux { st with stack := t :: st.stack })
    (h : NotifF { st with stack := t :: st.stack }) (hs : TaskStep st t ch st') : NotifF st' := by
  have ht := hI.tasks t (by simp)
  -- a delivery of an existing file
  have hsucc : ∀ {c f cl} {ts : List Task}, t = .fileSuccess c f → st.clients.get? c = some cl →
      (∀ c f, pend (pOk c f) ts = 0 ∧ pend (pKo c f) ts = 0) →
      NotifF ((st.emitAll (sendMsgs cl c f true)).push ts) := by
    intro c f cl ts hte hc hts c' cl' hc' f'
    subst hte
    have hav : Available st.log c f := ht
    obtain ⟨k, hk⟩ := (hI.client c cl hc).handles f hav
    obtain ⟨h1, h2, h3⟩ := h c' cl' hc' f'
    have hlog : ((st.emitAll (sendMsgs cl c f true)).push ts).log =
      ((sendMsgs cl c f true).map Obs.out).reverse ++ st.log := rfl
    have hst : ((st.emitAll (sendMsgs cl c f true)).push ts).stack = ts ++ st.stack := rfl
    rw [hlog, hst, sendMsgs_eq, hk]
    simp only [pend_cons, pOk, pKo, Nat.zero_add] at h1 h2 h3
    by_cases hw : f ∈ cl.callbacks.files
    · rw [if_pos hw]
      refine ⟨?_, ?_, ?_⟩ <;> simp [nOk, sOk, nKo, sKo, (hts c' f').1, (hts c' f').2]
      · by_cases he : c = c' ∧ f = f'
        · obtain ⟨rfl, rfl⟩ := he
          have : cl' = cl := by
            have := hc'.symm.trans hc; cases this; rfl
          subst this
          simp [hw] at h1 ⊢; omega
        · simp [he] at h1 ⊢; exact h1
      · exact h2
      · exact h3
    · rw [if_neg hw]
      refine ⟨?_, ?_, ?_⟩ <;> simp [(hts c' f').1, (hts c' f').2]
      · by_cases he : c = c' ∧ f = f'
        · obtain ⟨rfl, rfl⟩ := he
          have : cl' = cl := by
            have := hc'.symm.trans hc; cases this; rfl
          subst this
          simp [hw] at h1 ⊢; omega
        · simp [he] at h1 ⊢; exact h1
      · exact h2
      · exact h3
  -- a delivery of a failed file
  have hfail : ∀ {c f cl} {ts : List Task}, t = .fileFailed c f → st.clients.get? c = some cl →
      (∀ c f, pend (pOk c f) ts = 0 ∧ pend (pKo c f) ts = 0) →
      NotifF ((st.emitAll (sendMsgs cl c f false)).push ts) := by
    intro c f cl ts hte hc hts c' cl' hc' f'
    subst hte
    have hff : FailedFile st.log c f := ht
    obtain ⟨h1, h2, h3⟩ := h c' cl' hc' f'
    have hlog : ((st.emitAll (sendMsgs cl c f false)).push ts).log =
      ((sendMsgs cl c f false).map Obs.out).reverse ++ st.log := rfl
    have hst : ((st.emitAll (sendMsgs cl c f false)).push ts).stack = ts ++ st.stack := rfl
    rw [hlog, hst, sendMsgs_eq]
    simp only [pend_cons, pOk, pKo, Nat.zero_add] at h1 h2 h3
    by_cases hw : f ∈ cl.callbacks.files
    · rw [if_pos hw]
      cases hk : cl.fileHandles.get? f with
      | some k =>
        refine ⟨?_, ?_, ?_⟩ <;> simp [nOk, sOk, nKo, sKo, (hts c' f').1, (hts c' f').2]
        · exact h1
        · omega
        · intro q1 q2; have := h3 q1 q2; omega
      | none =>
        refine ⟨?_, ?_, ?_⟩ <;> simp [(hts c' f').1, (hts c' f').2]
        · exact h1
        · split at h2 <;> omega
        · intro q1 q2
          have := h3 q1 q2
          by_cases he : c = c' ∧ f = f'
          · obtain ⟨rfl, rfl⟩ := he
            obtain ⟨k, hk'⟩ := failedFile_handle a hc hff q2
            rw [hk] at hk'; cases hk'
          · simp [he] at this; exact this
    · rw [if_neg hw]
      refine ⟨?_, ?_, ?_⟩ <;> simp [(hts c' f').1, (hts c' f').2]
      · exact h1
      · split at h2 <;> omega
      · intro q1 q2
        have := h3 q1 q2
        by_cases he : c = c' ∧ f = f'
        · obtain ⟨rfl, rfl⟩ := he
          have : cl' = cl := by
            have := hc'.symm.trans hc; cases this; rfl
          subst this
          exact absurd q1 hw
        · simp [he] at this; exact this
  cases hs with
  | fileSuccessGone c f ch hc =>
    refine h.frame (l := []) rfl (by simp) same_clients ?_
    intro c' f' cl hc'
    have : c ≠ c' := by rintro rfl; rw [hc] at hc'; cases hc'
    simp [pOk, pKo, this]
  | fileSuccessNone c f ch cl hc hi =>
    exact hsucc (ts := []) rfl hc (by simp)
  | fileSuccessSome c f ch cl us hc hi => exact hsucc rfl hc (by simp [pOk, pKo])
  | fileFailedGone c f ch hc =>
    refine h.frame (l := []) rfl (by simp) same_clients ?_
    intro c' f' cl hc'
    have : c ≠ c' := by rintro rfl; rw [hc] at hc'; cases hc'
    simp [pOk, pKo, this]
  | fileFailedNone c f ch cl hc hi => exact hfail (ts := []) rfl hc (by simp)
  | fileFailedSome c f ch cl us hc hi => exact hfail rfl hc (by simp [pOk, pKo])
  | successEnd c f ch => exact h.frame (l := []) rfl (by simp) same_clients (by simp [St.push, pOk, pKo])
  | successGone c f ch u us hc => exact h.frame (l := []) rfl (by simp) same_clients (by simp [pOk, pKo])
  | successSkip c f ch u us cl g hc hg hm =>
    exact h.frame (l := []) rfl (by simp) same_clients (by simp [St.push, pOk, pKo])
  | successReady c f ch u us cl g fs hc hg hm he =>
    exact h.frame (l := []) rfl (by simp) (set_clients hc rfl) (by simp [St.push, St.setClient, pOk, pKo])
  | successWait c f ch u us cl g fs hc hg hm he =>
    exact h.frame (l := []) rfl (by simp) (set_clients hc rfl) (by simp [St.push, St.setClient, pOk, pKo])
  | skipEnd c f failed ch =>
    refine h.frame (l := []) rfl (by simp) same_clients ?_
    intro c' f' cl hc'
    have := count_map_tasks c' c f' failed
    simp only [St.push, pend_append, pend_cons, this, pOk, pKo]
    simp
  | skipGone c f failed ch u us hc =>
    refine h.frame (l := []) rfl (by simp) same_clients ?_
    intro c' f' cl hc'
    have : c ≠ c' := by rintro rfl; rw [hc] at hc'; cases hc'
    simp [pOk, pKo, this]
  | skipTwice c f failed ch u us cl hc hm =>
    exact h.frame (l := []) rfl (by simp) same_clients (by simp [St.push, pOk, pKo])
  | skipOne c f failed ch u us cl g fs hc hm hg =>
    intro c' cl' hc' f'
    obtain ⟨cl0, h0, h00⟩ := set_clients hc (cl1 := { cl with missingDeps := cl.missingDeps.erase u }) rfl c' cl' hc'
    obtain ⟨h1, h2, h3⟩ := h c' cl0 h0 f'
    rw [h00]
    have key : NF ([Obs.skipped c g] ++ st.log) (.skipLoop c f us (failed ++ g.outs) :: st.stack) c' cl0.callbacks f' := by
      simp only [pend_cons, pOk, pKo, Nat.zero_add] at h1 h2 h3
      refine ⟨?_, ?_, ?_⟩ <;> simp [nOk, sOk, nKo, sKo, pOk, pKo]
      · exact h1
      · split <;> simp_all <;> omega
      · intro q1 q2
        have hs : ∀ g', Obs.skipped c' g' ∈ st.log → f' ∉ g'.outs := fun g' hg' => q2 g' (Or.inr hg')
        have := h3 q1 hs
        by_cases hcc : c = c'
        · have hn : f' ∉ g.outs := q2 g (Or.inl ⟨hcc.symm, rfl⟩)
          have := List.count_eq_zero.2 hn
          simp_all
        · simp_all
    exact key.frame (l := ((skipMsgs cl c g).map Obs.out).reverse) (by
      intro o ho; simp at ho; obtain ⟨x, hx, rfl⟩ := ho
      obtain ⟨_, rfl⟩ := mem_skipMsgs hx; trivial) rfl rfl
  | scheduleCached ch => exact h.frame (l := []) rfl (by simp) same_clients (by simp [St.push, pOk, pKo])
  | cachedEnd hits ch =>
    refine h.frame (l := []) rfl (by simp) same_clients ?_
    intro c' f' cl hc'
    have : ∀ hits : List (ClientUuid × ExecutionGroup × Hit),
        pend (pOk c' f') (hits.map (fun h => Task.execCompleted h.1 h.2.1 h.2.2.results h.2.2.outputs true)) = 0 ∧
        pend (pKo c' f') (hits.map (fun h => Task.execCompleted h.1 h.2.1 h.2.2.results h.2.2.outputs true)) = 0 := by
      intro hits
      induction hits with
      | nil => simp
      | cons a l ih => simp [ih, pOk, pKo]
    simp [St.push, pOk, pKo, this hits]
  | cachedGone e ans rest hits ch hc =>
    exact h.frame (l := []) rfl (by simp) same_clients (by simp [St.push, pOk, pKo])
  | cachedNo e ans rest hits ch cl hc hn =>
    exact h.frame (l := []) rfl (by simp) same_clients (by simp [St.push, pOk, pKo])
  | cachedMiss e rest hits ch cl g hc hn hg hi =>
    exact h.frame (l := [_]) rfl (by simp [FInert]) same_clients (by simp [St.push, St.obs, pOk, pKo])
  | cachedHit e hit rest hits ch cl g hc hn hg hi =>
    exact h.frame (l := [_]) rfl (by simp [FInert]) (set_clients hc rfl)
      (by simp [St.push, St.obs, St.setClient, pOk, pKo])
  | assignJobs ch => exact h.frame (l := []) rfl (by simp) same_clients (by simp [St.push, pOk, pKo])
  | assignEnd ws ch hw =>
    exact h.frame (l := [_]) rfl (by simp [FInert]) same_clients (by simp [St.obs, pOk, pKo])
  | assignSkip w ws ch hw =>
    exact h.frame (l := []) rfl (by simp) same_clients (by simp [St.push, pOk, pKo])
  | assignGone w ws ch e ready hw hp hc =>
    exact h.frame (l := []) rfl (by simp) same_clients (by simp [St.push, pOk, pKo])
  | assignJob w ws ch e ready cl g keys hw hp hc hg hk =>
    refine h.frame (l := ((startMsgs cl e.client w g).map Obs.out).reverse ++
      [.out (.workerJob w e.client g keys)]) ?_ ?_ (set_clients hc rfl)
      (by simp [St.push, St.emit, St.emitAll, St.obs, St.setClient, pOk, pKo])
    · simp [St.push, St.emit, St.emitAll, St.obs, St.setClient]
    · intro o ho
      simp at ho
      rcases ho with ⟨x, hx, rfl⟩ | rfl
      · obtain ⟨_, rfl⟩ := mem_startMsgs hx; trivial
      · trivial
  | checkGone c ch hc => exact h.frame (l := []) rfl (by simp) same_clients (by simp [pOk, pKo])
  | checkNotDone c ch cl hc hd => exact h.frame (l := []) rfl (by simp) same_clients (by simp [pOk, pKo])
  | checkDone c ch cl hc hd =>
    exact h.frame (l := [_]) rfl (by simp [FInert]) same_clients (by simp [St.emit, St.obs, pOk, pKo])
  | completedGone c g rs os b ch hc =>
    exact h.frame (l := []) rfl (by simp) same_clients (by simp [pOk, pKo])
  | completed c g rs os b ch cl extra hc he hx =>
    intro c' cl' hc' f'
    obtain ⟨cl0, h0, h00⟩ := set_clients hc (cl1 := { cl with fileHandles := insertAll cl.fileHandles os }) rfl c' cl' hc'
    obtain ⟨h1, h2, h3⟩ := h c' cl0 h0 f'
    rw [h00]
    have hh := count_map_tasks c' c f' g.outs
    have key : NF ([Obs.completed c g rs os b] ++ st.log) (g.outs.map
        (if rs.all (fun r => r.status.isSuccess) then Task.fileSuccess c else Task.fileFailed c) ++
          [.scheduleCached] ++ st.stack) c' cl0.callbacks f' := by
      simp only [pend_cons, pOk, pKo, Nat.zero_add] at h1 h2 h3
      cases hall : rs.all (fun r => r.status.isSuccess)
      · refine ⟨?_, ?_, ?_⟩ <;> simp [nOk, sOk, nKo, sKo, pOk, pKo, hall, hh]
        · exact h1
        · omega
        · intro q1 q3
          have := h3 q1 q3
          omega
      · refine ⟨?_, ?_, ?_⟩ <;> simp [nOk, sOk, nKo, sKo, pOk, pKo, hall, hh]
        · split <;> simp_all <;> omega
        · exact h2
        · intro q1 q3
          exact h3 q1 q3
    have e1 : ∀ l : List Obs, extra ++ (((doneMessages c cl.callbacks.executions g.executions rs).map
      Obs.out).reverse ++ l) = (extra ++ ((doneMessages c cl.callbacks.executions g.executions rs).map
      Obs.out).reverse) ++ l := by intro l; simp
    show NF (extra ++ (((doneMessages c cl.callbacks.executions g.executions rs).map
      Obs.out).reverse ++ ([.completed c g rs os b] ++ st.log))) _ c' _ f'
    rw [e1]
    refine key.frame ?_ rfl rfl
    intro o ho
    rcases List.mem_append.1 ho with ho | ho
    · rcases he with rfl | rfl
      · cases ho
      · simp at ho; subst ho; trivial
    · simp at ho; obtain ⟨x, hx, rfl⟩ := ho
      obtain ⟨_, _, rfl⟩ := mem_doneMessages hx; trivial

theorem initGroups_callbacks (c : ClientUuid) : ∀ gs cl ready,
    (initGroups c gs cl ready).1.callbacks = cl.callbacks := by
  intro gs
  induction gs with
  | nil => intro cl ready; rfl
  | cons p gs ih =>
    intro cl ready
    unfold initGroups
    simp only
    split
    · rw [ih]
    · rw [ih]

theorem notifF_event {st st' : St} {e : Event} (hI : Inv st) (hst : st.stack = []) (a' : Aux st')
    (hs : EventStep (st.obs (.ev e)) e st') (h : NotifF st) : NotifF st' := by
  have h' : NotifF { st with stack := [] } := by rw [← hst]; exact h
  cases hs with
  | evaluateDag c dag cb =>
    have hh : Hist (.ev (.evaluateDag c dag cb) :: st.log) := a'.hist
    have hns : ¬ Seen st.log c := hh.1.2.2
    intro c' cl' hc' f'
    have hc2 : (st.clients.insert c (initGroups c dag.executionGroups { dag := dag, callbacks := cb } st.ready).1).get? c' = some cl' := hc'
    rw [AMap.get?_insert] at hc2
    by_cases he : c' = c
    · subst he
      have z := fun o ho => hh.2.unseen hns 0 f' o ho
      have z1 := total_zero (fun o ho => (z o ho).2.2.2.2.2.2.1)
      have z2 := total_zero (fun o ho => (z o ho).2.2.2.2.2.2.2.1)
      have z3 := total_zero (fun o ho => (z o ho).2.2.2.2.2.2.2.2.1)
      have z4 := total_zero (fun o ho => (z o ho).2.2.2.2.2.2.2.2.2)
      show NF (.ev (.evaluateDag c' dag cb) :: st.log) ([.checkCompletion c', .scheduleCached, .assignJobs] ++ st.stack) _ _ _
      rw [hst]
      refine ⟨?_, ?_, ?_⟩ <;> simp [nOk, sOk, nKo, sKo, pOk, pKo, z1, z2, z3, z4]
    · simp [he] at hc2
      have := (h' c' cl' hc2 f').frame (l := [.ev (.evaluateDag c dag cb)])
        (stack' := [.checkCompletion c, .scheduleCached, .assignJobs] ++ st.stack) (by simp [FInert])
        (by simp [pOk, hst]) (by simp [pKo, hst])
      exact this
  | clientDisconnected c =>
    obtain ⟨l, hl, hi⟩ := disconnect_log (st.obs (.ev (.clientDisconnected c))) c
    refine h'.frame (l := l ++ [.ev (.clientDisconnected c)]) ?_ ?_ ?_ ?_
    · rw [hl]; simp [St.obs]
    · intro o ho
      rcases List.mem_append.1 ho with ho | ho
      · rcases hi o ho with ⟨_, rfl⟩ | ⟨_, _, rfl⟩ <;> trivial
      · simp at ho; subst ho; trivial
    · obtain ⟨l2, h2, _⟩ := handleClientDisconnected_stop (st.obs (.ev (.clientDisconnected c))) c
      intro c' cl' hc'
      rw [h2] at hc'
      have : (st.clients.erase c).get? c' = some cl' := hc'
      rw [AMap.get?_erase] at this
      split at this
      · cases this
      · exact ⟨cl', this, rfl⟩
    · obtain ⟨l2, h2, _⟩ := handleClientDisconnected_stop (st.obs (.ev (.clientDisconnected c))) c
      rw [h2]
      intro c f cl _
      simp [St.obs, hst]
  | fileReadyGone c f key hc =>
    intro c' cl' hc' f'
    have hne : c ≠ c' := by rintro rfl; exact absurd (hc.symm.trans hc') (by simp)
    obtain ⟨h1, h2, h3⟩ := h c' cl' hc' f'
    show NF (.ev (.fileReady c f key) :: st.log) st.stack _ _ _
    refine ⟨?_, ?_, ?_⟩ <;> simp [nOk, sOk, nKo, sKo, hne]
    · exact h1
    · exact h2
    · exact h3
  | fileReady c f key cl hc =>
    intro c' cl' hc' f'
    obtain ⟨cl0, h0, h00⟩ := set_clients (clients := st.clients) hc (cl1 := { cl with fileHandles := cl.fileHandles.insert f key }) rfl c' cl' hc'
    obtain ⟨h1, h2, h3⟩ := h' c' cl0 h0 f'
    rw [h00]
    show NF (.ev (.fileReady c f key) :: st.log) ([.fileSuccess c f, .checkCompletion c] ++ st.stack) _ _ _
    rw [hst]
    refine ⟨?_, ?_, ?_⟩ <;> simp [nOk, sOk, nKo, sKo, pOk, pKo]
    · simp at h1; split <;> simp_all
      omega
    · simpa using h2
    · simpa using h3
  | resultUnknown w rs os hw =>
    exact h'.frame (l := [_]) rfl (by simp [FInert]) same_clients (by simp [St.obs, hst])
  | resultIdle w rs os hw =>
    exact h'.frame (l := [_]) rfl (by simp [FInert]) same_clients (by simp [St.obs, hst])
  | resultGone w rs os c u hw hc =>
    exact h'.frame (l := [_]) rfl (by simp [FInert]) same_clients (by simp [St.obs, St.push, hst, pOk, pKo])
  | result w rs os c u cl g hw hc hg hl =>
    exact h'.frame (l := [_]) rfl (by simp [FInert]) (set_clients (clients := st.clients) hc rfl)
      (by simp [St.obs, St.push, St.setClient, hst, pOk, pKo])
  | workerConnected w =>
    exact h'.frame (l := [_]) rfl (by simp [FInert]) same_clients (by simp [St.obs, St.push, hst, pOk, pKo])
  | disconnectUnknown w hw =>
    exact h'.frame (l := [_]) rfl (by simp [FInert]) same_clients (by simp [St.obs, hst])
  | disconnectFree w job hw hj =>
    exact h'.frame (l := [_]) rfl (by simp [FInert]) same_clients (by simp [St.obs, hst])
  | disconnect w c u cl g hw hc hg =>
    exact h'.frame (l := [_]) rfl (by simp [FInert]) (set_clients (clients := st.clients) hc rfl)
      (by simp [St.obs, St.setClient, hst])
  | status c ws hws =>
    exact h'.frame (l := [_, _]) rfl (by simp [FInert]) same_clients (by simp [St.obs, St.emit, hst])

theorem reachable_notifF {st : St} (h : Reachable st) : NotifF st := by
  induction h with
  | init => intro c cl h; cases h
  | step hr hs ih =>
    have a' := reachable_aux (hr.step hs)
    cases hs with
    | event e hst hok hh => exact notifF_event (reachable_inv hr) hst a' (eventStep_of_handle hh) ih
    | task t rest ch hst hok hh =>
      have hI := reachable_inv hr
      have a := reachable_aux hr
      rename_i st _
      obtain ⟨ready, clients, workers, stack, log⟩ := st
      simp only at hst
      subst hst
      exact notifF_task (st := ⟨ready, clients, workers, rest, log⟩) hI a ih (taskStep_of_run hh)

end TM.Sched
