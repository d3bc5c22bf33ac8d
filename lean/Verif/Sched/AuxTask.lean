import Verif.Sched.Hist
/-! The second invariant is preserved by the tasks. -/

namespace TM.Sched
open TM.DagSpec

theorem Inv.asked {st : St} (h : Inv st) {c cl} (hc : st.clients.get? c = some cl) :
    Asked st.log c cl.dag cl.callbacks := (h.client c cl hc).evald

theorem asked_mono {log log' : List Obs} (h : ∀ o ∈ log, o ∈ log') {c d b}
    (hp : Asked log c d b) : Asked log' c d b := h _ hp

theorem hist_sendMsgs {st : St} (h : Inv st) (a : Aux st) {c cl f s}
    (hc : st.clients.get? c = some cl) (h1 : s = true → Available st.log c f)
    (h2 : s = false → FailedFile st.log c f) (hh : Hist st.log) :
    Hist (((sendMsgs cl c f s).map Obs.out).reverse ++ st.log) := by
  apply hist_outs hh
  intro o ho l hl
  unfold sendMsgs at ho hl
  split at ho
  · next hf =>
    rw [if_pos hf] at hl
    cases hk : cl.fileHandles.get? f with
    | none => rw [hk] at ho; cases ho
    | some key =>
      rw [hk] at ho hl
      simp only [List.mem_singleton] at ho hl
      subst ho
      have hsil : ∀ x ∈ l, Silent x := by
        intro x hx; obtain ⟨y, rfl, rfl⟩ := hl x hx; trivial
      have he := silent_eqs hsil st.log
      have hsub : ∀ o ∈ st.log, o ∈ l ++ st.log := fun o ho => by simp [ho]
      refine ⟨?_, ⟨cl.dag, cl.callbacks, hsub _ (h.asked hc), hf, by simp⟩, ?_, ?_, ?_⟩
      · rw [he.1, ← a.live, hc]; rfl
      · rw [he.2.2, ← a.keys c cl f hc]; exact hk
      · exact fun e => available_mono hsub (h1 e)
      · exact fun e => failedFile_mono hsub (h2 e)
  · cases ho

theorem silent_sendMsgs (cl c f s) :
    ∀ o ∈ ((sendMsgs cl c f s).map Obs.out).reverse, Silent o := by
  apply silent_outs
  intro o ho
  unfold sendMsgs at ho
  split at ho
  · split at ho
    · cases ho
    · rw [List.mem_singleton] at ho; subst ho; trivial
  · cases ho

theorem depKeys_spec (handles : AMap FileUuid FileStoreKey) (fs : List FileUuid) :
    ∀ acc keys, depKeys handles fs acc = .ok keys → ∀ f, keys.get? f =
      if f ∈ fs then handles.get? f else acc.get? f := by
  induction fs with
  | nil => intro acc keys h f; simp only [depKeys, Except.ok.injEq] at h; subst h; simp
  | cons a fs ih =>
    intro acc keys h f
    simp only [depKeys] at h
    cases hk : handles.get? a with
    | none => simp [hk] at h
    | some k =>
      simp only [hk] at h
      rw [ih _ _ h f]
      by_cases hf : f ∈ fs
      · simp [hf]
      · simp only [hf, if_false, AMap.get?_insert, List.mem_cons, or_false]
        split
        · next e => subst e; exact hk.symm
        · rfl

theorem insertAll_get? (os : AMap FileUuid FileStoreKey) (hwf : AMap.Wf os) :
    ∀ m : AMap FileUuid FileStoreKey, ∀ f, (insertAll m os).get? f =
      match os.get? f with | some k => some k | none => m.get? f := by
  induction os with
  | nil => intro m f; simp [insertAll]
  | cons p os ih =>
    obtain ⟨k, v⟩ := p
    intro m f
    simp only [AMap.Wf, AMap.keys, List.map_cons, List.nodup_cons] at hwf
    simp only [insertAll]
    rw [ih hwf.2, AMap.get?_cons]
    by_cases hf : k = f
    · subst hf
      have : AMap.get? os k = none := AMap.get?_eq_none_iff.2 hwf.1
      simp [this]
    · simp only [hf, if_false, AMap.get?_insert, if_neg (Ne.symm hf)]

theorem isCacheable_allowed {g : ExecutionGroup} {mode : CacheMode} (hn : mode ≠ .nothing)
    (h : isCacheable g mode = true) : CacheAllowed mode g := by
  cases mode with
  | everything => trivial
  | nothing => exact hn rfl
  | except tags =>
    intro e t he ht
    unfold isCacheable ExecutionGroup.tag? at h
    simp [he, ht] at h
    exact h

theorem aux_taskStep {st st' : St} {t : Task} {ch : Choice}
    (h : Inv { st with stack := t :: st.stack }) (a : Aux { st with stack := t :: st.stack })
    (hs : TaskStep st t ch st') : Aux st' := by
  have htask := h.tasks t (by simp)
  have hprov := a.prov t (by simp)
  have hsame : ∀ c cl', st.clients.get? c = some cl' → ∃ cl, st.clients.get? c = some cl ∧
      cl'.fileHandles = cl.fileHandles ∧
      ∀ u, cl.missingDeps.get? u = none → cl'.missingDeps.get? u = none :=
    fun c cl h => ⟨cl, h, rfl, fun u h => h⟩
  have hset : ∀ c cl (cl' : Client), st.clients.get? c = some cl → cl'.fileHandles = cl.fileHandles →
      (∀ u, cl.missingDeps.get? u = none → cl'.missingDeps.get? u = none) →
      (∀ c1, ((st.clients.insert c cl').get? c1).isSome = (st.clients.get? c1).isSome) ∧
      ∀ c1 cl1, (st.clients.insert c cl').get? c1 = some cl1 → ∃ cl, st.clients.get? c1 = some cl ∧
      cl1.fileHandles = cl.fileHandles ∧
      ∀ u, cl.missingDeps.get? u = none → cl1.missingDeps.get? u = none := by
    intro c cl cl' hc h1 h2
    constructor
    · intro c1
      rw [AMap.get?_insert]
      split
      · next e => subst e; simp [hc]
      · rfl
    · intro c1 cl1 h3
      rw [AMap.get?_insert] at h3
      split at h3
      · next e => subst e; cases h3; exact ⟨cl, hc, h1, h2⟩
      · exact ⟨cl1, h3, rfl, fun u h => h⟩
  cases hs with
  | fileSuccessGone c f ch hc =>
    exact a.build (ts := []) rfl rfl [] rfl (by simp) rfl (fun _ => rfl) hsame (by simp) (by simp) id
  | fileSuccessNone c f ch cl hc hi =>
    exact a.build (ts := []) rfl rfl _ rfl (silent_sendMsgs cl c f true) rfl (fun _ => rfl) hsame
      (by simp) (by simp) (hist_sendMsgs h a hc (fun _ => htask) (by simp))
  | fileSuccessSome c f ch cl us hc hi =>
    exact a.build (ts := [_]) rfl rfl _ rfl (silent_sendMsgs cl c f true) rfl (fun _ => rfl) hsame
      (by simp [isCheck]) (by simp [TaskProv]) (hist_sendMsgs h a hc (fun _ => htask) (by simp))
  | successEnd c f ch =>
    exact a.build (ts := [_, _]) rfl rfl [] rfl (by simp) rfl (fun _ => rfl) hsame
      (by simp [isCheck]) (by simp [TaskProv]) id
  | successGone c f ch u us hc =>
    exact a.build (ts := []) rfl rfl [] rfl (by simp) rfl (fun _ => rfl) hsame (by simp) (by simp) id
  | successSkip c f ch u us cl g hc hg hm =>
    exact a.build (ts := [_]) rfl rfl [] rfl (by simp) rfl (fun _ => rfl) hsame
      (by simp [isCheck]) (by simp [TaskProv]) id
  | successReady c f ch u us cl g fs hc hg hm he =>
    obtain ⟨h1, h2⟩ := hset c cl { cl with
              missingDeps := cl.missingDeps.erase u
              readyGroups := setInsert cl.readyGroups u } hc rfl (by
      intro u' hu'; simp only [AMap.get?_erase, hu']; split <;> rfl)
    exact a.build (ts := [_]) rfl rfl [] rfl (by simp) rfl h1 h2
      (by simp [isCheck]) (by simp [TaskProv]) id
  | successWait c f ch u us cl g fs hc hg hm he =>
    obtain ⟨h1, h2⟩ := hset c cl { cl with
            missingDeps := cl.missingDeps.insert u (setErase fs f) } hc rfl (by
      intro u' hu'
      simp only [AMap.get?_insert]
      split
      · next e => subst e; rw [hm] at hu'; cases hu'
      · exact hu')
    exact a.build (ts := [_]) rfl rfl [] rfl (by simp) rfl h1 h2
      (by simp [isCheck]) (by simp [TaskProv]) id
  | fileFailedGone c f ch hc =>
    exact a.build (ts := []) rfl rfl [] rfl (by simp) rfl (fun _ => rfl) hsame (by simp) (by simp) id
  | fileFailedNone c f ch cl hc hi =>
    exact a.build (ts := []) rfl rfl _ rfl (silent_sendMsgs cl c f false) rfl (fun _ => rfl) hsame
      (by simp) (by simp) (hist_sendMsgs h a hc (by simp) (fun _ => htask))
  | fileFailedSome c f ch cl us hc hi =>
    exact a.build (ts := [_]) rfl rfl _ rfl (silent_sendMsgs cl c f false) rfl (fun _ => rfl) hsame
      (by simp [isCheck]) (by simp [TaskProv]) (hist_sendMsgs h a hc (by simp) (fun _ => htask))
  | skipEnd c f failed ch =>
    refine a.build (ts := _) rfl rfl [] rfl (by simp) rfl (fun _ => rfl) hsame ?_ ?_ id
    · intro x hx; obtain ⟨f', _, rfl⟩ := List.mem_map.1 hx; rfl
    · intro x hx; obtain ⟨f', _, rfl⟩ := List.mem_map.1 hx; trivial
  | skipGone c f failed ch u us hc =>
    exact a.build (ts := []) rfl rfl [] rfl (by simp) rfl (fun _ => rfl) hsame (by simp) (by simp) id
  | skipTwice c f failed ch u us cl hc hm =>
    exact a.build (ts := [_]) rfl rfl [] rfl (by simp) rfl (fun _ => rfl) hsame
      (by simp [isCheck]) (by simp [TaskProv]) id
  | skipOne c f failed ch u us cl g fs hc hm hg =>
    have hC := h.client c cl hc
    have hgu := hC.groupUuid hg
    obtain ⟨h1, h2⟩ := hset c cl { cl with missingDeps := cl.missingDeps.erase u } hc rfl (by
      intro u' hu'; simp only [AMap.get?_erase, hu']; split <;> rfl)
    have hnj : ∀ o ∈ skipMsgs cl c g, ∃ e, o = Out.skipped c e ∧ e ∈ g.executions.map (·.uuid) ∧
        e ∈ cl.callbacks.executions := by
      intro o ho
      unfold skipMsgs at ho
      obtain ⟨e, he, rfl⟩ := List.mem_map.1 ho
      rw [List.mem_filter] at he
      exact ⟨e, rfl, he.1, by simpa using he.2⟩
    have hcons := hC.cons u g hg
    rw [missCount_eq hm] at hcons
    have hmult : mult g = 1 := by
      unfold mult
      rw [if_neg]
      obtain ⟨hne, g', h3, h4, _⟩ := hC.miss u fs hm
      rw [hg] at h3; cases h3
      intro h0
      apply hne
      rw [List.eq_nil_iff_forall_not_mem]
      intro x hx
      have := h4 x hx
      rw [h0] at this; cases this
    refine a.build (ts := [_]) rfl rfl (((skipMsgs cl c g).map Obs.out).reverse ++ [Obs.skipped c g])
      (by simp [St.push, St.emitAll, St.obs, St.setClient]) ?_ rfl h1 h2
      (by simp [isCheck]) (by simp [TaskProv]) ?_
    · intro o ho
      rcases List.mem_append.1 ho with ho | ho
      · refine silent_outs ?_ o ho
        intro o ho; obtain ⟨e, rfl, _⟩ := hnj o ho; trivial
      · rw [List.mem_singleton] at ho; subst ho; trivial
    · intro hh
      have hlive : Connected c st.log = true := by
        rw [← a.live]; simp only [hc]; rfl
      refine hist_outs (log := Obs.skipped c g :: st.log) ⟨?_, hh⟩ ?_
      · refine ⟨hlive, ⟨_, _, h.asked hc, by rw [hgu]; exact hg⟩, ?_, ?_, hmult, ?_⟩
        · refine ⟨f, ?_, htask.1⟩
          obtain ⟨g', h3, h4⟩ := htask.2.2 cl hc u (by simp)
          rw [hg] at h3; cases h3; exact h4
        · rw [hgu]; simp only at hcons; omega
        · intro w g' keys hm' he
          have := a.started c cl w g' keys hc hm'
          rw [he, hgu, hm] at this; cases this
      · intro o ho l hl
        obtain ⟨e, rfl, he, hw⟩ := hnj o ho
        have hsil : ∀ x ∈ l, Silent x := by
          intro x hx
          obtain ⟨y, hy, rfl⟩ := hl x hx
          obtain ⟨e, rfl, _⟩ := hnj y hy; trivial
        have hq := silent_eqs hsil (Obs.skipped c g :: st.log)
        refine ⟨?_, ⟨cl.dag, cl.callbacks, ?_, hw⟩, g, ?_, he⟩
        · rw [hq.1]; exact hlive
        · exact asked_mono (fun o ho => by simp [ho]) (h.asked hc)
        · unfold Skipped; simp
  | scheduleCached ch =>
    exact a.build (ts := [_]) rfl rfl [] rfl (by simp) rfl (fun _ => rfl) hsame
      (by simp [isCheck]) (by simp [TaskProv]) id
  | cachedEnd hits ch =>
    refine a.build (ts := _) rfl rfl [] rfl (by simp) rfl (fun _ => rfl) hsame ?_ ?_ id
    · intro x hx; obtain ⟨f', _, rfl⟩ := List.mem_map.1 hx; rfl
    · intro x hx; obtain ⟨f', hf', rfl⟩ := List.mem_map.1 hx
      exact ⟨by simp, fun _ => hprov f' hf'⟩
  | cachedGone e ans todo hits ch hc =>
    refine a.build (ts := [_]) rfl rfl [] rfl (by simp) rfl (fun _ => rfl) hsame
      (by simp [isCheck]) ?_ id
    simp only [List.mem_singleton, forall_eq]; exact hprov
  | cachedNo e ans todo hits ch cl hc hno =>
    refine a.build (ts := [_]) rfl rfl [] rfl (by simp) rfl (fun _ => rfl) hsame
      (by simp [isCheck]) ?_ id
    simp only [List.mem_singleton, forall_eq]; exact hprov
  | cachedMiss e todo hits ch cl g hc hn hg hi =>
    refine a.build (ts := [_]) rfl rfl [.cacheLookup e.client e.group] rfl (by simp [Silent]) rfl
      (fun _ => rfl) hsame (by simp [isCheck]) ?_ ?_
    · simp only [List.mem_singleton, forall_eq]
      exact TaskProv.mono (t := .cachedLoop todo hits) hprov
        (fun o ho => List.mem_cons_of_mem _ ho)
    · intro hh
      refine ⟨⟨?_, cl.dag, cl.callbacks, g, h.asked hc, hg, isCacheable_allowed hn hi⟩, hh⟩
      have := a.live e.client
      simp only [hc] at this; exact this.symm
  | cachedHit e hit todo hits ch cl g hc hn hg hi =>
    have hgu := (h.client _ _ hc).groupUuid hg
    obtain ⟨h1, h2⟩ := hset e.client cl { cl with
        readyGroups := setErase cl.readyGroups g.uuid } hc rfl (fun u h => h)
    refine a.build (ts := [_]) rfl rfl [.cacheLookup e.client e.group] rfl (by simp [Silent]) rfl
      h1 h2 (by simp [isCheck]) ?_ ?_
    · simp only [List.mem_singleton, forall_eq]
      intro x hx
      rcases List.mem_append.1 hx with hx | hx
      · exact List.mem_cons_of_mem _ (hprov x hx)
      · rw [List.mem_singleton] at hx; subst hx
        simp [St.push, St.setClient, St.obs, hgu]
    · intro hh
      refine ⟨⟨?_, cl.dag, cl.callbacks, g, h.asked hc, hg, isCacheable_allowed hn hi⟩, hh⟩
      have := a.live e.client
      simp only [hc] at this; exact this.symm
  | assignJobs ch =>
    exact a.build (ts := [_]) rfl rfl [] rfl (by simp) rfl (fun _ => rfl) hsame
      (by simp [isCheck]) (by simp [TaskProv]) id
  | assignEnd ws ch hw =>
    exact a.build (ts := []) rfl rfl [.assigned] rfl (by simp [Silent]) rfl (fun _ => rfl) hsame
      (by simp) (by simp) (fun hh => ⟨trivial, hh⟩)
  | assignSkip w ws ch hw =>
    exact a.build (ts := [_]) rfl rfl [] rfl (by simp) rfl (fun _ => rfl) hsame
      (by simp [isCheck]) (by simp [TaskProv]) id
  | assignGone w ws ch e ready hw hp hc =>
    exfalso
    obtain ⟨cl, h1, _⟩ := h.readyLive e (popMax_eq hp).1
    simp only at h1
    rw [hc] at h1; cases h1
  | assignJob w ws ch e ready cl g keys hw hp hc hg hk =>
    obtain ⟨he, rfl⟩ := popMax_eq hp
    have hC := h.client e.client cl hc
    have hgu := hC.groupUuid hg
    have hlive : Connected e.client st.log = true := by
      have := a.live e.client
      simp only [hc] at this; exact this.symm
    have hrc : 0 < readyCount st.ready e.client e.group := readyCount_pos.2 ⟨e, he, rfl, rfl⟩
    have hmiss : cl.missingDeps.get? e.group = none := by
      cases hm : cl.missingDeps.get? e.group with
      | none => rfl
      | some fs =>
        exfalso
        have h1 := hC.cons e.group g hg
        rw [missCount_eq hm] at h1
        obtain ⟨hne, g', h3, h4, _⟩ := hC.miss e.group fs hm
        rw [hg] at h3; cases h3
        have : g.deps ≠ [] := by
          intro h0
          apply hne
          rw [List.eq_nil_iff_forall_not_mem]
          intro x hx
          have := h4 x hx
          rw [h0] at this; cases this
        simp only [mult, if_neg this] at h1
        omega
    have hnj : ∀ o ∈ startMsgs cl e.client w g, ∃ x, o = Out.started e.client x w ∧
        x ∈ g.executions.map (·.uuid) ∧ x ∈ cl.callbacks.executions := by
      intro o ho
      unfold startMsgs at ho
      obtain ⟨x, hx, rfl⟩ := List.mem_map.1 ho
      rw [List.mem_filter] at hx
      exact ⟨x, rfl, hx.1, by simpa using hx.2⟩
    have hsil : ∀ o ∈ ((startMsgs cl e.client w g).map Obs.out).reverse, Silent o := by
      apply silent_outs
      intro o ho; obtain ⟨x, rfl, _⟩ := hnj o ho; trivial
    have hq := silent_eqs hsil (Obs.out (.workerJob w e.client g keys) :: st.log)
    have hsub : ∀ o ∈ st.log, o ∈ ((startMsgs cl e.client w g).map Obs.out).reverse ++
        Obs.out (.workerJob w e.client g keys) :: st.log := by
      intro o ho; simp [ho]
    have hmemj : ∀ w' c' g' k', Obs.out (.workerJob w' c' g' k') ∈
        ((startMsgs cl e.client w g).map Obs.out).reverse ++
          Obs.out (.workerJob w e.client g keys) :: st.log →
        (c' = e.client ∧ g' = g) ∨ Obs.out (.workerJob w' c' g' k') ∈ st.log := by
      intro w' c' g' k' hm
      rcases List.mem_append.1 hm with hm | hm
      · exact (hsil _ hm).elim
      · rcases List.mem_cons.1 hm with hm | hm
        · cases hm; exact Or.inl ⟨rfl, rfl⟩
        · exact Or.inr hm
    obtain ⟨h1, h2⟩ := hset e.client cl { cl with
              readyGroups := setErase cl.readyGroups e.group
              runningGroups := setInsert cl.runningGroups e.group } hc rfl (fun u h => h)
    exact {
      live := by
        intro c
        refine Eq.trans (h1 c) ?_
        refine Eq.trans (a.live c) ?_
        exact (hq.1 c).symm
      work := by
        intro w'
        refine Eq.trans ?_ (hq.2.1 w').symm
        simp only [St.push, St.emitAll, St.emit, St.obs, St.setClient, AMap.get?_insert, workerAt, hgu]
        by_cases e : w' = w
        · subst e; simp
        · rw [if_neg e, if_neg (Ne.symm e)]; exact a.work w'
      keys := by
        intro c cl' f hcl'
        obtain ⟨cl0, h3, h4, _⟩ := h2 c cl' hcl'
        rw [h4]
        refine Eq.trans (a.keys c cl0 f h3) ?_
        exact (hq.2.2 c f).symm
      started := by
        intro c cl' w' g' k' hcl' hm
        obtain ⟨cl0, h3, _, h4⟩ := h2 c cl' hcl'
        apply h4
        rcases hmemj w' c g' k' hm with ⟨rfl, rfl⟩ | hm
        · rw [hc] at h3; cases h3; rw [hgu]; exact hmiss
        · exact a.started c cl0 w' g' k' h3 hm
      below := by
        refine below_push (ts := [.assignLoop ws]) (by simp [isCheck]) ?_
        intro pre c post hh
        have hh' : st.stack = pre ++ .checkCompletion c :: post := hh
        exact a.below (.assignLoop (w :: ws) :: pre) c post (by simp [hh'])
      prov := by
        intro x hx
        have hx' : x ∈ Task.assignLoop ws :: st.stack := hx
        rcases List.mem_cons.1 hx' with rfl | hx'
        · trivial
        · exact (a.prov x (by simp [hx'])).mono hsub
      jobGroup := by
        intro w' c' g' k' hm
        rcases hmemj w' c' g' k' hm with ⟨rfl, rfl⟩ | hm
        · exact ⟨cl.dag, cl.callbacks, hsub _ (h.asked hc), by rw [hgu]; exact hg⟩
        · exact groupOf_mono hsub (a.jobGroup w' c' g' k' hm)
      hist := by
        refine hist_outs (log := Obs.out (.workerJob w e.client g keys) :: st.log) ⟨?_, a.hist⟩ ?_
        · refine ⟨hlive, ?_, ⟨cl.dag, cl.callbacks, h.asked hc, by rw [hgu]; exact hg⟩, ?_, ?_, ?_⟩
          · rw [← a.work w]; exact hw
          · intro f hf
            exact hC.avail e.group g hg (by simp only; omega) f hf
          · intro f
            rw [depKeys_spec _ _ _ _ hk f]
            split
            · exact a.keys e.client cl f hc
            · rfl
          · rw [hgu]
            have := hC.cons e.group g hg
            simp only at this; omega
        · intro o ho l hl
          obtain ⟨x, rfl, hx, hwt⟩ := hnj o ho
          have hsl : ∀ x ∈ l, Silent x := by
            intro x hx
            obtain ⟨y, hy, rfl⟩ := hl x hx
            obtain ⟨e, rfl, _⟩ := hnj y hy; trivial
          have hq := silent_eqs hsl (Obs.out (.workerJob w e.client g keys) :: st.log)
          refine ⟨?_, ⟨cl.dag, cl.callbacks, ?_, hwt⟩, g, keys, ?_, hx⟩
          · rw [hq.1]; exact hlive
          · exact asked_mono (fun o ho => by simp [ho]) (h.asked hc)
          · simp }
  | checkGone c ch hc =>
    exact a.build (ts := []) rfl rfl [] rfl (by simp) rfl (fun _ => rfl) hsame (by simp) (by simp) id
  | checkNotDone c ch cl hc hd =>
    exact a.build (ts := []) rfl rfl [] rfl (by simp) rfl (fun _ => rfl) hsame (by simp) (by simp) id
  | checkDone c ch cl hc hd =>
    have hC := h.client c cl hc
    refine a.build (ts := []) rfl rfl [.out (.evaluationDone c)] rfl (by simp [Silent]) rfl
      (fun _ => rfl) hsame (by simp) (by simp) (fun hh => ⟨Or.inr ⟨?_, cl.dag, cl.callbacks,
        h.asked hc, ?_⟩, hh⟩)
    · have := a.live c
      simp only [hc] at this; exact this.symm
    · intro u g hg
      simp only [Client.isDone, Bool.and_eq_true, List.isEmpty_iff] at hd
      have hcov := hC.cover u g hg
      have hmc : missCount cl u = 0 := by simp [missCount, hd.2]
      have hsc : stackCount (.checkCompletion c :: st.stack) c u = 0 := by
        have hb := a.below [] c st.stack rfl
        have : ∀ s : List Task, (∀ t ∈ s, t = .scheduleCached ∨ t = .assignJobs) →
            stackCount s c u = 0 := by
          intro s
          induction s with
          | nil => intro _; rfl
          | cons x s ih =>
            intro hs
            rw [stackCount_cons, ih (fun t ht => hs t (by simp [ht]))]
            rcases hs x (by simp) with rfl | rfl <;> rfl
        rw [stackCount_cons, this _ hb]; rfl
      rw [hd.1.1, hd.1.2, hmc, hsc] at hcov
      simp at hcov
      refine ⟨hcov, fun hm w hw => ?_⟩
      have hcons := hC.cons u g hg
      rw [hm] at hcons
      have hwk := a.work w
      have : 0 < workCount st.workers c u :=
        workCount_pos.2 ⟨w, AMap.mem_of_get? (hwk.trans hw)⟩
      simp only at hcons
      omega
  | completedGone c g results outputs fromCache ch hc =>
    exact a.build (ts := []) rfl rfl [] rfl (by simp) rfl (fun _ => rfl) hsame (by simp) (by simp) id
  | completed c g results outputs fromCache ch cl extra hc he hx =>
    have hC := h.client c cl hc
    obtain ⟨hg, hok⟩ := htask cl hc
    have hlive : Connected c st.log = true := by
      have := a.live c
      simp only [hc] at this; exact this.symm
    have hk : (if results.all (fun r => r.status.isSuccess) = true then Task.fileSuccess c
            else Task.fileFailed c) = Task.fileSuccess c ∨
        (if results.all (fun r => r.status.isSuccess) = true then Task.fileSuccess c
            else Task.fileFailed c) = Task.fileFailed c := by
      by_cases hall : results.all (fun r => r.status.isSuccess) = true
      · rw [if_pos hall]; exact Or.inl rfl
      · rw [if_neg hall]; exact Or.inr rfl
    have hnj : ∀ o ∈ doneMessages c cl.callbacks.executions g.executions results,
        ∃ x r, o = Out.done c x.uuid r ∧ (x, r) ∈ g.executions.zip results ∧
          x.uuid ∈ cl.callbacks.executions := by
      intro o ho
      unfold doneMessages at ho
      obtain ⟨x, hx, rfl⟩ := List.mem_map.1 ho
      rw [List.mem_filter] at hx
      exact ⟨x.1, x.2, rfl, hx.1, by simpa using hx.2⟩
    have hsil : ∀ o ∈ extra ++ ((doneMessages c cl.callbacks.executions g.executions results).map
        Obs.out).reverse, Silent o := by
      intro o ho
      rcases List.mem_append.1 ho with ho | ho
      · rcases he with rfl | rfl
        · cases ho
        · rw [List.mem_singleton] at ho; subst ho; trivial
      · refine silent_outs ?_ o ho
        intro o ho; obtain ⟨x, r, rfl, _⟩ := hnj o ho; trivial
    have hlog : extra ++ ((st.obs (.completed c g results outputs fromCache)).emitAll
        (doneMessages c cl.callbacks.executions g.executions results)).log =
        (extra ++ ((doneMessages c cl.callbacks.executions g.executions results).map
        Obs.out).reverse) ++ (.completed c g results outputs fromCache :: st.log) := by
      simp [St.emitAll, St.obs]
    have hq := silent_eqs hsil (.completed c g results outputs fromCache :: st.log)
    rw [← hlog] at hq
    have hsub : ∀ o ∈ st.log, o ∈ extra ++
        ((st.obs (.completed c g results outputs fromCache)).emitAll
        (doneMessages c cl.callbacks.executions g.executions results)).log := by
      intro o ho; rw [hlog]; simp [ho]
    have hmemj : ∀ w' c' g' k', Obs.out (.workerJob w' c' g' k') ∈ extra ++
        ((st.obs (.completed c g results outputs fromCache)).emitAll
        (doneMessages c cl.callbacks.executions g.executions results)).log →
        Obs.out (.workerJob w' c' g' k') ∈ st.log := by
      intro w' c' g' k' hm
      rw [hlog] at hm
      rcases List.mem_append.1 hm with hm | hm
      · exact (hsil _ hm).elim
      · simpa using hm
    have hins : ∀ c1 cl1, (st.clients.insert c
        { cl with fileHandles := insertAll cl.fileHandles outputs }).get? c1 = some cl1 →
        (c1 = c ∧ cl1 = { cl with fileHandles := insertAll cl.fileHandles outputs }) ∨
        (c1 ≠ c ∧ st.clients.get? c1 = some cl1) := by
      intro c1 cl1 h1
      rw [AMap.get?_insert] at h1
      split at h1
      · next he => cases h1; exact Or.inl ⟨he, rfl⟩
      · next hne => exact Or.inr ⟨hne, h1⟩
    exact {
      live := by
        intro c1
        refine Eq.trans ?_ (hq.1 c1).symm
        refine Eq.trans ?_ (a.live c1)
        show ((st.clients.insert c _).get? c1).isSome = (st.clients.get? c1).isSome
        rw [AMap.get?_insert]
        split
        · next e => subst e; simp [hc]
        · rfl
      work := fun w => (a.work w).trans (hq.2.1 w).symm
      keys := by
        intro c1 cl1 f h1
        refine Eq.trans ?_ (hq.2.2 c1 f).symm
        rcases hins c1 cl1 h1 with ⟨rfl, rfl⟩ | ⟨hne, h1⟩
        · simp only [insertAll_get? outputs hok.wf, keyOf, if_true]
          have := a.keys c1 cl f hc
          simp only at this
          rw [this]
          cases outputs.get? f <;> rfl
        · simp only [keyOf, if_neg (Ne.symm hne)]
          exact a.keys c1 cl1 f h1
      started := by
        intro c1 cl1 w' g' k' h1 hm
        rcases hins c1 cl1 h1 with ⟨rfl, rfl⟩ | ⟨hne, h1⟩
        · exact a.started c1 cl w' g' k' hc (hmemj _ _ _ _ hm)
        · exact a.started c1 cl1 w' g' k' h1 (hmemj _ _ _ _ hm)
      below := by
        refine below_push (ts := g.outs.map _ ++ [.scheduleCached]) ?_ ?_
        · intro t ht
          rcases List.mem_append.1 ht with ht | ht
          · obtain ⟨f, _, rfl⟩ := List.mem_map.1 ht
            rcases hk with hk | hk <;> rw [hk] <;> rfl
          · rw [List.mem_singleton] at ht; subst ht; rfl
        · intro pre c1 post hh
          have hh' : st.stack = pre ++ .checkCompletion c1 :: post := hh
          exact a.below (_ :: pre) c1 post (by simp [hh']; rfl)
      prov := by
        intro x hx
        have hx' : x ∈ (g.outs.map (if results.all (fun r => r.status.isSuccess) = true then
          Task.fileSuccess c else Task.fileFailed c) ++ [.scheduleCached]) ++ st.stack := hx
        rcases List.mem_append.1 hx' with hx' | hx'
        · rcases List.mem_append.1 hx' with hx' | hx'
          · obtain ⟨f, _, rfl⟩ := List.mem_map.1 hx'
            rcases hk with hk | hk <;> rw [hk] <;> trivial
          · rw [List.mem_singleton] at hx'; subst hx'; trivial
        · exact (a.prov x (by simp [hx'])).mono hsub
      jobGroup := by
        intro w' c' g' k' hm
        exact groupOf_mono hsub (a.jobGroup w' c' g' k' (hmemj _ _ _ _ hm))
      hist := by
        have h0 : HistOk (.completed c g results outputs fromCache) st.log := by
          have hst1 : 0 < stackCount (.execCompleted c g results outputs fromCache :: st.stack)
              c g.uuid := by simp [taskCount]; omega
          refine ⟨hlive, ⟨cl.dag, cl.callbacks, h.asked hc, hg⟩, hok, ?_, ?_, hprov.1, hprov.2⟩
          · exact fun f hf => hC.avail g.uuid g hg (by simp only; omega) f hf
          · have := hC.cons g.uuid g hg
            simp only at this; omega
        have h1 : Hist (((doneMessages c cl.callbacks.executions g.executions results).map
            Obs.out).reverse ++ (.completed c g results outputs fromCache :: st.log)) := by
          refine hist_outs ⟨h0, a.hist⟩ ?_
          intro o ho l hl
          obtain ⟨x, r, rfl, hx1, hwt⟩ := hnj o ho
          have hsl : ∀ x ∈ l, Silent x := by
            intro x hx
            obtain ⟨y, hy, rfl⟩ := hl x hx
            obtain ⟨e, r, rfl, _⟩ := hnj y hy; trivial
          have hq := silent_eqs hsl (.completed c g results outputs fromCache :: st.log)
          refine ⟨?_, ⟨cl.dag, cl.callbacks, ?_, hwt⟩, g, results, outputs, fromCache, x, ?_, hx1, rfl⟩
          · rw [hq.1]; exact hlive
          · exact asked_mono (fun o ho => by simp [ho]) (h.asked hc)
          · simp
        show Hist (extra ++ _)
        rcases he with rfl | rfl
        · exact h1
        · refine ⟨⟨g, results, outputs, ?_, rfl, ?_⟩, h1⟩
          · have := (hx (by simp)).1
            subst this
            simp [St.emitAll, St.obs]
          · have := (hx (by simp)).2
            rw [List.any_eq_false] at this
            intro r hr
            simpa using this r hr }

end TM.Sched
