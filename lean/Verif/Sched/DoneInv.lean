import Verif.Sched.WorkInv
/-! Completion announcements, stopped jobs and priorities of the queue. -/

namespace TM.Sched
open TM.DagSpec

/-- The message being handled, with the trace before it. -/
def handling : List Obs → Option (Event × List Obs)
  | [] => none
  | .ev e :: log => some (e, log)
  | _ :: log => handling log

/-- The message being handled is a file of client `c`, or the result of a job of client `c`. -/
def OwnEvent (c : ClientUuid) (log : List Obs) : Prop :=
  (∃ f k pre, handling log = some (.fileReady c f k, pre)) ∨
  (∃ w rs os u pre, handling log = some (.workerResult w rs os, pre) ∧
    workerAt w pre = some (some (c, u)))

/-- Some result of client `c` was taken from the cache while the scheduler was handling a message
that was neither a file of `c` nor the result of a job of `c`. -/
def CachedFor (c : ClientUuid) (log : List Obs) : Prop :=
  ∃ post g rs os pre, log = post ++ Obs.completed c g rs os true :: pre ∧ ¬ OwnEvent c pre

def ownTask (c : ClientUuid) : Task → Prop
  | .fileFailed c' _ => c' = c
  | .skipLoop c' _ _ _ => c' = c
  | .execCompleted c' _ _ _ b => c' = c ∧ b = false
  | _ => False

def pendingHit (c : ClientUuid) : Task → Prop
  | .execCompleted c' _ _ _ b => c' = c ∧ b = true
  | .cachedLoop _ hits => ∃ h ∈ hits, h.1 = c
  | _ => False

structure DoneInv (st : St) : Prop where
  last : ∀ c, OwnEvent c st.log → st.stack = [] ∨ ∃ ts, st.stack = ts ++ [.checkCompletion c]
  own : ∀ t ∈ st.stack, ∀ c, ownTask c t → Task.checkCompletion c ∈ st.stack ∨ CachedFor c st.log
  done : ∀ c cl, st.clients.get? c = some cl → cl.isDone = true →
    Obs.out (.evaluationDone c) ∈ st.log ∨ Task.checkCompletion c ∈ st.stack ∨
    CachedFor c st.log ∨ ∃ t ∈ st.stack, pendingHit c t

theorem CachedFor.append {c : ClientUuid} {log : List Obs} (h : CachedFor c log)
    (l : List Obs) : CachedFor c (l ++ log) := by
  obtain ⟨post, g, rs, os, pre, rfl, hm⟩ := h; exact ⟨l ++ post, g, rs, os, pre, by simp, hm⟩

theorem CachedFor.mono {c : ClientUuid} {log log' l : List Obs} (h : CachedFor c log)
    (hl : log' = l ++ log) : CachedFor c log' := hl ▸ h.append l

def NotEv : Obs → Prop
  | .ev _ => False
  | _ => True

theorem handling_append {l log : List Obs} (h : ∀ o ∈ l, NotEv o) :
    handling (l ++ log) = handling log := by
  induction l with
  | nil => rfl
  | cons o l ih =>
    have h1 := h o (by simp)
    have h2 := ih (fun o ho => h o (by simp [ho]))
    cases o <;> simp_all [NotEv, handling]

theorem notEv_outs (os : List Out) : ∀ o ∈ (os.map Obs.out).reverse, NotEv o := by
  intro o ho; simp at ho; obtain ⟨a, _, rfl⟩ := ho; trivial

theorem DoneInv.build {st st' : St} {t : Task} {ts rest : List Task} (h : DoneInv st) (a : Aux st)
    (hst : st.stack = t :: rest) (hst' : st'.stack = ts ++ rest)
    (l : List Obs) (hlog : st'.log = l ++ st.log) (hev : ∀ o ∈ l, NotEv o)
    (hcheck : isCheck t = true → ts = [])
    (hdone : ∀ c cl', st'.clients.get? c = some cl' → cl'.isDone = true →
      (∃ cl, st.clients.get? c = some cl ∧ cl.isDone = true) ∨ (∃ x ∈ ts, pendingHit c x) ∨
        ownTask c t)
    (hpop : ∀ c cl', st'.clients.get? c = some cl' → cl'.isDone = true →
      (t = .checkCompletion c ∨ pendingHit c t) →
      Obs.out (.evaluationDone c) ∈ st'.log ∨ Task.checkCompletion c ∈ rest ∨ CachedFor c st'.log ∨
        ∃ x ∈ ts, pendingHit c x)
    (hts : ∀ x ∈ ts, ∀ c, ownTask c x → ownTask c t ∨ Task.checkCompletion c ∈ rest ∨
      CachedFor c st'.log) : DoneInv st' := by
  have hsub : ∀ o ∈ st.log, o ∈ st'.log := by intro o ho; rw [hlog]; simp [ho]
  have key : ∀ c, ownTask c t → Task.checkCompletion c ∈ st'.stack ∨ CachedFor c st'.log := by
    intro c hc
    rcases h.own t (by rw [hst]; simp) c hc with h1 | h1
    · rw [hst] at h1
      rcases List.mem_cons.1 h1 with h1 | h1
      · subst h1; exact hc.elim
      · exact Or.inl (by rw [hst']; simp [h1])
    · exact Or.inr (h1.mono hlog)
  have hrest : ∀ c, Task.checkCompletion c ∈ rest → Task.checkCompletion c ∈ st'.stack := by
    intro c hc; rw [hst']; simp [hc]
  constructor
  · intro c hc
    have hh : OwnEvent c st.log := by
      unfold OwnEvent at hc ⊢
      rw [hlog, handling_append hev] at hc; exact hc
    rcases h.last c hh with h1 | ⟨ts', h1⟩
    · rw [hst] at h1; cases h1
    · rw [hst] at h1
      cases ts' with
      | nil =>
        simp only [List.nil_append, List.cons.injEq] at h1
        obtain ⟨rfl, rfl⟩ := h1
        rw [hst', hcheck rfl]; exact Or.inl rfl
      | cons a ts' =>
        simp only [List.cons_append, List.cons.injEq] at h1
        obtain ⟨rfl, rfl⟩ := h1
        exact Or.inr ⟨ts ++ ts', by rw [hst']; simp⟩
  · intro x hx c hc
    rw [hst'] at hx
    rcases List.mem_append.1 hx with hx | hx
    · rcases hts x hx c hc with h1 | h1 | h1
      · exact key c h1
      · exact Or.inl (hrest c h1)
      · exact Or.inr h1
    · rcases h.own x (by rw [hst]; simp [hx]) c hc with h1 | h1
      · rw [hst] at h1
        rcases List.mem_cons.1 h1 with h1 | h1
        · subst h1
          rcases a.below [] c rest (by rw [hst]; rfl) x hx with rfl | rfl <;> exact hc.elim
        · exact Or.inl (by rw [hst']; simp [h1])
      · exact Or.inr (h1.mono hlog)
  · intro c cl' hc hd
    rcases hdone c cl' hc hd with ⟨cl, h1, h2⟩ | ⟨x, hx, hp⟩ | h1
    · rcases h.done c cl h1 h2 with h3 | h3 | h3 | ⟨x, hx, hp⟩
      · exact Or.inl (hsub _ h3)
      · rw [hst] at h3
        rcases List.mem_cons.1 h3 with h3 | h3
        · rcases hpop c cl' hc hd (Or.inl h3.symm) with h4 | h4 | h4 | ⟨x, hx, h4⟩
          · exact Or.inl h4
          · exact Or.inr (Or.inl (hrest c h4))
          · exact Or.inr (Or.inr (Or.inl h4))
          · exact Or.inr (Or.inr (Or.inr ⟨x, by rw [hst']; simp [hx], h4⟩))
        · exact Or.inr (Or.inl (by rw [hst']; simp [h3]))
      · exact Or.inr (Or.inr (Or.inl (h3.mono hlog)))
      · rw [hst] at hx
        rcases List.mem_cons.1 hx with hx | hx
        · subst hx
          rcases hpop c cl' hc hd (Or.inr hp) with h4 | h4 | h4 | ⟨x, hx, h4⟩
          · exact Or.inl h4
          · exact Or.inr (Or.inl (hrest c h4))
          · exact Or.inr (Or.inr (Or.inl h4))
          · exact Or.inr (Or.inr (Or.inr ⟨x, by rw [hst']; simp [hx], h4⟩))
        · exact Or.inr (Or.inr (Or.inr ⟨x, by rw [hst']; simp [hx], hp⟩))
    · exact Or.inr (Or.inr (Or.inr ⟨x, by rw [hst']; simp [hx], hp⟩))
    · rcases key c h1 with h2 | h2
      · exact Or.inr (Or.inl h2)
      · exact Or.inr (Or.inr (Or.inl h2))

theorem setInsert_ne_nil {K : Type} [DecidableEq K] (l : List K) (k : K) : setInsert l k ≠ [] := by
  intro h
  have : k ∈ setInsert l k := by simp
  rw [h] at this; cases this

theorem isDone_insert_cases {m : AMap ClientUuid Client} {c : ClientUuid} {cl cl' : Client}
    (hc : m.get? c = some cl) (P : ClientUuid → Prop) (hself : cl'.isDone = true → cl.isDone = true ∨ P c) :
    ∀ c1 cl1, (m.insert c cl').get? c1 = some cl1 → cl1.isDone = true →
      (∃ cl, m.get? c1 = some cl ∧ cl.isDone = true) ∨ P c1 := by
  intro c1 cl1 h1 hd
  rw [AMap.get?_insert] at h1
  split at h1
  · next e =>
    subst e; cases h1
    rcases hself hd with h2 | h2
    · exact Or.inl ⟨cl, hc, h2⟩
    · exact Or.inr h2
  · exact Or.inl ⟨cl1, h1, hd⟩

theorem doneInv_taskStep {st st' : St} {t : Task} {ch : Choice}
    (hI : Inv { st with stack := t :: st.stack })
    (a : Aux { st with stack := t :: st.stack })
    (h : DoneInv { st with stack := t :: st.stack })
    (hs : TaskStep st t ch st') : DoneInv st' := by
  have hsame : ∀ (ts : List Task) (t : Task) c cl', st.clients.get? c = some cl' → cl'.isDone = true →
      (∃ cl, st.clients.get? c = some cl ∧ cl.isDone = true) ∨ (∃ x ∈ ts, pendingHit c x) ∨
        ownTask c t := fun _ _ c cl' h1 h2 => Or.inl ⟨cl', h1, h2⟩
  cases hs with
  | fileSuccessGone c f ch hc =>
    exact h.build a (ts := []) rfl rfl [] rfl (by simp) (by simp [isCheck]) (hsame _ _) (by simp [pendingHit]) (by simp)
  | fileSuccessNone c f ch cl hc hi =>
    exact h.build a (ts := []) rfl rfl _ rfl (notEv_outs _) (by simp [isCheck]) (hsame _ _) (by simp [pendingHit]) (by simp)
  | fileSuccessSome c f ch cl us hc hi =>
    exact h.build a (ts := [_]) rfl rfl _ rfl (notEv_outs _) (by simp [isCheck]) (hsame _ _) (by simp [pendingHit]) (by simp [ownTask])
  | successEnd c f ch =>
    exact h.build a (ts := [_, _]) rfl rfl [] rfl (by simp) (by simp [isCheck]) (hsame _ _) (by simp [pendingHit])
      (by simp [ownTask])
  | successGone c f ch u us hc =>
    exact h.build a (ts := []) rfl rfl [] rfl (by simp) (by simp [isCheck]) (hsame _ _) (by simp [pendingHit]) (by simp)
  | successSkip c f ch u us cl g hc hg hm =>
    exact h.build a (ts := [_]) rfl rfl [] rfl (by simp) (by simp [isCheck]) (hsame _ _) (by simp [pendingHit]) (by simp [ownTask])
  | successReady c f ch u us cl g fs hc hg hm he =>
    refine h.build a (ts := [_]) rfl rfl [] rfl (by simp) (by simp [isCheck]) ?_ (by simp [pendingHit]) (by simp [ownTask])
    refine isDone_insert_cases hc _ ?_
    intro hd
    simp [Client.isDone, setInsert_ne_nil] at hd
  | successWait c f ch u us cl g fs hc hg hm he =>
    refine h.build a (ts := [_]) rfl rfl [] rfl (by simp) (by simp [isCheck]) ?_ (by simp [pendingHit]) (by simp [ownTask])
    refine isDone_insert_cases hc _ ?_
    intro hd
    simp [Client.isDone, AMap.insert] at hd
  | fileFailedGone c f ch hc =>
    exact h.build a (ts := []) rfl rfl [] rfl (by simp) (by simp [isCheck]) (hsame _ _) (by simp [pendingHit]) (by simp)
  | fileFailedNone c f ch cl hc hi =>
    exact h.build a (ts := []) rfl rfl _ rfl (notEv_outs _) (by simp [isCheck]) (hsame _ _) (by simp [pendingHit]) (by simp)
  | fileFailedSome c f ch cl us hc hi =>
    exact h.build a (ts := [_]) rfl rfl _ rfl (notEv_outs _) (by simp [isCheck]) (hsame _ _) (by simp [pendingHit])
      (by simp [ownTask])
  | skipEnd c f failed ch =>
    refine h.build a (ts := _) rfl rfl [] rfl (by simp) (by simp [isCheck]) (hsame _ _) (by simp [pendingHit]) ?_
    intro x hx c' hc'
    obtain ⟨f', _, rfl⟩ := List.mem_map.1 hx
    exact Or.inl hc'
  | skipGone c f failed ch u us hc =>
    exact h.build a (ts := []) rfl rfl [] rfl (by simp) (by simp [isCheck]) (hsame _ _) (by simp [pendingHit]) (by simp)
  | skipTwice c f failed ch u us cl hc hm =>
    exact h.build a (ts := [_]) rfl rfl [] rfl (by simp) (by simp [isCheck]) (hsame _ _) (by simp [pendingHit])
      (by simp [ownTask])
  | skipOne c f failed ch u us cl g fs hc hm hg =>
    refine h.build a (ts := [_]) rfl rfl
      (((skipMsgs cl c g).map Obs.out).reverse ++ [Obs.skipped c g])
      (by simp [St.push, St.emitAll, St.obs, St.setClient])
      (by intro o ho; rcases List.mem_append.1 ho with ho | ho
          · exact notEv_outs _ o ho
          · simp at ho; subst ho; trivial) (by simp [isCheck]) ?_ (by simp [pendingHit])
      (by simp [ownTask])
    refine isDone_insert_cases hc _ ?_
    intro hd
    exact Or.inr (Or.inr rfl)
  | scheduleCached ch =>
    exact h.build a (ts := [_]) rfl rfl [] rfl (by simp) (by simp [isCheck]) (hsame _ _) (by simp [pendingHit])
      (by simp [ownTask])
  | cachedEnd hits ch =>
    refine h.build a (ts := _) rfl rfl [] rfl (by simp) (by simp [isCheck]) (hsame _ _) ?_ ?_
    · intro c cl' _ _ hp
      rcases hp with hp | ⟨x, hx, rfl⟩
      · cases hp
      · exact Or.inr (Or.inr (Or.inr ⟨_, List.mem_map.2 ⟨x, hx, rfl⟩, rfl, rfl⟩))
    · intro x hx c' hc'
      obtain ⟨f', _, rfl⟩ := List.mem_map.1 hx
      cases hc'.2
  | cachedGone e ans todo hits ch hc =>
    refine h.build a (ts := [_]) rfl rfl [] rfl (by simp) (by simp [isCheck]) (hsame _ _) ?_ (by simp [ownTask])
    intro c cl' _ _ hp
    rcases hp with hp | hp
    · cases hp
    · exact Or.inr (Or.inr (Or.inr ⟨Task.cachedLoop todo hits, by simp, hp⟩))
  | cachedNo e ans todo hits ch cl hc hno =>
    refine h.build a (ts := [_]) rfl rfl [] rfl (by simp) (by simp [isCheck]) (hsame _ _) ?_ (by simp [ownTask])
    intro c cl' _ _ hp
    rcases hp with hp | hp
    · cases hp
    · exact Or.inr (Or.inr (Or.inr ⟨Task.cachedLoop todo hits, by simp, hp⟩))
  | cachedMiss e todo hits ch cl g hc hn hg hi =>
    refine h.build a (ts := [_]) rfl rfl [.cacheLookup e.client e.group] rfl (by simp [NotEv]) (by simp [isCheck]) (hsame _ _) ?_
      (by simp [ownTask])
    intro c cl' _ _ hp
    rcases hp with hp | hp
    · cases hp
    · exact Or.inr (Or.inr (Or.inr ⟨Task.cachedLoop todo hits, by simp, hp⟩))
  | cachedHit e hit todo hits ch cl g hc hn hg hi =>
    refine h.build a (ts := [_]) rfl rfl [.cacheLookup e.client e.group] rfl (by simp [NotEv]) (by simp [isCheck]) ?_ ?_
      (by simp [ownTask])
    · refine isDone_insert_cases hc _ ?_
      intro _
      refine Or.inr (Or.inl ⟨Task.cachedLoop todo (hits ++ [(e.client, g, hit)]), by simp, ?_⟩)
      exact ⟨(e.client, g, hit), by simp, rfl⟩
    · intro c cl' _ _ hp
      rcases hp with hp | ⟨x, hx, rfl⟩
      · cases hp
      · refine Or.inr (Or.inr (Or.inr ⟨Task.cachedLoop todo (hits ++ [(e.client, g, hit)]), by simp, ?_⟩))
        exact ⟨x, by simp [hx], rfl⟩
  | assignJobs ch =>
    exact h.build a (ts := [_]) rfl rfl [] rfl (by simp) (by simp [isCheck]) (hsame _ _) (by simp [pendingHit])
      (by simp [ownTask])
  | assignEnd ws ch hw =>
    exact h.build a (ts := []) rfl rfl [.assigned] rfl (by simp [NotEv]) (by simp [isCheck]) (hsame _ _) (by simp [pendingHit]) (by simp)
  | assignSkip w ws ch hw =>
    exact h.build a (ts := [_]) rfl rfl [] rfl (by simp) (by simp [isCheck]) (hsame _ _) (by simp [pendingHit])
      (by simp [ownTask])
  | assignGone w ws ch e ready hw hp hc =>
    exact h.build a (ts := [_]) rfl rfl [] rfl (by simp) (by simp [isCheck]) (hsame _ _) (by simp [pendingHit])
      (by simp [ownTask])
  | assignJob w ws ch e ready cl g keys hw hp hc hg hk =>
    refine h.build a (ts := [_]) rfl rfl
      (((startMsgs cl e.client w g).map Obs.out).reverse ++ [Obs.out (.workerJob w e.client g keys)])
      (by simp [St.push, St.emitAll, St.emit, St.obs, St.setClient])
      (by intro o ho; rcases List.mem_append.1 ho with ho | ho
          · exact notEv_outs _ o ho
          · simp at ho; subst ho; trivial) (by simp [isCheck]) ?_ (by simp [pendingHit])
      (by simp [ownTask])
    refine isDone_insert_cases hc _ ?_
    intro hd
    simp [Client.isDone, setInsert_ne_nil] at hd
  | checkGone c ch hc =>
    refine h.build a (ts := []) rfl rfl [] rfl (by simp) (by simp [isCheck]) (hsame _ _) ?_ (by simp)
    intro c' cl' h1 _ hp
    rcases hp with hp | hp
    · cases hp; exact absurd (hc.symm.trans h1) (by simp)
    · exact hp.elim
  | checkNotDone c ch cl hc hd =>
    refine h.build a (ts := []) rfl rfl [] rfl (by simp) (by simp [isCheck]) (hsame _ _) ?_ (by simp)
    intro c' cl' h1 h2 hp
    rcases hp with hp | hp
    · cases hp
      have := hc.symm.trans h1
      cases this
      rw [hd] at h2; cases h2
    · exact hp.elim
  | checkDone c ch cl hc hd =>
    refine h.build a (ts := []) rfl rfl [_] rfl (by simp [NotEv]) (by simp [isCheck]) (hsame _ _) ?_ (by simp)
    intro c' cl' h1 h2 hp
    rcases hp with hp | hp
    · cases hp
      exact Or.inl (by simp [St.emit, St.obs])
    · exact hp.elim
  | completedGone c g results outputs fromCache ch hc =>
    refine h.build a (ts := []) rfl rfl [] rfl (by simp) (by simp [isCheck]) (hsame _ _) ?_ (by simp)
    intro c' cl' h1 _ hp
    rcases hp with hp | hp
    · cases hp
    · rcases hp with ⟨rfl, _⟩; exact absurd (hc.symm.trans h1) (by simp)
  | completed c g results outputs fromCache ch cl extra hc he hx =>
    have hkey : ∀ l : List Obs, fromCache = true → Task.checkCompletion c ∈ st.stack ∨
        CachedFor c (l ++ Obs.completed c g results outputs fromCache :: st.log) := by
      intro l hb
      subst hb
      by_cases ho : OwnEvent c st.log
      · rcases h.last c ho with h1 | ⟨ts, h1⟩
        · cases h1
        · cases ts with
          | nil => cases h1
          | cons a ts =>
            simp only [List.cons_append, List.cons.injEq] at h1
            exact Or.inl (by rw [h1.2]; simp)
      · exact Or.inr ⟨_, g, results, outputs, st.log, rfl, ho⟩
    have hlog : extra ++ (((doneMessages c cl.callbacks.executions g.executions results).map
        Obs.out).reverse ++ Obs.completed c g results outputs fromCache :: st.log) =
        (extra ++ ((doneMessages c cl.callbacks.executions g.executions results).map
        Obs.out).reverse) ++ Obs.completed c g results outputs fromCache :: st.log := by simp
    refine h.build a (ts := _) rfl rfl
      (extra ++ (((doneMessages c cl.callbacks.executions g.executions results).map Obs.out).reverse ++
        [Obs.completed c g results outputs fromCache])) (by simp [St.push, St.emitAll, St.obs]) ?_
        (by simp [isCheck]) ?_ ?_ ?_
    · intro o ho
      rcases List.mem_append.1 ho with ho | ho
      · rcases he with rfl | rfl
        · cases ho
        · simp at ho; subst ho; trivial
      · rcases List.mem_append.1 ho with ho | ho
        · exact notEv_outs _ o ho
        · simp at ho; subst ho; trivial
    · refine isDone_insert_cases hc _ ?_
      intro hd; exact Or.inl hd
    · intro c' cl' h1 h2 hp
      rcases hp with hp | hp
      · cases hp
      · obtain ⟨rfl, hb⟩ := hp
        rcases hkey (extra ++ ((doneMessages c cl.callbacks.executions g.executions results).map
          Obs.out).reverse) hb with h3 | h3
        · exact Or.inr (Or.inl h3)
        · refine Or.inr (Or.inr (Or.inl ?_))
          simpa [St.push, St.emitAll, St.obs] using h3
    · intro x hx c' hc'
      rcases List.mem_append.1 hx with hx | hx
      · obtain ⟨f', _, rfl⟩ := List.mem_map.1 hx
        have hcc : c = c' := by
          by_cases hb : (results.all fun r => r.status.isSuccess) = true
          · rw [if_pos hb] at hc'; exact hc'.elim
          · rw [if_neg hb] at hc'; exact hc'
        subst hcc
        cases hb : fromCache with
        | false => exact Or.inl ⟨rfl, rfl⟩
        | true =>
          rcases hkey (extra ++ ((doneMessages c cl.callbacks.executions g.executions results).map
            Obs.out).reverse) hb with h3 | h3
          · exact Or.inr (Or.inl h3)
          · refine Or.inr (Or.inr ?_)
            simpa [St.push, St.emitAll, St.obs, hb] using h3
      · simp at hx; subst hx; exact hc'.elim

theorem DoneInv.event {st st' : St} {e : Event} (a : Aux st) (h : DoneInv st) (hst : st.stack = [])
    (hs : EventStep (st.obs (.ev e)) e st') : DoneInv st' := by
  have hdone : ∀ c cl, st.clients.get? c = some cl → cl.isDone = true →
      Obs.out (.evaluationDone c) ∈ st.log ∨ CachedFor c st.log := by
    intro c cl h1 h2
    rcases h.done c cl h1 h2 with h3 | h3 | h3 | ⟨x, hx, _⟩
    · exact Or.inl h3
    · rw [hst] at h3; cases h3
    · exact Or.inr h3
    · rw [hst] at hx; cases hx
  have lift : ∀ (st' : St), (∃ l, st'.log = l ++ st.log) → ∀ c,
      (Obs.out (.evaluationDone c) ∈ st.log ∨ CachedFor c st.log) →
      Obs.out (.evaluationDone c) ∈ st'.log ∨ Task.checkCompletion c ∈ st'.stack ∨
      CachedFor c st'.log ∨ ∃ t ∈ st'.stack, pendingHit c t := by
    intro st' ⟨l, hsub⟩ c h1
    rcases h1 with h1 | h1
    · exact Or.inl (by rw [hsub]; simp [h1])
    · exact Or.inr (Or.inr (Or.inl (h1.mono hsub)))
  -- nothing is pushed and no client gets done
  have quiet : ∀ (st' : St) (l : List Obs), st'.log = l ++ st.log → st'.stack = [] →
      (∀ c cl, st'.clients.get? c = some cl → cl.isDone = true → ∃ cl, st.clients.get? c = some cl ∧
        cl.isDone = true) → DoneInv st' := by
    intro st' l h1 h2 h3
    refine ⟨fun c _ => Or.inl h2, by rw [h2]; simp, ?_⟩
    intro c cl h4 h5
    obtain ⟨cl', h6, h7⟩ := h3 c cl h4 h5
    exact lift st' ⟨l, h1⟩ c (hdone c cl' h6 h7)
  cases hs with
  | evaluateDag c dag cb =>
    constructor
    · intro c' hc'
      rcases hc' with ⟨f, k, pre, hh⟩ | ⟨w, rs, os, u, pre, hh, _⟩ <;>
        simp [handleEvaluateDag, St.push, St.obs, handling] at hh
    · intro t ht c' hc'
      simp [handleEvaluateDag, St.push, St.obs, hst] at ht
      rcases ht with rfl | rfl | rfl <;> exact hc'.elim
    · intro c1 cl1 h1 h2
      have h1' : (st.clients.insert c (initGroups c dag.executionGroups
        { dag := dag, callbacks := cb } st.ready).1).get? c1 = some cl1 := h1
      rw [AMap.get?_insert] at h1'
      split at h1'
      · next e => subst e; exact Or.inr (Or.inl (by simp [handleEvaluateDag, St.push]))
      · exact lift _ ⟨[_], rfl⟩ c1 (hdone c1 cl1 h1' h2)
  | clientDisconnected c =>
    obtain ⟨l, hl, hq⟩ := handleClientDisconnected_eq (st.obs (.ev (.clientDisconnected c))) c
    rw [hl]
    refine quiet _ (l ++ [_]) (by simp [St.obs]; rfl) hst ?_
    intro c1 cl1 h1 h2
    have h1' : (st.clients.erase c).get? c1 = some cl1 := h1
    rw [AMap.get?_erase] at h1'
    split at h1'
    · cases h1'
    · exact ⟨cl1, h1', h2⟩
  | fileReadyGone c f key hc => exact quiet _ [_] rfl hst (fun c cl h1 h2 => ⟨cl, h1, h2⟩)
  | fileReady c f key cl hc =>
    constructor
    · intro c' hc'
      rcases hc' with ⟨f, k, pre, hh⟩ | ⟨w, rs, os, u, pre, hh, _⟩
      · simp [St.push, St.obs, St.setClient, handling] at hh
        obtain ⟨⟨rfl, _⟩, _⟩ := hh
        exact Or.inr ⟨[_], by simp [St.push, St.obs, St.setClient, hst]; rfl⟩
      · simp [St.push, St.obs, St.setClient, handling] at hh
    · intro t ht c' hc'
      simp [St.push, St.setClient, St.obs, hst] at ht
      rcases ht with rfl | rfl <;> exact hc'.elim
    · intro c1 cl1 h1 h2
      have h1' : (st.clients.insert c _).get? c1 = some cl1 := h1
      rw [AMap.get?_insert] at h1'
      split at h1'
      · next e => subst e; exact Or.inr (Or.inl (by simp [St.push]))
      · exact lift _ ⟨[_], rfl⟩ c1 (hdone c1 cl1 h1' h2)
  | resultUnknown w rs os hw => exact quiet _ [_] rfl hst (fun c cl h1 h2 => ⟨cl, h1, h2⟩)
  | resultIdle w rs os hw => exact quiet _ [_] rfl hst (fun c cl h1 h2 => ⟨cl, h1, h2⟩)
  | resultGone w rs os c u hw hc =>
    refine ⟨?_, by simp [St.push, St.obs, hst, ownTask], fun c1 cl1 h1 h2 =>
      lift _ ⟨[_], rfl⟩ c1 (hdone c1 cl1 h1 h2)⟩
    intro c' hc'
    rcases hc' with ⟨f, k, pre, hh⟩ | ⟨w', rs', os', u', pre, hh, hwat⟩
    · simp [St.push, St.obs, handling] at hh
    · simp [St.push, St.obs, handling] at hh
      obtain ⟨⟨rfl, _⟩, rfl⟩ := hh
      have hw' : st.workers.get? w = some (some (c, u)) := hw
      rw [a.work, hwat] at hw'
      cases hw'
      exact Or.inr ⟨[.assignJobs], by simp [St.push, St.obs, hst]⟩
  | result w rs os c u cl g hw hc hg hlen =>
    constructor
    · intro c' hc'
      rcases hc' with ⟨f, k, pre, hh⟩ | ⟨w', rs', os', u', pre, hh, hwat⟩
      · simp [St.push, St.obs, St.setClient, handling] at hh
      · simp [St.push, St.obs, St.setClient, handling] at hh
        obtain ⟨⟨rfl, _⟩, rfl⟩ := hh
        have hw' : st.workers.get? w = some (some (c, u)) := hw
        rw [a.work, hwat] at hw'
        cases hw'
        exact Or.inr ⟨[.execCompleted c g rs os false, .assignJobs],
          by simp [St.push, St.obs, St.setClient, hst]⟩
    · intro t ht c' hc'
      simp [St.push, St.setClient, St.obs, hst] at ht
      rcases ht with rfl | rfl | rfl
      · obtain ⟨rfl, _⟩ := hc'; exact Or.inl (by simp [St.push])
      · exact hc'.elim
      · exact hc'.elim
    · intro c1 cl1 h1 h2
      have h1' : (st.clients.insert c _).get? c1 = some cl1 := h1
      rw [AMap.get?_insert] at h1'
      split at h1'
      · next e => subst e; exact Or.inr (Or.inl (by simp [St.push]))
      · exact lift _ ⟨[_], rfl⟩ c1 (hdone c1 cl1 h1' h2)
  | workerConnected w =>
    refine ⟨?_, by simp [St.push, St.obs, hst, ownTask], fun c1 cl1 h1 h2 =>
      lift _ ⟨[_], rfl⟩ c1 (hdone c1 cl1 h1 h2)⟩
    intro c' hc'
    rcases hc' with ⟨f, k, pre, hh⟩ | ⟨w, rs, os, u, pre, hh, _⟩ <;>
      simp [St.push, St.obs, handling] at hh
  | disconnectUnknown w hw => exact quiet _ [_] rfl hst (fun c cl h1 h2 => ⟨cl, h1, h2⟩)
  | disconnectFree w job hw hj => exact quiet _ [_] rfl hst (fun c cl h1 h2 => ⟨cl, h1, h2⟩)
  | disconnect w c u cl g hw hc hg =>
    refine quiet _ [_] rfl hst ?_
    intro c1 cl1 h1 h2
    have h1' : (st.clients.insert c _).get? c1 = some cl1 := h1
    rw [AMap.get?_insert] at h1'
    split at h1'
    · cases h1'
      simp [Client.isDone, setInsert_ne_nil] at h2
    · exact ⟨cl1, h1', h2⟩
  | status c ws hws => exact quiet _ [_, _] rfl hst (fun c cl h1 h2 => ⟨cl, h1, h2⟩)

theorem doneInv_step {st st' : St} (hI : Inv st) (a : Aux st) (h : DoneInv st) (hs : Step st st') :
    DoneInv st' := by
  cases hs with
  | event e hst hok hh => exact h.event a hst (eventStep_of_handle hh)
  | task t rest ch hst hok hh =>
    obtain ⟨ready, clients, workers, stack, log⟩ := st
    simp only at hst
    subst hst
    exact doneInv_taskStep (st := ⟨ready, clients, workers, rest, log⟩) hI a h (taskStep_of_run hh)

theorem reachable_done {st : St} (h : Reachable st) : DoneInv st := by
  induction h with
  | init => exact ⟨fun c _ => Or.inl rfl, by simp, by intro c cl h; cases h⟩
  | step hr hs ih => exact doneInv_step (reachable_inv hr) (reachable_aux hr) ih hs

end TM.Sched
