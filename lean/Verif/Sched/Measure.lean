import Verif.Sched.Total
/-! The handling of one message ends: a measure that every task decreases. -/

namespace TM.Sched
open TM.DagSpec

/-- The sum of a quantity over the values of a map. -/
def amSum {K V : Type} (φ : V → Nat) (m : AMap K V) : Nat := (m.map (fun p => φ p.2)).sum

theorem amSum_erase {K V : Type} [DecidableEq K] (φ : V → Nat) {m : AMap K V} {k : K} {v : V}
    (h : m.get? k = some v) : amSum φ (m.erase k) + φ v ≤ amSum φ m := by
  have hle : ∀ m : AMap K V, amSum φ (m.erase k) ≤ amSum φ m := by
    intro m
    induction m with
    | nil => simp [amSum, AMap.erase]
    | cons p m ih =>
      unfold AMap.erase amSum at *
      by_cases hp : p.1 = k
      · simp [hp] at ih ⊢; omega
      · simp [hp] at ih ⊢; omega
  induction m with
  | nil => simp at h
  | cons p m ih =>
    obtain ⟨k', v'⟩ := p
    rw [AMap.get?_cons] at h
    by_cases hk : k' = k
    · subst hk
      simp at h; subst h
      have := hle m
      unfold AMap.erase amSum at *
      simp at this ⊢; omega
    · simp [hk] at h
      have := ih h
      unfold AMap.erase amSum at *
      simp [hk] at this ⊢; omega

theorem amSum_insert {K V : Type} [DecidableEq K] (φ : V → Nat) {m : AMap K V} {k : K} {v v' : V}
    (h : m.get? k = some v) : amSum φ (m.insert k v') + φ v ≤ amSum φ m + φ v' := by
  have := amSum_erase φ h
  simp only [AMap.insert, amSum, List.map_cons, List.sum_cons] at this ⊢
  omega

/-- The files the groups of a client are waiting for. -/
def missing (cl : Client) : Nat := amSum List.length cl.missingDeps

/-- The completions a task still has to do. -/
def comps : Task → Nat
  | .execCompleted .. => 1
  | .cachedLoop _ hits => hits.length
  | _ => 0

def inp (clients : AMap ClientUuid Client) (c : ClientUuid) (f : FileUuid) : Nat :=
  match clients.get? c with
  | none => 0
  | some cl => ((cl.inputOf.get? f).getD []).length

/-- The work of a task when it does not change what is missing, queued or being completed. -/
def weight (i : ClientUuid → FileUuid → Nat) (R W : Nat) : Task → Nat
  | .fileSuccess c f => i c f + R + W + 10
  | .successLoop _ _ us => us.length + R + W + 8
  | .fileFailed c f => i c f + 2
  | .skipLoop c _ us failed => us.length + 1 + (failed.map (fun f => i c f + 2)).sum
  | .scheduleCached => R + 3
  | .cachedLoop todo _ => todo.length + 1
  | .assignJobs => W + 3
  | .assignLoop ws => ws.length + 1
  | .checkCompletion _ => 1
  | .execCompleted .. => 0

def m1 (st : St) : Nat :=
  3 * amSum missing st.clients + 2 * st.ready.length + (st.stack.map comps).sum

def m2 (st : St) : Nat :=
  (st.stack.map (weight (inp st.clients) st.ready.length st.workers.length)).sum

/-- The order on measures. -/
def Less (a b : Nat × Nat) : Prop := a.1 < b.1 ∨ (a.1 ≤ b.1 ∧ a.2 < b.2)

theorem less_wf : WellFounded Less := by
  have : ∀ n, ∀ p : Nat × Nat, p.1 ≤ n → Acc Less p := by
    intro n
    induction n with
    | zero =>
      rintro ⟨a, b⟩ h
      simp at h; subst h
      induction b using Nat.strongRecOn with
      | ind b ih =>
        refine ⟨_, fun y hy => ?_⟩
        obtain ⟨y1, y2⟩ := y
        rcases hy with hy | ⟨h1, h2⟩
        · simp at hy
        · simp at h1; subst h1; exact ih y2 h2
    | succ n ihn =>
      rintro ⟨a, b⟩ h
      induction b using Nat.strongRecOn with
      | ind b ih =>
        refine ⟨_, fun y hy => ?_⟩
        obtain ⟨y1, y2⟩ := y
        simp only at h
        rcases hy with hy | ⟨h1, h2⟩
        · simp only at hy; exact ihn _ (by simp only; omega)
        · simp only at h1 h2
          by_cases hy : y1 ≤ n
          · exact ihn _ hy
          · have : y1 = a := by omega
            subst this
            exact ih y2 h2 h
  exact ⟨fun p => this p.1 p (Nat.le_refl _)⟩

theorem popMax_length {ready ready' : List ReadyEntry} {e : ReadyEntry}
    (h : popMax ready = some (e, ready')) : ready'.length + 1 = ready.length := by
  obtain ⟨h1, h2⟩ := popMax_mem h
  rw [h2, List.length_erase_of_mem h1]
  have := List.length_pos_of_mem h1
  omega

theorem task_less {st st' : St} (h : Inv st) {t rest} {ch : Choice} (hst : st.stack = t :: rest)
    (hok : ChoiceOk st t ch) (hs : TaskStep { st with stack := rest } t ch st') :
    Less (m1 st', m2 st') (m1 st, m2 st) := by
  have ht := h.tasks t (by rw [hst]; simp)
  have hlen : ∀ {c cl us f}, st.clients.get? c = some cl → cl.inputOf.get? f = some us →
      (∀ cl us, st.clients.get? c = some cl → cl.inputOf.get? f = some us → ch.groups.Perm us) →
      ch.groups.length = inp st.clients c f := by
    intro c cl us f h1 h2 h3
    have := (h3 cl us h1 h2).length_eq
    simp [inp, h1, h2, this]
  have hinp : ∀ {c cl cl'}, st.clients.get? c = some cl → cl'.inputOf = cl.inputOf →
      inp (st.clients.insert c cl') = inp st.clients := by
    intro c cl cl' h1 h2
    funext c' f
    unfold inp
    rw [AMap.get?_insert]
    by_cases hc : c' = c
    · subst hc; simp [h1, h2]
    · simp [hc]
  cases hs with
  | fileSuccessGone c f ch hc =>
    right; simp [m1, m2, hst, comps, weight]
  | fileSuccessNone c f ch cl hc hi =>
    right; simp [m1, m2, hst, comps, weight, St.emitAll]
  | fileSuccessSome c f ch cl us hc hi =>
    have := hlen hc hi hok
    right; simp [m1, m2, hst, comps, weight, St.emitAll, St.push]; omega
  | successEnd c f ch =>
    right; simp [m1, m2, hst, comps, weight, St.push]; omega
  | successGone c f ch u us hc =>
    right; simp [m1, m2, hst, comps, weight]
  | successSkip c f ch u us cl g hc hg hm =>
    right; simp [m1, m2, hst, comps, weight, St.push]
  | successReady c f ch u us cl g fs hc hg hm he =>
    left
    have h1 := amSum_erase List.length hm
    have h2 : fs ≠ [] := ((h.client c cl hc).miss u fs hm).1
    have h3 : 0 < fs.length := List.length_pos_iff.2 h2
    have h4 := amSum_insert missing hc (v' := { cl with missingDeps := cl.missingDeps.erase u, readyGroups := setInsert cl.readyGroups u })
    simp only [missing] at h4
    simp [m1, hst, comps, St.push, St.setClient]
    omega
  | successWait c f ch u us cl g fs hc hg hm he =>
    right
    have h1 := amSum_insert List.length hm (v' := setErase fs f)
    have h3 : (setErase fs f).length ≤ fs.length := List.length_filter_le _ _
    have h4 := amSum_insert missing hc (v' := { cl with missingDeps := cl.missingDeps.insert u (setErase fs f) })
    simp only [missing] at h4
    constructor
    · simp [m1, hst, comps, St.push, St.setClient]
      omega
    · simp [m2, hst, weight, St.push, St.setClient]
      rw [hinp hc (by rfl)]
      omega
  | fileFailedGone c f ch hc =>
    right; simp [m1, m2, hst, comps, weight]
  | fileFailedNone c f ch cl hc hi =>
    right; simp [m1, m2, hst, comps, weight, St.emitAll]
  | fileFailedSome c f ch cl us hc hi =>
    have := hlen hc hi hok
    right; simp [m1, m2, hst, comps, weight, St.emitAll, St.push]; omega
  | skipEnd c f failed ch =>
    right
    have h1 : ∀ l : List FileUuid, (l.map (fun _ => 0)).sum = 0 := by
      intro l; induction l with
      | nil => rfl
      | cons a l ih => simp only [List.map_cons, List.sum_cons, ih]
    simp [m1, m2, hst, comps, weight, St.push, h1, Function.comp_def]
  | skipGone c f failed ch u us hc =>
    right; simp [m1, m2, hst, comps, weight]
    omega
  | skipTwice c f failed ch u us cl hc hm =>
    right; simp [m1, m2, hst, comps, weight, St.push]
  | skipOne c f failed ch u us cl g fs hc hm hg =>
    left
    have h1 := amSum_erase List.length hm
    have h2 : fs ≠ [] := ((h.client c cl hc).miss u fs hm).1
    have h3 : 0 < fs.length := List.length_pos_iff.2 h2
    have h4 := amSum_insert missing hc (v' := { cl with missingDeps := cl.missingDeps.erase u })
    simp only [missing] at h4
    simp [m1, hst, comps, St.push, St.setClient, St.emitAll, St.obs]
    omega
  | scheduleCached ch =>
    have h1 := hok.1.length_eq
    simp at h1
    right; simp [m1, m2, hst, comps, weight, St.push]; omega
  | cachedEnd hits ch =>
    right
    have h1 : ∀ l : List (ClientUuid × ExecutionGroup × Hit), (l.map (comps ∘ fun h => Task.execCompleted h.1 h.2.1 h.2.2.results h.2.2.outputs true)).sum = l.length := by
      intro l; induction l with
      | nil => rfl
      | cons a l ih => simp [comps, ih] at *; omega
    have h2 : ∀ (i R W) (l : List (ClientUuid × ExecutionGroup × Hit)), (l.map (weight i R W ∘ fun h => Task.execCompleted h.1 h.2.1 h.2.2.results h.2.2.outputs true)).sum = 0 := by
      intro i R W l; induction l with
      | nil => rfl
      | cons a l ih => simp [weight] at *; omega
    simp [m1, m2, hst, St.push, h1, h2, comps, weight]
  | cachedGone e ans rest' hits ch hc =>
    left
    have hm : e ∈ st.ready := by
      have := h.cachedTop _ _ _ hst e
      simp at this
      exact List.count_pos_iff.1 (by omega)
    have := List.length_pos_of_mem hm
    simp [m1, hst, comps, St.push, List.length_erase_of_mem hm]
    omega
  | cachedNo e ans rest' hits ch cl hc hn =>
    right; simp [m1, m2, hst, comps, weight, St.push]
  | cachedMiss e rest' hits ch cl g hc hn hg hi =>
    right; simp [m1, m2, hst, comps, weight, St.push, St.obs]
  | cachedHit e hit rest' hits ch cl g hc hn hg hi =>
    left
    have hm : e ∈ st.ready := by
      have := h.cachedTop _ _ _ hst e
      simp at this
      exact List.count_pos_iff.1 (by omega)
    have := List.length_pos_of_mem hm
    have h4 := amSum_insert missing hc (v' := { cl with readyGroups := setErase cl.readyGroups g.uuid })
    simp only [missing] at h4
    simp [m1, hst, comps, St.push, St.setClient, St.obs, List.length_erase_of_mem hm]
    omega
  | assignJobs ch =>
    have h1 : ch.workers.length = _ := hok.length_eq
    simp [AMap.keys] at h1
    right; simp [m1, m2, hst, comps, weight, St.push]; omega
  | assignEnd ws ch hw =>
    right; simp [m1, m2, hst, comps, weight, St.obs]
  | assignSkip w ws ch hw =>
    right; simp [m1, m2, hst, comps, weight, St.push]
  | assignGone w ws ch e ready hw hp hc =>
    left
    have := popMax_length hp
    simp at this
    simp [m1, hst, comps, St.push]; omega
  | assignJob w ws ch e ready cl g keys hw hp hc hg hk =>
    left
    have := popMax_length hp
    simp at this
    have h4 := amSum_insert missing hc (v' := { cl with
              readyGroups := setErase cl.readyGroups e.group
              runningGroups := setInsert cl.runningGroups e.group })
    simp only [missing] at h4
    simp [m1, hst, comps, St.push, St.setClient, St.emit, St.emitAll, St.obs]
    omega
  | checkGone c ch hc => right; simp [m1, m2, hst, comps, weight]
  | checkNotDone c ch cl hc hd => right; simp [m1, m2, hst, comps, weight]
  | checkDone c ch cl hc hd => right; simp [m1, m2, hst, comps, weight, St.emit, St.obs]
  | completedGone c g rs os b ch hc => left; simp [m1, hst, comps]
  | completed c g rs os b ch cl extra hc he hx =>
    left
    have h4 := amSum_insert missing hc (v' := { cl with fileHandles := insertAll cl.fileHandles os })
    simp only [missing] at h4
    have h1 : ∀ l : List FileUuid, (l.map (comps ∘ (if rs.all (fun r => r.status.isSuccess) then Task.fileSuccess c else Task.fileFailed c))).sum = 0 := by
      intro l; induction l with
      | nil => rfl
      | cons a l ih => 
        simp only [List.map_cons, List.sum_cons, ih, Function.comp]
        split <;> simp [comps]
    simp only [m1, hst, St.push, St.setClient, St.emitAll, St.obs, List.map_append, List.map_map, h1, List.sum_append, List.map_cons, List.sum_cons]
    simp [comps]
    omega

end TM.Sched
