import Verif.Sched.NotifFile
import Verif.Sched.PropsHistory
/-! # C40: the watched executions and files are notified, and only once -/

namespace TM.Sched
open TM.DagSpec

/-! ### Specification: what is counted -/

/-- `c` is told that execution `e` is done. -/
def isDoneMsg (c : ClientUuid) (e : ExecutionUuid) : Obs → Bool
  | .out (.done c' e' _) => decide (c' = c ∧ e' = e)
  | _ => false
/-- `c` is told that execution `e` is skipped. -/
def isSkipMsg (c : ClientUuid) (e : ExecutionUuid) : Obs → Bool
  | .out (.skipped c' e') => decide (c' = c ∧ e' = e)
  | _ => false
/-- `c` is told that execution `e` started. -/
def isStartMsg (c : ClientUuid) (e : ExecutionUuid) : Obs → Bool
  | .out (.started c' e' _) => decide (c' = c ∧ e' = e)
  | _ => false
/-- `c` is sent file `f`, of a producer that succeeded (`s = true`) or failed. -/
def isFileMsg (c : ClientUuid) (f : FileUuid) (s : Bool) : Obs → Bool
  | .out (.fileReady c' f' _ s' _) => decide (c' = c ∧ f' = f ∧ s' = s)
  | _ => false
/-- Group `g` of `c` is completed. -/
def isCompletion (c : ClientUuid) (g : ExecutionGroup) : Obs → Bool
  | .completed c' g' _ _ _ => decide (c' = c ∧ g' = g)
  | _ => false
/-- Group `g` of `c` is completed, all its executions having succeeded (`s = true`) or not. -/
def isOutcome (c : ClientUuid) (g : ExecutionGroup) (s : Bool) : Obs → Bool
  | .completed c' g' rs _ _ => decide (c' = c ∧ g' = g ∧ (rs.all (fun r => r.status.isSuccess)) = s)
  | _ => false
/-- Group `g` of `c` is skipped. -/
def isSkip (c : ClientUuid) (g : ExecutionGroup) : Obs → Bool
  | .skipped c' g' => decide (c' = c ∧ g' = g)
  | _ => false
/-- Group `g` of `c` is sent to a worker. -/
def isJob (c : ClientUuid) (g : ExecutionGroup) : Obs → Bool
  | .out (.workerJob _ c' g' _) => decide (c' = c ∧ g' = g)
  | _ => false
/-- Client `c` provides file `f`. -/
def isProvision (c : ClientUuid) (f : FileUuid) : Obs → Bool
  | .ev (.fileReady c' f' _) => decide (c' = c ∧ f' = f)
  | _ => false

/-! ### Lemmas -/

theorem total_countP {φ : Obs → Nat} {p : Obs → Bool} {log : List Obs}
    (h : ∀ o ∈ log, φ o = if p o = true then 1 else 0) : total φ log = log.countP p := by
  induction log with
  | nil => rfl
  | cons o log ih =>
    rw [total_cons, List.countP_cons, ih (fun o ho => h o (by simp [ho])), h o (by simp)]
    omega

theorem done_countP (c e log) : total (nDone c e) log = log.countP (isDoneMsg c e) :=
  total_countP (fun o _ => by
    cases o with
    | out x => cases x <;> simp [nDone, isDoneMsg]
    | _ => simp [nDone, isDoneMsg])
theorem skip_countP (c e log) : total (nSkip c e) log = log.countP (isSkipMsg c e) :=
  total_countP (fun o _ => by
    cases o with
    | out x => cases x <;> simp [nSkip, isSkipMsg]
    | _ => simp [nSkip, isSkipMsg])
theorem start_countP (c e log) : total (nStart c e) log = log.countP (isStartMsg c e) :=
  total_countP (fun o _ => by
    cases o with
    | out x => cases x <;> simp [nStart, isStartMsg]
    | _ => simp [nStart, isStartMsg])
theorem ok_countP (c f log) : total (nOk c f) log = log.countP (isFileMsg c f true) :=
  total_countP (fun o _ => by
    cases o with
    | out x =>
      cases x with
      | fileReady c' f' k s u => cases s <;> simp [nOk, isFileMsg]
      | _ => simp [nOk, isFileMsg]
    | _ => simp [nOk, isFileMsg])
theorem ko_countP (c f log) : total (nKo c f) log = log.countP (isFileMsg c f false) :=
  total_countP (fun o _ => by
    cases o with
    | out x =>
      cases x with
      | fileReady c' f' k s u => cases s <;> simp [nKo, isFileMsg]
      | _ => simp [nKo, isFileMsg]
    | _ => simp [nKo, isFileMsg])

theorem flatMap_unique {α β : Type} {l : List α} {φ : α → List β} (hn : (l.flatMap φ).Nodup)
    {p q : α} {b : β} (hp : p ∈ l) (hq : q ∈ l) (h1 : b ∈ φ p) (h2 : b ∈ φ q) : p = q := by
  induction l with
  | nil => simp at hp
  | cons x l ih =>
    simp only [List.flatMap_cons, List.nodup_append] at hn
    obtain ⟨_, hn2, hn3⟩ := hn
    rcases List.mem_cons.1 hp with hp' | hp' <;> rcases List.mem_cons.1 hq with hq' | hq'
    · rw [hp', hq']
    · exact absurd rfl (hn3 b (hp' ▸ h1) b (List.mem_flatMap.2 ⟨q, hq', h2⟩))
    · exact absurd rfl (hn3 b (hq' ▸ h2) b (List.mem_flatMap.2 ⟨p, hp', h1⟩))
    · exact ih hn2 hp' hq'

theorem nodup_of_flatMap {α β : Type} {l : List α} {φ : α → List β} (hn : (l.flatMap φ).Nodup)
    {p : α} (hp : p ∈ l) : (φ p).Nodup := by
  induction l with
  | nil => simp at hp
  | cons x l ih =>
    simp only [List.flatMap_cons, List.nodup_append] at hn
    rcases List.mem_cons.1 hp with rfl | hp'
    · exact hn.1
    · exact ih hn.2.1 hp'

/-- An execution of a group occurs once in it and in no other group of the client. -/
theorem Hist.exec_count {log : List Obs} (h : Hist log) {c g g' x} (hg : GroupOf log c g)
    (hg' : GroupOf log c g') (hx : x ∈ g.executions) :
    g'.executions.countP (fun y => decide (y.uuid = x.uuid)) = if g' = g then 1 else 0 := by
  obtain ⟨d, b, h1, h2⟩ := hg
  obtain ⟨d', b', h3, h4⟩ := hg'
  have := (h.asked_unique h1 h3).1
  subst this
  have hw := (h.wellFormed h1).execs
  unfold allExecs at hw
  rw [List.map_flatMap] at hw
  have hc : ∀ l : List Execution, l.countP (fun y => decide (y.uuid = x.uuid)) =
      (l.map (·.uuid)).count x.uuid := by
    intro l
    rw [List.count, List.countP_map]
    congr 1
  rw [hc]
  split
  · next he =>
    subst he
    have := nodup_of_flatMap hw (AMap.mem_of_get? h4)
    rw [List.Nodup.count this]
    simp only [List.mem_map]
    rw [if_pos ⟨x, hx, rfl⟩]
  · next he =>
    rw [List.count_eq_zero]
    intro hm
    have := flatMap_unique hw (AMap.mem_of_get? h4) (AMap.mem_of_get? h2) hm
      (List.mem_map.2 ⟨x, hx, rfl⟩)
    exact he (congrArg (·.2) this)

theorem zip_countP {es : List Execution} {rs : List ExecutionResult} (h : rs.length = es.length)
    (p : Execution → Bool) : (es.zip rs).countP (fun q => p q.1) = es.countP p := by
  induction es generalizing rs with
  | nil => simp
  | cons e es ih =>
    cases rs with
    | nil => simp at h
    | cons r rs => simp only [List.zip_cons_cons, List.countP_cons, ih (by simpa using h)]

theorem GroupOf.add {post pre : List Obs} {c g} {o : Obs} (h : GroupOf pre c g) :
    GroupOf (post ++ o :: pre) c g := groupOf_mono (by intro x hx; simp [hx]) h

/-- The group of a file is unique. -/
theorem Hist.outs_count {log : List Obs} (h : Hist log) {c g g' f} (hg : GroupOf log c g)
    (hg' : GroupOf log c g') (hf : f ∈ g.outs) : g'.outs.count f = if g' = g then 1 else 0 := by
  obtain ⟨d, b, h1, h2⟩ := hg'
  have hw := (h.wellFormed h1).files
  unfold allFiles at hw
  split
  · next he =>
    subst he
    rw [List.Nodup.count (nodup_of_flatMap (List.nodup_append.1 hw).1 (AMap.mem_of_get? h2)),
      if_pos hf]
  · next he =>
    rw [List.count_eq_zero]
    intro hm
    exact he (h.producer_unique ⟨d, b, h1, h2⟩ hg hm hf)

/-! ### The theorems -/

/-- C40, executions: a watched execution is announced as done exactly each time its group is
completed, as skipped exactly each time its group is skipped, as started exactly each time its group
is sent to a worker. -/
theorem watched_execution_notified {st : St} (h : Reachable st) {c dag cb g x}
    (ha : Asked st.log c dag cb) (hg : GroupOf st.log c g) (hx : x ∈ g.executions)
    (hw : x.uuid ∈ cb.executions) :
    st.log.countP (isDoneMsg c x.uuid) = st.log.countP (isCompletion c g) ∧
    st.log.countP (isSkipMsg c x.uuid) = st.log.countP (isSkip c g) ∧
    st.log.countP (isStartMsg c x.uuid) = st.log.countP (isJob c g) := by
  obtain ⟨h1, h2, h3⟩ := reachable_notifE h c dag cb ha x.uuid
  have hh := (reachable_aux h).hist
  rw [if_pos hw] at h1 h2 h3
  refine ⟨?_, ?_, ?_⟩
  · rw [← done_countP, h1]
    refine total_countP (fun o ho => ?_)
    cases o with
    | completed c' g' rs os b =>
      obtain ⟨post, pre, he, hk, _⟩ := hh.mem ho
      by_cases hc : c' = c
      · subst hc
        have hg' : GroupOf st.log c' g' := by rw [he]; exact hk.2.1.add
        simp only [sDone, if_true, isCompletion, true_and, decide_eq_true_eq]
        rw [zip_countP hk.2.2.1.len (fun y => decide (y.uuid = x.uuid))]
        exact hh.exec_count hg hg' hx
      · simp [sDone, isCompletion, hc]
    | _ => simp [sDone, isCompletion]
  · rw [← skip_countP, h2]
    refine total_countP (fun o ho => ?_)
    cases o with
    | skipped c' g' =>
      by_cases hc : c' = c
      · subst hc
        simp only [sSkip, if_true, isSkip, true_and, decide_eq_true_eq]
        exact hh.exec_count hg (hh.skipped_groupOf ho) hx
      · simp [sSkip, isSkip, hc]
    | _ => simp [sSkip, isSkip]
  · rw [← start_countP, h3]
    refine total_countP (fun o ho => ?_)
    cases o with
    | out y =>
      cases y with
      | workerJob w c' g' k =>
        by_cases hc : c' = c
        · subst hc
          simp only [sStart, if_true, isJob, true_and, decide_eq_true_eq]
          exact hh.exec_count hg (hh.job_groupOf ho) hx
        · simp [sStart, isJob, hc]
      | _ => simp [sStart, isJob]
    | _ => simp [sStart, isJob]

/-- C40: an execution of a group that is scheduled once gets at most one final notification, and
exactly one if it is watched and its group ended. -/
theorem watched_execution_once {st : St} (h : Reachable st) {c dag cb g x}
    (ha : Asked st.log c dag cb) (hg : GroupOf st.log c g) (hx : x ∈ g.executions)
    (hw : x.uuid ∈ cb.executions) (h1 : RunsOnce g) :
    st.log.countP (isDoneMsg c x.uuid) + st.log.countP (isSkipMsg c x.uuid) =
      if 0 < termCount st.log c g.uuid then 1 else 0 := by
  obtain ⟨k1, k2, _⟩ := watched_execution_notified h ha hg hx hw
  rw [k1, k2]
  have hh := (reachable_aux h).hist
  have hle := hh.term_le hg
  rw [mult_le_one h1] at hle
  have hsum : st.log.countP (isCompletion c g) + st.log.countP (isSkip c g) =
      termCount st.log c g.uuid := by
    have : ∀ l : List Obs, (∀ o ∈ l, o ∈ st.log) →
        l.countP (isCompletion c g) + l.countP (isSkip c g) = l.countP (isTerm c g.uuid) := by
      intro l
      induction l with
      | nil => intro _; rfl
      | cons o l ih =>
        intro hm
        have i := ih (fun o ho => hm o (by simp [ho]))
        have e : (if isCompletion c g o = true then 1 else 0) + (if isSkip c g o = true then 1 else 0)
            = (if isTerm c g.uuid o = true then 1 else 0) := by
          cases o with
          | completed c' g' rs os b =>
            have hg' := hh.completed_groupOf (hm _ List.mem_cons_self)
            have : (c' = c ∧ g' = g) ↔ (c' = c ∧ g'.uuid = g.uuid) := by
              constructor
              · rintro ⟨rfl, rfl⟩; exact ⟨rfl, rfl⟩
              · rintro ⟨rfl, hu⟩; exact ⟨rfl, hh.group_unique hg' hg hu⟩
            simp [isCompletion, isSkip, isTerm, this]
          | skipped c' g' =>
            have hg' := hh.skipped_groupOf (hm _ List.mem_cons_self)
            have : (c' = c ∧ g' = g) ↔ (c' = c ∧ g'.uuid = g.uuid) := by
              constructor
              · rintro ⟨rfl, rfl⟩; exact ⟨rfl, rfl⟩
              · rintro ⟨rfl, hu⟩; exact ⟨rfl, hh.group_unique hg' hg hu⟩
            simp [isCompletion, isSkip, isTerm, this]
          | _ => simp [isCompletion, isSkip, isTerm]
        simp only [List.countP_cons]
        omega
    exact this st.log (fun _ h => h)
  rw [hsum]
  split <;> omega

/-- C40: an execution that is not watched is never mentioned. -/
theorem unwatched_execution_silent {st : St} (h : Reachable st) {c dag cb e}
    (ha : Asked st.log c dag cb) (hw : e ∉ cb.executions) :
    st.log.countP (isDoneMsg c e) = 0 ∧ st.log.countP (isSkipMsg c e) = 0 ∧
    st.log.countP (isStartMsg c e) = 0 := by
  obtain ⟨h1, h2, h3⟩ := reachable_notifE h c dag cb ha e
  rw [if_neg hw] at h1 h2 h3
  rw [← done_countP, ← skip_countP, ← start_countP]
  exact ⟨h1, h2, h3⟩

/-- C40, files: once a message is completely handled, a watched file produced by a group of a
connected client was delivered exactly each time the group was completed, marked with the outcome of
the group. -/
theorem watched_output_delivered {st : St} (h : Reachable st) (hst : st.stack = []) {c dag cb g f}
    (hc : Connected c st.log = true) (ha : Asked st.log c dag cb) (hg : GroupOf st.log c g)
    (hf : f ∈ g.outs) (hw : f ∈ cb.files) :
    st.log.countP (isFileMsg c f true) = st.log.countP (isOutcome c g true) ∧
    st.log.countP (isFileMsg c f false) = st.log.countP (isOutcome c g false) := by
  have hI := reachable_inv h
  have a := reachable_aux h
  have hh := a.hist
  obtain ⟨cl, hcl⟩ := a.connected hc
  obtain ⟨rfl, rfl⟩ := hI.client_dag hh hcl ha
  obtain ⟨h1, h2, h3⟩ := reachable_notifF h c cl hcl f
  rw [hst] at h1 h2 h3
  simp only [pend_nil, if_pos hw, Nat.add_zero] at h1 h2 h3
  refine ⟨?_, ?_⟩
  · rw [← ok_countP, h1]
    refine total_countP (fun o ho => ?_)
    cases o with
    | ev x =>
      cases x with
      | fileReady c' f' k =>
        have : ¬ (c' = c ∧ f' = f) := by
          rintro ⟨rfl, rfl⟩
          exact hh.not_provided hg hf ⟨k, ho⟩
        simp [sOk, isOutcome, this]
      | _ => simp [sOk, isOutcome]
    | completed c' g' rs os b =>
      by_cases hcc : c' = c
      · subst hcc
        have := hh.outs_count hg (hh.completed_groupOf ho) hf
        simp only [sOk, isOutcome, true_and, decide_eq_true_eq, this]
        by_cases hall : rs.all (fun r => r.status.isSuccess) = true <;> simp [hall]
      · simp [sOk, isOutcome, hcc]
    | _ => simp [sOk, isOutcome]
  · by_cases hsk : ∃ g', Obs.skipped c g' ∈ st.log ∧ f ∈ g'.outs
    · obtain ⟨g', hs, hf'⟩ := hsk
      have := hh.producer_unique hg (hh.skipped_groupOf hs) hf hf'
      subst this
      have z1 : st.log.countP (isOutcome c g false) = 0 := by
        rw [List.countP_eq_zero]
        intro o ho hp
        cases o with
        | completed c' g' rs os b =>
          simp [isOutcome] at hp
          obtain ⟨rfl, rfl, _⟩ := hp
          exact hh.not_both ho hs rfl
        | _ => simp [isOutcome] at hp
      have z2 : st.log.countP (isFileMsg c f false) = 0 := by
        rw [List.countP_eq_zero]
        intro o ho hp
        cases o with
        | out x =>
          cases x with
          | fileReady c' f' k s u =>
            simp [isFileMsg] at hp
            obtain ⟨rfl, rfl, rfl⟩ := hp
            obtain ⟨post, pre, he, hk, hpre⟩ := hh.mem ho
            have hkey := hk.2.2.1
            obtain ⟨g2, h2, hf2⟩ := hk.2.2.2.2 rfl
            -- the content comes from a completion of the producer
            have : ∃ g3 rs os b, Obs.completed c' g3 rs os b ∈ st.log ∧ f' ∈ g3.outs := by
              have key : ∀ l : List Obs, Hist l → keyOf c' f' l = some k →
                  (∃ k, Obs.ev (.fileReady c' f' k) ∈ l) ∨
                  ∃ g3 rs os b, Obs.completed c' g3 rs os b ∈ l ∧ f' ∈ g3.outs := by
                intro l
                induction l with
                | nil => intro _ h; cases h
                | cons o l ih =>
                  intro hl h
                  have lift : keyOf c' f' l = some k →
                      (∃ k, Obs.ev (.fileReady c' f' k) ∈ o :: l) ∨
                      ∃ g3 rs os b, Obs.completed c' g3 rs os b ∈ o :: l ∧ f' ∈ g3.outs := fun h' => (ih hl.2 h').imp
                    (fun ⟨k, hk⟩ => ⟨k, List.mem_cons_of_mem o hk⟩)
                    (fun ⟨g3, rs, os, b, h1, h2⟩ => ⟨g3, rs, os, b, List.mem_cons_of_mem o h1, h2⟩)
                  cases o with
                  | ev e =>
                    cases e with
                    | fileReady c2 f2 k2 =>
                      simp only [keyOf] at h
                      split at h
                      · next hq => obtain ⟨rfl, rfl⟩ := hq; exact Or.inl ⟨k2, by simp⟩
                      · exact lift h
                    | _ => exact lift h
                  | completed c2 g2 rs os b =>
                    simp only [keyOf] at h
                    split at h
                    · next hq =>
                      subst hq
                      split at h
                      · next k2 hk2 =>
                        exact Or.inr ⟨g2, rs, os, b, by simp,
                          (hl.1.2.2.1.outs f').1 (AMap.mem_keys_iff.2 ⟨_, hk2⟩)⟩
                      · exact lift h
                    · exact lift h
                  | _ => exact lift h
              rcases key pre hpre hkey with ⟨k2, hk2⟩ | ⟨g3, rs, os, b, h4, h5⟩
              · exact absurd ⟨k2, by rw [he]; simp [hk2]⟩ (hh.not_provided hg hf)
              · exact ⟨g3, rs, os, b, by rw [he]; simp [h4], h5⟩
            obtain ⟨g3, rs, os, b, h4, h5⟩ := this
            have := hh.producer_unique hg (hh.completed_groupOf h4) hf h5
            subst this
            exact hh.not_both h4 hs rfl
          | _ => simp [isFileMsg] at hp
        | _ => simp [isFileMsg] at hp
      rw [z1, z2]
    · have h4 := h3 hw (fun g' hg' hf' => hsk ⟨g', hg', hf'⟩)
      rw [← ko_countP, h4]
      refine total_countP (fun o ho => ?_)
      cases o with
      | completed c' g' rs os b =>
        by_cases hcc : c' = c
        · subst hcc
          have := hh.outs_count hg (hh.completed_groupOf ho) hf
          simp only [sKo, isOutcome, true_and, decide_eq_true_eq, this]
          by_cases hall : rs.all (fun r => r.status.isSuccess) = true <;> simp [hall]
        · simp [sKo, isOutcome, hcc]
      | skipped c' g' =>
        by_cases hcc : c' = c
        · subst hcc
          have : f ∉ g'.outs := fun hf' => hsk ⟨g', ho, hf'⟩
          simp [sKo, isOutcome, List.count_eq_zero.2 this]
        · simp [sKo, isOutcome, hcc]
      | _ => simp [sKo, isOutcome]

/-- C40: an output of a group scheduled once is delivered at most once in all. -/
theorem output_delivered_once {st : St} (h : Reachable st) (hst : st.stack = []) {c dag cb g f}
    (hc : Connected c st.log = true) (ha : Asked st.log c dag cb) (hg : GroupOf st.log c g)
    (hf : f ∈ g.outs) (hw : f ∈ cb.files) (h1 : RunsOnce g) :
    st.log.countP (isFileMsg c f true) + st.log.countP (isFileMsg c f false) ≤ 1 := by
  obtain ⟨k1, k2⟩ := watched_output_delivered h hst hc ha hg hf hw
  rw [k1, k2]
  have hle := (reachable_aux h).hist.term_le hg
  rw [mult_le_one h1] at hle
  have : ∀ l : List Obs, l.countP (isOutcome c g true) + l.countP (isOutcome c g false) ≤
      termCount l c g.uuid := by
    intro l
    induction l with
    | nil => simp [termCount]
    | cons o l ih =>
      have e : (if isOutcome c g true o = true then 1 else 0) +
          (if isOutcome c g false o = true then 1 else 0) ≤
          (if isTerm c g.uuid o = true then 1 else 0) := by
        cases o with
        | completed c' g' rs os b =>
          by_cases hcc : c' = c ∧ g' = g
          · obtain ⟨rfl, rfl⟩ := hcc
            by_cases hall : rs.all (fun r => r.status.isSuccess) = true
            · simp [isOutcome, isTerm, hall]
            · simp only [Bool.not_eq_true] at hall; simp [isOutcome, isTerm, hall]
          · have n : ∀ s, isOutcome c g s (.completed c' g' rs os b) = false := by
              intro s
              simp only [isOutcome, decide_eq_false_iff_not]
              exact fun hx => hcc ⟨hx.1, hx.2.1⟩
            simp [n]
        | _ => simp [isOutcome]
      unfold termCount at *
      simp only [List.countP_cons]
      omega
  have := this st.log
  omega

/-- C40: a watched provided file is delivered exactly each time the client provides it. -/
theorem watched_provided_delivered {st : St} (h : Reachable st) (hst : st.stack = []) {c dag cb f}
    (hc : Connected c st.log = true) (ha : Asked st.log c dag cb) (hf : f ∈ dag.providedFiles.keys)
    (hw : f ∈ cb.files) :
    st.log.countP (isFileMsg c f true) = st.log.countP (isProvision c f) ∧
    st.log.countP (isFileMsg c f false) = 0 := by
  have hI := reachable_inv h
  have a := reachable_aux h
  have hh := a.hist
  obtain ⟨cl, hcl⟩ := a.connected hc
  obtain ⟨rfl, rfl⟩ := hI.client_dag hh hcl ha
  obtain ⟨h1, h2, h3⟩ := reachable_notifF h c cl hcl f
  rw [hst] at h1 h2 h3
  simp only [pend_nil, if_pos hw, Nat.add_zero] at h1 h2 h3
  have hno : ∀ g, GroupOf st.log c g → g.outs.count f = 0 := by
    intro g hg
    rw [List.count_eq_zero]
    intro hm
    obtain ⟨d, b, h5, h6⟩ := hg
    have := (hh.asked_unique ha h5).1
    subst this
    have hwf := (hh.wellFormed ha).files
    unfold allFiles at hwf
    exact (List.nodup_append.1 hwf).2.2 f
      (List.mem_flatMap.2 ⟨_, AMap.mem_of_get? h6, hm⟩) f hf rfl
  refine ⟨?_, ?_⟩
  · rw [← ok_countP, h1]
    refine total_countP (fun o ho => ?_)
    cases o with
    | ev x => cases x <;> simp [sOk, isProvision]
    | completed c' g rs os b =>
      by_cases hcc : c' = c
      · subst hcc; simp [sOk, isProvision, hno g (hh.completed_groupOf ho)]
      · simp [sOk, isProvision, hcc]
    | _ => simp [sOk, isProvision]
  · have hz : total (sKo c f) st.log = 0 := total_zero (fun o ho => by
      cases o with
      | completed c' g rs os b =>
        by_cases hcc : c' = c
        · subst hcc; simp [sKo, hno g (hh.completed_groupOf ho)]
        · simp [sKo, hcc]
      | skipped c' g =>
        by_cases hcc : c' = c
        · subst hcc; simp [sKo, hno g (hh.skipped_groupOf ho)]
        · simp [sKo, hcc]
      | _ => simp [sKo])
    rw [← ko_countP]
    omega

/-! ### The hypotheses are met -/

/-- After the whole evaluation of `demoDag`: three watched executions done, file 1 delivered once. -/
example : ∃ st, Reachable st ∧ st.stack = [] ∧ Connected 1 st.log = true ∧
    Asked st.log 1 demoDag demoCb ∧ GroupOf st.log 1 gen ∧ (1 : FileUuid) ∈ gen.outs ∧
    1 ∈ demoCb.files ∧ RunsOnce gen ∧ st.log.countP (isFileMsg 1 1 true) = 1 ∧
    st.log.countP (isDoneMsg 1 101) = 1 :=
  ⟨after noCache demoRun, (after_reachable _ _).1, (after_reachable _ _).2, by decide,
    by unfold Asked; decide, ⟨demoDag, demoCb, by unfold Asked; decide, rfl⟩, by decide, by decide,
    Or.inr rfl, by decide, by decide⟩

/-- When the generator fails its output is delivered as failed and the rest is skipped. -/
example : ∃ st, Reachable st ∧ st.stack = [] ∧ Connected 1 st.log = true ∧
    st.log.countP (isFileMsg 1 1 false) = 1 ∧ st.log.countP (isSkipMsg 1 101) = 1 ∧
    st.log.countP (isFileMsg 1 3 false) = 0 :=
  ⟨after noCache demoFail, (after_reachable _ _).1, (after_reachable _ _).2, by decide, by decide,
    by decide, by decide⟩

end TM.Sched
