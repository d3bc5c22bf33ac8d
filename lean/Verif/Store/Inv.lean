import Verif.Store.FlushLemmas
import Verif.Store.Spec
/-!
The invariant of the store and its preservation by every step.
-/

namespace TM.Store

open TM

/-- `ref_counts` is exact. -/
def RefsExact (refs : AMap Key Nat) (handles : List Handle) : Prop :=
  ∀ k, refs.get? k = if live handles k = 0 then none else some (live handles k)

/-- The invariant. -/
structure Inv (s : State) : Prop where
  ids : (s.handles.map (·.id)).Nodup
  refs : RefsExact s.refs s.handles
  threads : AMap.Wf s.threads
  flight : ∀ t k c hid st, s.threads.get? t = some (.storing k c hid st) →
    (⟨hid, k, false⟩ : Handle) ∈ s.handles
  flightInj : ∀ t t' k k' c c' hid st st', s.threads.get? t = some (.storing k c hid st) →
    s.threads.get? t' = some (.storing k' c' hid st') → t = t'
  index : s.index.Ok
  saved : ∀ ix, s.saved = some ix → ix.Ok
  placed : ∀ t k c hid st, s.threads.get? t = some (.storing k c hid st) →
    st = .renamed ∨ st = .indexed → Visible s k
  valid : ∀ h ∈ s.handles, h.fromGet = false →
    (∀ t k c st, s.threads.get? t ≠ some (.storing k c h.id st)) → Visible s h.key

theorem incRef_exact {refs : AMap Key Nat} {hs : List Handle} (h : RefsExact refs hs) (x : Handle) :
    RefsExact (incRef refs x.key) (x :: hs) := by
  intro k
  unfold incRef
  rw [AMap.get?_insert, h x.key, h k]
  by_cases e : k = x.key
  · subst e
    have : live (x :: hs) x.key = live hs x.key + 1 := by simp [live]
    rw [this]
    by_cases h0 : live hs x.key = 0 <;> simp [h0]
  · have : live (x :: hs) k = live hs k := by
      have : ¬ x.key = k := fun h => e h.symm
      simp [live, this]
    rw [this, if_neg e]

theorem live_remove {hs : List Handle} (hn : (hs.map (·.id)).Nodup) {h : Handle} (hm : h ∈ hs)
    (k : Key) : live hs k = live (hs.filter (fun x => decide (x.id ≠ h.id))) k +
      (if h.key = k then 1 else 0) := by
  induction hs with
  | nil => cases hm
  | cons a hs ih =>
    simp only [List.map_cons, List.nodup_cons] at hn
    rcases List.mem_cons.1 hm with rfl | hm
    · have : (h :: hs).filter (fun x => decide (x.id ≠ h.id)) = hs := by
        simp only [List.filter_cons, ne_eq, not_true_eq_false, decide_false, Bool.false_eq_true,
          if_false]
        rw [List.filter_eq_self]
        intro x hx
        simp only [decide_eq_true_eq]
        intro e
        exact hn.1 (List.mem_map.2 ⟨x, hx, e⟩)
      rw [this]
      simp [live, List.countP_cons]
    · have hne : a.id ≠ h.id := by
        intro e; exact hn.1 (e ▸ List.mem_map.2 ⟨h, hm, rfl⟩)
      have := ih hn.2 hm
      simp only [List.filter_cons, ne_eq, hne, not_false_eq_true, decide_true, if_true, live,
        List.countP_cons] at this ⊢
      omega

theorem mem_live {hs : List Handle} {h : Handle} (hm : h ∈ hs) : live hs h.key ≠ 0 := by
  have : 0 < live hs h.key := List.countP_pos_iff.2 ⟨h, hm, by simp⟩
  omega

theorem decRef_exact {refs : AMap Key Nat} {hs : List Handle} (hr : RefsExact refs hs)
    (hn : (hs.map (·.id)).Nodup) {h : Handle} (hm : h ∈ hs) :
    ∃ refs', decRef refs h.key = some refs' ∧
      RefsExact refs' (hs.filter (fun x => decide (x.id ≠ h.id))) := by
  have h0 := hr h.key
  rw [if_neg (mem_live hm)] at h0
  have hl := live_remove hn hm
  unfold decRef
  rw [h0]
  simp only
  have h1 := hl h.key
  rw [if_pos rfl] at h1
  have h2 : ∀ k, k ≠ h.key →
      live hs k = live (hs.filter (fun x => decide (x.id ≠ h.id))) k := by
    intro k e
    have := hl k
    rw [if_neg (fun e' => e e'.symm)] at this
    exact this
  split
  · next hz =>
    refine ⟨_, rfl, fun k => ?_⟩
    rw [AMap.get?_erase, hr k]
    by_cases e : k = h.key
    · subst e
      rw [if_pos rfl, if_pos (by omega)]
    · rw [if_neg e, h2 k e]
  · next hz =>
    refine ⟨_, rfl, fun k => ?_⟩
    rw [AMap.get?_insert, hr k]
    by_cases e : k = h.key
    · subst e
      rw [if_pos rfl, if_neg (by omega)]
      congr 1
      omega
    · rw [if_neg e, h2 k e]

theorem handle_unique {hs : List Handle} (hn : (hs.map (·.id)).Nodup) {a b : Handle}
    (ha : a ∈ hs) (hb : b ∈ hs) (e : a.id = b.id) : a = b := by
  induction hs with
  | nil => cases ha
  | cons x hs ih =>
    simp only [List.map_cons, List.nodup_cons] at hn
    rcases List.mem_cons.1 ha with ea | ha <;> rcases List.mem_cons.1 hb with eb | hb
    · rw [ea, eb]
    · exact absurd (List.mem_map.2 ⟨b, hb, ea ▸ e.symm⟩) hn.1
    · exact absurd (List.mem_map.2 ⟨a, ha, eb ▸ e⟩) hn.1
    · exact ih hn.2 ha hb

theorem locked_iff {s : State} (h : Inv s) (k : Key) :
    s.locked k = true ↔ ∃ x ∈ s.handles, x.key = k := by
  unfold State.locked
  rw [h.refs k]
  by_cases e : live s.handles k = 0
  · simp only [e, if_true, Option.isSome_none, Bool.false_eq_true, false_iff]
    rintro ⟨x, hx, rfl⟩
    exact mem_live hx e
  · simp only [e, if_false, Option.isSome_some, true_iff]
    have : 0 < live s.handles k := by omega
    obtain ⟨x, hx, hk⟩ := List.countP_pos_iff.1 this
    exact ⟨x, hx, by simpa using hk⟩

theorem get?_filter {m : AMap Key Content} (P : Key → Prop) [DecidablePred P] (k : Key) :
    AMap.get? (m.filter (fun p => decide (P p.1))) k = if P k then m.get? k else none := by
  induction m with
  | nil => simp
  | cons q m ih =>
    obtain ⟨a, b⟩ := q
    by_cases hp : P a
    · simp only [List.filter_cons, hp, decide_true, if_true, AMap.get?_cons, ih]
      by_cases e : a = k
      · subst e; simp [hp]
      · simp [e]
    · simp only [List.filter_cons, hp, decide_false, Bool.false_eq_true, if_false, ih,
        AMap.get?_cons]
      by_cases e : a = k
      · subst e; simp [hp]
      · simp [e]

theorem get?_removeFiles (disk : AMap Key Content) (removed undeletable : List Key) (k : Key) :
    (removeFiles disk removed undeletable).get? k =
      if k ∉ removed ∨ k ∈ undeletable then disk.get? k else none :=
  get?_filter (fun k => k ∉ removed ∨ k ∈ undeletable) k

/-- What `maybeFlush` changes. -/
theorem maybeFlush_frame (s : State) (u : List Key) :
    (s.maybeFlush u).handles = s.handles ∧ (s.maybeFlush u).refs = s.refs ∧
    (s.maybeFlush u).threads = s.threads ∧ (s.maybeFlush u).saved = s.saved ∧
    (s.maybeFlush u).maxSize = s.maxSize ∧ (s.maybeFlush u).minSize = s.minSize := by
  unfold State.maybeFlush; split <;> simp

theorem maybeFlush_index {s : State} (h : s.index.Ok) (u : List Key) : (s.maybeFlush u).index.Ok := by
  unfold State.maybeFlush; split
  · exact flush_ok h _ _
  · exact h

/-- A flush keeps the locked files, whatever is undeletable. -/
theorem maybeFlush_locked {s : State} {k : Key} (hl : s.locked k = true) (u : List Key) :
    (s.maybeFlush u).disk.get? k = s.disk.get? k := by
  unfold State.maybeFlush; split
  · simp only [get?_removeFiles]
    rw [if_pos]
    left
    intro hr
    have := ((flushLoop_removed s.locked s.minSize s.index.total _).1 k hr).1
    simp [hl] at this
  · rfl

theorem inv_init (a b : Nat) : Inv { maxSize := a, minSize := b } := by
  constructor <;> simp [RefsExact, live, AMap.Wf, AMap.keys]
  exact ⟨by simp [AMap.Wf, AMap.keys], rfl⟩

theorem inv_reopen {s : State} (hs : ∀ ix, s.saved = some ix → ix.Ok) (v : Bool) :
    Inv (s.reopen v) := by
  have hempty : Index.Ok {} := ⟨by simp [AMap.Wf, AMap.keys], rfl⟩
  constructor <;> simp [State.reopen, RefsExact, live, AMap.Wf, AMap.keys]
  · split
    · cases h : s.saved with
      | none => exact hempty
      | some ix => exact hs ix h
    · exact hempty
  · exact hs

theorem inv_maybeFlush {s : State} (h : Inv s) (u : List Key) : Inv (s.maybeFlush u) := by
  obtain ⟨e1, e2, e3, e4, _, _⟩ := maybeFlush_frame s u
  have vis : ∀ x ∈ s.handles, Visible s x.key → Visible (s.maybeFlush u) x.key := by
    rintro x hx ⟨c, hc⟩
    exact ⟨c, by rw [maybeFlush_locked ((locked_iff h _).2 ⟨x, hx, rfl⟩)]; exact hc⟩
  refine ⟨by rw [e1]; exact h.ids, by rw [e1, e2]; exact h.refs, by rw [e3]; exact h.threads,
    by rw [e1, e3]; exact h.flight, by rw [e3]; exact h.flightInj, maybeFlush_index h.index u,
    by rw [e4]; exact h.saved, ?_, ?_⟩
  · intro t k c hid st ht hst
    rw [e3] at ht
    exact vis _ (h.flight t k c hid st ht) (h.placed t k c hid st ht hst)
  · intro x hx hg ht
    rw [e1] at hx
    rw [e3] at ht
    exact vis x hx (h.valid x hx hg ht)

theorem find_mem {hs : List Handle} {hid : Nat} {h : Handle}
    (hf : hs.find? (fun h => decide (h.id = hid)) = some h) : h ∈ hs ∧ h.id = hid :=
  ⟨List.mem_of_find?_eq_some hf, by simpa using List.find?_some hf⟩

theorem fresh_iff {s : State} {hid : Nat} : s.fresh hid = true ↔ ∀ h ∈ s.handles, h.id ≠ hid := by
  simp [State.fresh]

theorem inv_newHandle {s : State} (h : Inv s) {hid : Nat} (hf : s.fresh hid = true) (k : Key)
    (g : Bool) (hv : g = false → Visible s k) : Inv (s.newHandle hid k g) := by
  rw [fresh_iff] at hf
  refine ⟨?_, incRef_exact h.refs ⟨hid, k, g⟩, h.threads, ?_, h.flightInj, h.index, h.saved,
    h.placed, ?_⟩
  · simp only [State.newHandle, List.map_cons, List.nodup_cons]
    refine ⟨?_, h.ids⟩
    rintro hm
    obtain ⟨x, hx, e⟩ := List.mem_map.1 hm
    exact hf x hx e
  · intro t k' c hid' st ht
    exact List.mem_cons_of_mem _ (h.flight t k' c hid' st ht)
  · intro x hx hg ht
    rcases List.mem_cons.1 hx with rfl | hx
    · exact hv hg
    · exact h.valid x hx hg ht

theorem inv_dropHandle {s s' : State} (h : Inv s) {x : Handle} (hm : x ∈ s.handles)
    (hfl : ∀ t k c st, s.threads.get? t ≠ some (.storing k c x.id st))
    (hd : s.dropHandle x = some s') : Inv s' := by
  obtain ⟨refs', hr, hex⟩ := decRef_exact h.refs h.ids hm
  simp only [State.dropHandle, hr, Option.map_some, Option.some.injEq] at hd
  subst hd
  refine ⟨?_, hex, h.threads, ?_, h.flightInj, h.index, h.saved, h.placed, ?_⟩
  · exact List.Nodup.sublist (List.Sublist.map _ List.filter_sublist) h.ids
  · intro t k c hid st ht
    refine List.mem_filter.2 ⟨h.flight t k c hid st ht, ?_⟩
    simp only [decide_eq_true_eq]
    intro e
    exact hfl t k c st (by rw [← e]; exact ht)
  · intro y hy hg ht
    exact h.valid y (List.mem_filter.1 hy).1 hg ht

/-- Removing an entry from the threads. -/
theorem inv_eraseThread {s : State} (h : Inv s) (t : Nat)
    (hv : ∀ k c hid st, s.threads.get? t = some (.storing k c hid st) → Visible s k) :
    Inv { s with threads := s.threads.erase t } := by
  have sub : ∀ t' j, (s.threads.erase t).get? t' = some j → s.threads.get? t' = some j := by
    intro t' j hj
    rw [AMap.get?_erase] at hj
    split at hj
    · cases hj
    · exact hj
  refine ⟨h.ids, h.refs, AMap.wf_erase h.threads _, ?_, ?_, h.index, h.saved, ?_, ?_⟩
  · exact fun t' k c hid st ht => h.flight t' k c hid st (sub _ _ ht)
  · exact fun t1 t2 k k' c c' hid st st' h1 h2 =>
      h.flightInj t1 t2 k k' c c' hid st st' (sub _ _ h1) (sub _ _ h2)
  · exact fun t' k c hid st ht => h.placed t' k c hid st (sub _ _ ht)
  · intro x hx hg ht
    by_cases hx' : ∃ k c st, s.threads.get? t = some (.storing k c x.id st)
    · obtain ⟨k, c, st, e⟩ := hx'
      have hm := h.flight t k c x.id st e
      have : x = ⟨x.id, k, false⟩ := handle_unique h.ids hx hm rfl
      rw [this]
      exact hv k c x.id st e
    · refine h.valid x hx hg (fun t' k c st e => ?_)
      by_cases ett : t' = t
      · subst ett; exact hx' ⟨k, c, st, e⟩
      · exact ht t' k c st (by
          show (s.threads.erase t).get? t' = _
          rw [AMap.get?_erase_ne _ ett]; exact e)

/-- Advancing a running `store` (or recording the start of a `get`). -/
theorem inv_setThread {s : State} (h : Inv s) (t : Nat) (j : Job)
    (hj : ∀ k c hid st, j = .storing k c hid st →
      (∃ c' st', s.threads.get? t = some (.storing k c' hid st')) ∧
      (st = .renamed ∨ st = .indexed → Visible s k))
    (hg : ∀ k b, j = .getting k b → ∀ k' c hid st, s.threads.get? t ≠ some (.storing k' c hid st)) :
    Inv { s with threads := s.threads.insert t j } := by
  have look : ∀ t' k c hid st, (s.threads.insert t j).get? t' = some (.storing k c hid st) →
      (t' = t ∧ j = .storing k c hid st) ∨ (t' ≠ t ∧ s.threads.get? t' = some (.storing k c hid st)) := by
    intro t' k c hid st hh
    rw [AMap.get?_insert] at hh
    split at hh
    · next e => exact Or.inl ⟨e, by simpa using hh⟩
    · next e => exact Or.inr ⟨e, hh⟩
  refine ⟨h.ids, h.refs, AMap.wf_insert h.threads _ _, ?_, ?_, h.index, h.saved, ?_, ?_⟩
  · intro t' k c hid st ht
    rcases look _ _ _ _ _ ht with ⟨_, e⟩ | ⟨_, e⟩
    · obtain ⟨⟨c', st', e'⟩, _⟩ := hj _ _ _ _ e
      exact h.flight t k c' hid st' e'
    · exact h.flight _ _ _ _ _ e
  · intro t1 t2 k k' c c' hid st st' h1 h2
    rcases look _ _ _ _ _ h1 with ⟨a1, e1⟩ | ⟨a1, e1⟩ <;>
      rcases look _ _ _ _ _ h2 with ⟨a2, e2⟩ | ⟨a2, e2⟩
    · rw [a1, a2]
    · obtain ⟨⟨_, _, e'⟩, _⟩ := hj _ _ _ _ e1
      exact absurd (h.flightInj _ _ _ _ _ _ _ _ _ e2 e') a2
    · obtain ⟨⟨_, _, e'⟩, _⟩ := hj _ _ _ _ e2
      exact absurd (h.flightInj _ _ _ _ _ _ _ _ _ e1 e') a1
    · exact h.flightInj _ _ _ _ _ _ _ _ _ e1 e2
  · intro t' k c hid st ht hst
    rcases look _ _ _ _ _ ht with ⟨_, e⟩ | ⟨_, e⟩
    · exact (hj _ _ _ _ e).2 hst
    · exact h.placed _ _ _ _ _ e hst
  · intro x hx hgx ht
    refine h.valid x hx hgx (fun t' k c st e => ?_)
    by_cases ett : t' = t
    · subst ett
      cases j with
      | getting k' b => exact hg k' b rfl _ _ _ _ e
      | storing k' c' hid' st' =>
        obtain ⟨⟨c'', st'', e'⟩, _⟩ := hj _ _ _ _ rfl
        rw [e] at e'
        cases e'
        exact ht t' _ c' st' (AMap.get?_insert_self _ _ _)
    · exact ht t' k c st (by
        show (s.threads.insert t j).get? t' = _
        rw [AMap.get?_insert_ne _ _ ett]; exact e)

/-- Writing a file. -/
theorem inv_rename {s : State} (h : Inv s) (k : Key) (c : Content) :
    Inv { s with disk := s.disk.insert k c } := by
  have vis : ∀ k', Visible s k' → Visible { s with disk := s.disk.insert k c } k' := by
    rintro k' ⟨c', hc'⟩
    unfold Visible
    rw [AMap.get?_insert]
    split
    · exact ⟨c, rfl⟩
    · exact ⟨c', hc'⟩
  exact ⟨h.ids, h.refs, h.threads, h.flight, h.flightInj, h.index, h.saved,
    fun t k' c' hid st ht hst => vis _ (h.placed t k' c' hid st ht hst),
    fun x hx hg ht => vis _ (h.valid x hx hg ht)⟩

theorem inv_index {s : State} (h : Inv s) {ix : Index} (hx : ix.Ok) : Inv { s with index := ix } :=
  ⟨h.ids, h.refs, h.threads, h.flight, h.flightInj, hx, h.saved, h.placed, h.valid⟩

theorem inv_save {s : State} (h : Inv s) : Inv { s with saved := some s.index } :=
  ⟨h.ids, h.refs, h.threads, h.flight, h.flightInj, h.index,
    fun ix e => by simp at e; exact e ▸ h.index, h.placed, h.valid⟩

theorem inFlight_false {s : State} {hid : Nat} (hf : s.inFlight hid = false)
    (t : Nat) (k : Key) (c : Content) (st : Stage) :
    s.threads.get? t ≠ some (.storing k c hid st) := by
  intro e
  have := AMap.mem_of_get? e
  simp only [State.inFlight, List.any_eq_false] at hf
  have := hf _ this
  simp at this

theorem inv_begin {s : State} (h : Inv s) {t hid : Nat} (ht : s.threads.get? t = none)
    (hf : s.fresh hid = true) (k : Key) (c : Content) :
    Inv { s.newHandle hid k false with
        threads := s.threads.insert t (.storing k c hid .begun) } := by
  rw [fresh_iff] at hf
  have look : ∀ t' k' c' hid' st,
      (s.threads.insert t (.storing k c hid .begun)).get? t' = some (.storing k' c' hid' st) →
      (t' = t ∧ k' = k ∧ c' = c ∧ hid' = hid ∧ st = .begun) ∨
      (t' ≠ t ∧ s.threads.get? t' = some (.storing k' c' hid' st)) := by
    intro t' k' c' hid' st hh
    rw [AMap.get?_insert] at hh
    split at hh
    · next e => cases hh; exact Or.inl ⟨e, rfl, rfl, rfl, rfl⟩
    · next e => exact Or.inr ⟨e, hh⟩
  refine ⟨?_, incRef_exact h.refs ⟨hid, k, false⟩, AMap.wf_insert h.threads _ _, ?_, ?_, h.index,
    h.saved, ?_, ?_⟩
  · simp only [State.newHandle, List.map_cons, List.nodup_cons]
    refine ⟨?_, h.ids⟩
    rintro hm
    obtain ⟨x, hx, e⟩ := List.mem_map.1 hm
    exact hf x hx e
  · intro t' k' c' hid' st hh
    rcases look _ _ _ _ _ hh with ⟨_, rfl, rfl, rfl, rfl⟩ | ⟨_, e⟩
    · exact List.mem_cons_self ..
    · exact List.mem_cons_of_mem _ (h.flight _ _ _ _ _ e)
  · intro t1 t2 k1 k2 c1 c2 hd st st' h1 h2
    rcases look _ _ _ _ _ h1 with ⟨a1, _, _, e1, _⟩ | ⟨a1, e1⟩ <;>
      rcases look _ _ _ _ _ h2 with ⟨a2, _, _, e2, _⟩ | ⟨a2, e2⟩
    · rw [a1, a2]
    · subst e1; exact absurd rfl (hf _ (h.flight _ _ _ _ _ e2))
    · subst e2; exact absurd rfl (hf _ (h.flight _ _ _ _ _ e1))
    · exact h.flightInj _ _ _ _ _ _ _ _ _ e1 e2
  · intro t' k' c' hid' st hh hst
    rcases look _ _ _ _ _ hh with ⟨_, rfl, rfl, rfl, rfl⟩ | ⟨_, e⟩
    · simp at hst
    · exact h.placed _ _ _ _ _ e hst
  · intro x hx hg hh
    rcases List.mem_cons.1 hx with rfl | hx
    · exact absurd (AMap.get?_insert_self _ _ _) (hh t k c .begun)
    · refine h.valid x hx hg (fun t' k' c' st e => ?_)
      by_cases ett : t' = t
      · subst ett; rw [ht] at e; cases e
      · exact hh t' k' c' st (by
          show (s.threads.insert t _).get? t' = _
          rw [AMap.get?_insert_ne _ _ ett]; exact e)

theorem inv_step {s s' : State} (h : Inv s) {op : Op} (hs : step s op = some s') : Inv s' := by
  cases op with
  | storeBegin t hid key content =>
    simp only [step] at hs
    split at hs
    · next hc =>
      cases hs
      exact inv_begin h (by simpa using hc.1) hc.2 key content
    · cases hs
  | storeCheck t =>
    simp only [step] at hs
    split at hs
    · next key content hid ht =>
      split at hs
      · next hv =>
        cases hs
        refine inv_eraseThread h t ?_
        intro k c hid' st e
        rw [ht] at e; cases e
        exact Option.isSome_iff_exists.1 hv
      · cases hs
        refine inv_setThread h t _ ?_ (by intro k b e; cases e)
        intro k c hid' st e
        cases e
        exact ⟨⟨_, _, ht⟩, by simp⟩
    · cases hs
  | storeRename t =>
    simp only [step] at hs
    split at hs
    · next key content hid ht =>
      cases hs
      refine inv_setThread (inv_rename h key content) t _ ?_ (by intro k b e; cases e)
      intro k c hid' st e
      cases e
      exact ⟨⟨_, _, ht⟩, fun _ => ⟨content, AMap.get?_insert_self _ _ _⟩⟩
    · cases hs
  | storeIndex t now u =>
    simp only [step] at hs
    split at hs
    · next key content hid ht =>
      split at hs
      · next c hc =>
        cases hs
        refine inv_maybeFlush (s := { s with
          index := s.index.add key c.length now
          threads := s.threads.insert t (.storing key content hid .indexed) }) ?_ u
        refine inv_setThread (inv_index h (add_ok h.index key c.length now)) t _ ?_
          (by intro k b e; cases e)
        intro k c' hid' st e
        cases e
        exact ⟨⟨_, _, ht⟩, fun _ => ⟨c, hc⟩⟩
      · cases hs
    · cases hs
  | storeSave t =>
    simp only [step] at hs
    split at hs
    · next key content hid ht =>
      cases hs
      refine inv_eraseThread (inv_save h) t ?_
      intro k c hid' st e
      exact h.placed t k c hid' st e (by
        have : s.threads.get? t = some (.storing k c hid' st) := e
        rw [ht] at this; cases this; exact Or.inr rfl)
    · cases hs
  | storeFail t =>
    simp only [step] at hs
    split at hs
    · next key content hid st ht =>
      split at hs
      · next x hx =>
        obtain ⟨hm, hid'⟩ := find_mem hx
        -- drop the handle first, then forget the thread
        obtain ⟨refs', hr, hex⟩ := decRef_exact h.refs h.ids hm
        simp only [State.dropHandle, hr, Option.map_some, Option.some.injEq] at hs
        subst hs
        have sub : ∀ t' j, (s.threads.erase t).get? t' = some j →
            t' ≠ t ∧ s.threads.get? t' = some j := by
          intro t' j hj
          rw [AMap.get?_erase] at hj
          split at hj
          · cases hj
          · next e => exact ⟨e, hj⟩
        refine ⟨?_, hex, AMap.wf_erase h.threads _, ?_, ?_, h.index, h.saved, ?_, ?_⟩
        · exact List.Nodup.sublist (List.Sublist.map _ List.filter_sublist) h.ids
        · intro t' k c hid'' st' hh
          obtain ⟨hne, e⟩ := sub _ _ hh
          refine List.mem_filter.2 ⟨h.flight _ _ _ _ _ e, ?_⟩
          simp only [decide_eq_true_eq]
          intro e'
          rw [hid'] at e'
          subst e'
          exact hne (h.flightInj _ _ _ _ _ _ _ _ _ e ht)
        · intro t1 t2 k1 k2 c1 c2 hd st1 st2 h1 h2
          exact h.flightInj _ _ _ _ _ _ _ _ _ (sub _ _ h1).2 (sub _ _ h2).2
        · intro t' k c hid'' st' hh hst
          exact h.placed _ _ _ _ _ (sub _ _ hh).2 hst
        · intro y hy hg hh
          obtain ⟨hy1, hy2⟩ := List.mem_filter.1 hy
          simp only [decide_eq_true_eq] at hy2
          refine h.valid y hy1 hg (fun t' k c st' e => ?_)
          by_cases ett : t' = t
          · subst ett
            rw [ht] at e
            cases e
            exact hy2 hid'.symm
          · exact hh t' k c st' (by
              show (s.threads.erase t).get? t' = _
              rw [AMap.get?_erase_ne _ ett]; exact e)
      · cases hs
    · cases hs
  | getCheck t key =>
    simp only [step] at hs
    split at hs
    · next hc =>
      cases hs
      refine inv_setThread h t _ (by intro k c hid st e; cases e) ?_
      intro k b e k' c hid st e'
      have : s.threads.get? t = none := by simpa using hc.1
      rw [this] at e'; cases e'
    · cases hs
  | getTouch t now =>
    simp only [step] at hs
    split at hs
    · next key ht =>
      cases hs
      refine inv_setThread (inv_index h (touch_ok h.index key now)) t _
        (by intro k c hid st e; cases e) ?_
      intro k b e k' c hid st e'
      have e'' : s.threads.get? t = some (.storing k' c hid st) := e'
      rw [ht] at e''; cases e''
    · cases hs
  | getFinish t hid =>
    simp only [step] at hs
    split at hs
    · next key ht =>
      split at hs
      · next hf =>
        cases hs
        have h1 := inv_newHandle h hf key true (by simp)
        have := inv_eraseThread h1 t (by
          intro k c hid' st e
          have e' : s.threads.get? t = some (.storing k c hid' st) := e
          rw [ht] at e'; cases e')
        exact this
      · cases hs
    · cases hs
  | clone hid hid' =>
    simp only [step] at hs
    split at hs
    · next x hx =>
      split at hs
      · next hf =>
        cases hs
        obtain ⟨hm, hid⟩ := find_mem hx
        subst hid
        exact inv_newHandle h hf.2 x.key x.fromGet
          (fun hg => h.valid x hm hg (inFlight_false (by simpa using hf.1)))
      · cases hs
    · cases hs
  | dropHandle hid =>
    simp only [step] at hs
    split at hs
    · next x hx =>
      obtain ⟨hm, hid⟩ := find_mem hx
      split at hs
      · cases hs
      · next hf =>
        subst hid
        exact inv_dropHandle h hm (inFlight_false (by simpa using hf)) hs
    · cases hs
  | close u v =>
    simp only [step, Option.some.injEq] at hs
    subst hs
    exact inv_reopen (inv_save (inv_maybeFlush h u)).saved v
  | crash v =>
    simp only [step, Option.some.injEq] at hs
    subst hs
    exact inv_reopen h.saved v
  | flushCrash t now n u v =>
    simp only [step] at hs
    split at hs
    · split at hs
      · split at hs
        · cases hs
          refine inv_reopen ?_ v; exact h.saved
        · cases hs
      · cases hs
    · cases hs

end TM.Store
