import Verif.Store.AccLemmas
import Verif.Store.PropsFiles
/-!
# The size of the store and eviction: C22, C23, C43
-/

namespace TM.Store

open TM

/-! ## C22: the size of the store -/

/-- The recorded total is always the sum of the recorded sizes, each file being recorded once. -/
theorem total_is_sum {a b : Nat} {ops : List Op} {s : State} (hr : Reach a b ops s) :
    s.index.total = (s.index.known.map (fun p => p.2.size)).sum ∧
    (s.index.known.map (·.1)).Nodup :=
  ⟨(reach_inv hr).index.total, (reach_inv hr).index.wf⟩

/-- The same of the index saved on disk, at every crash point. -/
theorem saved_total_is_sum {a b : Nat} {ops : List Op} {s : State} (hr : Reach a b ops s)
    {ix : Index} (h : s.saved = some ix) :
    ix.total = (ix.known.map (fun p => p.2.size)).sum ∧ (ix.known.map (·.1)).Nodup :=
  ⟨((reach_inv hr).saved ix h).total, ((reach_inv hr).saved ix h).wf⟩

/-- When a `store` has recorded its file (and flushed), either the total is below the maximum, or
it is at most the target, or every recorded file is in use. -/
theorem store_bounds_total {a b : Nat} {ops : List Op} {s s' : State} (hr : Reach a b ops s)
    {t now : Nat} {u : List Key} (hs : step s (.storeIndex t now u) = some s') :
    s'.index.total < s'.maxSize ∨ s'.index.total ≤ s'.minSize ∨
      ∀ p ∈ s'.index.known, Held s' p.1 := by
  have hr' := Reach.step _ hr hs
  have hi' := reach_inv hr'
  simp only [step] at hs
  split at hs
  · split at hs
    · next c hc =>
      cases hs
      generalize { s with index := _, threads := _ } = s1 at *
      by_cases hn : s1.index.needFlush s1.maxSize = true
      · right
        have hfr := maybeFlush_frame s1 u
        have key : (s1.maybeFlush u).index = (s1.index.flush s1.locked s1.minSize).1 := by
          simp [State.maybeFlush, hn]
        rcases flushLoop_end s1.locked s1.minSize s1.index.total
          (isort popBefore s1.index.known) with h | h
        · left
          rw [key, hfr.2.2.2.2.2]
          exact h
        · right
          intro p hp
          rw [key] at hp
          have hl := h p hp
          have : (s1.maybeFlush u).locked p.1 = true := by
            unfold State.locked at hl ⊢; rw [hfr.2.1]; exact hl
          exact (locked_iff hi' p.1).1 this
      · left
        have : s1.maybeFlush u = s1 := by simp [State.maybeFlush, hn]
        rw [this]
        simpa [Index.needFlush] using hn
    · cases hs
  · cases hs

/-- A file disappears in a step only if the store had reached its maximum size, the file is
recorded in the index and nobody holds it. -/
theorem eviction_only_when_full {a b : Nat} {ops : List Op} {s s' : State} (hr : Reach a b ops s)
    {op : Op} (hs : step s op = some s') {k : Key} (hv : Visible s k) (hg : ¬ Visible s' k) :
    ¬ Held s k ∧ ∃ ix, Flushes s op ix ∧ ix.total ≥ s.maxSize ∧ k ∈ ix.known.map (·.1) := by
  have h := reach_inv hr
  obtain ⟨c, hc⟩ := hv
  rcases step_disk h hs k with e | ⟨t, c', hid, _, _, e⟩ | ⟨_, hrm⟩
  · exact absurd ⟨c, e.trans hc⟩ hg
  · exact absurd ⟨c', e⟩ hg
  · refine ⟨fun hh => ?_, ?_⟩
    · have := removal_unlocked hrm
      rw [(locked_iff h k).2 hh] at this
      cases this
    · obtain ⟨ix, hf, _, hm, hk⟩ := hrm
      refine ⟨ix, hf, hm, ?_⟩
      have := ((flushLoop_removed s.locked s.minSize ix.total _).1 k hk).2
      obtain ⟨p, hp, e⟩ := List.mem_map.1 this
      exact List.mem_map.2 ⟨p, (isort_perm _ _).mem_iff.1 hp, e⟩

theorem flushLoop_none (locked : Key → Bool) (target : Nat) (q : List (Key × Item)) (n : Nat)
    (hne : (flushLoop locked target n q).2.2 = []) : (flushLoop locked target n q).1 = n := by
  induction q generalizing n with
  | nil => rfl
  | cons p q ih =>
    obtain ⟨k', it'⟩ := p
    unfold flushLoop at hne ⊢
    split
    · rfl
    · next h1 =>
      rw [if_neg h1] at hne
      split
      · next h2 => rw [if_pos h2] at hne; exact ih _ hne
      · next h2 => rw [if_neg h2] at hne; cases hne

theorem flushLoop_minimal (locked : Key → Bool) (target : Nat) (q : List (Key × Item)) (total : Nat) :
    (flushLoop locked target total q).2.2 ≠ [] →
    ∃ p ∈ q, p.1 ∈ (flushLoop locked target total q).2.2 ∧
      target < (flushLoop locked target total q).1 + p.2.size := by
  induction q generalizing total with
  | nil => simp [flushLoop]
  | cons p q ih =>
    obtain ⟨k, it⟩ := p
    unfold flushLoop
    split
    · simp
    · next ht =>
      split
      · intro hne
        obtain ⟨p, hp, h1, h2⟩ := ih total hne
        exact ⟨p, List.mem_cons_of_mem _ hp, h1, h2⟩
      · intro _
        by_cases hne : (flushLoop locked target (total - it.size) q).2.2 = []
        · refine ⟨(k, it), List.mem_cons_self .., List.mem_cons_self .., ?_⟩
          have := flushLoop_none locked target q _ hne
          simp only
          omega
        · obtain ⟨p, hp, h1, h2⟩ := ih (total - it.size) hne
          exact ⟨p, List.mem_cons_of_mem _ hp, List.mem_cons_of_mem _ h1, h2⟩

/-- A flush does not remove more than needed: putting back one of the files it removed would bring
the total above the target. -/
theorem flush_is_minimal (ix : Index) (locked : Key → Bool) (target : Nat)
    (hne : (ix.flush locked target).2 ≠ []) :
    ∃ p ∈ ix.known, p.1 ∈ (ix.flush locked target).2 ∧
      target < (ix.flush locked target).1.total + p.2.size := by
  obtain ⟨p, hp, h⟩ := flushLoop_minimal locked target (isort popBefore ix.known) ix.total hne
  exact ⟨p, (isort_perm _ _).mem_iff.1 hp, h⟩

/-- A flush happens in the demo when a third file arrives: 3 + 3 + 5 ≥ 10. -/
example : ∃ s s', exec demo [.storeBegin 0 1 ⟨"cccc"⟩ [1, 2, 3, 4, 5], .storeCheck 0, .storeRename 0]
      = some s ∧ step s (.storeIndex 0 3 []) = some s' ∧ Visible s kB ∧ s'.disk.get? kB = none ∧
      s'.index.total = 8 ∧ s'.saved = demo.saved ∧ ∃ ix, s'.saved = some ix ∧ ix.total = 6 :=
  ⟨_, _, rfl, rfl, ⟨_, rfl⟩, rfl, rfl, rfl, _, rfl, rfl⟩

example : (({ total := 6, known := [(kA, ⟨3, 1⟩), (kB, ⟨3, 2⟩)] } : Index).flush
    (fun _ => false) 4).2 ≠ [] := by decide

/-! ## C23: the order of eviction -/

/-- The documented order ("removing the Least Recently Used files") is not what happens: in a
reachable state a flush removes a file and keeps an unused file of the same size that was accessed
less recently.  The greatest `last_access` is popped first from the heap. -/
theorem lru_fails : ∃ (ops : List Op) (s s' : State) (op : Op) (old recent : Key) (io ir : Item),
    Reach 10 7 ops s ∧ step s op = some s' ∧
    s.index.known.get? old = some io ∧ s.index.known.get? recent = some ir ∧
    io.lastAccess < ir.lastAccess ∧ io.size = ir.size ∧ ¬ Held s old ∧
    Visible s recent ∧ ¬ Visible s' recent ∧ Visible s' old := by
  refine ⟨demoOps ++ [.dropHandle 0, .storeBegin 0 2 ⟨"cccc"⟩ [1, 2, 3, 4], .storeCheck 0,
      .storeRename 0], _, _, .storeIndex 0 3 [], kA, kB, ⟨3, 1⟩, ⟨3, 2⟩, exec_reach (ops0 := []) .init rfl, rfl,
      rfl, rfl,
      by decide, rfl, ?_, ⟨_, rfl⟩, ?_, ⟨_, rfl⟩⟩
  · rintro ⟨h, hm, hk⟩
    have : h = ⟨2, ⟨"cccc"⟩, false⟩ := by
      have : h ∈ [(⟨2, ⟨"cccc"⟩, false⟩ : Handle)] := hm
      simpa using this
    subst this
    exact absurd hk (by decide)
  · rintro ⟨c, hc⟩
    cases (show (none : Option Content) = some c from hc)

/-- What holds is the opposite order: a file that is kept although not in use was accessed at the
same time as or earlier than every file removed. -/
theorem eviction_order_partial {ix : Index} (h : (ix.known.map (·.1)).Nodup)
    (locked : Key → Bool) (target : Nat) {k k' : Key} {it it' : Item}
    (hk : ix.known.get? k = some it) (hr : k ∈ (ix.flush locked target).2)
    (hk' : ix.known.get? k' = some it') (hkeep : k' ∉ (ix.flush locked target).2)
    (hun : locked k' = false) : it'.lastAccess ≤ it.lastAccess := by
  have hp := isort_perm popBefore ix.known
  have hm := hp.mem_iff.2 (AMap.mem_of_get? hk)
  have hm' := hp.mem_iff.2 (AMap.mem_of_get? hk')
  have hkept := ((flushLoop_removed locked target ix.total _).2 _ hm').resolve_right hkeep
  have hn : ((isort popBefore ix.known).map (·.1)).Nodup :=
    (hp.map (fun p : Key × Item => p.1)).nodup_iff.2 h
  exact popBefore_access (flushLoop_order (isort_sorted' popBefore_total popBefore_trans _) hn
    ix.total _ hm hr _ hkept hun)

example : let ix : Index := { total := 6, known := [(kA, ⟨3, 1⟩), (kB, ⟨3, 2⟩)] }
    (ix.known.map (·.1)).Nodup ∧ ix.known.get? kB = some ⟨3, 2⟩ ∧
    kB ∈ (ix.flush (fun _ => false) 4).2 ∧ ix.known.get? kA = some ⟨3, 1⟩ ∧
    kA ∉ (ix.flush (fun _ => false) 4).2 := by decide

/-! ## C43: the index accounts for the files on disk -/

theorem sum_eq_of_get {m : AMap Key Content} {m' : AMap Key Item} (h : AMap.Wf m) (h' : AMap.Wf m')
    (hk : ∀ k, (∃ c, m.get? k = some c) ↔ ∃ it, m'.get? k = some it)
    (hv : ∀ k c it, m.get? k = some c → m'.get? k = some it → it.size = c.length) :
    (m.map (fun p => p.2.length)).sum = (m'.map (fun p => p.2.size)).sum := by
  have get_map : ∀ {V : Type} (m : AMap Key V) (f : V → Nat) (k : Key),
      AMap.get? (m.map (fun p => (p.1, f p.2))) k = (m.get? k).map f := by
    intro V m f k
    induction m with
    | nil => rfl
    | cons p m ih =>
      obtain ⟨a, b⟩ := p
      simp only [List.map_cons, AMap.get?_cons]
      split
      · rfl
      · exact ih
  have wf_map : ∀ {V : Type} (m : AMap Key V) (f : V → Nat), AMap.Wf m →
      AMap.Wf (m.map (fun p => (p.1, f p.2))) := by
    intro V m f hw
    simpa [AMap.Wf, AMap.keys, List.map_map, Function.comp_def] using hw
  have hp : (m.map (fun p => (p.1, p.2.length))).Perm (m'.map (fun p => (p.1, p.2.size))) := by
    rw [AMap.perm_iff (wf_map m _ h) (wf_map m' _ h')]
    intro k
    rw [get_map m List.length, get_map m' Item.size]
    cases hc : m.get? k with
    | none =>
      cases hi : m'.get? k with
      | none => rfl
      | some it =>
        obtain ⟨c, hc'⟩ := (hk k).2 ⟨it, hi⟩
        rw [hc] at hc'; cases hc'
    | some c =>
      obtain ⟨it, hi⟩ := (hk k).1 ⟨c, hc⟩
      rw [hi]
      simp [hv k c it hc hi]
  have := (hp.map (fun p => p.2)).sum_nat
  simpa [List.map_map, Function.comp_def] using this

/-- As long as the process goes on without failures and no `store` is between its rename and the
index, the recorded total is exactly the number of bytes of the files in the store. -/
theorem total_is_disk_usage_partial {a b : Nat} {ops : List Op} {s : State} (hr : Reach a b ops s)
    (hsm : ∀ op ∈ ops, Smooth op) (hca : ContentAddressed ops)
    (hq : ∀ t k c hid, s.threads.get? t ≠ some (.storing k c hid .renamed)) :
    s.index.total = diskUsage s := by
  have ha := reach_acc hr hsm
  have hi := reach_inv hr
  rw [hi.index.total]
  refine (sum_eq_of_get ha.disk hi.index.wf ?_ ?_).symm
  · intro k
    constructor
    · intro hv
      rcases ha.indexed k hv with h | ⟨t, c, hid, h⟩
      · exact h
      · exact absurd h (hq t k c hid)
    · rintro ⟨it, h⟩; exact ha.there k it h
  · intro k c it hc hit
    obtain ⟨t, hid, c', hm, hl⟩ := (reach_sizes hr).1 k it hit
    rw [hl, content_is_stored_content hr hca hc hm]

/-- A crash after the rename and before the index is saved leaves a file no index knows: it is
never evicted. -/
theorem crash_leaks_file : ∃ ops s, Reach 10 5 ops s ∧ Visible s kA ∧ s.index.total = 0 ∧
    s.threads = [] ∧ diskUsage s = 3 :=
  ⟨[.storeBegin 0 0 kA [1, 2, 3], .storeCheck 0, .storeRename 0, .crash true], _, reach0 rfl,
    ⟨_, rfl⟩, rfl, rfl, rfl⟩

/-- Opening the store with another version forgets all the files. -/
theorem version_change_leaks_files : ∃ ops s, Reach 10 5 ops s ∧ Visible s kA ∧
    s.index.total = 0 ∧ s.threads = [] ∧ diskUsage s = 3 :=
  ⟨storeOps 0 0 kA [1, 2, 3] 1 ++ [.close [] false], _, reach0 rfl, ⟨_, rfl⟩, rfl, rfl, rfl⟩

/-- The demo history has no failures, and 6 bytes. -/
example : (∀ op ∈ demoOps, Smooth op) ∧ demo.threads = [] ∧ demo.index.total = 6 ∧
    diskUsage demo = 6 := by
  refine ⟨?_, rfl, rfl, rfl⟩
  intro op hop
  simp [demoOps, storeOps] at hop
  rcases hop with rfl | rfl | rfl | rfl | rfl | rfl | rfl | rfl | rfl | rfl | rfl <;> simp [Smooth]

end TM.Store
