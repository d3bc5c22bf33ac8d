import Verif.Store.DiskLemmas
/-!
# The files of the store: C21, C24, C25, C42

Statements about every interleaving of the steps of `store`, `get`, `Clone` and `Drop`, with
failures of `store` and crashes at every point (`Reach`).
-/

namespace TM.Store

open TM

/-! ## Concrete histories used as witnesses -/

def kA : Key := ⟨"aaaa"⟩
def kB : Key := ⟨"bbbb"⟩

/-- A complete `store` by thread `t`. -/
def storeOps (t hid : Nat) (k : Key) (c : Content) (now : Nat) : List Op :=
  [.storeBegin t hid k c, .storeCheck t, .storeRename t, .storeIndex t now [], .storeSave t]

/-- Runs a list of steps. -/
def exec (s : State) : List Op → Option State
  | [] => some s
  | op :: ops => (step s op).bind fun s' => exec s' ops

theorem exec_reach {a b : Nat} {ops0 ops : List Op} {s s' : State} (h : Reach a b ops0 s)
    (he : exec s ops = some s') : Reach a b (ops0 ++ ops) s' := by
  induction ops generalizing s ops0 with
  | nil => simp only [exec, Option.some.injEq] at he; subst he; simpa using h
  | cons op ops ih =>
    simp only [exec, Option.bind_eq_some_iff] at he
    obtain ⟨s1, h1, h2⟩ := he
    have := ih (.step op h h1) h2
    simpa using this

/-- The empty store with maximum size 10 and minimum size 5. -/
def s0 : State := { maxSize := 10, minSize := 5 }

theorem reach0 {ops : List Op} {s : State} (h : exec s0 ops = some s) : Reach 10 5 ops s := by
  have := exec_reach (ops0 := []) (a := 10) (b := 5) .init h
  simpa using this

/-- Two files of three bytes stored, the handle of the second one dropped. -/
def demoOps : List Op :=
  storeOps 0 0 kA [1, 2, 3] 1 ++ storeOps 0 1 kB [4, 5, 6] 2 ++ [.dropHandle 1]

def demo : State := (exec s0 demoOps).getD s0

theorem demo_reach : Reach 10 5 demoOps demo := reach0 rfl

/-! ## C21: a file in use is never evicted -/

/-- Whatever happens next (another thread storing, reading or flushing, the store being closed, a
crash), a file somebody holds a handle of stays in the store. -/
theorem held_file_survives {a b : Nat} {ops : List Op} {s s' : State} (hr : Reach a b ops s)
    {op : Op} (hs : step s op = some s') {k : Key} (hh : Held s k) (hv : Visible s k) :
    Visible s' k := by
  have h := reach_inv hr
  obtain ⟨c, hc⟩ := hv
  rcases step_disk h hs k with e | ⟨t, c', hid, _, _, e⟩ | ⟨_, hrm⟩
  · exact ⟨c, e.trans hc⟩
  · exact ⟨c', e⟩
  · have := removal_unlocked hrm
    rw [(locked_iff h k).2 hh] at this
    cases this

/-- The same along any history during which the file is always held. -/
theorem held_file_survives_history {a b : Nat} {ops : List Op} {s s' : State} (hr : Reach a b ops s)
    {k : Key} (hv : Visible s k) (hw : WhileHeld k s s') : Visible s' k := by
  induction hw generalizing ops with
  | refl => exact hv
  | step op hh hs _ ih => exact ih (.step op hr hs) (held_file_survives hr hs hh hv)

/-- The file of `kA` is held in the demo state while storing another file makes the store flush:
`kB` is evicted, `kA` stays. -/
example : Held demo kA ∧ Visible demo kA ∧ Visible demo kB ∧
    ∃ s', exec demo (storeOps 0 1 ⟨"cccc"⟩ [1, 2, 3, 4, 5] 3) = some s' ∧ Visible s' kA ∧
      s'.disk.get? kB = none :=
  ⟨⟨⟨0, kA, false⟩, by decide, rfl⟩, ⟨_, rfl⟩, ⟨_, rfl⟩, _, rfl, ⟨_, rfl⟩, rfl⟩

/-! ## C24: what is stored is found again, complete, at every crash point -/

/-- The paths of different keys are different (a digest has 64 hexadecimal digits). -/
theorem paths_distinct {a b : List Char} (ha : a.length = 64) (hb : b.length = 64)
    (h : suffix a = suffix b) : a = b := by
  have drop6 : ∀ x : List Char, x.length = 64 → (suffix x).drop 6 = x := by
    intro x hx
    match x, hx with
    | x0 :: x1 :: x2 :: x3 :: xs, _ => rfl
  rw [← drop6 a ha, ← drop6 b hb, h]

example : suffix ("aabbccdd".toList) = "aa/bb/aabbccdd".toList := rfl

/-- Whatever happened, crashes included, a file in the store has exactly the content passed to some
call of `store` with its key: never a part of it. -/
theorem content_is_complete {a b : Nat} {ops : List Op} {s : State} (hr : Reach a b ops s)
    {k : Key} {c : Content} (hc : s.disk.get? k = some c) :
    ∃ t hid, Op.storeBegin t hid k c ∈ ops :=
  reach_content hr k c hc

/-- When keys are hashes of contents, the visible content of a key is the content stored under it,
in every state of every history. -/
theorem content_is_stored_content {a b : Nat} {ops : List Op} {s : State} (hr : Reach a b ops s)
    (hca : ContentAddressed ops) {k : Key} {c : Content} (hc : s.disk.get? k = some c)
    {t hid : Nat} {c' : Content} (hst : Op.storeBegin t hid k c' ∈ ops) : c = c' := by
  obtain ⟨t0, h0, hm⟩ := reach_content hr k c hc
  exact hca _ _ _ _ _ _ _ hm hst

/-- A `store` that returned made its file visible, and the file stays visible for as long as the
handle it returned (or a clone of it) is alive. -/
theorem stored_file_visible {a b : Nat} {ops : List Op} {s : State} (hr : Reach a b ops s)
    {h : Handle} (ho : Owned s h) (hg : h.fromGet = false) : Visible s h.key :=
  (reach_inv hr).valid h ho.1 hg (inFlight_false ho.2)

/-- Storing under a key that is already there returns a handle at once and changes no file. -/
theorem store_existing_keeps_content {s : State} {t hid : Nat} {k : Key} {c : Content}
    (hv : Visible s k) (ht : s.threads.get? t = none) (hf : ∀ h ∈ s.handles, h.id ≠ hid) :
    ∃ s', exec s [.storeBegin t hid k c, .storeCheck t] = some s' ∧ s'.disk = s.disk ∧
      (⟨hid, k, false⟩ : Handle) ∈ s'.handles ∧ s'.threads.get? t = none := by
  obtain ⟨c0, hc0⟩ := hv
  have hb : step s (.storeBegin t hid k c) = some { s.newHandle hid k false with
        threads := s.threads.insert t (.storing k c hid .begun) } := by
    simp only [step]
    rw [if_pos ⟨by simp [ht], fresh_iff.2 hf⟩]
  simp only [exec, hb, Option.bind_some]
  have : s.disk.get? k = some c0 := hc0
  simp only [step, State.newHandle, AMap.get?_insert_self, this, Option.isSome_some, if_true,
    Option.bind_some, Option.some.injEq, exists_eq_left', true_and]
  exact ⟨List.mem_cons_self .., AMap.get?_erase_self _ _⟩

/-- A step changes the content of a visible file only when it is the rename of a `store` that was
already running for the same key. -/
theorem content_changes_only_by_race {a b : Nat} {ops : List Op} {s s' : State}
    (hr : Reach a b ops s) {op : Op} (hs : step s op = some s') {k : Key} {c c' : Content}
    (hc : s.disk.get? k = some c) (hc' : s'.disk.get? k = some c') (hne : c ≠ c') :
    ∃ t hid, op = .storeRename t ∧ s.threads.get? t = some (.storing k c' hid .writing) := by
  rcases step_disk (reach_inv hr) hs k with e | ⟨t, c1, hid, rfl, ht, e⟩ | ⟨e, _⟩
  · rw [hc', hc] at e; simp only [Option.some.injEq] at e; exact absurd e.symm hne
  · rw [hc'] at e; cases e; exact ⟨t, hid, rfl, ht⟩
  · rw [hc'] at e; cases e

/-- Such a race does change the content when two threads store different contents under the same
key (a caller giving a wrong key): the content is not checked against the key. -/
theorem race_overwrites : ∃ ops s s' op, Reach 10 5 ops s ∧ step s op = some s' ∧
    s.disk.get? kA = some [1] ∧ s'.disk.get? kA = some [2] ∧ Held s kA := by
  refine ⟨[.storeBegin 0 0 kA [1], .storeBegin 1 1 kA [2], .storeCheck 0, .storeCheck 1,
    .storeRename 0], _, _, .storeRename 1, reach0 rfl, rfl, rfl, rfl, ⟨⟨0, kA, false⟩, ?_, rfl⟩⟩
  decide

/-- A crash in the middle of a `store`, before its rename, leaves the files as they were. -/
example : ∃ s, exec s0 (storeOps 0 0 kA [1, 2, 3] 1 ++
      [.storeBegin 0 1 kB [4, 5, 6], .storeCheck 0, .crash true]) = some s ∧
    s.disk.get? kA = some [1, 2, 3] ∧ s.disk.get? kB = none ∧ s.index.total = 3 :=
  ⟨_, rfl, rfl, rfl, rfl⟩

/-- The demo history is content addressed and its content is there. -/
example : ContentAddressed demoOps ∧ demo.disk.get? kA = some [1, 2, 3] ∧
    Op.storeBegin 0 0 kA [1, 2, 3] ∈ demoOps ∧ Owned demo ⟨0, kA, false⟩ := by
  refine ⟨?_, rfl, by decide, by decide, rfl⟩
  intro t hid k c t' hid' c' h1 h2
  simp [demoOps, storeOps] at h1 h2
  rcases h1 with ⟨_, _, rfl, rfl⟩ | ⟨_, _, rfl, rfl⟩ <;>
    rcases h2 with ⟨_, _, hk, rfl⟩ | ⟨_, _, hk, rfl⟩ <;> first | rfl | (exact absurd hk (by decide))

/-! ## C42: a handle gives access to its file -/

/-- `get` by a thread during which the file is held by somebody, or which is not interrupted:
if the file is there when the handle is made then it stays for as long as the handle lives. -/
theorem get_handle_valid_partial {a b : Nat} {ops : List Op} {s s' s'' : State}
    (hr : Reach a b ops s) {t hid : Nat} (hs : step s (.getFinish t hid) = some s') {k : Key}
    (hk : s.threads.get? t = some (.getting k true)) (hv : Visible s k)
    (hw : WhileHeld k s' s'') : Visible s'' k := by
  have hr' := Reach.step _ hr hs
  refine held_file_survives_history hr' ?_ hw
  simp only [step, hk] at hs
  split at hs
  · cases hs; exact hv
  · cases hs

/-- A `get` that is not interrupted by other threads returns a handle of a file that is there. -/
theorem get_uninterrupted {s s1 s2 s3 : State} {t hid now : Nat} {k : Key}
    (h1 : step s (.getCheck t k) = some s1) (h2 : step s1 (.getTouch t now) = some s2)
    (h3 : step s2 (.getFinish t hid) = some s3) :
    s3.disk = s.disk ∧ Visible s3 k ∧ (⟨hid, k, true⟩ : Handle) ∈ s3.handles := by
  simp only [step] at h1
  split at h1
  · next hc =>
    cases h1
    simp only [step, AMap.get?_insert_self, Option.some.injEq] at h2
    subst h2
    simp only [step, AMap.get?_insert_self] at h3
    split at h3
    · cases h3
      exact ⟨rfl, Option.isSome_iff_exists.1 hc.2, List.mem_cons_self ..⟩
    · cases h3
  · cases h1

/-- `get` of a file that is not in the store returns nothing (no step makes a handle). -/
theorem get_missing {s : State} {t : Nat} {k : Key} (h : s.disk.get? k = none) :
    step s (.getCheck t k) = none := by
  simp [step, h]

/-- The full statement is false: between the test that the file exists and the creation of the
handle another thread can flush the store, and `get` returns a handle of a file that is gone. -/
theorem get_race : ∃ ops s h, Reach 10 5 ops s ∧ Owned s h ∧ h.fromGet = true ∧
    ¬ Visible s h.key := by
  refine ⟨demoOps ++ [.getCheck 7 kB, .getTouch 7 9] ++ storeOps 0 2 ⟨"cccc"⟩ [1, 2, 3, 4, 5] 3 ++
    [.getFinish 7 3], _, ⟨3, kB, true⟩, reach0 rfl, ⟨by decide, rfl⟩, rfl, ?_⟩
  rintro ⟨c, hc⟩
  cases (show (none : Option Content) = some c from hc)

/-- The hypotheses of `get_uninterrupted` and `get_handle_valid_partial` are met in the demo. -/
example : ∃ s1 s2 s3, step demo (.getCheck 7 kB) = some s1 ∧ step s1 (.getTouch 7 9) = some s2 ∧
    s2.threads.get? 7 = some (.getting kB true) ∧ Visible s2 kB ∧
    step s2 (.getFinish 7 3) = some s3 ∧ Held s3 kB :=
  ⟨_, _, _, rfl, rfl, rfl, ⟨_, rfl⟩, rfl, ⟨⟨3, kB, true⟩, by decide, rfl⟩⟩

/-! ## C25: reference counts -/

/-- The reference count of a file is the number of live handles, and there is no entry when there
is none. -/
theorem refcounts_exact {a b : Nat} {ops : List Op} {s : State} (hr : Reach a b ops s) (k : Key) :
    s.refs.get? k = if live s.handles k = 0 then none else some (live s.handles k) :=
  (reach_inv hr).refs k

/-- Dropping a handle never panics: it removes the handle and nothing else. -/
theorem drop_never_panics {a b : Nat} {ops : List Op} {s : State} (hr : Reach a b ops s)
    {h : Handle} (ho : Owned s h) :
    ∃ s', step s (.dropHandle h.id) = some s' ∧
      s'.handles = s.handles.filter (fun x => decide (x.id ≠ h.id)) ∧ s'.disk = s.disk ∧
      s'.index = s.index := by
  have hi := reach_inv hr
  have hfind : s.handles.find? (fun x => decide (x.id = h.id)) = some h := by
    cases hf : s.handles.find? (fun x => decide (x.id = h.id)) with
    | none =>
      rw [List.find?_eq_none] at hf
      exact absurd (hf h ho.1) (by simp)
    | some x =>
      obtain ⟨hm, e⟩ := find_mem hf
      rw [handle_unique hi.ids hm ho.1 e]
  obtain ⟨r, hd, _⟩ := decRef_exact hi.refs hi.ids ho.1
  simp only [step, hfind, ho.2, Bool.false_eq_true, if_false, State.dropHandle, hd, Option.map_some]
  exact ⟨_, rfl, rfl, rfl, rfl⟩

/-- A `store` that fails drops its own handle, without panicking. -/
theorem failed_store_never_panics {a b : Nat} {ops : List Op} {s : State} (hr : Reach a b ops s)
    {t hid : Nat} {k : Key} {c : Content} {st : Stage}
    (ht : s.threads.get? t = some (.storing k c hid st)) :
    ∃ s', step s (.storeFail t) = some s' ∧
      s'.handles = s.handles.filter (fun x => decide (x.id ≠ hid)) ∧ s'.disk = s.disk := by
  have hi := reach_inv hr
  have hm := hi.flight _ _ _ _ _ ht
  have hfind : s.handles.find? (fun x => decide (x.id = hid)) = some ⟨hid, k, false⟩ := by
    cases hf : s.handles.find? (fun x => decide (x.id = hid)) with
    | none =>
      rw [List.find?_eq_none] at hf
      exact absurd (hf _ hm) (by simp)
    | some x =>
      obtain ⟨hx, e⟩ := find_mem hf
      rw [handle_unique hi.ids hx hm e]
  obtain ⟨r, hd, _⟩ := decRef_exact hi.refs hi.ids hm
  simp only [step, ht, hfind, State.dropHandle, hd, Option.map_some]
  exact ⟨_, rfl, rfl, rfl⟩

/-- Three handles of one file, one dropped. -/
example : ∃ s, exec s0 (storeOps 0 0 kA [1] 1 ++ [.clone 0 1, .clone 1 2, .dropHandle 0]) = some s ∧
    live s.handles kA = 2 ∧ s.refs.get? kA = some 2 ∧ Owned s ⟨2, kA, false⟩ :=
  ⟨_, rfl, rfl, rfl, by decide, rfl⟩

/-- The hypothesis of `failed_store_never_panics`. -/
example : ∃ s, exec s0 [.storeBegin 0 0 kA [1], .storeCheck 0] = some s ∧
    s.threads.get? 0 = some (.storing kA [1] 0 .writing) := ⟨_, rfl, rfl⟩

end TM.Store
