import Verif.Worker.JobLemmas
/-!
# C30: a worker starts a job exactly once, when and only when all its files are there
-/
namespace TM.Worker

/-- When the worker, which is doing nothing, receives a job whose dependencies all have a key, it
asks the server, each once, for exactly the keys that its store did not have when it looked for
them, and then, in whatever order these files arrive, it starts the job exactly once, when the last
one has arrived (immediately if none was missing), with the right file for each dependency. -/
theorem job_starts_once_complete (c : Current) (hc : c.job = none) (job : Job)
    (hkeys : ∀ f ∈ job.group.deps, ∃ k, job.depKeys.get? f = some k) (present : Nat → Bool) :
    ∃ c' asked st, c.onWork job present = .ok (c', asked, st) ∧ asked.Nodup ∧
      (∀ k, k ∈ asked ↔ ∃ n f, job.group.deps[n]? = some f ∧ job.depKeys.get? f = some k ∧
        present n = false) ∧
      ∀ files, files.Perm asked → ∃ c'' sts handles, c'.onProvides files = .ok (c'', sts) ∧
        st :: sts = List.replicate files.length none ++ [some (job, handles)] ∧
        ∀ f ∈ job.group.deps, handles.get? f = job.depKeys.get? f := by
  obtain ⟨c', asked, st, h1, h2, h3, h4, h5⟩ := onWork_spec c hc job hkeys present
  refine ⟨c', asked, st, h1, h2, h3, ?_⟩
  have key : ∀ (files asked : List FileStoreKey) (c' : Current), files ≠ [] → files.Perm asked →
      Waiting c' job asked → ∃ c'' sts handles, c'.onProvides files = .ok (c'', sts) ∧
        sts = List.replicate (files.length - 1) none ++ [some (job, handles)] ∧
        ∀ f ∈ job.group.deps, handles.get? f = job.depKeys.get? f := by
    intro files
    induction files with
    | nil => intro _ _ hne; exact absurd rfl hne
    | cons k ks ih =>
      intro asked c' _ hp hw
      obtain ⟨c1, st1, e1, _, e3, e4⟩ := onProvide_spec hw (hp.subset (List.mem_cons_self))
      have hp' : ks.Perm (asked.erase k) := by
        have := hp.erase k
        rwa [List.erase_cons_head] at this
      unfold Current.onProvides
      rw [e1]
      simp only
      cases ks with
      | nil =>
        obtain ⟨handles, q1, _, _, _, _, q2⟩ := e4 (by simpa using hp'.symm)
        exact ⟨c1, [st1], handles, rfl, by simp [q1], q2⟩
      | cons k2 ks =>
        obtain ⟨q1, q2, _⟩ := e3 (by intro he; rw [he] at hp'; simpa using hp'.length_eq)
        obtain ⟨c2, sts, handles, r1, r2, r3⟩ := ih _ c1 (by simp) hp' q2
        rw [r1]
        refine ⟨c2, st1 :: sts, handles, rfl, ?_, r3⟩
        rw [r2, q1]
        simp only [List.length_cons, Nat.add_sub_cancel]
        rw [List.replicate_succ]; rfl
  intro files hp
  by_cases ha : asked = []
  · subst ha
    obtain ⟨handles, q1, _, _, _, _, q2⟩ := h5 rfl
    have : files = [] := by simpa using hp
    subst this
    exact ⟨c', [], handles, rfl, by simp [q1], q2⟩
  · obtain ⟨q1, q2, _⟩ := h4 ha
    have hne : files ≠ [] := by rintro rfl; exact ha (by simpa using hp.symm)
    obtain ⟨c2, sts, handles, r1, r2, r3⟩ := key files asked c' hne hp q2
    refine ⟨c2, sts, handles, r1, ?_, r3⟩
    rw [q1, r2]
    obtain ⟨a, l, rfl⟩ := List.exists_cons_of_ne_nil hne
    simp only [List.length_cons, Nat.add_sub_cancel]
    rw [List.replicate_succ]; rfl

/-- A dependency without a key makes the worker fail instead of running the job without the file. -/
theorem missing_key_fails (c : Current) (hc : c.job = none) (job : Job) (f : FileUuid)
    (hf : f ∈ job.group.deps) (hk : job.depKeys.get? f = none) (present : Nat → Bool) :
    ∃ u, c.onWork job present = .error (.missingDependencyKey u) ∧ u ∈ job.group.deps ∧
      job.depKeys.get? u = none := by
  have key : ∀ (ds : List FileUuid) (i : Nat) (g : Gather), f ∈ ds →
      ∃ u, gather job present i ds g = .error (.missingDependencyKey u) ∧ u ∈ ds ∧
        job.depKeys.get? u = none := by
    intro ds
    induction ds with
    | nil => intro i g h; cases h
    | cons d ds ih =>
      intro i g h
      unfold gather
      cases hd : job.depKeys.get? d with
      | none =>
        refine ⟨d, ?_, by simp, hd⟩
        simp only [Gather.visit, hd]
      | some k =>
        have : f ∈ ds := by
          rcases List.mem_cons.1 h with rfl | h
          · rw [hk] at hd; cases hd
          · exact h
        have hv : ∃ g', g.visit job (present i) d = .ok g' := by
          unfold Gather.visit; rw [hd]; simp only
          split <;> exact ⟨_, rfl⟩
        obtain ⟨g', hg'⟩ := hv
        rw [hg']
        obtain ⟨u, h1, h2, h3⟩ := ih (i + 1) g' this
        exact ⟨u, h1, List.mem_cons_of_mem _ h2, h3⟩
  obtain ⟨u, h1, h2, h3⟩ := key job.group.deps 0 {} hf
  refine ⟨u, ?_, h2, h3⟩
  unfold Current.onWork
  rw [hc, h1]
  rfl

/-- A file that was not asked is refused. -/
theorem unasked_file_fails (c : Current) (k : FileStoreKey) (h : k ∉ c.missing.keys) :
    c.onProvide k = .error (.notRequired k) := by
  unfold Current.onProvide
  rw [AMap.get?_eq_none_iff.2 h]

/-- A worker that is doing a job refuses another one. -/
theorem busy_worker_fails (c : Current) (j : Job × AMap FileUuid FileStoreKey)
    (hc : c.job = some j) (job : Job) (present : Nat → Bool) :
    c.onWork job present = .error .busy := by
  unfold Current.onWork; rw [hc]; rfl

/-- Two executions, three files, two of them with the same content; the store has only file 2. -/
def demoJob : Job where
  group := {
    uuid := 7
    executions := [{ uuid := 1, stdin := some 1, inputs := [("a", ⟨2, false⟩), ("b", ⟨3, true⟩)] },
      { uuid := 2, inputs := [("c", ⟨4, false⟩), ("d", ⟨1, false⟩)] }] }
  depKeys := [(1, ⟨"x"⟩), (2, ⟨"y"⟩), (3, ⟨"x"⟩), (4, ⟨"z"⟩)]

example : (({} : Current).onWork demoJob (fun n => n == 1)).map (fun r => (r.2.1, r.2.2)) =
    .ok ([⟨"x"⟩, ⟨"z"⟩], none) := rfl

example : ∀ f ∈ demoJob.group.deps, ∃ k, demoJob.depKeys.get? f = some k := by
  intro f hf
  have : f ∈ [1, 2, 3, 4, 1] := hf
  simp at this
  rcases this with rfl | rfl | rfl | rfl | rfl <;> exact ⟨_, rfl⟩

/-! ## C31: the capture of a stream -/

/-- The loop of `capture_stream`, worker.rs:652-664: `rest` is what is still to be read of the file,
`sizes` what the calls to `read` return (anything between 1 and the size of the buffer and what is
left; all that is possible when `sizes` is over). -/
def captureLoop (count : Nat) (sizes : List Nat) (rest : List Nat) (result : List Nat) : List Nat :=
  if result.length < count then
    match rest with
    | [] => result
    | b :: bs =>
      let n := match sizes.head? with
        | some s => max 1 (min s 1024)
        | none => 1024
      captureLoop count sizes.tail ((b :: bs).drop n) (result ++ (b :: bs).take n)
  else result
termination_by rest.length
decreasing_by
  simp only [List.length_drop, List.length_cons]
  cases sizes.head? with
  | none => simp only; omega
  | some s => simp only; omega

/-- `capture_stream`, worker.rs:648-668, on a file that can be read. -/
def captureStream (content : List Nat) (sizes : List Nat) (count : Option Nat) :
    Option (List Nat) :=
  count.map fun n => captureLoop n sizes content []

theorem captureLoop_spec (count : Nat) (sizes rest result : List Nat) :
    ∃ more, captureLoop count sizes rest result = result ++ more ∧ more <+: rest ∧
      (more ≠ [] → (result ++ more).length < count + 1024) ∧
      min count (result.length + rest.length) ≤ (result ++ more).length ∧
      (count ≤ result.length → more = []) := by
  induction h : rest.length using Nat.strongRecOn generalizing rest result sizes with
  | _ m ih =>
    unfold captureLoop
    split
    · next hlt =>
      cases rest with
      | nil =>
        exact ⟨[], by simp, by simp, by simp,
          by rw [List.append_nil, ← h]; exact Nat.min_le_right _ _, by simp⟩
      | cons b bs =>
        simp only
        generalize hn : (match sizes.head? with
          | some s => max 1 (min s 1024)
          | none => 1024) = n
        have hn1 : 1 ≤ n ∧ n ≤ 1024 := by
          subst hn
          cases sizes.head? with
          | none => simp
          | some s => simp only; omega
        obtain ⟨more, h1, h2, h3, h4, h5⟩ := ih ((b :: bs).drop n).length
          (by simp only [List.length_drop, List.length_cons] at h ⊢; omega)
          sizes.tail ((b :: bs).drop n) (result ++ (b :: bs).take n) rfl
        refine ⟨(b :: bs).take n ++ more, by rw [h1, List.append_assoc], ?_, ?_, ?_, ?_⟩
        · obtain ⟨t, ht⟩ := h2
          exact ⟨t, by rw [List.append_assoc, ht, List.take_append_drop]⟩
        · intro _
          by_cases hm : more = []
          · subst hm
            simp only [List.append_nil, List.length_append, List.length_take]
            omega
          · have := h3 hm
            rw [List.append_assoc] at this
            exact this
        · rw [← List.append_assoc]
          refine Nat.le_trans ?_ h4
          simp only [List.length_append, List.length_take, List.length_drop, List.length_cons] at h ⊢
          omega
        · intro hc; omega
    · next hge =>
      exact ⟨[], by simp, by simp, by simp, by rw [List.append_nil]; omega, by simp⟩

/-- Nothing is captured if it was not requested. -/
theorem capture_none (content sizes : List Nat) : captureStream content sizes none = none := rfl

/-- Part of C31: what is captured is a prefix of the stream, not shorter than requested (the whole
stream if that is shorter), and less than 1024 bytes longer.  (Missing: not longer than requested,
which is false.) -/
theorem capture_bounded_partial (content sizes : List Nat) (n : Nat) :
    ∃ got, captureStream content sizes (some n) = some got ∧ got <+: content ∧
      min n content.length ≤ got.length ∧ got.length < n + 1024 ∧ (n = 0 → got = []) := by
  obtain ⟨more, h1, h2, h3, h4, h5⟩ := captureLoop_spec n sizes content []
  refine ⟨more, by simp [captureStream, h1], h2, by simpa using h4, ?_, ?_⟩
  · by_cases hm : more = []
    · subst hm; simp
    · simpa using h3 hm
  · intro hn; exact h5 (by simp [hn])

/-- If each read returns all that is available, the limit is rounded up to a multiple of 1024. -/
theorem capture_rounds_up (content : List Nat) (n : Nat) :
    captureStream content [] (some n) = some (content.take ((n + 1023) / 1024 * 1024)) := by
  have key : ∀ (m : Nat) (rest result : List Nat) (j : Nat), rest.length = m →
      result.length = j * 1024 →
      captureLoop n [] rest result = result ++ rest.take ((n + 1023) / 1024 * 1024 - j * 1024) := by
    intro m
    induction m using Nat.strongRecOn with
    | _ m ih =>
      intro rest result j hm hj
      unfold captureLoop
      split
      · next hlt =>
        cases rest with
        | nil => simp
        | cons b bs =>
          simp only [List.head?_nil, List.tail_nil]
          by_cases hlen : (b :: bs).length ≤ 1024
          · have hd : (b :: bs).drop 1024 = [] := List.drop_eq_nil_of_le hlen
            have ht : (b :: bs).take 1024 = b :: bs := List.take_of_length_le hlen
            rw [hd, ht]
            unfold captureLoop
            have : (b :: bs).take ((n + 1023) / 1024 * 1024 - j * 1024) = b :: bs := by
              apply List.take_of_length_le
              omega
            rw [this]
            split <;> rfl
          · rw [ih ((b :: bs).drop 1024).length
              (by simp only [List.length_drop]; rw [hm]; simp only [List.length_cons] at hm hlen; omega)
              _ _ (j + 1) rfl
              (by simp only [List.length_append, List.length_take]; omega)]
            rw [List.append_assoc]
            congr 1
            rw [show (n + 1023) / 1024 * 1024 - j * 1024 =
              1024 + ((n + 1023) / 1024 * 1024 - (j + 1) * 1024) by omega, List.take_add]
      · next hge =>
        have : (n + 1023) / 1024 * 1024 - j * 1024 = 0 := by omega
        rw [this]; simp
  have := key content.length content [] 0 rfl rfl
  simp only [captureStream, Option.map_some, this]
  simp

/-- C31 fails: three bytes are returned although at most one was requested. -/
theorem capture_exceeds_limit :
    ∃ (content sizes got : List Nat) (n : Nat), captureStream content sizes (some n) = some got ∧
      got.length > n :=
  ⟨[1, 2, 3], [], [1, 2, 3], 1, by rw [capture_rounds_up]; rfl, by decide⟩

end TM.Worker
