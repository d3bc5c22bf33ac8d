import Verif.Client.Lemmas
/-!
# C28: the file callbacks receive exactly the requested content
-/
namespace TM.Client
open TM.Proto

/-- The arguments of the calls of the content callback of a file. -/
def contentArgs (uuid : Nat) (calls : List Call) : List Bytes :=
  calls.filterMap fun
    | .content u b => if u = uuid then some b else none
    | _ => none

/-- The arguments of the calls of the `i`-th chunk callback of a file. -/
def chunkArgs (uuid i : Nat) (calls : List Call) : List Bytes :=
  calls.filterMap fun
    | .chunk u j b => if u = uuid ∧ j = i then some b else none
    | _ => none

/-- When the destination of a file has to be written: the file was produced successfully or failures
are allowed, and the destination is not the very file the content comes from. -/
def WriteTo.Wanted (canon : Path → Path) (disk : Disk) (w : WriteTo) (success : Bool)
    (source : Option Path) : Prop :=
  (success = true ∨ w.allowFailure = true) ∧
    ¬ ∃ src n, source = some src ∧ canon src = canon w.dest ∧ disk (canon w.dest) = some n

theorem shouldWrite_iff (canon : Path → Path) (disk : Disk) (w : WriteTo) (success : Bool)
    (source : Option Path) :
    shouldWrite canon disk w success source = true ↔ w.Wanted canon disk success source := by
  unfold shouldWrite WriteTo.Wanted
  cases source with
  | none => cases success <;> cases w.allowFailure <;> simp
  | some src =>
    by_cases he : canon src = canon w.dest
    · simp only [he]
      cases hd : disk (canon w.dest) <;> cases success <;> cases w.allowFailure <;> simp [he]
    · cases success <;> cases w.allowFailure <;> simp [he]

theorem chunkArgs_chunkCalls (uuid n i : Nat) (b : Bytes) (h : i < n) :
    chunkArgs uuid i (chunkCalls uuid n b) = [b] := by
  unfold chunkArgs chunkCalls
  induction n with
  | zero => omega
  | succ n ih =>
    rw [List.range_succ, List.map_append, List.filterMap_append]
    by_cases hi : i = n
    · subst hi
      have : ∀ k ≤ i, List.filterMap (fun
          | Call.chunk u j b => if u = uuid ∧ j = i then some b else none
          | _ => none) (List.map (fun i => Call.chunk uuid i b) (List.range k)) = [] := by
        intro k hk
        rw [List.filterMap_eq_nil_iff]
        intro c hc
        obtain ⟨j, hj, rfl⟩ := List.mem_map.1 hc
        have := List.mem_range.1 hj
        have : ¬ j = i := by omega
        simp [this]
      rw [this i (Nat.le_refl _)]
      simp
    · rw [ih (by omega)]
      have : ¬ n = i := fun e => hi e.symm
      simp [this]

theorem contentArgs_chunkCalls (uuid u n : Nat) (b : Bytes) :
    contentArgs uuid (chunkCalls u n b) = [] := by
  unfold contentArgs chunkCalls
  rw [List.filterMap_eq_nil_iff]
  intro c hc
  obtain ⟨j, hj, rfl⟩ := List.mem_map.1 hc
  rfl

theorem contentArgs_append (uuid : Nat) (a b : List Call) :
    contentArgs uuid (a ++ b) = contentArgs uuid a ++ contentArgs uuid b := List.filterMap_append

theorem chunkArgs_append (uuid i : Nat) (a b : List Call) :
    chunkArgs uuid i (a ++ b) = chunkArgs uuid i a ++ chunkArgs uuid i b := List.filterMap_append

theorem contentArgs_flatMap (uuid u n : Nat) (chunks : List Bytes) :
    contentArgs uuid (chunks.flatMap (chunkCalls u n)) = [] := by
  induction chunks with
  | nil => rfl
  | cons c cs ih => rw [List.flatMap_cons, contentArgs_append, contentArgs_chunkCalls, ih]; rfl

theorem chunkArgs_flatMap (uuid n i : Nat) (h : i < n) (chunks : List Bytes) :
    chunkArgs uuid i (chunks.flatMap (chunkCalls uuid n)) = chunks := by
  induction chunks with
  | nil => rfl
  | cons c cs ih => rw [List.flatMap_cons, chunkArgs_append, chunkArgs_chunkCalls _ _ _ _ h, ih]; rfl

/-- A content callback with limit `n` is called once, with exactly the first `n` bytes of the file,
however the file is split in chunks; then it is gone. -/
theorem content_callback_exact (canon : Path → Path) (disk : Disk) (uuid : Nat)
    (cb : FileCallbacks) (success : Bool) (chunks : List Bytes) (source : Option Path) (n : Nat)
    (h : cb.getContent = some n) :
    contentArgs uuid (processFile canon disk uuid cb success chunks source).2.2 =
      [chunks.flatten.take n] ∧
    (processFile canon disk uuid cb success chunks source).2.1 = { cb with getContent := none } := by
  rw [processFile_eq, h]
  refine ⟨?_, rfl⟩
  simp only [contentArgs_append, contentArgs_flatMap, contentArgs_chunkCalls]
  simp [contentArgs]

/-- Without a content callback none is called. -/
theorem content_callback_absent (canon : Path → Path) (disk : Disk) (uuid : Nat)
    (cb : FileCallbacks) (success : Bool) (chunks : List Bytes) (source : Option Path)
    (h : cb.getContent = none) :
    contentArgs uuid (processFile canon disk uuid cb success chunks source).2.2 = [] := by
  rw [processFile_eq, h]
  simp only [contentArgs_append, contentArgs_flatMap, contentArgs_chunkCalls]
  rfl

/-- Each chunk callback receives all the chunks in order and then an empty one; the chunks make the
content and none of them is empty when they come from a file of the disk or from the network. -/
theorem chunk_callback_exact (canon : Path → Path) (disk : Disk) (uuid : Nat)
    (cb : FileCallbacks) (success : Bool) (chunks : List Bytes) (source : Option Path) (i : Nat)
    (hi : i < cb.chunked) :
    chunkArgs uuid i (processFile canon disk uuid cb success chunks source).2.2 =
      chunks ++ [[]] := by
  rw [processFile_eq]
  simp only [chunkArgs_append, chunkArgs_flatMap _ _ _ hi, chunkArgs_chunkCalls _ _ _ _ hi]
  cases cb.getContent <;> simp [chunkArgs]

/-- C28 fails in one case: the chunk callbacks of an *empty* content provided from memory
(`client.rs:254`) are told twice that the file has ended. -/
theorem empty_content_two_terminators (canon : Path → Path) (disk : Disk) :
    chunkArgs 1 0 (processFile canon disk 1 { chunked := 1 } true [[]] none).2.2 = [[], []] := by
  rw [chunk_callback_exact _ _ _ _ _ _ _ 0 (by decide)]; rfl

/-- When the destination has to be written it contains the whole file, and it is executable if
requested. -/
theorem dest_written_partial (canon : Path → Path) (disk : Disk) (uuid : Nat) (cb : FileCallbacks)
    (w : WriteTo) (hw : cb.writeTo = some w) (success : Bool) (chunks : List Bytes)
    (source : Option Path) (h : w.Wanted canon disk success source) :
    ∃ node, (processFile canon disk uuid cb success chunks source).1 (canon w.dest) = some node ∧
      node.content = chunks.flatten ∧ (w.executable = true → node.exec = true) ∧
      (w.executable = false → disk (canon w.dest) = none → node.exec = false) := by
  rw [processFile_eq]
  have ht : target canon disk cb success source = some (canon w.dest) := by
    unfold target; rw [hw]; simp only; rw [if_pos ((shouldWrite_iff ..).2 h)]
  rw [ht]
  have h1 := (afterLoop_disk_some disk uuid cb chunks (canon w.dest)).1
  have h2 := setExecutable_some canon cb _ _ _ h1
  refine ⟨_, h2, rfl, ?_, ?_⟩
  · intro he; simp [hw, he]
  · intro he hd; simp [hw, he, hd]

/-- When the destination does not have to be written its content does not change. -/
theorem dest_untouched (canon : Path → Path) (disk : Disk) (uuid : Nat) (cb : FileCallbacks)
    (w : WriteTo) (hw : cb.writeTo = some w) (success : Bool) (chunks : List Bytes)
    (source : Option Path) (h : ¬ w.Wanted canon disk success source) :
    ((processFile canon disk uuid cb success chunks source).1 (canon w.dest)).map (·.content) =
      (disk (canon w.dest)).map (·.content) := by
  rw [processFile_eq]
  have ht : target canon disk cb success source = none := by
    unfold target; rw [hw]; simp only
    rw [if_neg (fun e => h ((shouldWrite_iff ..).1 e))]
  rw [ht]
  simp only [afterLoop_disk_none]
  cases hd : disk (canon w.dest) with
  | none => rw [setExecutable_none _ _ _ _ hd]
  | some n => rw [setExecutable_some _ _ _ _ _ hd]; rfl

/-- No other file of the disk is touched; none is when there is no destination. -/
theorem others_untouched (canon : Path → Path) (disk : Disk) (uuid : Nat) (cb : FileCallbacks)
    (success : Bool) (chunks : List Bytes) (source : Option Path) (p : Path)
    (hp : ∀ w, cb.writeTo = some w → canon w.dest ≠ p) :
    (processFile canon disk uuid cb success chunks source).1 p = disk p := by
  rw [processFile_eq]
  have h1 : (afterLoop disk uuid cb chunks (target canon disk cb success source)).disk p =
      disk p := by
    unfold target
    cases hw : cb.writeTo with
    | none => simp only [afterLoop_disk_none]
    | some w =>
      simp only
      split
      · exact (afterLoop_disk_some disk uuid cb chunks _).2 p (fun e => hp w hw e.symm)
      · rw [afterLoop_disk_none]
  cases hd : disk p with
  | none => exact setExecutable_none _ _ _ _ (h1.trans hd)
  | some n =>
    refine (setExecutable_some _ _ _ _ _ (h1.trans hd)).trans ?_
    cases hw : cb.writeTo with
    | none => simp
    | some w => simp [hp w hw]

/-- C28 fails for the executable flag: a destination that already exists keeps its executable bit
although a non-executable file was requested ... -/
theorem stale_executable_bit :
    ∃ (disk : Disk) (cb : FileCallbacks) (w : WriteTo) (node : Node),
      cb.writeTo = some w ∧ w.executable = false ∧ w.Wanted id disk true none ∧
      (processFile id disk 1 cb true [[1]] none).1 w.dest = some node ∧ node.exec = true := by
  refine ⟨fun p => if p = "out" then some ⟨[9], true⟩ else none,
    { writeTo := some ⟨"out", false, false⟩ }, ⟨"out", false, false⟩, ⟨[1], true⟩, rfl, rfl,
    ⟨Or.inl rfl, by rintro ⟨s, n, hs, _⟩; cases hs⟩, ?_, rfl⟩
  simp [processFile, afterLoop, target, shouldWrite, setExecutable, Loop.step, createFile,
    appendFile, Disk.set]

/-- ... and an old file at the destination of an executable is made executable even when the
production of the file failed and nothing was written. -/
theorem failure_chmods_old_file :
    ∃ (disk : Disk) (cb : FileCallbacks) (w : WriteTo),
      cb.writeTo = some w ∧ ¬ w.Wanted id disk false none ∧
      disk w.dest = some ⟨[9], false⟩ ∧
      (processFile id disk 1 cb false [[1]] none).1 w.dest = some ⟨[9], true⟩ := by
  refine ⟨fun p => if p = "out" then some ⟨[9], false⟩ else none,
    { writeTo := some ⟨"out", true, false⟩ }, ⟨"out", true, false⟩, rfl, ?_, rfl, ?_⟩
  · rintro ⟨h | h, _⟩ <;> cases h
  · simp [processFile, afterLoop, target, shouldWrite, setExecutable, Loop.step, Disk.set]

/-- A concrete case: two chunks, limit 3, two chunk callbacks and a destination. -/
example : processFile id (fun _ => none) 7
      { writeTo := some ⟨"out", true, false⟩, getContent := some 3, chunked := 2 }
      true [[1, 2], [3, 4]] none =
    (fun p => if p = "out" then some ⟨[1, 2, 3, 4], true⟩ else none,
      { writeTo := some ⟨"out", true, false⟩, getContent := none, chunked := 2 },
      [.chunk 7 0 [1, 2], .chunk 7 1 [1, 2], .chunk 7 0 [3, 4], .chunk 7 1 [3, 4],
        .chunk 7 0 [], .chunk 7 1 [], .content 7 [1, 2, 3]]) := by
  refine Prod.ext ?_ rfl
  funext p
  by_cases h : p = "out" <;>
    simp [processFile, afterLoop, target, shouldWrite, setExecutable, Loop.step, createFile,
      appendFile, Disk.set, h]

/-- The source of a provided file is not overwritten with itself, also through a link. -/
example : ¬ WriteTo.Wanted (fun p => if p = "link" then "sol.cpp" else p)
    (fun p => if p = "sol.cpp" then some ⟨[1], false⟩ else none) ⟨"link", false, false⟩ true
    (some "sol.cpp") := by
  rintro ⟨_, h⟩
  exact h ⟨"sol.cpp", ⟨[1], false⟩, rfl, rfl, rfl⟩

end TM.Client
