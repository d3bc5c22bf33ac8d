import Verif.Client.Model
namespace TM.Client
open TM.Proto

theorem set_same (d : Disk) (p : Path) (n : Node) : d.set p n p = some n := by simp [Disk.set]

theorem set_ne (d : Disk) {p q : Path} (n : Node) (h : q ≠ p) : d.set p n q = d q := by
  simp [Disk.set, h]

theorem take_succ_buffer (b c : Bytes) (limit : Nat) (h : b.length ≤ limit) :
    (if b.length < limit then b ++ c.take (min c.length (limit - b.length)) else b) =
      (b ++ c).take limit := by
  rw [List.take_append]
  split
  · rw [List.take_of_length_le h]
    congr 1
    rcases Nat.le_total c.length (limit - b.length) with hc | hc
    · rw [Nat.min_eq_left hc, List.take_of_length_le (Nat.le_refl _), List.take_of_length_le hc]
    · rw [Nat.min_eq_right hc]
  · have : b.length = limit := by omega
    rw [List.take_of_length_le h, this]; simp

theorem foldl_buffer (uuid chunked limit : Nat) (file : Option Path) (chunks : List Bytes) :
    ∀ (s : Loop), s.buffer.length ≤ limit →
    (chunks.foldl (Loop.step uuid chunked limit file) s).buffer =
      (s.buffer ++ chunks.flatten).take limit := by
  induction chunks with
  | nil => intro s h; simp [List.take_of_length_le h]
  | cons c cs ih =>
    intro s h
    rw [List.foldl_cons, ih]
    · simp only [Loop.step]
      rw [take_succ_buffer _ _ _ h, List.flatten_cons, ← List.append_assoc]
      generalize s.buffer ++ c = x
      rw [List.take_append, List.take_append, List.take_take, Nat.min_self]
      rcases Nat.le_total x.length limit with hx | hx
      · simp only [List.length_take]; congr 2; omega
      · have h1 : limit - x.length = 0 := by omega
        have h2 : limit - (List.take limit x).length = 0 := by simp only [List.length_take]; omega
        rw [h1, h2]
    · simp only [Loop.step]
      rw [take_succ_buffer _ _ _ h, List.length_take]
      omega

theorem foldl_calls (uuid chunked limit : Nat) (file : Option Path) (chunks : List Bytes) :
    ∀ (s : Loop), (chunks.foldl (Loop.step uuid chunked limit file) s).calls =
      s.calls ++ chunks.flatMap (chunkCalls uuid chunked) := by
  induction chunks with
  | nil => intro s; simp
  | cons c cs ih =>
    intro s
    rw [List.foldl_cons, ih, List.flatMap_cons]
    simp [Loop.step, List.append_assoc]

theorem foldl_disk_none (uuid chunked limit : Nat) (chunks : List Bytes) :
    ∀ (s : Loop), (chunks.foldl (Loop.step uuid chunked limit none) s).disk = s.disk := by
  induction chunks with
  | nil => intro s; rfl
  | cons c cs ih => intro s; rw [List.foldl_cons, ih]; rfl

theorem foldl_disk_some (uuid chunked limit : Nat) (p : Path) (chunks : List Bytes) :
    ∀ (s : Loop) (n : Node), s.disk p = some n →
    (chunks.foldl (Loop.step uuid chunked limit (some p)) s).disk p =
      some { n with content := n.content ++ chunks.flatten } ∧
    ∀ q, q ≠ p → (chunks.foldl (Loop.step uuid chunked limit (some p)) s).disk q = s.disk q := by
  induction chunks with
  | nil => intro s n h; simp [h]
  | cons c cs ih =>
    intro s n h
    have h1 : (Loop.step uuid chunked limit (some p) s c).disk =
        s.disk.set p { n with content := n.content ++ c } := by
      simp [Loop.step, appendFile, h]
    rw [List.foldl_cons]
    obtain ⟨a, b⟩ := ih (Loop.step uuid chunked limit (some p) s c)
      { n with content := n.content ++ c } (by rw [h1, set_same])
    refine ⟨?_, ?_⟩
    · rw [a]; simp [List.append_assoc]
    · intro q hq
      rw [b q hq, h1, set_ne _ _ hq]

theorem processFile_eq (canon : Path → Path) (disk : Disk) (uuid : Nat) (cb : FileCallbacks)
    (success : Bool) (chunks : List Bytes) (source : Option Path) :
    processFile canon disk uuid cb success chunks source =
      (setExecutable canon cb
        (afterLoop disk uuid cb chunks (target canon disk cb success source)).disk,
        { cb with getContent := none },
        chunks.flatMap (chunkCalls uuid cb.chunked) ++ chunkCalls uuid cb.chunked [] ++
          (match cb.getContent with
            | some n => [.content uuid (chunks.flatten.take n)]
            | none => [])) := by
  have hb : ∀ f, (afterLoop disk uuid cb chunks f).buffer =
      chunks.flatten.take (cb.getContent.getD 0) := by
    intro f; unfold afterLoop; rw [foldl_buffer _ _ _ _ _ _ (by simp)]; simp
  have hc : ∀ f, (afterLoop disk uuid cb chunks f).calls =
      chunks.flatMap (chunkCalls uuid cb.chunked) := by
    intro f; unfold afterLoop; rw [foldl_calls]; simp
  unfold processFile
  cases hg : cb.getContent with
  | none =>
    simp only [hc]
    obtain ⟨w, g, k⟩ := cb
    simp only at hg
    subst hg
    simp
  | some n => simp only [hc, hb, hg, Option.getD_some]

theorem setExecutable_some (canon : Path → Path) (cb : FileCallbacks) (d : Disk) (q : Path)
    (n : Node) (h : d q = some n) : setExecutable canon cb d q = some { n with exec := n.exec ||
      (match cb.writeTo with
        | some w => w.executable && decide (canon w.dest = q)
        | none => false) } := by
  unfold setExecutable
  cases hw : cb.writeTo with
  | none => simp [h]
  | some w =>
    simp only
    by_cases hq : canon w.dest = q
    · subst hq
      rw [h]
      cases w.executable with
      | true => simp [set_same]
      | false => simp [h]
    · cases hd : d (canon w.dest) with
      | none => simp [h, hq]
      | some m =>
        cases he : w.executable with
        | false => simp [h]
        | true => simp [set_ne _ _ (fun e => hq e.symm), h, hq]

theorem setExecutable_none (canon : Path → Path) (cb : FileCallbacks) (d : Disk) (q : Path)
    (h : d q = none) : setExecutable canon cb d q = none := by
  unfold setExecutable
  cases hw : cb.writeTo with
  | none => exact h
  | some w =>
    simp only
    cases hd : d (canon w.dest) with
    | none => exact h
    | some m =>
      have hq : q ≠ canon w.dest := by
        intro e; subst e; rw [h] at hd; cases hd
      cases he : w.executable with
      | false => simp [h]
      | true => simp [set_ne _ _ hq, h]

theorem afterLoop_disk_none (disk : Disk) (uuid : Nat) (cb : FileCallbacks) (chunks : List Bytes) :
    (afterLoop disk uuid cb chunks none).disk = disk := by
  unfold afterLoop
  rw [foldl_disk_none]

theorem afterLoop_disk_some (disk : Disk) (uuid : Nat) (cb : FileCallbacks) (chunks : List Bytes)
    (p : Path) :
    (afterLoop disk uuid cb chunks (some p)).disk p =
      some { content := chunks.flatten,
             exec := match disk p with | some n => n.exec | none => false } ∧
    ∀ q, q ≠ p → (afterLoop disk uuid cb chunks (some p)).disk q = disk q := by
  unfold afterLoop
  obtain ⟨a, b⟩ := foldl_disk_some uuid cb.chunked (cb.getContent.getD 0) p chunks
    { disk := createFile disk p } _ (set_same _ _ _)
  refine ⟨?_, fun q hq => ?_⟩
  · rw [a]
    simp only [List.nil_append]
    rfl
  · rw [b q hq]
    exact set_ne _ _ hq

end TM.Client
