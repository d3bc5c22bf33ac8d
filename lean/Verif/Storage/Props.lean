import Verif.Storage.Lemmas
/-!
# C26: the index and the cache file survive crashes
-/

namespace TM.Storage

/-- A format which reads back what it wrote, for the values that can occur, and writes at least the
8 bytes of a length. -/
structure Codec.Lawful {α : Type} (c : Codec α) (Valid : α → Prop) : Prop where
  roundtrip : ∀ x, Valid x → c.dec (c.enc x) = some x
  long : ∀ x, Valid x → 8 ≤ (c.enc x).length

/-- The files left by any sequence of saves, each made by some version of the program, with its
writes split in any way, and interrupted after any number of system calls.  `last` is the version
and the content of the last save that was completed. -/
inductive Written {α : Type} (name : String) (c : Codec α) (Valid : α → Prop) :
    Fs → Option (String × α) → Prop
  | init : Written name c Valid {} none
  | save {fs last} (version : String) (x : α) (chunks : List Bytes) (n : Nat) :
      Written name c Valid fs last → '\n' ∉ version.toList → version.length ≤ 12 →
      5 ≤ version.length → Valid x → chunks.flatten = dump c (magic name version) x →
      Written name c Valid (fs.calls ((saveCalls chunks).take n))
        (if n < (saveCalls chunks).length then last else some (version, x))

theorem load_match {α : Type} (c : Codec α) (m : Bytes) (empty : α) (f : Bytes)
    (h : f.take m.length = m ∨ f.length < m.length) :
    load c m empty (some f) = match c.dec (f.drop m.length) with
      | some x => .ok x
      | none => .error := by
  have : ¬ (m.length ≤ f.length ∧ f.take m.length ≠ m) := by
    rintro ⟨h1, h2⟩
    rcases h with h | h
    · exact h2 h
    · omega
  simp only [load, this, if_false]
  rfl

theorem load_mismatch {α : Type} (c : Codec α) (m : Bytes) (empty : α) (f : Bytes)
    (h1 : m.length ≤ f.length) (h2 : f.take m.length ≠ m) : load c m empty (some f) = .ok empty := by
  simp only [load, h1, h2, ne_eq, not_false_eq_true, and_self, if_true]

/-- What the path contains. -/
def Holds {α : Type} (name : String) (c : Codec α) (Valid : α → Prop) (main : Option Bytes) :
    Option (String × α) → Prop
  | none => main = none
  | some (w, x) => main = some (dump c (magic name w) x) ∧ '\n' ∉ w.toList ∧ Valid x ∧
      w.length ≤ 12 ∧ 5 ≤ w.length

theorem load_dump {α : Type} {c : Codec α} {Valid : α → Prop} (hc : c.Lawful Valid)
    (name version : String) (empty x : α) (hx : Valid x) :
    load c (magic name version) empty (some (dump c (magic name version) x)) = .ok x := by
  rw [dump, load_match _ _ _ _ (Or.inl (List.take_left ..)), List.drop_left, hc.roundtrip x hx]

theorem load_other {α : Type} {c : Codec α} {Valid : α → Prop} (hc : c.Lawful Valid)
    (name : String) {v w : String} (hv : '\n' ∉ v.toList) (hw : '\n' ∉ w.toList) (hne : w ≠ v)
    (hl : v.length ≤ w.length + 8) (empty x : α) (hx : Valid x) :
    load c (magic name v) empty (some (dump c (magic name w) x)) = .ok empty := by
  have hlen : (magic name v).length ≤ (dump c (magic name w) x).length := by
    have := hc.long x hx
    simp only [dump, magic, List.length_append, List.length_map, List.length_cons, List.length_nil,
      String.length_toList] at *
    omega
  refine load_mismatch _ _ _ _ hlen (fun e => ?_)
  refine hne (version_of_prefix (name := name) (body := c.enc x) hv hw ?_).symm
  rw [dump] at e
  refine ⟨(magic name w ++ c.enc x).drop (magic name v).length, ?_⟩
  have h2 := List.take_append_drop (magic name v).length (magic name w ++ c.enc x)
  rw [e] at h2
  exact h2

/-- Saving and loading is a round trip, whatever was there before and however the data is split in
writes. -/
theorem save_load_roundtrip {α : Type} {c : Codec α} {Valid : α → Prop} (hc : c.Lawful Valid)
    (name version : String) (empty x : α) (hx : Valid x) (fs : Fs) (chunks : List Bytes)
    (hch : chunks.flatten = dump c (magic name version) x) :
    load c (magic name version) empty (fs.calls (saveCalls chunks)).main = .ok x := by
  rw [calls_save, hch, load_dump hc _ _ _ _ hx]

/-- A crash after any number of system calls of a save leaves the old content or the new one. -/
theorem crash_leaves_old_or_new {α : Type} {c : Codec α} {Valid : α → Prop} (hc : c.Lawful Valid)
    (name version : String) (empty x : α) (hx : Valid x) (fs : Fs) (chunks : List Bytes)
    (hch : chunks.flatten = dump c (magic name version) x) (n : Nat) :
    load c (magic name version) empty (fs.calls ((saveCalls chunks).take n)).main =
      load c (magic name version) empty fs.main ∨
    load c (magic name version) empty (fs.calls ((saveCalls chunks).take n)).main = .ok x := by
  rcases calls_save_prefix fs chunks n with h | h
  · exact Or.inl (by rw [h])
  · right
    rw [h, hch, load_dump hc _ _ _ _ hx]

theorem written_main {α : Type} {name : String} {c : Codec α} {Valid : α → Prop} {fs : Fs}
    {last : Option (String × α)} (h : Written name c Valid fs last) :
    Holds name c Valid fs.main last := by
  induction h with
  | init => rfl
  | @save fs last version x chunks n _ hv hl1 hl2 hx hch ih =>
    by_cases hn : n < (saveCalls chunks).length
    · rw [if_pos hn]
      have hb : n ≤ chunks.length + 1 := by simp [saveCalls] at hn; omega
      rw [prefix_main fs chunks hb]
      exact ih
    · rw [if_neg hn]
      simp only [Holds]
      rw [List.take_of_length_le (by omega), calls_save, hch]
      exact ⟨rfl, hv, hx, hl1, hl2⟩
where
  prefix_main (fs : Fs) (chunks : List Bytes) {n : Nat} (hn : n ≤ chunks.length + 1) :
      (fs.calls ((saveCalls chunks).take n)).main = fs.main := by
    cases n with
    | zero => rfl
    | succ n =>
      have : (saveCalls chunks).take (n + 1) = [.create] ++ (chunks.map .write).take n := by
        simp only [saveCalls, List.cons_append, List.take_succ_cons]
        rw [List.take_append_of_le_length (by simp; omega)]
        rfl
      rw [this, calls_append, calls_writes_main]
      rfl

/-- Whatever was saved before, by whichever versions, interrupted wherever, loading succeeds: it
gives the content of the last completed save if that was made by this version and nothing
otherwise. -/
theorem load_after_any_history {α : Type} {name : String} {c : Codec α} {Valid : α → Prop}
    (hc : c.Lawful Valid) {fs : Fs} {last : Option (String × α)}
    (h : Written name c Valid fs last) {v : String} (hv : '\n' ∉ v.toList)
    (hl : v.length ≤ 12) (empty : α) :
    load c (magic name v) empty fs.main = .ok (match last with
      | none => empty
      | some (w, x) => if w = v then x else empty) := by
  have := written_main h
  cases last with
  | none => simp only [Holds] at this; rw [this]; rfl
  | some p =>
    obtain ⟨w, x⟩ := p
    obtain ⟨hm, hw, hx, h1, h2⟩ := this
    rw [hm]
    by_cases e : w = v
    · subst e; rw [load_dump hc _ _ _ _ hx]; simp
    · rw [load_other hc name hv hw e (by omega) empty x hx]; simp [e]

/-! ## The index -/

/-- The format of the index is lawful. -/
theorem indexCodec_lawful : indexCodec.Lawful DiskIndex.Valid :=
  ⟨index_dec_enc, fun x _ => by simp [indexCodec, le_length]⟩

/-- A truncated index is never read as something else: loading it fails. -/
theorem truncated_index_detected (version : String) (empty x : DiskIndex) (hx : x.Valid) {n : Nat}
    (hn : n < (dump indexCodec (magic "task-maker-store" version) x).length) :
    load indexCodec (magic "task-maker-store" version) empty
      (some ((dump indexCodec (magic "task-maker-store" version) x).take n)) = .error := by
  generalize hm : magic "task-maker-store" version = m at *
  simp only [dump, List.length_append] at hn
  rw [dump, load_match]
  · have hd : ((m ++ indexCodec.enc x).take n).drop m.length =
        (indexCodec.enc x).take (n - m.length) := by
      rw [List.drop_take, List.drop_left]
    rw [hd, index_dec_prefix x hx]
    have : 16 ≤ (indexCodec.enc x).length := by simp [indexCodec, le_length]; omega
    omega
  · by_cases h : m.length ≤ n
    · left
      rw [List.take_take, Nat.min_eq_left h, List.take_left]
    · right
      rw [List.length_take]
      omega

/-- One file of 7 bytes. -/
def demoIndex : DiskIndex := ⟨7, [⟨12345, 7, 1600000000, 5⟩]⟩

theorem demoIndex_valid : demoIndex.Valid := by
  refine ⟨by decide, by decide, ?_⟩
  intro i hi
  simp only [demoIndex, List.mem_singleton] at hi
  subst hi
  exact ⟨by decide, by decide, by decide, by decide⟩

/-- A history: version 0.6.0 saves, version 0.6.1 is interrupted after two system calls. -/
example : Written "task-maker-store" indexCodec DiskIndex.Valid
    ((({} : Fs).calls ((saveCalls [dump indexCodec (magic "task-maker-store" "0.6.0") demoIndex]).take 3)).calls
      ((saveCalls [dump indexCodec (magic "task-maker-store" "0.6.1") ⟨0, []⟩]).take 2))
    (some ("0.6.0", demoIndex)) :=
  .save "0.6.1" ⟨0, []⟩ _ 2 (.save "0.6.0" demoIndex _ 3 .init (by decide) (by decide) (by decide)
    demoIndex_valid (by simp)) (by decide) (by decide) (by decide)
    ⟨by decide, by decide, by simp⟩ (by simp)

/-! ## A lost write error

`bincode::serialize_into(writer, ..)` takes the `BufWriter` by value and it is dropped without a
flush: an error while writing the last buffered bytes (up to the capacity of the buffer) is ignored
and the truncated file is renamed over the good one.  The property above therefore holds for
crashes but not for write errors (a full disk). -/

/-- The system calls of a save whose final implicit flush fails after `k` bytes. -/
def saveCallsFlushError {α : Type} (c : Codec α) (m : Bytes) (x : α) (k : Nat) : List Sys :=
  saveCalls [(dump c m x).take k]

/-- With such an error the old content is lost and the new one cannot be loaded. -/
theorem flush_error_loses_content :
    let m := magic "task-maker-store" "0.6.1"
    let fs : Fs := ({} : Fs).calls (saveCalls [dump indexCodec m demoIndex])
    load indexCodec m ⟨0, []⟩ fs.main = .ok demoIndex ∧
    load indexCodec m ⟨0, []⟩ (fs.calls (saveCallsFlushError indexCodec m demoIndex 40)).main =
      .error := by
  constructor
  · exact save_load_roundtrip indexCodec_lawful _ _ _ _ demoIndex_valid _ _ (by simp)
  · rw [saveCallsFlushError, calls_save]
    simp only [List.flatten_cons, List.flatten_nil, List.append_nil]
    exact truncated_index_detected "0.6.1" _ _ demoIndex_valid (by decide)

end TM.Storage
