import Verif.Storage.Model
/-! Helper lemmas about persistence. -/

namespace TM.Storage

theorem le_length (n v : Nat) : (le n v).length = n := by
  induction n generalizing v with
  | zero => rfl
  | succ n ih => simp [le, ih]

theorem readLe_le (n v : Nat) (h : v < 256 ^ n) (r : Bytes) : readLe n (le n v ++ r) = some (v, r) := by
  induction n generalizing v with
  | zero => simp at h; subst h; rfl
  | succ n ih =>
    simp only [le, List.cons_append, readLe]
    rw [ih (v / 256) (by rw [Nat.div_lt_iff_lt_mul (by omega)]; rw [Nat.pow_succ] at h; exact h)]
    simp only [Option.map_some, Option.some.injEq, Prod.mk.injEq, and_true]
    omega

theorem readLe_some {n : Nat} {bs : Bytes} {v : Nat} {r : Bytes} (h : readLe n bs = some (v, r)) :
    bs.length = n + r.length ∧ r = bs.drop n := by
  induction n generalizing bs v with
  | zero => simp [readLe] at h; obtain ⟨rfl, rfl⟩ := h; simp
  | succ n ih =>
    cases bs with
    | nil => simp [readLe] at h
    | cons b bs =>
      simp only [readLe, Option.map_eq_some_iff, Prod.exists, Prod.mk.injEq] at h
      obtain ⟨v', r', h1, _, rfl⟩ := h
      obtain ⟨h2, h3⟩ := ih h1
      exact ⟨by simp [h2]; omega, by simp [← h3]⟩

theorem readLe_prefix {n m : Nat} {bs : Bytes} (h : n ≤ m) (hl : n ≤ bs.length) :
    ∃ v, readLe n bs = some (v, bs.drop n) ∧ readLe n (bs.take m) = some (v, (bs.take m).drop n) := by
  induction n generalizing bs m with
  | zero => exact ⟨0, by simp [readLe], by simp [readLe]⟩
  | succ n ih =>
    cases bs with
    | nil => simp at hl
    | cons b bs =>
      cases m with
      | zero => omega
      | succ m =>
        obtain ⟨v, h1, h2⟩ := ih (bs := bs) (m := m) (by omega) (by simpa using hl)
        exact ⟨b + 256 * v, by simp [readLe, h1], by simp [readLe, h2]⟩

theorem encItem_length (i : DiskItem) : (encItem i).length = 52 := by
  simp [encItem, le_length]

theorem decItem_enc (i : DiskItem) (h : i.Valid) (r : Bytes) :
    decItem (encItem i ++ r) = some (i, r) := by
  obtain ⟨h1, h2, h3, h4⟩ := h
  simp only [decItem, encItem, List.append_assoc]
  rw [readLe_le 32 _ h1]
  simp only [Option.bind_some]
  rw [readLe_le 8 _ h2]
  simp only [Option.bind_some]
  rw [readLe_le 8 _ h3]
  simp only [Option.bind_some]
  rw [readLe_le 4 _ h4]
  rfl

theorem decItems_enc (l : List DiskItem) (h : ∀ i ∈ l, i.Valid) (r : Bytes) :
    decItems l.length ((l.map encItem).flatten ++ r) = some (l, r) := by
  induction l with
  | nil => rfl
  | cons i l ih =>
    simp only [List.length_cons, List.map_cons, List.flatten_cons, List.append_assoc, decItems]
    rw [decItem_enc i (h i (by simp))]
    simp only [Option.bind_some]
    rw [ih (fun j hj => h j (by simp [hj]))]
    rfl

theorem decItem_some {bs r : Bytes} {i : DiskItem} (h : decItem bs = some (i, r)) :
    bs.length = 52 + r.length := by
  simp only [decItem, Option.bind_eq_some_iff, Option.map_eq_some_iff, Prod.exists,
    Prod.mk.injEq] at h
  obtain ⟨_, _, h1, _, _, h2, _, _, h3, _, _, h4, _, rfl⟩ := h
  have := (readLe_some h1).1
  have := (readLe_some h2).1
  have := (readLe_some h3).1
  have := (readLe_some h4).1
  omega

theorem decItems_some {n : Nat} {bs r : Bytes} {l : List DiskItem}
    (h : decItems n bs = some (l, r)) : bs.length = 52 * n + r.length := by
  induction n generalizing bs l with
  | zero => simp [decItems] at h; simp [h]
  | succ n ih =>
    simp only [decItems, Option.bind_eq_some_iff, Option.map_eq_some_iff, Prod.exists,
      Prod.mk.injEq] at h
    obtain ⟨_, _, h1, _, _, h2, _, rfl⟩ := h
    have := decItem_some h1
    have := ih h2
    omega

theorem flatten_items_length (l : List DiskItem) : (l.map encItem).flatten.length = 52 * l.length := by
  induction l with
  | nil => rfl
  | cons i l ih => simp [ih, encItem_length]; omega

theorem index_dec_enc (x : DiskIndex) (h : x.Valid) : indexCodec.dec (indexCodec.enc x) = some x := by
  obtain ⟨h1, h2, h3⟩ := h
  simp only [indexCodec]
  rw [readLe_le 8 _ h1]
  simp only [Option.bind_some]
  rw [readLe_le 8 _ h2]
  simp only [Option.bind_some]
  have := decItems_enc x.files h3 []
  rw [List.append_nil] at this
  rw [this]
  rfl

theorem index_dec_prefix (x : DiskIndex) (h : x.Valid) {n : Nat} (hn : n < (indexCodec.enc x).length) :
    indexCodec.dec ((indexCodec.enc x).take n) = none := by
  obtain ⟨h1, h2, h3⟩ := h
  cases hd : indexCodec.dec ((indexCodec.enc x).take n) with
  | none => rfl
  | some y =>
    exfalso
    simp only [indexCodec, Option.bind_eq_some_iff, Option.map_eq_some_iff, Prod.exists] at hd hn
    obtain ⟨t, r1, e1, k, r2, e2, l, r3, e3, _⟩ := hd
    have l1 := readLe_some e1
    have l2 := readLe_some e2
    have l3 := decItems_some e3
    -- the count read is the real one
    have hk : k = x.files.length := by
      have hr1 : r1 = (le 8 x.files.length ++ (x.files.map encItem).flatten).take (n - 8) := by
        rw [l1.2, List.drop_take, List.drop_append_of_le_length (by simp [le_length]),
          List.drop_of_length_le (by simp [le_length]), List.nil_append]
      rw [hr1] at e2
      have hlen : 8 ≤ n - 8 := by
        have := l2.1
        rw [hr1, List.length_take] at this
        omega
      obtain ⟨v, p1, p2⟩ := readLe_prefix (n := 8) (m := n - 8)
        (bs := le 8 x.files.length ++ (x.files.map encItem).flatten) hlen (by simp [le_length])
      rw [p2] at e2
      rw [readLe_le 8 _ h2] at p1
      simp only [Option.some.injEq, Prod.mk.injEq] at p1 e2
      rw [← e2.1, ← p1.1]
    have := l1.1
    have := l2.1
    rw [List.length_take] at *
    simp only [List.length_append, le_length, flatten_items_length] at *
    omega

/-! ### The magic line -/

theorem line_prefix {v w body : List Nat} {nl : Nat} (hv : nl ∉ v) (hw : nl ∉ w)
    (h : (v ++ [nl]) <+: (w ++ nl :: body)) : v = w := by
  induction v generalizing w with
  | nil =>
    cases w with
    | nil => rfl
    | cons a w =>
      obtain ⟨t, ht⟩ := h
      simp only [List.nil_append, List.cons_append, List.cons.injEq] at ht
      exact absurd (ht.1 ▸ List.mem_cons_self ..) hw
  | cons a v ih =>
    cases w with
    | nil =>
      obtain ⟨t, ht⟩ := h
      simp only [List.nil_append, List.cons_append, List.cons.injEq] at ht
      exact absurd (ht.1 ▸ List.mem_cons_self ..) hv
    | cons b w =>
      obtain ⟨t, ht⟩ := h
      simp only [List.cons_append, List.cons.injEq] at ht
      rw [ht.1, ih (w := w) (fun hm => hv (List.mem_cons_of_mem _ hm))
        (fun hm => hw (List.mem_cons_of_mem _ hm)) ⟨t, ht.2⟩]

/-- The part of the magic before the version. -/
def head (name : String) : Bytes := (name.toList ++ [' ', 'v']).map Char.toNat

theorem magic_eq (name version : String) :
    magic name version = head name ++ (version.toList.map Char.toNat ++ ['\n'.toNat]) := by
  simp [magic, head]

theorem toNat_inj {a b : Char} (h : a.toNat = b.toNat) : a = b := Char.toNat_inj.1 h

theorem map_toNat_inj {a b : List Char} (h : a.map Char.toNat = b.map Char.toNat) : a = b := by
  induction a generalizing b with
  | nil => cases b with
    | nil => rfl
    | cons _ _ => simp at h
  | cons x a ih =>
    cases b with
    | nil => simp at h
    | cons y b =>
      simp only [List.map_cons, List.cons.injEq] at h
      rw [toNat_inj h.1, ih h.2]

theorem version_of_prefix {name v w : String} {body : Bytes} (hv : '\n' ∉ v.toList)
    (hw : '\n' ∉ w.toList) (h : magic name v <+: magic name w ++ body) : v = w := by
  have nl : ∀ {s : String}, '\n' ∉ s.toList → '\n'.toNat ∉ s.toList.map Char.toNat := by
    intro s hs hm
    obtain ⟨c, hc, e⟩ := List.mem_map.1 hm
    exact hs (toNat_inj e ▸ hc)
  rw [magic_eq, magic_eq, List.append_assoc, List.prefix_append_right_inj] at h
  have := line_prefix (nl hv) (nl hw) (body := body) (by simpa using h)
  exact String.toList_inj.1 (map_toNat_inj this)

/-! ### Saves -/

theorem calls_append (fs : Fs) (a b : List Sys) : fs.calls (a ++ b) = (fs.calls a).calls b := by
  simp [Fs.calls]

theorem calls_writes (fs : Fs) (chunks : List Bytes) :
    fs.calls (chunks.map .write) =
      if chunks = [] then fs else { fs with tmp := some (fs.tmp.getD [] ++ chunks.flatten) } := by
  induction chunks generalizing fs with
  | nil => rfl
  | cons c cs ih =>
    have : fs.calls ((c :: cs).map .write) = (fs.call (.write c)).calls (cs.map .write) := rfl
    rw [this, ih]
    by_cases h : cs = []
    · subst h; simp [Fs.call]
    · simp [h, Fs.call]

theorem calls_save (fs : Fs) (chunks : List Bytes) :
    fs.calls (saveCalls chunks) = { main := some chunks.flatten, tmp := none } := by
  have : saveCalls chunks = [.create] ++ (chunks.map .write ++ [.rename]) := rfl
  rw [this, calls_append, calls_append, calls_writes]
  by_cases h : chunks = []
  · subst h; rfl
  · simp [h, Fs.calls, Fs.call]

theorem calls_writes_main (fs : Fs) (chunks : List Bytes) (n : Nat) :
    (fs.calls ((chunks.map .write).take n)).main = fs.main := by
  rw [← List.map_take, calls_writes]
  split <;> rfl

theorem calls_save_prefix (fs : Fs) (chunks : List Bytes) (n : Nat) :
    (fs.calls ((saveCalls chunks).take n)).main = fs.main ∨
    (fs.calls ((saveCalls chunks).take n)).main = some chunks.flatten := by
  by_cases hn : n ≤ chunks.length + 1
  · left
    cases n with
    | zero => rfl
    | succ n =>
      have : (saveCalls chunks).take (n + 1) = [.create] ++ (chunks.map .write).take n := by
        simp only [saveCalls, List.cons_append, List.take_succ_cons]
        rw [List.take_append_of_le_length (by simp; omega)]
        rfl
      rw [this, calls_append, calls_writes_main]
      rfl
  · right
    rw [List.take_of_length_le (by simp [saveCalls]; omega), calls_save]

end TM.Storage
