/-!
# Association maps

`AMap K V` models a Rust `HashMap<K, V>` (or `BTreeMap`): a list of key/value pairs in which
`insert` replaces and `erase` removes every pair with the key.  The order of the list stands for
one possible iteration order; whenever the Rust code iterates over a map the models quantify over
every permutation of it, so no theorem depends on this order.

A Rust `HashSet<K>` is modelled as a `List K` used only through membership (`setInsert`,
`setErase`).
-/

namespace TM

/-- A finite map, modelling `HashMap<K, V>`. -/
abbrev AMap (K V : Type) := List (K × V)

namespace AMap

variable {K V : Type} [DecidableEq K]

/-- `HashMap::get`. -/
def get? : AMap K V → K → Option V
  | [], _ => none
  | (k', v) :: m, k => if k' = k then some v else get? m k

/-- `HashMap::remove`. -/
def erase (m : AMap K V) (k : K) : AMap K V := m.filter (fun p => decide (p.1 ≠ k))

/-- `HashMap::insert` (replacing). -/
def insert (m : AMap K V) (k : K) (v : V) : AMap K V := (k, v) :: erase m k

/-- `HashMap::contains_key`. -/
def contains (m : AMap K V) (k : K) : Bool := (m.get? k).isSome

/-- `HashMap::keys`. -/
def keys (m : AMap K V) : List K := m.map (·.1)

/-- `HashMap::values`. -/
def values (m : AMap K V) : List V := m.map (·.2)

/-- A well formed map: no key occurs twice (always true of a Rust map). -/
def Wf (m : AMap K V) : Prop := (keys m).Nodup

@[simp] theorem get?_nil (k : K) : get? ([] : AMap K V) k = none := rfl

theorem get?_cons (k k' : K) (v : V) (m : AMap K V) :
    get? ((k', v) :: m) k = if k' = k then some v else get? m k := rfl

theorem get?_erase (m : AMap K V) (k k' : K) :
    get? (erase m k) k' = if k' = k then none else get? m k' := by
  induction m with
  | nil => simp [erase]
  | cons p m ih =>
    obtain ⟨a, b⟩ := p
    unfold erase at ih ⊢
    by_cases h : a = k
    · subst h
      by_cases h2 : k' = a
      · subst h2; simpa using ih
      · have : ¬ a = k' := fun e => h2 e.symm
        simp [get?_cons, h2, this] at ih ⊢; exact ih
    · by_cases h2 : a = k'
      · subst h2; simp [h, get?_cons]
      · simp [h, get?_cons, h2] at ih ⊢; exact ih

@[simp] theorem get?_erase_self (m : AMap K V) (k : K) : get? (erase m k) k = none := by
  simp [get?_erase]

theorem get?_erase_ne (m : AMap K V) {k k' : K} (h : k' ≠ k) :
    get? (erase m k) k' = get? m k' := by simp [get?_erase, h]

theorem get?_insert (m : AMap K V) (k k' : K) (v : V) :
    get? (insert m k v) k' = if k' = k then some v else get? m k' := by
  unfold insert
  rw [get?_cons]
  by_cases h : k' = k
  · subst h; simp
  · have : ¬ k = k' := fun e => h e.symm
    simp [h, this, get?_erase]

@[simp] theorem get?_insert_self (m : AMap K V) (k : K) (v : V) :
    get? (insert m k v) k = some v := by simp [get?_insert]

theorem get?_insert_ne (m : AMap K V) {k k' : K} (v : V) (h : k' ≠ k) :
    get? (insert m k v) k' = get? m k' := by simp [get?_insert, h]

theorem mem_of_get? {m : AMap K V} {k : K} {v : V} (h : get? m k = some v) : (k, v) ∈ m := by
  induction m with
  | nil => simp at h
  | cons p m ih =>
    obtain ⟨a, b⟩ := p
    rw [get?_cons] at h
    split at h
    · next e => subst e; cases h; simp
    · exact List.mem_cons_of_mem _ (ih h)

theorem get?_isSome_of_mem {m : AMap K V} {k : K} {v : V} (h : (k, v) ∈ m) :
    ∃ v', get? m k = some v' := by
  induction m with
  | nil => simp at h
  | cons p m ih =>
    obtain ⟨a, b⟩ := p
    rw [get?_cons]
    split
    · exact ⟨b, rfl⟩
    · next hne =>
      rcases List.mem_cons.1 h with h | h
      · cases h; exact absurd rfl hne
      · exact ih h

theorem mem_keys_iff {m : AMap K V} {k : K} : k ∈ keys m ↔ ∃ v, get? m k = some v := by
  constructor
  · intro h
    simp only [keys, List.mem_map] at h
    obtain ⟨⟨a, b⟩, hm, rfl⟩ := h
    exact get?_isSome_of_mem hm
  · rintro ⟨v, h⟩
    exact List.mem_map.2 ⟨(k, v), mem_of_get? h, rfl⟩

theorem get?_eq_none_iff {m : AMap K V} {k : K} : get? m k = none ↔ k ∉ keys m := by
  rw [mem_keys_iff]
  cases h : get? m k <;> simp

theorem get?_of_mem {m : AMap K V} (hwf : Wf m) {k : K} {v : V} (h : (k, v) ∈ m) :
    get? m k = some v := by
  induction m with
  | nil => simp at h
  | cons p m ih =>
    obtain ⟨a, b⟩ := p
    rw [get?_cons]
    simp only [Wf, keys, List.map_cons, List.nodup_cons] at hwf
    rcases List.mem_cons.1 h with h | h
    · cases h; simp
    · have : a ≠ k := by
        rintro rfl
        exact hwf.1 (List.mem_map.2 ⟨(a, v), h, rfl⟩)
      simp [this]; exact ih hwf.2 h

theorem eq_nil_iff {m : AMap K V} : m = [] ↔ ∀ k, get? m k = none := by
  constructor
  · rintro rfl k; rfl
  · intro h
    cases m with
    | nil => rfl
    | cons p m => obtain ⟨a, b⟩ := p; have := h a; simp [get?_cons] at this

theorem contains_iff {m : AMap K V} {k : K} : contains m k = true ↔ ∃ v, get? m k = some v := by
  unfold contains; exact Option.isSome_iff_exists

theorem keys_erase (m : AMap K V) (k : K) :
    keys (erase m k) = (keys m).filter (fun a => decide (a ≠ k)) := by
  simp [keys, erase, List.filter_map, Function.comp_def]

omit [DecidableEq K] in
theorem wf_nil : Wf ([] : AMap K V) := by simp [Wf, keys]

theorem wf_erase {m : AMap K V} (h : Wf m) (k : K) : Wf (erase m k) := by
  unfold Wf; rw [keys_erase]; exact h.filter _

theorem wf_insert {m : AMap K V} (h : Wf m) (k : K) (v : V) : Wf (insert m k v) := by
  have h1 := wf_erase h k
  unfold Wf insert at *
  simp only [keys, List.map_cons, List.nodup_cons]
  refine ⟨?_, h1⟩
  have : k ∉ keys (erase m k) := by rw [keys_erase]; simp
  exact this

theorem mem_erase {m : AMap K V} {k : K} {p : K × V} : p ∈ erase m k ↔ p ∈ m ∧ p.1 ≠ k := by
  simp [erase]

end AMap

section Sets
variable {K : Type} [DecidableEq K]

/-- `HashSet::insert`. -/
def setInsert (l : List K) (k : K) : List K := if k ∈ l then l else k :: l

/-- `HashSet::remove`. -/
def setErase (l : List K) (k : K) : List K := l.filter (fun a => decide (a ≠ k))

@[simp] theorem mem_setInsert {l : List K} {k a : K} : a ∈ setInsert l k ↔ a = k ∨ a ∈ l := by
  unfold setInsert
  split
  · next h => exact ⟨Or.inr, fun o => o.elim (fun e => e ▸ h) id⟩
  · simp

@[simp] theorem mem_setErase {l : List K} {k a : K} : a ∈ setErase l k ↔ a ∈ l ∧ a ≠ k := by
  simp [setErase]

theorem nodup_setInsert {l : List K} (h : l.Nodup) (k : K) : (setInsert l k).Nodup := by
  unfold setInsert; split
  · exact h
  · next hn => exact List.nodup_cons.2 ⟨hn, h⟩

theorem nodup_setErase {l : List K} (h : l.Nodup) (k : K) : (setErase l k).Nodup := h.filter _

end Sets

end TM
