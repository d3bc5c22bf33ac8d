/-!
# A disk with symbolic links

Model of what the checks of the files of a task ask to the system: `Path::exists`, `Path::canonicalize`, `Path::read_link`,
`Path::is_symlink`, `Path::is_dir`, `File::open` (task-maker-format/src/ioi/sanity_checks/).  Paths are absolute, lists of
names without `.` and `..`; the target of a link is absolute.  Permissions are left out.  A path is resolved with at most
`limit` steps (names and links), like the kernel, that stops after some links.
-/
namespace TM.Disk

abbrev Text := List Char
abbrev Path := List Text

inductive Node where
  | file (content : Text)
  | dir
  | link (target : Path)
deriving DecidableEq, Repr

structure Disk where
  node : Path → Option Node
  limit : Nat

/-- The resolution of the names `todo` from the directory `base`. -/
def walk (d : Path → Option Node) : Nat → Path → Path → Option Path
  | _, base, [] => some base
  | 0, _, _ :: _ => none
  | n + 1, base, c :: rest =>
    match d (base ++ [c]) with
    | none => none
    | some (.link t) => walk d n [] (t ++ rest)
    | some .dir => walk d n (base ++ [c]) rest
    | some (.file _) => if rest = [] then some (base ++ [c]) else none

/-- `Path::canonicalize`. -/
def Disk.canonicalize (d : Disk) (p : Path) : Option Path := walk d.node d.limit [] p

/-- `Path::exists`. -/
def Disk.exists (d : Disk) (p : Path) : Bool := (d.canonicalize p).isSome

/-- `Path::read_link`: the last name is not followed. -/
def Disk.readLink (d : Disk) (p : Path) : Option Path :=
  match p.getLast? with
  | none => none
  | some c =>
    match d.canonicalize p.dropLast with
    | none => none
    | some q =>
      match d.node (q ++ [c]) with
      | some (.link t) => some t
      | _ => none

/-- `File::open` and reading: nothing for a directory. -/
def Disk.read (d : Disk) (p : Path) : Option Text :=
  match d.canonicalize p with
  | none => none
  | some q =>
    match d.node q with
    | some (.file content) => some content
    | _ => none

/-- `Path::is_dir`. -/
def Disk.isDir (d : Disk) (p : Path) : Bool :=
  match d.canonicalize p with
  | none => false
  | some q => q = [] || d.node q = some .dir

/-! ## Specification -/

/-- What a path is, when the links are followed. -/
inductive Leads (d : Path → Option Node) : Path → Path → Path → Prop where
  | here (base : Path) : Leads d base [] base
  | enter {base : Path} {c : Text} {rest r : Path} : d (base ++ [c]) = some .dir → Leads d (base ++ [c]) rest r →
      Leads d base (c :: rest) r
  | file {base : Path} {c : Text} {content : Text} : d (base ++ [c]) = some (.file content) → Leads d base [c] (base ++ [c])
  | follow {base : Path} {c : Text} {t rest r : Path} : d (base ++ [c]) = some (.link t) → Leads d [] (t ++ rest) r →
      Leads d base (c :: rest) r

/-- The path `p` leads to `r`. -/
def LeadsTo (d : Disk) (p r : Path) : Prop := Leads d.node [] p r

/-- The limit is never what stops a resolution. -/
def Roomy (d : Disk) : Prop := ∀ p r, LeadsTo d p r → d.canonicalize p = some r

/-- A link is at `p`. -/
def LinkAt (d : Disk) (p target : Path) : Prop :=
  ∃ dir c q, p = dir ++ [c] ∧ LeadsTo d dir q ∧ d.node (q ++ [c]) = some (.link target)

/-! ## Lemmas -/

theorem walk_leads {d : Path → Option Node} : ∀ {n : Nat} {base todo r : Path}, walk d n base todo = some r → Leads d base todo r
  | 0, base, [], r, h => by simp only [walk, Option.some.injEq] at h; subst h; exact .here _
  | n + 1, base, [], r, h => by simp only [walk, Option.some.injEq] at h; subst h; exact .here _
  | 0, base, c :: rest, r, h => by simp [walk] at h
  | n + 1, base, c :: rest, r, h => by
    simp only [walk] at h
    split at h
    · cases h
    · exact .follow ‹_› (walk_leads h)
    · exact .enter ‹_› (walk_leads h)
    · split at h
      · subst ‹rest = []›
        cases h
        exact .file ‹_›
      · cases h

theorem walk_mono {d : Path → Option Node} : ∀ {n m : Nat} {base todo r : Path}, walk d n base todo = some r → n ≤ m →
    walk d m base todo = some r
  | n, m, base, [], r, h, _ => by
    have : walk d n base [] = some base := by cases n <;> rfl
    rw [this] at h
    cases m <;> exact h
  | 0, m, base, c :: rest, r, h, _ => by simp [walk] at h
  | n + 1, 0, base, c :: rest, r, h, hm => by omega
  | n + 1, m + 1, base, c :: rest, r, h, hm => by
    simp only [walk] at h ⊢
    split at h
    · cases h
    · exact walk_mono h (by omega)
    · exact walk_mono h (by omega)
    · exact h

theorem leads_walk {d : Path → Option Node} {base todo r : Path} (h : Leads d base todo r) : ∃ n, walk d n base todo = some r := by
  induction h with
  | here base => exact ⟨0, rfl⟩
  | enter h _ ih =>
    obtain ⟨n, hn⟩ := ih
    exact ⟨n + 1, by simp only [walk, h, hn]⟩
  | file h => exact ⟨1, by simp only [walk, h, if_true]⟩
  | follow h _ ih =>
    obtain ⟨n, hn⟩ := ih
    exact ⟨n + 1, by simp only [walk, h, hn]⟩

theorem leads_unique {d : Path → Option Node} {base todo r r' : Path} (h : Leads d base todo r) (h' : Leads d base todo r') :
    r = r' := by
  obtain ⟨n, hn⟩ := leads_walk h
  obtain ⟨m, hm⟩ := leads_walk h'
  have h1 := walk_mono hn (Nat.le_max_left n m)
  have h2 := walk_mono hm (Nat.le_max_right n m)
  rw [h1] at h2
  exact Option.some.inj h2

theorem canon_iff {d : Disk} (hd : Roomy d) {p r : Path} : d.canonicalize p = some r ↔ LeadsTo d p r :=
  ⟨walk_leads, hd p r⟩

theorem canon_none {d : Disk} (hd : Roomy d) {p : Path} : d.canonicalize p = none ↔ ∀ r, ¬ LeadsTo d p r := by
  constructor
  · intro h r hr
    rw [hd p r hr] at h
    cases h
  · intro h
    cases hc : d.canonicalize p with
    | none => rfl
    | some r => exact absurd ((canon_iff hd).1 hc) (h r)

theorem exists_iff {d : Disk} (hd : Roomy d) {p : Path} : d.exists p = true ↔ ∃ r, LeadsTo d p r := by
  unfold Disk.exists
  rw [Option.isSome_iff_exists]
  exact ⟨fun ⟨r, h⟩ => ⟨r, (canon_iff hd).1 h⟩, fun ⟨r, h⟩ => ⟨r, (canon_iff hd).2 h⟩⟩

theorem readLink_iff {d : Disk} (hd : Roomy d) {p t : Path} : d.readLink p = some t ↔ LinkAt d p t := by
  unfold Disk.readLink LinkAt
  constructor
  · intro h
    split at h
    · cases h
    · rename_i c hc
      split at h
      · cases h
      · rename_i q hq
        split at h
        · cases h
          obtain ⟨dir, rfl⟩ := List.getLast?_eq_some_iff.1 hc
          rw [List.dropLast_concat] at hq
          exact ⟨dir, c, q, rfl, (canon_iff hd).1 hq, ‹_›⟩
        · cases h
  · rintro ⟨dir, c, q, rfl, h1, h2⟩
    simp only [List.getLast?_append, List.getLast?_singleton, Option.some_or, List.dropLast_concat,
      (canon_iff hd).2 h1, h2]

theorem read_iff {d : Disk} (hd : Roomy d) {p : Path} {content : Text} : d.read p = some content ↔
    ∃ r, LeadsTo d p r ∧ d.node r = some (.file content) := by
  unfold Disk.read
  constructor
  · intro h
    split at h
    · cases h
    · split at h
      · cases h
        exact ⟨_, (canon_iff hd).1 ‹_›, ‹_›⟩
      · cases h
  · rintro ⟨r, h1, h2⟩
    simp only [(canon_iff hd).2 h1, h2]

theorem leads_cons {d : Path → Option Node} {base : Path} {c : Text} {rest r : Path} (h : Leads d base (c :: rest) r) :
    (d (base ++ [c]) = some .dir ∧ Leads d (base ++ [c]) rest r) ∨
    (∃ content, d (base ++ [c]) = some (.file content) ∧ rest = [] ∧ r = base ++ [c]) ∨
    ∃ t, d (base ++ [c]) = some (.link t) ∧ Leads d [] (t ++ rest) r := by
  generalize hl : c :: rest = l at h
  cases h with
  | here => cases hl
  | enter h h' => cases hl; exact .inl ⟨h, h'⟩
  | file h => cases hl; exact .inr (.inl ⟨_, h, rfl, rfl⟩)
  | follow h h' => cases hl; exact .inr (.inr ⟨_, h, h'⟩)

/-- Nothing is inside a file. -/
theorem file_ends {d : Path → Option Node} (h3 : ∀ p c content, d p = some (.file content) → d (p ++ [c]) = none)
    {base t q : Path} (h : Leads d base t q) : ∀ {content rest r}, d q = some (.file content) → Leads d base (t ++ rest) r →
      rest = [] := by
  induction h with
  | here base =>
    intro content rest r hq hr
    cases rest with
    | nil => rfl
    | cons c rest =>
      have h4 := h3 _ c _ hq
      rcases leads_cons hr with ⟨h, -⟩ | ⟨_, h, -⟩ | ⟨_, h, -⟩ <;> rw [h4] at h <;> cases h
  | enter h _ ih =>
    intro content rest r hq hr
    rcases leads_cons hr with ⟨-, h'⟩ | ⟨_, h', -⟩ | ⟨_, h', -⟩
    · exact ih hq h'
    · rw [h] at h'; cases h'
    · rw [h] at h'; cases h'
  | @file base c content h =>
    intro content' rest r hq hr
    rcases leads_cons hr with ⟨h', -⟩ | ⟨_, -, h', -⟩ | ⟨_, h', -⟩
    · rw [h] at h'; cases h'
    · exact h'
    · rw [h] at h'; cases h'
  | follow h _ ih =>
    intro content rest r hq hr
    rcases leads_cons hr with ⟨h', -⟩ | ⟨_, h', -⟩ | ⟨t, h', h''⟩
    · rw [h] at h'; cases h'
    · rw [h] at h'; cases h'
    · rw [h] at h'
      cases h'
      refine ih hq (r := r) ?_
      rw [List.append_assoc]
      exact h''

/-- A disk where all the links are to files (and not to links) is roomy, if the limit is not too small. -/
theorem roomy_files {d : Disk} {k : Nat} (h1 : ∀ p n, d.node p = some n → p.length ≤ k)
    (h2 : ∀ p t, d.node p = some (.link t) → walk d.node k [] t = some t ∧ ∃ content, d.node t = some (.file content))
    (h3 : ∀ p c content, d.node p = some (.file content) → d.node (p ++ [c]) = none) (hk : k + k ≤ d.limit) : Roomy d := by
  have last : ∀ {p t rest r}, d.node p = some (.link t) → Leads d.node [] (t ++ rest) r → rest = [] := by
    intro p t rest r hp hl
    obtain ⟨a, content, b⟩ := h2 p t hp
    exact file_ends h3 (walk_leads a) b hl
  have len : ∀ {base todo r}, Leads d.node base todo r → todo = [] ∨ ∃ n, d.node (base ++ todo) = some n := by
    intro base todo r h
    induction h with
    | here => exact .inl rfl
    | enter h _ ih =>
      rcases ih with rfl | ⟨n, hn⟩
      · exact .inr ⟨_, h⟩
      · exact .inr ⟨n, by rwa [List.append_assoc, List.singleton_append] at hn⟩
    | file h => exact .inr ⟨_, h⟩
    | follow h hl _ =>
      cases last h hl
      exact .inr ⟨_, h⟩
  have steps : ∀ {base todo r}, Leads d.node base todo r → walk d.node (todo.length + k) base todo = some r := by
    intro base todo r h
    induction h with
    | here base =>
      cases ([] : Path).length + k <;> rfl
    | @enter base c rest r h _ ih =>
      have : (c :: rest).length + k = (rest.length + k) + 1 := by simp only [List.length_cons]; omega
      rw [this]
      simp only [walk, h]
      exact ih
    | @file base c content h =>
      have : ([c] : Path).length + k = k + 1 := by simp only [List.length_singleton]; omega
      rw [this]
      simp only [walk, h, if_true]
    | @follow base c t rest r h hl _ =>
      cases last h hl
      have : ([c] : Path).length + k = k + 1 := by simp only [List.length_singleton]; omega
      rw [this]
      simp only [walk, h]
      rw [List.append_nil] at hl ⊢
      have h4 := (h2 _ _ h).1
      cases leads_unique (walk_leads h4) hl
      exact h4
  intro p r h
  refine walk_mono (steps h) ?_
  rcases len h with rfl | ⟨n, hn⟩
  · simp only [List.length_nil]; omega
  · have := h1 _ _ hn
    rw [List.nil_append] at this
    omega

end TM.Disk
