import Verif.Clean.Spec

/-! # Lemmas on the operations of `clean` -/
namespace TM.Clean
open TM AMap

/-! ## Text -/

theorem anyTail_iff {f : Text → Bool} {t : Text} :
    anyTail f t = true ↔ ∃ a b, t = a ++ b ∧ f b = true := by
  induction t with
  | nil =>
    simp only [anyTail]
    constructor
    · intro h; exact ⟨[], [], rfl, h⟩
    · rintro ⟨a, b, h, hb⟩
      have := List.append_eq_nil_iff.1 h.symm
      rw [this.2] at hb; exact hb
  | cons c cs ih =>
    simp only [anyTail, Bool.or_eq_true, ih]
    constructor
    · rintro (h | ⟨a, b, rfl, hb⟩)
      · exact ⟨[], _, rfl, h⟩
      · exact ⟨c :: a, b, rfl, hb⟩
    · rintro ⟨a, b, h, hb⟩
      cases a with
      | nil => left; rw [List.nil_append] at h; rw [h]; exact hb
      | cons x a =>
        simp only [List.cons_append, List.cons.injEq] at h
        exact Or.inr ⟨a, b, h.2, hb⟩

theorem hasWord_iff {w t : Text} : hasWord w t = true ↔ ∃ a b, t = a ++ w ++ b := by
  unfold hasWord
  rw [anyTail_iff]
  constructor
  · rintro ⟨a, b, rfl, hb⟩
    obtain ⟨r, rfl⟩ := List.isPrefixOf_iff_prefix.1 hb
    exact ⟨a, r, by simp⟩
  · rintro ⟨a, b, rfl⟩
    exact ⟨a, w ++ b, by simp, List.isPrefixOf_iff_prefix.2 ⟨b, rfl⟩⟩

theorem allows_iff {t : Text} : hasWord cookie t = true ↔ AllowsDelete t := hasWord_iff

theorem header_allows (body : Text) : AllowsDelete (header ++ body) := by
  refine ⟨headerTop, headerEnd ++ body, ?_⟩
  change headerTop ++ cookie ++ headerEnd ++ body = headerTop ++ cookie ++ (headerEnd ++ body)
  rw [List.append_assoc (headerTop ++ cookie)]

/-! ## Globs -/

theorem tokens_plain {p : Name} (h : ∀ c ∈ p, c ≠ '*' ∧ c ≠ '?' ∧ c ≠ '[') :
    tokens none p = some (p.map Tok.lit) := by
  induction p with
  | nil => rfl
  | cons c cs ih =>
    have hc := h c (List.mem_cons_self ..)
    rw [tokens, if_neg hc.1, if_neg hc.2.1, if_neg hc.2.2,
      ih (fun x hx => h x (List.mem_cons_of_mem _ hx))]
    rfl

theorem matchToks_lit (p n : Name) : matchToks (p.map Tok.lit) n = true ↔ n = p := by
  induction p generalizing n with
  | nil => cases n <;> simp [matchToks]
  | cons c cs ih =>
    cases n with
    | nil => simp [matchToks]
    | cons x xs =>
      simp only [List.map_cons, matchToks, Bool.and_eq_true, beq_iff_eq, ih, List.cons.injEq]
      exact ⟨fun h => ⟨h.1.symm, h.2⟩, fun h => ⟨h.1.symm, h.2⟩⟩

theorem matchToks_txt (n : Name) :
    matchToks [.star, .lit '.', .lit 't', .lit 'x', .lit 't'] n = true ↔ IsTxt n := by
  have h := fun b => matchToks_lit ['.', 't', 'x', 't'] b
  simp only [List.map_cons, List.map_nil] at h
  rw [matchToks, anyTail_iff]
  constructor
  · rintro ⟨a, b, rfl, hb⟩; exact ⟨a, by rw [(h b).1 hb]⟩
  · rintro ⟨a, rfl⟩; exact ⟨a, _, rfl, (h _).2 rfl⟩

theorem tokens_txt : tokens none "*.txt".toList =
    some [.star, .lit '.', .lit 't', .lit 'x', .lit 't'] := by decide

theorem patterns_append {a b : Path} {x y : List (List Tok)} (ha : patterns a = some x)
    (hb : patterns b = some y) : patterns (a ++ b) = some (x ++ y) := by
  induction a generalizing x with
  | nil => simp only [patterns, Option.some.injEq] at ha; subst ha; exact hb
  | cons n a ih =>
    rw [patterns] at ha
    split at ha
    · rename_i t ts h1 h2
      cases ha
      rw [List.cons_append, patterns, h1, ih h2]; rfl
    · cases ha

theorem patterns_plain {p : Path} (h : Plain p) :
    patterns p = some (p.map (·.map Tok.lit)) := by
  induction p with
  | nil => rfl
  | cons n p ih =>
    rw [patterns, tokens_plain (h n (List.mem_cons_self ..)),
      ih (fun x hx => h x (List.mem_cons_of_mem _ hx))]
    rfl

theorem matchPath_lit (p : Path) (ts : List (List Tok)) (q : Path) :
    matchPath (p.map (·.map Tok.lit) ++ ts) q = true ↔
      ∃ r, q = p ++ r ∧ matchPath ts r = true := by
  induction p generalizing q with
  | nil => simp
  | cons n p ih =>
    cases q with
    | nil => simp [matchPath]
    | cons m q =>
      simp only [List.map_cons, List.cons_append, matchPath, Bool.and_eq_true, matchToks_lit, ih]
      constructor
      · rintro ⟨rfl, r, rfl, hr⟩; exact ⟨r, rfl, hr⟩
      · rintro ⟨r, h, hr⟩
        simp only [List.cons.injEq] at h
        exact ⟨h.1, r, h.2, hr⟩

theorem matchPath_one (t : List Tok) (r : Path) :
    matchPath [t] r = true ↔ ∃ n, r = [n] ∧ matchToks t n = true := by
  cases r with
  | nil => simp [matchPath]
  | cons n r =>
    cases r with
    | nil => simp [matchPath]
    | cons m r => simp [matchPath]

/-- On a plain directory the pattern is the obvious one. -/
theorem glob_one {fs : FS} {dir : Path} (hd : Plain dir) {pat : Name} {t : List Tok}
    (ht : tokens none pat = some t) :
    ∃ l, glob fs (dir ++ [pat]) = some l ∧
      ∀ p, p ∈ l ↔ p ∈ fs.keys ∧ ∃ n, p = dir ++ [n] ∧ matchToks t n = true := by
  have h1 : patterns [pat] = some [t] := by simp [patterns, ht]
  refine ⟨_, by rw [glob, patterns_append (patterns_plain hd) h1]; rfl, ?_⟩
  intro p
  rw [List.mem_filter, matchPath_lit]
  constructor
  · rintro ⟨hk, r, rfl, hr⟩
    obtain ⟨n, rfl, hn⟩ := (matchPath_one t r).1 hr
    exact ⟨hk, n, rfl, hn⟩
  · rintro ⟨hk, n, rfl, hn⟩
    exact ⟨hk, [n], rfl, (matchPath_one t [n]).2 ⟨n, rfl, hn⟩⟩

/-! ## Operations that only remove -/

/-- The second file system is the first one without the paths in `D`. -/
def Shrinks (D : Path → Prop) (fs fs' : FS) : Prop :=
  ∀ p, fs'.get? p = fs.get? p ∨ (fs'.get? p = none ∧ D p)

theorem Shrinks.refl (D : Path → Prop) (fs : FS) : Shrinks D fs fs := fun _ => Or.inl rfl

theorem Shrinks.trans {D : Path → Prop} {a b c : FS} (h1 : Shrinks D a b) (h2 : Shrinks D b c) :
    Shrinks D a c := by
  intro p
  rcases h2 p with h | h
  · rw [h]; exact h1 p
  · exact Or.inr h

theorem Shrinks.mono {D E : Path → Prop} {a b : FS} (h : Shrinks D a b) (hde : ∀ p, D p → E p) :
    Shrinks E a b := by
  intro p
  rcases h p with h | h
  · exact Or.inl h
  · exact Or.inr ⟨h.1, hde p h.2⟩

theorem Shrinks.keep {D : Path → Prop} {a b : FS} (h : Shrinks D a b) {p : Path} (hp : ¬ D p) :
    b.get? p = a.get? p := by
  rcases h p with h | h
  · exact h
  · exact absurd h.2 hp

theorem Shrinks.none {D : Path → Prop} {a b : FS} (h : Shrinks D a b) {p : Path}
    (hp : a.get? p = none) : b.get? p = none := by
  rcases h p with h | h
  · rw [h]; exact hp
  · exact h.1

theorem Shrinks.some {D : Path → Prop} {a b : FS} (h : Shrinks D a b) {p : Path} {n : Node}
    (hp : b.get? p = some n) : a.get? p = some n := by
  rcases h p with h | h
  · rw [← h]; exact hp
  · rw [h.1] at hp; cases hp

theorem Shrinks.of_ne {D : Path → Prop} {a b : FS} (h : Shrinks D a b)  :
    Shrinks (fun p => D p ∧ ∃ n, a.get? p = Option.some n) a b := by
  intro p
  cases ha : a.get? p with
  | none => exact Or.inl (h.none ha)
  | some n =>
    rcases h p with h | h
    · left; rw [h, ha]
    · exact Or.inr ⟨h.1, h.2, n, ha⟩

theorem get?_filter {K V : Type} [DecidableEq K] (m : AMap K V) (f : K → Bool) (k : K) :
    AMap.get? (m.filter (fun e => f e.1)) k = if f k then AMap.get? m k else none := by
  induction m with
  | nil => simp [AMap.get?]
  | cons e m ih =>
    rw [List.filter_cons]
    split
    · rename_i h
      obtain ⟨a, v⟩ := e
      rw [AMap.get?_cons, AMap.get?_cons, ih]
      by_cases hk : a = k
      · subst hk; simp only [] at h; simp [h]
      · simp [hk]
    · rename_i h
      obtain ⟨a, v⟩ := e
      rw [AMap.get?_cons, ih]
      by_cases hk : a = k
      · subst hk; simp only [] at h; simp [h]
      · simp [hk]

theorem removeFile_shrinks (fl : Faults) (p : Path) (fs : FS) :
    Shrinks (· = p) fs (removeFile fl p fs).1 := by
  unfold removeFile
  split
  · split
    · exact .refl _ _
    · intro q
      by_cases h : q = p
      · subst h; right; simp
      · left; exact AMap.get?_erase_ne _ h
  · exact .refl _ _

theorem removeFile_ok {fl : Faults} {p : Path} {fs : FS} (h : (removeFile fl p fs).2 = true) :
    (removeFile fl p fs).1.get? p = none ∧ (∃ c, fs.get? p = some (.file c)) ∧
      fl.denied p = false := by
  unfold removeFile at h ⊢
  split at h
  · rename_i c hc
    split at h
    · cases h
    · rename_i hd
      simp only [if_neg hd]
      exact ⟨by simp, ⟨c, hc⟩, by simpa using hd⟩
  · cases h

theorem removeDir_shrinks (fl : Faults) (p : Path) (fs : FS) :
    Shrinks (· = p) fs (removeDir fl p fs).1 := by
  unfold removeDir
  split
  · split
    · exact .refl _ _
    · split
      · exact .refl _ _
      · intro q
        by_cases h : q = p
        · subst h; right; simp
        · left; exact AMap.get?_erase_ne _ h
  · exact .refl _ _

theorem removeDirAll_shrinks (fl : Faults) (p : Path) (fs : FS) :
    Shrinks (fun q => ∃ r, q = p ++ r) fs (removeDirAll fl p fs).1 := by
  unfold removeDirAll
  split
  · split
    · intro q
      rw [get?_filter fs (fun e => !p.isPrefixOf e || survives fl fs e)]
      split
      · left; rfl
      · rename_i h
        simp only [Bool.or_eq_true, Bool.not_eq_true', not_or, Bool.not_eq_false] at h
        obtain ⟨r, hr⟩ := List.isPrefixOf_iff_prefix.1 h.1
        exact Or.inr ⟨rfl, r, hr.symm⟩
    · intro q
      rw [get?_filter fs (fun e => !p.isPrefixOf e)]
      split
      · left; rfl
      · rename_i h
        simp only [Bool.not_eq_true', Bool.not_eq_false] at h
        obtain ⟨r, hr⟩ := List.isPrefixOf_iff_prefix.1 h
        exact Or.inr ⟨rfl, r, hr.symm⟩
  · exact .refl _ _

theorem removeDirAll_ok {fl : Faults} {p : Path} {fs : FS}
    (h : (removeDirAll fl p fs).2 = true) (r : Path) :
    (removeDirAll fl p fs).1.get? (p ++ r) = none := by
  unfold removeDirAll at h ⊢
  split at h
  · split at h
    · cases h
    · rename_i h2
      simp only [if_neg h2]
      rw [get?_filter fs (fun e => !p.isPrefixOf e), if_neg]
      simp only [Bool.not_eq_true', Bool.not_eq_false]
      exact List.isPrefixOf_iff_prefix.2 ⟨r, rfl⟩
  · cases h

theorem pathExists_iff {fs : FS} {p : Path} :
    pathExists fs p = true ↔ ∃ n, fs.get? p = some n := by
  unfold pathExists; rw [Option.isSome_iff_exists]

theorem pathExists_false {fs : FS} {p : Path} :
    pathExists fs p = false ↔ fs.get? p = none := by
  unfold pathExists; cases fs.get? p <;> simp

/-! ## Steps -/

theorem seq_shrinks {D : Path → Prop} {a b : FS → FS × Bool} {fs : FS}
    (ha : Shrinks D fs (a fs).1) (hb : ∀ fs', Shrinks D fs fs' → Shrinks D fs' (b fs').1) :
    Shrinks D fs (seq a b fs).1 := by
  unfold seq
  split
  · rename_i fs' h
    rw [h] at ha
    exact ha.trans (hb fs' ha)
  · rename_i fs' h
    rw [h] at ha
    exact ha

theorem seq_ok {a b : FS → FS × Bool} {fs : FS} (h : (seq a b fs).2 = true) :
    (a fs).2 = true ∧ (b (a fs).1).2 = true ∧ (seq a b fs).1 = (b (a fs).1).1 := by
  unfold seq at h ⊢
  split at h
  · rename_i fs' he
    simp only [he]
    exact ⟨trivial, h, trivial⟩
  · cases h

theorem removeFiles_shrinks (t : Task) (fl : Faults) (l : List Path) (fs : FS) :
    Shrinks (fun p => p ∈ l ∧ t.testcases.any (isStatic p) = false) fs
      (removeFiles t fl l fs).1 := by
  induction l generalizing fs with
  | nil => exact .refl _ _
  | cons p l ih =>
    rw [removeFiles]
    split
    · exact (ih fs).mono (fun q hq => ⟨List.mem_cons_of_mem _ hq.1, hq.2⟩)
    · rename_i hs
      have h1 : Shrinks (fun q => q ∈ p :: l ∧ t.testcases.any (isStatic q) = false) fs
          (removeFile fl p fs).1 :=
        (removeFile_shrinks fl p fs).mono (fun q hq => by
          subst hq; exact ⟨List.mem_cons_self .., by simpa using hs⟩)
      cases hr : removeFile fl p fs with
      | mk fs' ok =>
        rw [hr] at h1
        cases ok
        · exact h1
        · exact h1.trans ((ih fs').mono (fun q hq => ⟨List.mem_cons_of_mem _ hq.1, hq.2⟩))

theorem removeFiles_ok {t : Task} {fl : Faults} {l : List Path} {fs : FS}
    (h : (removeFiles t fl l fs).2 = true) :
    ∀ p ∈ l, t.testcases.any (isStatic p) = false → (removeFiles t fl l fs).1.get? p = none := by
  induction l generalizing fs with
  | nil => simp
  | cons q l ih =>
    intro p hp hs
    rw [removeFiles] at h ⊢
    split at h
    · rename_i hq
      simp only [hq, if_true]
      rcases List.mem_cons.1 hp with rfl | hp
      · rw [hs] at hq; cases hq
      · exact ih h p hp hs
    · rename_i hq
      simp only [if_neg hq]
      cases hr : removeFile fl q fs with
      | mk fs' ok =>
        rw [hr] at h
        cases ok
        · cases h
        · rcases List.mem_cons.1 hp with rfl | hp
          · have := (removeFile_ok (fl := fl) (p := p) (fs := fs) (by rw [hr])).1
            rw [hr] at this
            exact (removeFiles_shrinks t fl l fs').none this
          · exact ih h p hp hs

/-- The paths `cleanDir` may remove. -/
def InDir (t : Task) (d : Name) (p : Path) : Prop :=
  p = t.path ++ [d] ∨
    ∃ n, p = t.path ++ [d, n] ∧ IsTxt n ∧ t.testcases.any (isStatic p) = false

theorem cleanDir_shrinks {t : Task} {fl : Faults} {d : Name} {fs : FS}
    (ht : Plain (t.path ++ [d])) :
    Shrinks (InDir t d) fs (cleanDir t fl d fs).1 := by
  unfold cleanDir
  simp only []
  split
  · exact .refl _ _
  · obtain ⟨l, hl, hm⟩ := glob_one (fs := fs) ht tokens_txt
    simp only [hl]
    have h1 : Shrinks (InDir t d) fs (removeFiles t fl l fs).1 :=
      (removeFiles_shrinks t fl l fs).mono (fun p hp => by
        obtain ⟨_, n, rfl, hn⟩ := (hm p).1 hp.1
        exact Or.inr ⟨n, by simp, (matchToks_txt n).1 hn, hp.2⟩)
    cases hr : removeFiles t fl l fs with
    | mk fs' ok =>
      rw [hr] at h1
      cases ok
      · exact h1
      · have h2 : Shrinks (InDir t d) fs' (removeDir fl (t.path ++ [d]) fs').1 :=
          (removeDir_shrinks fl _ fs').mono (fun p hp => Or.inl hp)
        have h3 := h1.trans h2
        cases hd : removeDir fl (t.path ++ [d]) fs' with
        | mk fs'' r =>
          rw [hd] at h3
          simp only [hd]
          cases r <;> exact h3

theorem cleanDir_ok {t : Task} {fl : Faults} {d : Name} {fs : FS} (ht : Plain (t.path ++ [d]))
    (htree : Tree fs) (h : (cleanDir t fl d fs).2 = true) (n : Name) (hn : IsTxt n)
    (hs : t.testcases.any (isStatic (t.path ++ [d, n])) = false) :
    (cleanDir t fl d fs).1.get? (t.path ++ [d, n]) = none := by
  unfold cleanDir at h ⊢
  simp only [] at h ⊢
  split at h
  · rename_i he
    simp only [he, if_true]
    cases hg : fs.get? (t.path ++ [d, n]) with
    | none => rfl
    | some x =>
      have := htree (t.path ++ [d]) n ⟨x, by simpa using hg⟩
      simp only [Bool.not_eq_true', pathExists_false] at he
      rw [this] at he; cases he
  · rename_i he
    simp only [he, if_false]
    obtain ⟨l, hl, hm⟩ := glob_one (fs := fs) ht tokens_txt
    simp only [hl] at h ⊢
    cases hr : removeFiles t fl l fs with
    | mk fs' ok =>
      simp only [hr] at h ⊢
      cases ok
      · cases h
      · have key : fs'.get? (t.path ++ [d, n]) = none := by
          cases hg : fs.get? (t.path ++ [d, n]) with
          | none =>
            have := removeFiles_shrinks t fl l fs
            rw [hr] at this
            exact this.none hg
          | some x =>
            have hk : t.path ++ [d, n] ∈ l := (hm _).2
              ⟨mem_keys_iff.2 ⟨x, hg⟩, n, by simp, (matchToks_txt n).2 hn⟩
            have := removeFiles_ok (t := t) (fl := fl) (l := l) (fs := fs) (by rw [hr]) _ hk hs
            rw [hr] at this
            exact this
        have h3 := removeDir_shrinks fl (t.path ++ [d]) fs'
        cases hd : removeDir fl (t.path ++ [d]) fs' with
        | mk fs'' r =>
          rw [hd] at h3
          simp only [hd] at h ⊢
          cases r with
          | failed => cases h
          | done => exact h3.none key
          | notEmpty => exact h3.none key

theorem cleanBin_shrinks (root : Path) (fl : Faults) (fs : FS) :
    Shrinks (fun p => ∃ r, p = root ++ "bin".toList :: r) fs (cleanBin root fl fs).1 := by
  unfold cleanBin
  simp only []
  split
  · refine (removeDirAll_shrinks fl _ fs).mono ?_
    rintro p ⟨r, rfl⟩
    exact ⟨r, by simp⟩
  · exact .refl _ _

theorem Tree.above {fs : FS} (h : Tree fs) (p r : Path) :
    fs.get? p = none → fs.get? (p ++ r) = none := by
  intro hp
  induction hn : r.length generalizing r with
  | zero =>
    have := List.length_eq_zero_iff.1 hn; subst this; simpa using hp
  | succ k ih =>
    have hne : r ≠ [] := by intro e; subst e; cases hn
    have hr := List.dropLast_concat_getLast hne
    rw [← hr, ← List.append_assoc]
    have hl := ih r.dropLast (by simp [hn])
    cases hg : fs.get? (p ++ r.dropLast ++ [r.getLast hne]) with
    | none => rfl
    | some x =>
      have := h _ _ ⟨x, hg⟩
      rw [hl] at this; cases this

theorem cleanBin_ok {root : Path} {fl : Faults} {fs : FS} (htree : Tree fs)
    (h : (cleanBin root fl fs).2 = true) (r : Path) :
    (cleanBin root fl fs).1.get? (root ++ "bin".toList :: r) = none := by
  unfold cleanBin at h ⊢
  simp only [] at h ⊢
  split at h
  · rename_i he
    simp only [he, if_true]
    have := removeDirAll_ok h r
    simpa using this
  · rename_i he
    simp only [he, if_false]
    have := htree.above (root ++ ["bin".toList]) r (pathExists_false.1 (by simpa using he))
    simpa using this

theorem removeIfExists_shrinks (fl : Faults) (p : Path) (fs : FS) :
    Shrinks (· = p) fs (removeIfExists fl p fs).1 := by
  unfold removeIfExists
  split
  · exact removeFile_shrinks fl p fs
  · exact .refl _ _

theorem removeIfExists_ok {fl : Faults} {p : Path} {fs : FS}
    (h : (removeIfExists fl p fs).2 = true) : (removeIfExists fl p fs).1.get? p = none := by
  unfold removeIfExists at h ⊢
  split at h
  · rename_i he
    simp only [he, if_true]
    exact (removeFile_ok h).1
  · rename_i he
    simp only [he, if_false]
    exact pathExists_false.1 (by simpa using he)

theorem cleanCheckers_shrinks (t : Task) (fl : Faults) (fs : FS) :
    Shrinks (fun p => t.kind = .batch true ∧ (p = t.path ++ ["check".toList, "checker".toList] ∨
      p = t.path ++ ["cor".toList, "correttore".toList])) fs (cleanCheckers t fl fs).1 := by
  unfold cleanCheckers
  split
  · rename_i hk
    apply seq_shrinks
    · exact (removeIfExists_shrinks fl _ fs).mono (fun p hp => ⟨hk, Or.inl hp⟩)
    · intro fs' _
      exact (removeIfExists_shrinks fl _ fs').mono (fun p hp => ⟨hk, Or.inr hp⟩)
  · exact .refl _ _

theorem cleanCheckers_ok {t : Task} {fl : Faults} {fs : FS} (hk : t.kind = .batch true)
    (h : (cleanCheckers t fl fs).2 = true) :
    (cleanCheckers t fl fs).1.get? (t.path ++ ["check".toList, "checker".toList]) = none ∧
    (cleanCheckers t fl fs).1.get? (t.path ++ ["cor".toList, "correttore".toList]) = none := by
  unfold cleanCheckers at h ⊢
  rw [hk] at h ⊢
  simp only [] at h ⊢
  obtain ⟨h1, h2, h3⟩ := seq_ok h
  rw [h3]
  exact ⟨(removeIfExists_shrinks fl _ _).none (removeIfExists_ok h1), removeIfExists_ok h2⟩

theorem deletable_true {fl : Faults} {p : Path} {fs : FS} (h : deletable fl p fs = some true) :
    ∃ c, fs.get? p = some (.file c) ∧ AllowsDelete c ∧ fl.denied p = false := by
  unfold deletable at h
  split at h
  · rename_i c hc
    split at h
    · cases h
    · rename_i hd
      simp only [Option.some.injEq] at h
      exact ⟨c, hc, allows_iff.1 h, by simpa using hd⟩
  · cases h

theorem deletable_false {fl : Faults} {p : Path} {fs : FS} (h : deletable fl p fs = some false) :
    ∃ c, fs.get? p = some (.file c) ∧ ¬ AllowsDelete c := by
  unfold deletable at h
  split at h
  · rename_i c hc
    split at h
    · cases h
    · simp only [Option.some.injEq] at h
      exact ⟨c, hc, fun ha => by rw [allows_iff.2 ha] at h; cases h⟩
  · cases h

theorem cleanMade_shrinks (fl : Faults) (source made : Path) (fs : FS) :
    Shrinks (fun p => p = made ∧ (∃ n, fs.get? source = some n) ∧
      ∃ c, fs.get? made = some (.file c) ∧ AllowsDelete c) fs (cleanMade fl source made fs).1 := by
  unfold cleanMade
  split
  · rename_i he
    rw [Bool.and_eq_true] at he
    split
    · exact .refl _ _
    · rename_i hd
      obtain ⟨c, hc, ha, _⟩ := deletable_true hd
      exact (removeFile_shrinks fl made fs).mono
        (fun p hp => ⟨hp, pathExists_iff.1 he.1, c, hc, ha⟩)
    · exact .refl _ _
  · exact .refl _ _

theorem cleanMade_ok {fl : Faults} {source made : Path} {fs : FS}
    (h : (cleanMade fl source made fs).2 = true) (hs : ∃ n, fs.get? source = some n)
    (hd : ∃ c, fs.get? made = some (.file c) ∧ AllowsDelete c) :
    (cleanMade fl source made fs).1.get? made = none := by
  obtain ⟨c, hc, ha⟩ := hd
  unfold cleanMade at h ⊢
  rw [if_pos (by rw [Bool.and_eq_true]; exact ⟨pathExists_iff.2 hs, pathExists_iff.2 ⟨_, hc⟩⟩)] at h ⊢
  split at h
  · cases h
  · exact (removeFile_ok h).1
  · rename_i hd
    obtain ⟨c', hc', ha'⟩ := deletable_false hd
    rw [hc] at hc'; cases hc'; exact absurd ha ha'

/-! ## Trees -/

theorem tree_of_erase_file {fs : FS} (h : Tree fs) {p : Path} {c : Text}
    (hp : fs.get? p = some (.file c)) : Tree (fs.erase p) := by
  intro q n ⟨x, hx⟩
  have hne : q ++ [n] ≠ p := by intro e; rw [e] at hx; simp at hx
  rw [AMap.get?_erase_ne _ hne] at hx
  have hd := h q n ⟨x, hx⟩
  rw [AMap.get?_erase_ne _ (by rintro rfl; rw [hp] at hd; cases hd)]
  exact hd

theorem removeFile_tree {fl : Faults} {p : Path} {fs : FS} (h : Tree fs) :
    Tree (removeFile fl p fs).1 := by
  unfold removeFile
  split
  · rename_i hc
    split
    · exact h
    · exact tree_of_erase_file h hc
  · exact h

theorem removeDir_tree {fl : Faults} {p : Path} {fs : FS} (h : Tree fs) :
    Tree (removeDir fl p fs).1 := by
  unfold removeDir
  split
  · split
    · exact h
    · split
      · exact h
      · rename_i _ hne
        intro q n ⟨x, hx⟩
        have h1 : q ++ [n] ≠ p := by intro e; rw [e] at hx; simp at hx
        rw [AMap.get?_erase_ne _ h1] at hx
        have hd := h q n ⟨x, hx⟩
        rw [AMap.get?_erase_ne]
        · exact hd
        · rintro rfl
          apply hne
          unfold hasEntries
          rw [List.any_eq_true]
          refine ⟨q ++ [n], mem_keys_iff.2 ⟨x, hx⟩, ?_⟩
          rw [Bool.and_eq_true]
          exact ⟨List.isPrefixOf_iff_prefix.2 ⟨[n], rfl⟩, by simp⟩
  · exact h

theorem removeDirAll_tree {fl : Faults} {p : Path} {fs : FS} (h : Tree fs) :
    Tree (removeDirAll fl p fs).1 := by
  unfold removeDirAll
  split
  · split
    · intro q n ⟨x, hx⟩
      rw [get?_filter fs (fun e => !p.isPrefixOf e || survives fl fs e)] at hx ⊢
      split at hx
      · rename_i hs
        rw [if_pos]
        · exact h q n ⟨x, hx⟩
        · rw [Bool.or_eq_true] at hs ⊢
          rcases hs with hs | hs
          · left
            simp only [Bool.not_eq_true'] at hs ⊢
            rw [← Bool.not_eq_true] at hs ⊢
            intro hp
            obtain ⟨r, rfl⟩ := List.isPrefixOf_iff_prefix.1 hp
            exact hs (List.isPrefixOf_iff_prefix.2 ⟨r ++ [n], by simp⟩)
          · right
            unfold survives at hs ⊢
            rw [List.any_eq_true] at hs ⊢
            obtain ⟨e, he, hb⟩ := hs
            rw [Bool.and_eq_true] at hb
            refine ⟨e, he, ?_⟩
            rw [Bool.and_eq_true]
            obtain ⟨r, rfl⟩ := List.isPrefixOf_iff_prefix.1 hb.1
            exact ⟨List.isPrefixOf_iff_prefix.2 ⟨[n] ++ r, by simp⟩, hb.2⟩
      · cases hx
    · intro q n ⟨x, hx⟩
      rw [get?_filter fs (fun e => !p.isPrefixOf e)] at hx ⊢
      split at hx
      · rename_i hs
        rw [if_pos]
        · exact h q n ⟨x, hx⟩
        · simp only [Bool.not_eq_true'] at hs ⊢
          rw [← Bool.not_eq_true] at hs ⊢
          intro hp
          obtain ⟨r, rfl⟩ := List.isPrefixOf_iff_prefix.1 hp
          exact hs (List.isPrefixOf_iff_prefix.2 ⟨r ++ [n], by simp⟩)
      · cases hx
  · exact h

theorem removeFiles_tree {t : Task} {fl : Faults} {l : List Path} {fs : FS} (h : Tree fs) :
    Tree (removeFiles t fl l fs).1 := by
  induction l generalizing fs with
  | nil => exact h
  | cons p l ih =>
    rw [removeFiles]
    split
    · exact ih h
    · have h1 : Tree (removeFile fl p fs).1 := removeFile_tree h
      cases hr : removeFile fl p fs with
      | mk fs' ok =>
        rw [hr] at h1
        cases ok
        · exact h1
        · exact ih h1

theorem cleanDir_tree {t : Task} {fl : Faults} {d : Name} {fs : FS} (h : Tree fs) :
    Tree (cleanDir t fl d fs).1 := by
  unfold cleanDir
  simp only []
  split
  · exact h
  · cases hg : glob fs (t.path ++ [d] ++ ["*.txt".toList]) with
    | none => exact h
    | some l =>
      simp only []
      have h1 : Tree (removeFiles t fl l fs).1 := removeFiles_tree h
      cases hr : removeFiles t fl l fs with
      | mk fs' ok =>
        rw [hr] at h1
        cases ok
        · exact h1
        · have h2 : Tree (removeDir fl (t.path ++ [d]) fs').1 := removeDir_tree h1
          cases hd : removeDir fl (t.path ++ [d]) fs' with
          | mk fs'' r =>
            rw [hd] at h2
            simp only [hd]
            cases r <;> exact h2

theorem cleanBin_tree {root : Path} {fl : Faults} {fs : FS} (h : Tree fs) :
    Tree (cleanBin root fl fs).1 := by
  unfold cleanBin
  simp only []
  split
  · exact removeDirAll_tree h
  · exact h

theorem seq_tree {a b : FS → FS × Bool} {fs : FS} (ha : Tree (a fs).1)
    (hb : ∀ fs', Tree fs' → Tree (b fs').1) : Tree (seq a b fs).1 := by
  unfold seq
  split
  · rename_i fs' h
    rw [h] at ha
    exact hb fs' ha
  · rename_i fs' h
    rw [h] at ha
    exact ha

theorem removeIfExists_tree {fl : Faults} {p : Path} {fs : FS} (h : Tree fs) :
    Tree (removeIfExists fl p fs).1 := by
  unfold removeIfExists
  split
  · exact removeFile_tree h
  · exact h

theorem cleanCheckers_tree {t : Task} {fl : Faults} {fs : FS} (h : Tree fs) :
    Tree (cleanCheckers t fl fs).1 := by
  unfold cleanCheckers
  split
  · exact seq_tree (removeIfExists_tree h) (fun _ h => removeIfExists_tree h)
  · exact h

theorem cleanMade_tree {fl : Faults} {s m : Path} {fs : FS} (h : Tree fs) :
    Tree (cleanMade fl s m fs).1 := by
  unfold cleanMade
  split
  · split
    · exact h
    · exact removeFile_tree h
    · exact h
  · exact h

end TM.Clean
