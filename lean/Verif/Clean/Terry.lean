import Verif.Clean.Lemmas

/-!
# Cleaning a terry task

* `terry_removes_only_generated_partial`: only `bin/` and the managers `name.Y.Z` for which another
  manager `name.X` exists are removed, whatever fails; but a hidden file `.name.Z` in `managers/` is
  removed too, see `terry_removes_hidden`.
* `terry_removes_all_generated`: they are all removed when it works.
-/
namespace TM.Clean
open TM AMap

theorem fileStem_ext {base x : Name} (hb : base ≠ []) (hx : '.' ∉ x) :
    fileStem (base ++ '.' :: x) = base := by
  unfold fileStem
  have h1 : (base ++ '.' :: x).reverse = x.reverse ++ '.' :: base.reverse := by simp
  have h2 : ∀ l : List Char, '.' ∉ l →
      (l ++ '.' :: base.reverse).dropWhile (· ≠ '.') = '.' :: base.reverse := by
    intro l hl
    induction l with
    | nil => simp [List.dropWhile]
    | cons c l ih =>
      have hc : c ≠ '.' := fun e => hl (by rw [e]; exact List.mem_cons_self ..)
      rw [List.cons_append, List.dropWhile_cons_of_pos (by simpa using hc)]
      exact ih (fun h => hl (List.mem_cons_of_mem _ h))
  rw [h1, h2 _ (by simpa using hx)]
  simp [hb]

theorem fileStem_hidden {x : Name} (hx : '.' ∉ x) : fileStem ('.' :: x) = '.' :: x := by
  unfold fileStem
  have h2 : ∀ l : List Char, '.' ∉ l → (l ++ ['.']).dropWhile (· ≠ '.') = ['.'] := by
    intro l hl
    induction l with
    | nil => simp [List.dropWhile]
    | cons c l ih =>
      have hc : c ≠ '.' := fun e => hl (by rw [e]; exact List.mem_cons_self ..)
      rw [List.cons_append, List.dropWhile_cons_of_pos (by simpa using hc)]
      exact ih (fun h => hl (List.mem_cons_of_mem _ h))
  rw [List.reverse_cons, h2 _ (by simpa using hx)]
  simp

/-- The last dot of a text. -/
theorem last_dot {n : Name} (h : '.' ∈ n) : ∃ a b, n = a ++ '.' :: b ∧ '.' ∉ b := by
  induction n with
  | nil => cases h
  | cons c n ih =>
    by_cases hn : '.' ∈ n
    · obtain ⟨a, b, rfl, hb⟩ := ih hn
      exact ⟨c :: a, b, rfl, hb⟩
    · rcases List.mem_cons.1 h with h | h
      · exact ⟨[], n, by rw [← h]; rfl, hn⟩
      · exact absurd h hn

theorem matchToks_star (n : Name) : matchToks [.star] n = true := by
  rw [matchToks, anyTail_iff]
  exact ⟨n, [], by simp, rfl⟩

theorem matchToks_dot (ts : List Tok) (n : Name) :
    matchToks (.star :: .lit '.' :: ts) n = true ↔
      ∃ a b, n = a ++ '.' :: b ∧ matchToks ts b = true := by
  rw [matchToks, anyTail_iff]
  constructor
  · rintro ⟨a, b, rfl, h⟩
    cases b with
    | nil => simp [matchToks] at h
    | cons c b =>
      simp only [matchToks, Bool.and_eq_true, beq_iff_eq] at h
      exact ⟨a, b, by rw [h.1], h.2⟩
  · rintro ⟨a, b, rfl, h⟩
    exact ⟨a, _, rfl, by simp [matchToks, h]⟩

theorem match_ext (n : Name) : matchToks [.star, .lit '.', .star] n = true ↔ '.' ∈ n := by
  rw [matchToks_dot]
  constructor
  · rintro ⟨a, b, rfl, _⟩; simp
  · intro h
    obtain ⟨a, b, rfl, _⟩ := last_dot h
    exact ⟨a, b, rfl, matchToks_star b⟩

theorem match_ext2 (n : Name) :
    matchToks [.star, .lit '.', .star, .lit '.', .star] n = true ↔
      ∃ base, TwoExt base n := by
  rw [matchToks_dot]
  constructor
  · rintro ⟨a, b, rfl, hb⟩
    obtain ⟨c, d, rfl, hd⟩ := last_dot ((match_ext b).1 hb)
    have : '.' ∈ a ++ '.' :: c := by simp
    obtain ⟨e, f, he, hf⟩ := last_dot this
    refine ⟨e, f, d, ?_, hf, hd⟩
    rw [← he]; simp
  · rintro ⟨base, y, z, rfl, _, _⟩
    exact ⟨base, y ++ '.' :: z, by simp, (match_ext _).2 (by simp)⟩

theorem removeManagers_shrinks (fl : Faults) (all : List Name) (l : List Path) (fs : FS) :
    Shrinks (fun p => p ∈ l ∧ all.contains (fileStem (fileStem (fileName p))) = true) fs
      (removeManagers fl all l fs).1 := by
  induction l generalizing fs with
  | nil => exact .refl _ _
  | cons p l ih =>
    rw [removeManagers]
    split
    · rename_i hs
      have h1 : Shrinks (fun q => q ∈ p :: l ∧
          all.contains (fileStem (fileStem (fileName q))) = true) fs (removeFile fl p fs).1 :=
        (removeFile_shrinks fl p fs).mono (fun q hq => by
          subst hq; exact ⟨List.mem_cons_self .., hs⟩)
      cases hr : removeFile fl p fs with
      | mk fs' ok =>
        rw [hr] at h1
        cases ok
        · exact h1
        · exact h1.trans ((ih fs').mono (fun q hq => ⟨List.mem_cons_of_mem _ hq.1, hq.2⟩))
    · exact (ih fs).mono (fun q hq => ⟨List.mem_cons_of_mem _ hq.1, hq.2⟩)

theorem removeManagers_ok {fl : Faults} {all : List Name} {l : List Path} {fs : FS}
    (h : (removeManagers fl all l fs).2 = true) :
    ∀ p ∈ l, all.contains (fileStem (fileStem (fileName p))) = true →
      (removeManagers fl all l fs).1.get? p = none := by
  induction l generalizing fs with
  | nil => simp
  | cons q l ih =>
    intro p hp hs
    rw [removeManagers] at h ⊢
    split at h
    · rename_i hq
      simp only [hq, if_true]
      cases hr : removeFile fl q fs with
      | mk fs' ok =>
        rw [hr] at h
        cases ok
        · cases h
        · rcases List.mem_cons.1 hp with rfl | hp
          · have := (removeFile_ok (fl := fl) (p := p) (fs := fs) (by rw [hr])).1
            rw [hr] at this
            exact (removeManagers_shrinks fl all l fs').none this
          · exact ih h p hp hs
    · rename_i hq
      simp only [if_neg hq]
      rcases List.mem_cons.1 hp with rfl | hp
      · exact absurd hs hq
      · exact ih h p hp hs

theorem fileName_append (p : Path) (n : Name) : fileName (p ++ [n]) = n := by
  simp [fileName]

theorem plain_managers {root : Path} (h : Plain root) : Plain (root ++ ["managers".toList]) := by
  intro n hn
  rcases List.mem_append.1 hn with hn | hn
  · exact h n hn
  · rw [List.mem_singleton] at hn; subst hn; decide

/-- The two globs of `TerryTask::clean`. -/
theorem terry_eq (root : Path) (fl : Faults) (fs : FS) (hp : Plain root) :
    ∃ (all : List Name) (maybe : List Path),
      terryClean root fl fs = seq (removeManagers fl all maybe) (cleanBin root fl) fs ∧
      (∀ b, all.contains b = true ↔ ∃ m, (∃ x, fs.get? (root ++ ["managers".toList, m]) = some x) ∧
        '.' ∈ m ∧ fileStem m = b) ∧
      (∀ p, p ∈ maybe ↔ (∃ x, fs.get? p = some x) ∧
        ∃ n, p = root ++ ["managers".toList, n] ∧ ∃ base, TwoExt base n) := by
  have t1 : tokens none "*.*".toList = some [.star, .lit '.', .star] := by decide
  have t2 : tokens none "*.*.*".toList = some [.star, .lit '.', .star, .lit '.', .star] := by decide
  obtain ⟨l1, h1, m1⟩ := glob_one (fs := fs) (plain_managers hp) t1
  obtain ⟨l2, h2, m2⟩ := glob_one (fs := fs) (plain_managers hp) t2
  refine ⟨l1.map (fun f => fileStem (fileName f)), l2, ?_, ?_, ?_⟩
  · unfold terryClean
    have e : ∀ x : Name, root ++ ["managers".toList] ++ [x] = root ++ ["managers".toList, x] := by
      intro x; simp
    rw [e] at h1 h2
    rw [h1, h2]
  · intro b
    rw [List.contains_iff_mem, List.mem_map]
    constructor
    · rintro ⟨p, hp, rfl⟩
      obtain ⟨hk, m, rfl, hm⟩ := (m1 p).1 hp
      obtain ⟨x, hx⟩ := mem_keys_iff.1 hk
      exact ⟨m, ⟨x, by simpa using hx⟩, (match_ext m).1 hm, by rw [fileName_append]⟩
    · rintro ⟨m, ⟨x, hx⟩, hd, rfl⟩
      refine ⟨root ++ ["managers".toList] ++ [m], (m1 _).2 ⟨mem_keys_iff.2 ⟨x, by simpa using hx⟩, m,
        rfl, (match_ext m).2 hd⟩, by rw [fileName_append]⟩
  · intro p
    rw [m2]
    constructor
    · rintro ⟨hk, n, rfl, hn⟩
      exact ⟨mem_keys_iff.1 hk, n, by simp, (match_ext2 n).1 hn⟩
    · rintro ⟨hx, n, rfl, hn⟩
      exact ⟨mem_keys_iff.2 hx, n, by simp, (match_ext2 n).2 hn⟩

/-- Only `bin/` and the managers `base.Y.Z` next to another manager `base.X` are removed, nothing else
is touched, whatever fails.  Missing: hidden files, see `terry_removes_hidden`. -/
theorem terry_removes_only_generated_partial (root : Path) (fl : Faults) (fs : FS) (hp : Plain root)
    (p : Path) :
    (terryClean root fl fs).1.get? p = fs.get? p ∨
      ((terryClean root fl fs).1.get? p = none ∧
        ((∃ r, p = root ++ "bin".toList :: r) ∨
         (∃ n, p = root ++ ["managers".toList, n] ∧
          (n.head? = some '.' ∨
            ∃ base m, TwoExt base n ∧ OneExt base m ∧ m ≠ n ∧
              ∃ x, fs.get? (root ++ ["managers".toList, m]) = some x)))) := by
  obtain ⟨all, maybe, he, ha, hm⟩ := terry_eq root fl fs hp
  suffices h : Shrinks (fun p => (∃ r, p = root ++ "bin".toList :: r) ∨
         (∃ n, p = root ++ ["managers".toList, n] ∧
          (n.head? = some '.' ∨
            ∃ base m, TwoExt base n ∧ OneExt base m ∧ m ≠ n ∧
              ∃ x, fs.get? (root ++ ["managers".toList, m]) = some x))) fs (terryClean root fl fs).1
    from h p
  rw [he]
  refine seq_shrinks ((removeManagers_shrinks fl all maybe fs).mono ?_) ?_
  · rintro q ⟨hq, hc⟩
    obtain ⟨_, n, rfl, base, y, z, rfl, hy, hz⟩ := (hm q).1 hq
    refine Or.inr ⟨_, rfl, ?_⟩
    by_cases hb : base = []
    · left; subst hb; rfl
    · by_cases hh : (base ++ '.' :: y ++ '.' :: z).head? = some '.'
      · exact Or.inl hh
      · right
        have e : root ++ ["managers".toList, base ++ '.' :: y ++ '.' :: z] =
            (root ++ ["managers".toList]) ++ [base ++ '.' :: y ++ '.' :: z] := by simp
        rw [e, fileName_append, fileStem_ext (by simp) hz, fileStem_ext hb hy] at hc
        obtain ⟨m, hx, hd, hs⟩ := (ha _).1 hc
        obtain ⟨a, b, rfl, hb'⟩ := last_dot hd
        by_cases hae : a = []
        · subst hae
          rw [List.nil_append, fileStem_hidden hb'] at hs
          rw [← hs] at hh
          exact absurd rfl hh
        · rw [fileStem_ext hae hb'] at hs
          subst hs
          refine ⟨a, a ++ '.' :: b, ⟨y, z, rfl, hy, hz⟩, ⟨b, rfl, hb'⟩, ?_, hx⟩
          intro e
          rw [List.append_assoc] at e
          have e := List.append_cancel_left e
          simp only [List.cons_append, List.cons.injEq, true_and] at e
          exact hb' (by rw [e]; simp)
  · intro fs' _
    exact (cleanBin_shrinks root fl fs').mono (fun q hq => Or.inl hq)

theorem removeManagers_tree {fl : Faults} {all : List Name} {l : List Path} {fs : FS}
    (h : Tree fs) : Tree (removeManagers fl all l fs).1 := by
  induction l generalizing fs with
  | nil => exact h
  | cons p l ih =>
    rw [removeManagers]
    split
    · have h1 : Tree (removeFile fl p fs).1 := removeFile_tree h
      cases hr : removeFile fl p fs with
      | mk fs' ok =>
        rw [hr] at h1
        cases ok
        · exact h1
        · exact ih h1
    · exact ih h

/-- When it works, `bin/` is gone and so is every manager `base.Y.Z` for which there was a manager
`base.X`. -/
theorem terry_removes_all_generated (root : Path) (fl : Faults) (fs : FS) (hp : Plain root)
    (htree : Tree fs) (hok : (terryClean root fl fs).2 = true) :
    (∀ r, (terryClean root fl fs).1.get? (root ++ "bin".toList :: r) = none) ∧
    (∀ base n m, base ≠ [] → TwoExt base n → OneExt base m →
      (∃ x, fs.get? (root ++ ["managers".toList, m]) = some x) →
      (terryClean root fl fs).1.get? (root ++ ["managers".toList, n]) = none) := by
  obtain ⟨all, maybe, he, ha, hm⟩ := terry_eq root fl fs hp
  rw [he] at hok ⊢
  obtain ⟨o1, o2, e⟩ := seq_ok hok
  rw [e]
  have t1 : Tree (removeManagers fl all maybe fs).1 := removeManagers_tree htree
  refine ⟨cleanBin_ok t1 o2, ?_⟩
  intro base n m hb htwo hone hx
  refine (cleanBin_shrinks root fl _).none ?_
  cases hg : fs.get? (root ++ ["managers".toList, n]) with
  | none => exact (removeManagers_shrinks fl all maybe fs).none hg
  | some x =>
    apply removeManagers_ok o1
    · exact (hm _).2 ⟨⟨x, hg⟩, n, rfl, base, htwo⟩
    · obtain ⟨y, z, rfl, hy, hz⟩ := htwo
      obtain ⟨w, rfl, hw⟩ := hone
      have e : root ++ ["managers".toList, base ++ '.' :: y ++ '.' :: z] =
            (root ++ ["managers".toList]) ++ [base ++ '.' :: y ++ '.' :: z] := by simp
      rw [e, fileName_append, fileStem_ext (by simp) hz, fileStem_ext hb hy]
      exact (ha _).2 ⟨_, hx, by simp, fileStem_ext hb hw⟩

end TM.Clean
