import Verif.Solution.Words
/-!
# Lemmas on the rewriting of the comments
-/
namespace TM.Solution
open TM.Text

/-! ## Specification -/

/-- The lines whose number (from `n`) is not to be removed. -/
def kept (rm : Nat → Bool) : List Text → Nat → List Text
  | [], _ => []
  | l :: ls, n => if rm n then kept rm ls (n + 1) else l :: kept rm ls (n + 1)

/-- A name that can be written in a check: a word without `@check-` in it. -/
def GoodName (n : Text) : Prop :=
  n ≠ [] ∧ (∀ c ∈ n, isWs c = false) ∧ ¬ marker <:+: n

/-! ## Occurrences of the marker -/

theorem prefix_split {a b p : Text} {x : Char} (hx : x ∉ p) (h : p <+: a ++ x :: b) : p <+: a := by
  obtain ⟨t, ht⟩ := h
  rcases List.append_eq_append_iff.1 ht with ⟨y, h1, h2⟩ | ⟨y, h1, h2⟩
  · exact ⟨y, h1.symm⟩
  · cases y with
    | nil => rw [h1]; simp
    | cons z y =>
      simp only [List.cons_append, List.cons.injEq] at h2
      exact absurd (by rw [h1]; simp [h2.1]) hx

theorem marker_split {a b : Text} {x : Char} (hx : x ∉ marker) {j : Nat}
    (h : marker <+: (a ++ x :: b).drop j) :
    marker <+: a.drop j ∨ (a.length < j ∧ marker <+: b.drop (j - a.length - 1)) := by
  rcases Nat.lt_or_ge a.length j with hj | hj
  · right
    refine ⟨hj, ?_⟩
    rw [List.drop_append, List.drop_eq_nil_of_le (by omega), List.nil_append] at h
    have : j - a.length = (j - a.length - 1) + 1 := by omega
    rw [this, List.drop_succ_cons] at h
    exact h
  · left
    rw [List.drop_append_of_le_length hj] at h
    exact prefix_split hx h

theorem marker_infix {t : Text} {j : Nat} (h : marker <+: t.drop j) : marker <:+: t :=
  h.isInfix.trans (List.drop_suffix j t).isInfix

theorem infix_marker {t : Text} (h : marker <:+: t) : ∃ j, marker <+: t.drop j := by
  obtain ⟨s, u, h⟩ := h
  exact ⟨s.length, u, by rw [← h, List.append_assoc, List.drop_left]⟩

theorem joinSp_no_marker {names : List Text} (h : ∀ n ∈ names, ¬ marker <:+: n) (j : Nat) :
    ¬ marker <+: (joinSp names).drop j := by
  induction names generalizing j with
  | nil => simp [joinSp, marker]
  | cons n names ih =>
    cases names with
    | nil =>
      intro hp
      exact h n (by simp) (marker_infix hp)
    | cons m ms =>
      intro hp
      have e : joinSp (n :: m :: ms) = n ++ ' ' :: joinSp (m :: ms) := rfl
      rw [e] at hp
      rcases marker_split (by decide) hp with hp | ⟨_, hp⟩
      · exact h n (by simp) (marker_infix hp)
      · exact ih (fun x hx => h x (by simp [hx])) _ hp

theorem name_marker (c : Check) {k : Nat} (h : marker <+: (marker ++ c.asStr.toList).drop k) : k = 0 := by
  cases k with
  | zero => rfl
  | succ k =>
    exfalso
    have hno : '@' ∉ (marker ++ c.asStr.toList).drop 1 := by cases c <;> decide
    apply hno
    have e : (marker ++ c.asStr.toList).drop (k + 1) = ((marker ++ c.asStr.toList).drop 1).drop k := by
      rw [List.drop_drop, Nat.add_comm]
    rw [e] at h
    exact List.drop_subset _ _ (h.subset (by decide))

/-- There is one `@check-` in a comment. -/
theorem comment_marker {pre : Text} (hpre : ¬ marker <:+: pre) (c : Check) {names : List Text}
    (hn : ∀ n ∈ names, GoodName n) {j : Nat} (h : marker <+: (comment pre c names).drop j) :
    j = pre.length + 1 := by
  unfold comment at h
  rcases marker_split (by decide) h with h | ⟨h1, h⟩
  · exact absurd (marker_infix h) hpre
  · have e : marker ++ (c.asStr.toList ++ ':' :: ' ' :: joinSp names) =
        (marker ++ c.asStr.toList) ++ ':' :: (' ' :: joinSp names) := by simp
    rw [e] at h
    rcases marker_split (by decide) h with h | ⟨h2, h⟩
    · have := name_marker c h; omega
    · have e2 : ' ' :: joinSp names = [] ++ ' ' :: joinSp names := rfl
      rw [e2] at h
      rcases marker_split (by decide) h with h | ⟨_, h⟩
      · simp [marker] at h
      · exact absurd h (joinSp_no_marker (fun n hm => (hn n hm).2.2) _)

theorem comment_checkAt (pre : Text) {c : Check} (hc : c ≠ .wallTimeLimit) (names : List Text) :
    CheckAt (comment pre c names) (pre.length + 1) c (' ' :: joinSp names) := by
  refine ⟨?_, hc⟩
  unfold comment
  rw [List.drop_append, List.drop_eq_nil_of_le (by omega), List.nil_append]
  have : pre.length + 1 - pre.length = 1 := by omega
  rw [this, List.drop_succ_cons, List.drop_zero]

theorem comment_checks {pre : Text} (hpre : ¬ marker <:+: pre) {c : Check} (hc : c ≠ .wallTimeLimit)
    {names : List Text} (hn : ∀ n ∈ names, GoodName n) {i : Nat} {d : Check} {r : Text}
    (h : CheckAt (comment pre c names) i d r) :
    i = pre.length + 1 ∧ d = c ∧ r = ' ' :: joinSp names := by
  have hi := comment_marker hpre c hn (checkAt_marker h)
  subst hi
  exact ⟨rfl, checkAt_inj h (comment_checkAt pre hc names)⟩

theorem comment_not_ambiguous {pre : Text} (hpre : ¬ marker <:+: pre) (c : Check)
    {names : List Text} (hn : ∀ n ∈ names, GoodName n) : ¬ Ambiguous (comment pre c names) := by
  rintro ⟨i, d, r, h, j, hj, hm⟩
  have h1 := comment_marker hpre c hn (checkAt_marker h)
  have h2 := comment_marker hpre c hn hm
  omega

theorem mem_joinSp {names : List Text} {x : Char} (h : x ∈ joinSp names) :
    x = ' ' ∨ ∃ n ∈ names, x ∈ n := by
  induction names with
  | nil => simp [joinSp] at h
  | cons n names ih =>
    cases names with
    | nil => exact .inr ⟨n, by simp, h⟩
    | cons m ms =>
      have e : joinSp (n :: m :: ms) = n ++ ' ' :: joinSp (m :: ms) := rfl
      rw [e] at h
      simp only [List.mem_append, List.mem_cons] at h
      rcases h with h | h | h
      · exact .inr ⟨n, by simp, h⟩
      · exact .inl h
      · rcases ih h with h | ⟨k, hk, h⟩
        · exact .inl h
        · exact .inr ⟨k, by simp [hk], h⟩

theorem comment_no_nl {pre : Text} (hnl : '\n' ∉ pre) (c : Check) {names : List Text}
    (hn : ∀ n ∈ names, GoodName n) : '\n' ∉ comment pre c names := by
  unfold comment
  simp only [List.mem_append, List.mem_cons, not_or]
  refine ⟨hnl, by decide, by decide, ?_, by decide, by decide, ?_⟩
  · cases c <;> decide
  · intro h
    rcases mem_joinSp h with h | ⟨n, hm, h⟩
    · exact absurd h (by decide)
    · have := (hn n hm).2.1 _ h
      exact absurd this (by decide)

/-! ## Lines without checks -/

/-- A line that gives no checks. -/
def Blank (l : Text) : Prop := ∀ i c r w, CheckAt l i c r → ¬ Word w r

theorem drop_snoc {l x : Text} {i : Nat} (h : l.drop i ≠ []) : (l ++ x).drop i = l.drop i ++ x := by
  rw [List.drop_append_of_le_length]
  rcases Nat.lt_or_ge l.length i with h1 | h1
  · exact absurd (List.drop_eq_nil_of_le (by omega)) h
  · exact h1

theorem stripCr_cases (l : Text) : stripCr l = l ∨ l = stripCr l ++ ['\r'] := by
  unfold stripCr
  split
  · rename_i h
    right
    obtain ⟨ys, hys⟩ := List.getLast?_eq_some_iff.1 h
    rw [hys]; simp
  · exact .inl rfl

theorem checkAt_snoc {l : Text} {i : Nat} {c : Check} {r : Text} {x : Char} (h : CheckAt l i c r) :
    CheckAt (l ++ [x]) i c (r ++ [x]) := by
  refine ⟨?_, h.2⟩
  rw [drop_snoc (by rw [h.1]; simp [marker]), h.1]
  simp

theorem marker_snoc {l : Text} {i : Nat} {x : Char} (h : marker <+: l.drop i) :
    marker <+: (l ++ [x]).drop i := by
  rw [drop_snoc (by intro he; rw [he] at h; simp [marker] at h)]
  exact h.trans (List.prefix_append _ _)

theorem blank_stripCr {l : Text} (h : Blank l) : Blank (stripCr l) := by
  rcases stripCr_cases l with h1 | h1
  · rwa [h1]
  · intro i c r w hc hw
    rw [h1] at h
    exact h i c _ w (checkAt_snoc hc) ((word_snoc_ws (by decide)).2 hw)

theorem ambiguous_stripCr {l : Text} (h : ¬ Ambiguous l) : ¬ Ambiguous (stripCr l) := by
  rcases stripCr_cases l with h1 | h1
  · rwa [h1]
  · rintro ⟨i, c, r, hc, j, hj, hm⟩
    apply h
    rw [h1]
    exact ⟨i, c, _, checkAt_snoc hc, j, hj, marker_snoc hm⟩

/-! ## Lists of lines -/

theorem joinNl_append {a b : List Text} (hb : b ≠ []) (ha : a ≠ []) :
    joinNl (a ++ b) = joinNl a ++ '\n' :: joinNl b := by
  induction a with
  | nil => exact absurd rfl ha
  | cons l a ih =>
    cases a with
    | nil => rw [List.singleton_append, joinNl_cons hb]; rfl
    | cons m ms =>
      rw [List.cons_append, joinNl_cons (by simp), ih (by simp),
        joinNl_cons (l := l) (ls := m :: ms) (by simp)]
      simp

/-- A block of lines is like its lines. -/
theorem joinNl_block {a b cs : List Text} (hcs : cs ≠ []) :
    joinNl (a ++ joinNl cs :: b) = joinNl (a ++ cs ++ b) := by
  have h1 : ∀ b, joinNl (joinNl cs :: b) = joinNl (cs ++ b) := by
    intro b
    cases b with
    | nil => simp [joinNl]
    | cons x b => rw [joinNl_cons (by simp), joinNl_append (by simp) hcs]
  cases a with
  | nil => simpa using h1 b
  | cons x a =>
    rw [joinNl_append (by simp) (by simp), h1, List.append_assoc,
      joinNl_append (a := x :: a) (b := cs ++ b) (by simp [hcs]) (by simp)]

theorem joinNl_snoc_nl {ls : List Text} (h : ls ≠ []) : joinNl ls ++ ['\n'] = joinNl (ls ++ [[]]) := by
  rw [joinNl_append (by simp) h]; rfl

theorem kept_none {rm : Nat → Bool} {ls : List Text} {n : Nat} (h : ∀ k, n ≤ k → rm k = false) :
    kept rm ls n = ls := by
  induction ls generalizing n with
  | nil => rfl
  | cons l ls ih =>
    simp only [kept, h n (Nat.le_refl n)]
    rw [ih (fun k hk => h k (by omega))]
    rfl

theorem kept_erase (rm : Nat → Bool) (ls : List Text) (n i : Nat) (h : ∀ k, rm k = true → k < n + i) :
    kept (fun k => decide (k = n + i) || rm k) ls n = kept rm (ls.eraseIdx i) n := by
  induction ls generalizing n i with
  | nil => simp [kept]
  | cons l ls ih =>
    cases i with
    | zero =>
      simp only [Nat.add_zero, List.eraseIdx_zero, List.tail_cons, kept, decide_true, Bool.true_or, if_true]
      rw [kept_none, kept_none]
      · intro k hk
        cases hr : rm k with
        | false => rfl
        | true => have := h k hr; omega
      · intro k hk
        have : rm k = false := by
          cases hr : rm k with
          | false => rfl
          | true => have := h k hr; omega
        simp [this]; omega
    | succ i =>
      have e : n + (i + 1) = n + 1 + i := by omega
      rw [e] at h ⊢
      have hne : decide (n = n + 1 + i) = false := by simp; omega
      simp only [List.eraseIdx_cons_succ, kept, hne, Bool.false_or]
      rw [ih (n + 1) i h]

theorem kept_congr {f g : Nat → Bool} (h : ∀ k, f k = g k) (ls : List Text) (n : Nat) :
    kept f ls n = kept g ls n := by
  have : f = g := funext h
  rw [this]

theorem removeLines_kept {is : List Nat} {ls : List Text} (hs : is.Pairwise (fun a b => b < a))
    (hlt : ∀ i ∈ is, i < ls.length) :
    removeLines is ls = some (kept (fun k => decide (k ∈ is)) ls 0) := by
  induction is generalizing ls with
  | nil => simp only [removeLines]; rw [kept_none (by simp)]
  | cons i is ih =>
    rw [List.pairwise_cons] at hs
    simp only [removeLines]
    rw [if_pos (hlt i (by simp)), ih hs.2]
    · congr 1
      rw [← kept_erase _ ls 0 i (by
        intro k hk
        have := hs.1 k (by simpa using hk)
        omega)]
      apply kept_congr
      intro k
      simp [List.mem_cons, Bool.decide_or]
    · intro k hk
      have h1 := hs.1 k hk
      have h2 := hlt i (by simp)
      rw [List.length_eraseIdx_of_lt h2]
      omega

theorem mem_distinct {l : List Nat} {a : Nat} : a ∈ distinct l ↔ a ∈ l := by
  induction l with
  | nil => simp [distinct]
  | cons b l ih =>
    simp only [distinct]
    split
    · rename_i h
      rw [ih]
      constructor
      · intro h'; simp [h']
      · intro h'
        rcases List.mem_cons.1 h' with rfl | h'
        · exact h
        · exact h'
    · simp [ih]

theorem nodup_distinct (l : List Nat) : (distinct l).Nodup := by
  induction l with
  | nil => simp [distinct]
  | cons b l ih =>
    simp only [distinct]
    split
    · exact ih
    · rename_i h
      exact List.nodup_cons.2 ⟨fun hm => h (mem_distinct.1 hm), ih⟩

theorem descending (l : List Nat) :
    (isort (fun a b => decide (a ≤ b)) (distinct l)).reverse.Pairwise (fun a b => b < a) := by
  rw [List.pairwise_reverse]
  have hs := isort_sorted' (le := fun (a b : Nat) => decide (a ≤ b)) (by intro a b; simp; omega)
    (by intro a b c; simp; omega) (distinct l)
  have hn : (isort (fun a b => decide (a ≤ b)) (distinct l)).Pairwise (fun a b => a ≠ b) :=
    ((isort_perm _ (distinct l)).pairwise_iff (by intro a b h; exact h.symm)).2 (nodup_distinct l)
  refine (hs.and hn).imp ?_
  rintro a b ⟨h1, h2⟩
  have : a ≤ b := by simpa using h1
  omega

theorem linesOf_get {content : Text} {k : Nat} {l : Text} (h : (linesOf content)[k]? = some l) :
    ∃ l0, (splitNl content)[k]? = some l0 ∧ (l = stripCr l0 ∨ l = l0) := by
  unfold linesOf at h
  have hne := splitNl_ne_nil content
  generalize splitNl content = ps at h hne
  obtain ⟨init, last, rfl⟩ : ∃ init last, ps = init ++ [last] :=
    ⟨ps.dropLast, ps.getLast hne, (List.dropLast_concat_getLast hne).symm⟩
  simp only [List.dropLast_concat, List.getLast?_concat] at h
  rcases Nat.lt_or_ge k init.length with hk | hk
  · rw [List.getElem?_append_left (by simpa using hk), List.getElem?_map] at h
    rw [List.getElem?_append_left hk]
    rw [List.getElem?_eq_getElem hk] at h ⊢
    simp only [Option.map_some, Option.some.injEq] at h
    exact ⟨_, rfl, .inl h.symm⟩
  · rw [List.getElem?_append_right (by simpa using hk)] at h
    rw [List.getElem?_append_right hk]
    simp only [List.length_map] at h
    cases last with
    | nil => simp at h
    | cons c cs =>
      simp only at h
      exact ⟨l, h, .inr rfl⟩

theorem linesOf_length {content : Text} {k : Nat} {l : Text} (h : (splitNl content)[k]? = some l)
    (hl : l ≠ []) : k < (linesOf content).length := by
  unfold linesOf
  have hne := splitNl_ne_nil content
  generalize splitNl content = ps at h hne
  obtain ⟨init, last, rfl⟩ : ∃ init last, ps = init ++ [last] :=
    ⟨ps.dropLast, ps.getLast hne, (List.dropLast_concat_getLast hne).symm⟩
  simp only [List.dropLast_concat, List.getLast?_concat, List.length_append, List.length_map]
  have hk : k < (init ++ [last]).length := (List.getElem?_eq_some_iff.1 h).1
  simp only [List.length_append, List.length_singleton] at hk
  rcases Nat.lt_or_ge k init.length with h' | h'
  · omega
  · have hk' : k = init.length := by omega
    subst hk'
    simp at h
    subst h
    cases last with
    | nil => exact absurd rfl hl
    | cons c cs => simp

theorem linesOf_no_nl (content : Text) : ∀ l ∈ linesOf content, '\n' ∉ l := by
  intro l hl
  obtain ⟨k, hk⟩ := List.getElem?_of_mem hl
  obtain ⟨l0, h0, h1⟩ := linesOf_get hk
  have := splitNl_no_nl content l0 (List.mem_of_getElem? h0)
  rcases h1 with rfl | rfl
  · rcases stripCr_cases l0 with h | h
    · rwa [h]
    · rw [h] at this; intro hm; exact this (by simp [hm])
  · exact this

theorem mem_kept {rm : Nat → Bool} {ls : List Text} {n : Nat} {l : Text} (h : l ∈ kept rm ls n) :
    ∃ k, ls[k]? = some l ∧ rm (n + k) = false := by
  induction ls generalizing n with
  | nil => simp [kept] at h
  | cons a ls ih =>
    simp only [kept] at h
    split at h
    · obtain ⟨k, h1, h2⟩ := ih h
      exact ⟨k + 1, by simpa using h1, by rw [← h2]; congr 1; omega⟩
    · rename_i hr
      rcases List.mem_cons.1 h with rfl | h
      · exact ⟨0, by simp, by simpa using hr⟩
      · obtain ⟨k, h1, h2⟩ := ih h
        exact ⟨k + 1, by simpa using h1, by rw [← h2]; congr 1; omega⟩

end TM.Solution
