import Verif.Booklet.TexLemmas
/-!
# Properties of the text of a booklet (C98)
-/
namespace TM.Booklet
open TM TM.Text Spec

/-! ## The lines of a statement -/

/-- **C98** In the statement that is compiled the lines are those of the author, except that what goes from the first
`\usepackage` to the end of its line is commented out; exactly these are the packages of the statement. -/
theorem statement_lines (content : Text) :
    ∃ rows : List (Text × Text × Option Text),
      splitNl content = rows.map (·.1) ∧ splitNl (commentOut content) = rows.map (·.2.1) ∧
      packages content = rows.filterMap (·.2.2) ∧ ∀ r ∈ rows, Line r.1 r.2.1 r.2.2 := by
  have h := pieces_lines (splitNl content) (splitNl_no_nl content) (splitNl_ne_nil content)
  rw [joinNl_splitNl] at h
  have hrow : ∀ ls : List Text, ∃ rows : List (Text × Text × Option Text), ls = rows.map (·.1) ∧
      ls.map (fun l => (linePieces l).flatMap Piece.commented) = rows.map (·.2.1) ∧
      ls.flatMap (fun l => (linePieces l).filterMap Piece.package) = rows.filterMap (·.2.2) ∧
      ∀ r ∈ rows, Line r.1 r.2.1 r.2.2 := by
    intro ls
    induction ls with
    | nil => exact ⟨[], rfl, rfl, rfl, by simp⟩
    | cons l ls ih =>
      obtain ⟨rows, h1, h2, h3, h4⟩ := ih
      obtain ⟨o, h5, h6⟩ := line_spec l
      refine ⟨(l, _, o) :: rows, by rw [List.map_cons, ← h1], by rw [List.map_cons, List.map_cons, ← h2], ?_, ?_⟩
      · rw [List.flatMap_cons, h3, h6]
        rw [List.filterMap_cons]
        cases o <;> rfl
      · intro r hr
        rcases List.mem_cons.1 hr with rfl | hr
        · exact h5
        · exact h4 r hr
  obtain ⟨rows, h1, h2, h3, h4⟩ := hrow (splitNl content)
  exact ⟨rows, h1, h.1.trans h2, h.2.trans h3, h4⟩

/-- What becomes of a line is determined by the line. -/
theorem Spec.Line.unique {l o₁ o₂ : Text} {p₁ p₂ : Option Text} (h₁ : Line l o₁ p₁) (h₂ : Line l o₂ p₂) :
    o₁ = o₂ ∧ p₁ = p₂ := by
  have aux : ∀ a b a' b' : Text, b ≠ [] → (∀ x y, a ++ use ++ b = x ++ use ++ y → a.length ≤ x.length) →
      (∀ x y, a' ++ use ++ b' = x ++ use ++ y → a'.length ≤ x.length) → a ++ use ++ b = a' ++ use ++ b' →
      a = a' ∧ b = b' := by
    intro a b a' b' _ f f' e
    have h1 := f _ _ e
    have h2 := f' _ _ e.symm
    rw [List.append_assoc, List.append_assoc] at e
    obtain ⟨h3, h4⟩ := List.append_inj e (by omega)
    exact ⟨h3, List.append_cancel_left h4⟩
  cases h₁ with
  | kept hk =>
    cases h₂ with
    | kept => exact ⟨rfl, rfl⟩
    | moved hb _ => exact absurd (hk _ _ rfl) hb
  | @moved a b hb first =>
    generalize hl : a ++ use ++ b = l' at h₂
    cases h₂ with
    | kept hk => exact absurd (hk _ _ hl.symm) hb
    | @moved a' b' hb' first' =>
      obtain ⟨rfl, rfl⟩ := aux _ _ _ _ hb first first' hl
      exact ⟨rfl, rfl⟩

/-- The heading is the first thing of the statement, then come its lines. -/
theorem statement_text (h : Heading) (content : Text) :
    statementTex h content =
      "\\begin{problem}{".toList ++ h.title ++ "}{".toList ++ h.name ++ "}{".toList ++ h.infile ++ "}{".toList ++ h.outfile ++
        "}{".toList ++ h.timeLimit ++ "}{".toList ++ h.memoryLimit ++ "}{".toList ++ h.difficulty ++ "}{".toList ++
        h.syllabusLevel ++ "}".toList ++ '\n' :: commentOut content ++ "\n\\end{problem}".toList := by
  have e1 : "\\begin{problem}{".toList = "\\begin{problem}".toList ++ ['{'] := by decide
  have e2 : "}{".toList = ['}', '{'] := by decide
  have e3 : "}".toList = ['}'] := by decide
  rw [e1, e2, e3]
  unfold statementTex arg
  simp only [List.append_assoc, List.cons_append, List.nil_append]

/-! ## What LaTeX reads -/

theorem loads_use (l : Text) (h : loads l = true) : ∃ a b, l = a ++ use ++ b ∧ b ≠ [] := by
  fun_induction loads l with
  | case1 => cases h
  | case2 => cases h
  | case3 c cs ih =>
    simp only [Bool.or_eq_true, Bool.and_eq_true, List.isPrefixOf_iff_prefix, decide_eq_true_eq] at h
    rcases h with ⟨⟨b, hb⟩, hl⟩ | h
    · refine ⟨[], b, hb.symm, ?_⟩
      rintro rfl
      have := congrArg List.length hb
      simp at this
      omega
    · obtain ⟨a, b, rfl, hb⟩ := ih h
      exact ⟨'\\' :: c :: a, b, rfl, hb⟩
  | case4 c cs _ _ ih =>
    obtain ⟨a, b, rfl, hb⟩ := ih h
    exact ⟨c :: a, b, rfl, hb⟩

theorem loads_percent (a x : Text) (h : a.getLast? ≠ some '\\') (hl : loads (a ++ '%' :: x) = true) :
    ∃ a' b', a = a' ++ use ++ b' := by
  have tail : ∀ (c : Char) (cs : Text), (c :: cs).getLast? ≠ some '\\' → cs.getLast? ≠ some '\\' := by
    intro c cs h e
    apply h
    cases cs with
    | nil => simp at e
    | cons d ds => simpa [List.getLast?_cons_cons] using e
  fun_induction loads a with
  | case1 => simp [loads] at hl
  | case2 => simp [loads] at hl
  | case3 c cs ih =>
    simp only [List.cons_append, loads, Bool.or_eq_true, Bool.and_eq_true, List.isPrefixOf_iff_prefix,
      decide_eq_true_eq] at hl
    rcases hl with ⟨hp, -⟩ | hl
    · have : use <+: ('\\' :: c :: cs) ++ '%' :: x := hp
      obtain ⟨b, hb⟩ := prefix_stop (by decide) this
      exact ⟨[], b, hb.symm⟩
    · obtain ⟨a', b', rfl⟩ := ih (tail _ _ (tail _ _ h)) hl
      exact ⟨'\\' :: c :: a', b', rfl⟩
  | case4 c cs h1 h2 ih =>
    have hb : c ≠ '\\' := by
      intro e
      cases cs with
      | nil => exact h (by simp [e])
      | cons d ds => exact h2 d ds e rfl
    rw [List.cons_append, loads.eq_4 _ _ (fun e => h1 e) (by intro _ _ e; exact absurd e hb)] at hl
    obtain ⟨a', b', rfl⟩ := ih (tail _ _ h) hl
    exact ⟨c :: a', b', rfl⟩

/-- **C98** (partial) LaTeX finds no `\usepackage` with its argument in the text of a statement, which is not in the preamble
of the booklet.  Proved when no `\usepackage` is preceded by another backslash: see `escaped_package`; one whose argument is on
another line is not found: see `split_package`. -/
theorem no_package_in_statement_partial (content : Text)
    (hb : ∀ l ∈ splitNl content, ∀ a b, l = a ++ use ++ b → a.getLast? ≠ some '\\') :
    ∀ l ∈ splitNl (commentOut content), loads l = false := by
  obtain ⟨rows, h1, h2, -, h4⟩ := statement_lines content
  rw [h1] at hb
  rw [h2]
  intro l hl
  obtain ⟨⟨l₀, l₁, p⟩, hr, rfl⟩ := List.mem_map.1 hl
  have hline := h4 _ hr
  have hb := hb l₀ (List.mem_map.2 ⟨_, hr, rfl⟩)
  simp only at hline hb ⊢
  cases hlo : loads l₁ with
  | false => rfl
  | true =>
    exfalso
    cases hline with
    | kept hk =>
      obtain ⟨a, b, e, hne⟩ := loads_use _ hlo
      exact hne (hk a b e)
    | @moved a b hb' first =>
      have e : a ++ ['%', ' '] ++ use ++ b = a ++ '%' :: (' ' :: (use ++ b)) := by simp
      rw [e] at hlo
      obtain ⟨a', b', rfl⟩ := loads_percent _ _ (hb a b rfl) hlo
      have := first a' (b' ++ use ++ b) (by simp [List.append_assoc])
      have h0 : 0 < use.length := by decide
      simp only [List.length_append] at this
      omega

/-- `foo \\\\usepackage{x}`: a line break and a word, that becomes a percent sign and a `\usepackage`. -/
theorem escaped_package : ∃ content : Text, (∀ l ∈ splitNl content, loads l = false) ∧
    ∃ l ∈ splitNl (commentOut content), loads l = true :=
  ⟨['\\'] ++ use ++ ['{', 'x', '}'], by decide +kernel, by decide +kernel⟩

/-- A `\usepackage` with the argument on the next line stays where it is, and is not in the preamble. -/
theorem split_package : ∃ content : Text, (∃ l rest, splitNl content = [use, l] ∧ l = '{' :: rest) ∧
    commentOut content = content ∧ packages content = [] :=
  ⟨use ++ ['\n', '{', 'x', '}'], ⟨_, ['x', '}'], by decide +kernel, rfl⟩, by decide +kernel, by decide +kernel⟩

/-- A package that the author commented out is loaded by the booklet, with what is after it on the line. -/
theorem commented_package : ∃ content : Text, (∀ l ∈ splitNl content, loads l = false) ∧
    packages content = [use ++ ['{', 'x', '}', ' ', 'o', 'l', 'd']] :=
  ⟨['%', ' '] ++ use ++ ['{', 'x', '}', ' ', 'o', 'l', 'd'], by decide +kernel, by decide +kernel⟩

/-- A statement with text, a package after other text on its line, and the same package later. -/
example : commentOut "text \\usepackage{a} b\nmore\n\\usepackage{c}".toList =
    "text % \\usepackage{a} b\nmore\n% \\usepackage{c}".toList ∧
    packages "text \\usepackage{a} b\nmore\n\\usepackage{c}".toList =
      ["\\usepackage{a} b".toList, "\\usepackage{c}".toList] := by decide +kernel

/-! ## The booklet -/

theorem textLe_total : TotalLe textLe := by
  refine ⟨?_, ?_, ?_⟩ <;> simp only [textLe, decide_eq_true_eq]
  · exact List.le_total
  · exact fun _ _ _ => List.le_trans
  · exact fun _ _ => List.le_antisymm

theorem mem_insertNew {s : List Text} {x y : Text} : y ∈ insertNew s x ↔ y = x ∨ y ∈ s := by
  unfold insertNew
  split
  · rename_i h
    constructor
    · exact Or.inr
    · rintro (rfl | h')
      · exact h
      · exact h'
  · simp

theorem foldl_insertNew (xs s : List Text) :
    (∀ y, y ∈ xs.foldl insertNew s ↔ y ∈ xs ∨ y ∈ s) ∧ (s.Nodup → (xs.foldl insertNew s).Nodup) := by
  induction xs generalizing s with
  | nil => simp
  | cons x xs ih =>
    obtain ⟨h1, h2⟩ := ih (insertNew s x)
    constructor
    · intro y
      rw [List.foldl_cons, h1, mem_insertNew, List.mem_cons]
      constructor
      · rintro (h | h | h) <;> simp [h]
      · rintro ((h | h) | h) <;> simp [h]
    · intro hs
      rw [List.foldl_cons]
      apply h2
      unfold insertNew
      split
      · exact hs
      · rename_i h
        exact List.nodup_cons.2 ⟨h, hs⟩

/-- **C98** The preamble of the booklet has the packages of all the statements, each once, in the order of the alphabet, and the
statements are imported once each in the order of the booklet. -/
theorem booklet_text (b : BookletInfo) (sts : List (Text × Text)) :
    ∃ ps : List Text,
      bookletTex b sts =
        "\\documentclass[%\n\t".toList ++ b.language ++ ",%\n\t".toList ++
        (if b.showSolutions then "showsolutions".toList else []) ++ ",%\n\t".toList ++
        (if b.showSummary then "showsummary".toList else []) ++ ",%\n]{cms-contest}\n\n\\usepackage[".toList ++ b.fontEnc ++
        "]{fontenc}\n\\usepackage[".toList ++ b.inputEnc ++ "]{inputenc}\n\\usepackage[".toList ++ b.language ++
        "]{babel}\n\\usepackage{bookmark}\n\\usepackage{import}\n\n".toList ++ joinNl ps ++
        "\n\n\\begin{document}\n\t".toList ++ b.introPage ++ "\n\t\\begin{contest}{".toList ++ b.description ++ "}{".toList ++
        b.location ++ "}{".toList ++ b.date ++ "}\n\t\t\\setContestLogo{".toList ++ b.logo ++ "}\n\t\t".toList ++
        joinNl (sts.map (fun s => "\\subimport{./".toList ++ s.1 ++ "/}{statement.tex}".toList)) ++
        "\n\t\\end{contest}\n\\end{document}".toList ∧
      ps.Nodup ∧ ps.Pairwise (· ≤ ·) ∧
      ∀ p, p ∈ ps ↔ ∃ s ∈ sts, ∃ l ∈ splitNl s.2, ∃ out, Line l out (some p) := by
  refine ⟨isort textLe (packageSet (sts.map (·.2))), ?_, ?_, ?_, ?_⟩
  · have e1 : "\n\t\\begin{contest}{".toList = "\n\t\\begin{contest}".toList ++ ['{'] := by decide
    have e2 : "}{".toList = ['}', '{'] := by decide
    have e3 : "}\n\t\t\\setContestLogo{".toList = '}' :: ("\n\t\t\\setContestLogo".toList ++ ['{']) := by decide
    have e4 : "}\n\t\t".toList = '}' :: "\n\t\t".toList := by decide
    rw [e1, e2, e3, e4]
    unfold bookletTex preamble importLine arg boolToTpl
    simp only [List.append_assoc, List.cons_append, List.nil_append]
  · exact (isort_perm _ _).nodup_iff.2 ((foldl_insertNew _ _).2 List.nodup_nil)
  · exact (isort_sorted textLe_total _).imp (fun h => by simpa [textLe] using h)
  · intro p
    rw [(isort_perm _ _).mem_iff, packageSet, (foldl_insertNew _ _).1]
    simp only [List.not_mem_nil, or_false, List.mem_flatMap, List.mem_map]
    constructor
    · rintro ⟨_, ⟨s, hs, rfl⟩, hp⟩
      obtain ⟨rows, h1, -, h3, h4⟩ := statement_lines s.2
      rw [h3, List.mem_filterMap] at hp
      obtain ⟨r, hr, hp⟩ := hp
      refine ⟨s, hs, r.1, ?_, r.2.1, ?_⟩
      · rw [h1]; exact List.mem_map.2 ⟨r, hr, rfl⟩
      · have := h4 r hr
        rwa [hp] at this
    · rintro ⟨s, hs, l, hl, out, hline⟩
      refine ⟨s.2, ⟨s, hs, rfl⟩, ?_⟩
      obtain ⟨rows, h1, -, h3, h4⟩ := statement_lines s.2
      rw [h1, List.mem_map] at hl
      obtain ⟨r, hr, rfl⟩ := hl
      rw [h3, List.mem_filterMap]
      exact ⟨r, hr, ((h4 r hr).unique hline).2⟩

/-- Two statements that share a package. -/
example : preamble ["\\usepackage{b}\ntext".toList, "\\usepackage{a}\n\\usepackage{b}".toList] =
    "\\usepackage{a}\n\\usepackage{b}".toList := by decide +kernel

end TM.Booklet
