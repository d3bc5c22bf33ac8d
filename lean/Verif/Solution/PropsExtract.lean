import Verif.Solution.RewriteLemmas
import Verif.Solution.PropsCheck
/-!
# Properties of the `@check` comments: reading (C51) and writing (C52)
-/
namespace TM.Solution
open TM.Text

/-! ## Reading -/

/-- The checks of a file are read unless a line has a check followed by another `@check-`. -/
theorem extract_ok_iff (content : Text) :
    (∃ r, extract content = .ok r) ↔ ∀ line ∈ splitNl content, ¬ Ambiguous line := by
  have h := (extractLoop_spec [] (splitNl content) (by simpa using splitNl_no_nl content)).1
  simpa [joinNl_splitNl, widths, extract] using h

/-- The checks read are exactly those of the lines of the file: one for each word after
`@check-NAME:`.  The span of a check is the part of its line from `@check-` on. -/
theorem extract_checks {content : Text} {cs : List SolutionCheck} {ds : List Text}
    (h : extract content = .ok (cs, ds)) :
    (∀ x ∈ cs, ∃ k line i rest, (splitNl content)[k]? = some line ∧ CheckAt line i x.result rest ∧
      Word x.pattern rest ∧ x.span.lineNumber = k + 1 ∧ x.span.asStr = line.drop i) ∧
    (∀ (k : Nat) line i c rest w, (splitNl content)[k]? = some line → CheckAt line i c rest →
      Word w rest → ∃ x ∈ cs, x.result = c ∧ x.pattern = w ∧ x.span.lineNumber = k + 1) := by
  have hs := (extractLoop_spec [] (splitNl content) (by simpa using splitNl_no_nl content)).2 cs ds
    (by simpa [joinNl_splitNl, widths, extract] using h)
  simp only [List.nil_append, List.length_nil] at hs
  obtain ⟨h1, h2, -⟩ := hs
  constructor
  · intro x hx
    obtain ⟨k, line, i, rest, a1, a2, a3, a4, a5, a6, a7⟩ := (h1 x hx).1
    refine ⟨k, line, i, rest, a1, a2, mem_splitWs.1 a3, by omega, ?_⟩
    unfold CodeSpan.asStr
    rw [a5, a6, a7, List.take_of_length_le (by simp)]
  · intro k line i c rest w a1 a2 a3
    refine ⟨⟨c, w, ⟨k + 1, widths ((splitNl content).take k) + i, i, line.length - i, line⟩⟩,
      h2 _ ?_ ?_, rfl, rfl, rfl⟩
    · exact ⟨k, line, i, rest, a1, a2, mem_splitWs.2 a3, by simp, rfl, rfl, rfl⟩
    · simp [Sited]

/-- An error is shown exactly for the lines with a `@check-` and no check that is understood. -/
theorem extract_diagnostics {content : Text} {cs : List SolutionCheck} {ds : List Text}
    (h : extract content = .ok (cs, ds)) (l : Text) :
    l ∈ ds ↔ l ∈ splitNl content ∧ marker <:+: l ∧ ∀ i c r, ¬ CheckAt l i c r := by
  have hs := (extractLoop_spec [] (splitNl content) (by simpa using splitNl_no_nl content)).2 cs ds
    (by simpa [joinNl_splitNl, widths, extract] using h)
  rw [hs.2.2 l]
  constructor
  · rintro ⟨a, ⟨j, b⟩, c⟩; exact ⟨a, marker_infix b, c⟩
  · rintro ⟨a, b, c⟩; exact ⟨a, infix_marker b, c⟩

/-- Non-vacuity: two checks, a wrong one, and an ordinary line. -/
example : (extract "// @check-zero: a  b\n# @check-nope: c\nint main".toList).toOption.map
      (fun p => (p.1.map (fun x => (x.result, String.ofList x.pattern, x.span.lineNumber,
        String.ofList x.span.asStr)), p.2.map String.ofList)) =
    some ([(.zero, "a", 1, "@check-zero: a  b"), (.zero, "b", 1, "@check-zero: a  b")],
      ["# @check-nope: c"]) := by decide +kernel

/-- A check of which the tool knows the name is not understood when it is read: it is an error for the
user. -/
theorem wall_check_not_read : ∃ content, (extract content).toOption.map
      (fun p => (p.1.length, p.2.map String.ofList)) =
        some (0, ["// @check-wall-time-limit-exceeded: a"]) ∧
    Check.fromStr "wall-time-limit-exceeded" = some .wallTimeLimit :=
  ⟨"// @check-wall-time-limit-exceeded: a".toList, by decide +kernel⟩

/-- Two checks on a line: the checks of the file cannot be read at all and the solution is ignored. -/
theorem two_checks_drop_solution : ∃ content, (extract content).toOption.isNone = true ∧
    content = "// @check-accepted: a @check-zero: b\n".toList := ⟨_, by decide +kernel, rfl⟩

/-! ## Writing -/

/-- The comments the tool writes for the checks. -/
def comments (pre : Text) (cs : List (Check × List Text)) : List Text :=
  cs.map (fun p => comment pre p.1 p.2)

theorem extracted_lines {content : Text} {old : List SolutionCheck} {ds : List Text}
    (hold : extract content = .ok (old, ds)) :
    removeLines (isort (fun a b => decide (a ≤ b))
      (distinct (old.map (fun c => c.span.lineNumber - 1)))).reverse (linesOf content) =
      some (kept (fun k => decide (k + 1 ∈ old.map (·.span.lineNumber))) (linesOf content) 0) := by
  have hmem : ∀ k, k ∈ (isort (fun a b => decide (a ≤ b))
      (distinct (old.map (fun c => c.span.lineNumber - 1)))).reverse ↔
      k ∈ old.map (fun c => c.span.lineNumber - 1) := by
    intro k; rw [List.mem_reverse, (isort_perm _ _).mem_iff, mem_distinct]
  rw [removeLines_kept (descending _)]
  · congr 1
    apply kept_congr
    intro k
    rw [decide_eq_decide, hmem, List.mem_map, List.mem_map]
    constructor
    · rintro ⟨x, hx, he⟩
      obtain ⟨k', _, _, _, _, _, _, h5, _⟩ := (extract_checks hold).1 x hx
      exact ⟨x, hx, by omega⟩
    · rintro ⟨x, hx, he⟩
      exact ⟨x, hx, by omega⟩
  · intro i hi
    obtain ⟨x, hx, he⟩ := List.mem_map.1 ((hmem i).1 hi)
    obtain ⟨k, line, j, rest, h1, h2, _, h4, _⟩ := (extract_checks hold).1 x hx
    have hk : i = k := by omega
    subst hk
    apply linesOf_length h1
    intro hnil
    have := h2.1
    rw [hnil] at this
    simp [marker] at this

/-- The lines of the file written: the comments, after the first line if the file starts with `#!` and
at the beginning otherwise, and all the lines of the old file but those with the old checks. -/
theorem rewrite_lines {content : Text} {old : List SolutionCheck} {ds : List Text}
    (hold : extract content = .ok (old, ds)) {comments : List Text} (hne : comments ≠ [])
    (hnl : ∀ c ∈ comments, '\n' ∉ c)
    (hbang : ['#', '!'] <+: content → ∀ x ∈ old, x.span.lineNumber ≠ 1) :
    ∃ new a b, writeComments content comments old = some new ∧
      splitNl new = a ++ comments ++ b ++ [[]] ∧
      a ++ b = kept (fun k => decide (k + 1 ∈ old.map (·.span.lineNumber))) (linesOf content) 0 ∧
      (¬ ['#', '!'] <+: content → a = []) ∧
      (['#', '!'] <+: content → ∃ l, (linesOf content)[0]? = some l ∧ a = [l]) := by
  have hrm := extracted_lines hold
  generalize hkdef : kept (fun k => decide (k + 1 ∈ old.map (·.span.lineNumber))) (linesOf content) 0 = K
    at hrm
  have hKnl : ∀ l ∈ K, '\n' ∉ l := by
    intro l hl
    rw [← hkdef] at hl
    obtain ⟨k, hk, _⟩ := mem_kept hl
    exact linesOf_no_nl content l (List.mem_of_getElem? hk)
  have hsplit : ∀ n, n ≤ K.length →
      splitNl (joinNl (K.take n ++ joinNl comments :: K.drop n) ++ ['\n']) =
        K.take n ++ comments ++ K.drop n ++ [[]] := by
    intro n _
    rw [joinNl_block hne, joinNl_snoc_nl (by simp [hne]), splitNl_joinNl (by simp)]
    intro l hl
    simp only [List.mem_append, List.mem_singleton] at hl
    rcases hl with ((hl | hl) | hl) | rfl
    · exact hKnl l (List.take_subset _ _ hl)
    · exact hnl l hl
    · exact hKnl l (List.drop_subset _ _ hl)
    · simp
  unfold writeComments
  simp only [hrm]
  by_cases hb : ['#', '!'] <+: content
  · have hb' : ['#', '!'].isPrefixOf content = true := List.isPrefixOf_iff_prefix.2 hb
    simp only [hb', if_true]
    -- the first line is kept
    have hfirst : ∃ l rest, linesOf content = l :: rest := by
      cases hl : linesOf content with
      | cons l rest => exact ⟨l, rest, rfl⟩
      | nil =>
        exfalso
        have hne' := splitNl_ne_nil content
        obtain ⟨t, ht⟩ := hb
        cases hs : splitNl content with
        | nil => exact hne' hs
        | cons l0 ls =>
          have hl0 : l0 ≠ [] := by
            intro h0
            subst h0
            rw [← ht] at hs
            simp only [List.cons_append, List.nil_append, splitNl] at hs
            rw [if_neg (by decide)] at hs
            split at hs <;> simp at hs
          have := linesOf_length (content := content) (k := 0) (l := l0) (by simp [hs]) hl0
          rw [hl] at this
          simp at this
    obtain ⟨l, rest, hlr⟩ := hfirst
    have hk0 : (decide (0 + 1 ∈ old.map (·.span.lineNumber))) = false := by
      rw [decide_eq_false_iff_not]
      intro h
      obtain ⟨x, hx, he⟩ := List.mem_map.1 h
      exact hbang hb x hx (by omega)
    have hK : ∃ K', K = l :: K' := by
      rw [← hkdef, hlr]
      refine ⟨kept (fun k => decide (k + 1 ∈ old.map (·.span.lineNumber))) rest 1, ?_⟩
      rw [kept, hk0]
      rfl
    obtain ⟨K', hK⟩ := hK
    rw [if_pos (by rw [hK]; simp)]
    refine ⟨_, K.take 1, K.drop 1, rfl, hsplit 1 (by rw [hK]; simp),
      List.take_append_drop 1 K, fun h => absurd hb h, ?_⟩
    intro _
    exact ⟨l, by simp [hlr], by rw [hK]; simp⟩
  · have hb' : ['#', '!'].isPrefixOf content = false := by
      rw [← Bool.not_eq_true, List.isPrefixOf_iff_prefix]; exact hb
    simp only [hb', Bool.false_eq_true, if_false]
    rw [if_pos (Nat.zero_le _)]
    exact ⟨_, K.take 0, K.drop 0, rfl, hsplit 0 (Nat.zero_le _), by simp, fun _ => by simp,
      fun h => absurd h hb⟩

/-- The checks written are the checks read afterwards: the old ones are replaced by the new ones (when the
tool does not overwrite there are no old ones). -/
theorem rewrite_roundtrip_partial {content : Text} {old : List SolutionCheck} {ds : List Text}
    (hold : extract content = .ok (old, ds)) {pre : Text} {cs : List (Check × List Text)}
    (hpre : '\n' ∉ pre ∧ ¬ marker <:+: pre) (hne : cs ≠ [])
    (hcs : ∀ p ∈ cs, p.1 ≠ .wallTimeLimit ∧ ∀ n ∈ p.2, GoodName n)
    (hbang : ['#', '!'] <+: content → ∀ x ∈ old, x.span.lineNumber ≠ 1) :
    ∃ new, writeComments content (comments pre cs) old = some new ∧
      ∃ checks ds', extract new = .ok (checks, ds') ∧
        ∀ c n, (∃ x ∈ checks, x.result = c ∧ x.pattern = n) ↔ ∃ p ∈ cs, p.1 = c ∧ n ∈ p.2 := by
  obtain ⟨new, a, b, h1, h2, h3, -, -⟩ := rewrite_lines hold (comments := comments pre cs)
    (by simpa [comments] using hne)
    (by
      intro c hc
      obtain ⟨p, hp, rfl⟩ := List.mem_map.1 hc
      exact comment_no_nl hpre.1 _ (hcs p hp).2) hbang
  refine ⟨new, h1, ?_⟩
  -- the lines that were kept
  have hkept : ∀ l, l ∈ a ∨ l ∈ b → Blank l ∧ ¬ Ambiguous l := by
    intro l hl
    have hl' : l ∈ a ++ b := List.mem_append.2 hl
    rw [h3] at hl'
    obtain ⟨k, hk, hrm⟩ := mem_kept hl'
    obtain ⟨l0, h0, hl0⟩ := linesOf_get hk
    have hblank : Blank l0 := by
      intro i c r w hc hw
      obtain ⟨x, hx, _, _, he⟩ := (extract_checks hold).2 k l0 i c r w h0 hc hw
      rw [decide_eq_false_iff_not] at hrm
      exact hrm (List.mem_map.2 ⟨x, hx, by omega⟩)
    have hamb : ¬ Ambiguous l0 := (extract_ok_iff content).1 ⟨_, hold⟩ l0 (List.mem_of_getElem? h0)
    rcases hl0 with rfl | rfl
    · exact ⟨blank_stripCr hblank, ambiguous_stripCr hamb⟩
    · exact ⟨hblank, hamb⟩
  have hnil : Blank [] ∧ ¬ Ambiguous [] := by
    have : ∀ i c r, ¬ CheckAt [] i c r := by
      intro i c r h
      have := h.1
      simp [marker] at this
    exact ⟨fun i c r w h => absurd h (this i c r), by rintro ⟨i, c, r, h, _⟩; exact this i c r h⟩
  have hlines : ∀ l ∈ splitNl new, l ∈ comments pre cs ∨ (Blank l ∧ ¬ Ambiguous l) := by
    intro l hl
    rw [h2] at hl
    simp only [List.mem_append, List.mem_singleton] at hl
    rcases hl with ((hl | hl) | hl) | rfl
    · exact .inr (hkept l (.inl hl))
    · exact .inl hl
    · exact .inr (hkept l (.inr hl))
    · exact .inr hnil
  obtain ⟨⟨checks, ds'⟩, hex⟩ := (extract_ok_iff new).2 (by
    intro l hl
    rcases hlines l hl with h | h
    · obtain ⟨p, hp, rfl⟩ := List.mem_map.1 h
      exact comment_not_ambiguous hpre.2 _ (hcs p hp).2
    · exact h.2)
  refine ⟨checks, ds', hex, ?_⟩
  have hwords : ∀ p ∈ cs, ∀ w, Word w (' ' :: joinSp p.2) ↔ w ∈ p.2 := by
    intro p hp w
    rw [word_ws_cons (by decide), word_joinSp]
    intro n hn
    exact ⟨((hcs p hp).2 n hn).1, ((hcs p hp).2 n hn).2.1⟩
  intro c n
  constructor
  · rintro ⟨x, hx, rfl, rfl⟩
    obtain ⟨k, line, i, rest, a1, a2, a3, _⟩ := (extract_checks hex).1 x hx
    rcases hlines line (List.mem_of_getElem? a1) with h | h
    · obtain ⟨p, hp, rfl⟩ := List.mem_map.1 h
      obtain ⟨_, hd, hr⟩ := comment_checks hpre.2 (hcs p hp).1 (hcs p hp).2 a2
      rw [hr, hwords p hp] at a3
      exact ⟨p, hp, hd.symm, a3⟩
    · exact absurd a3 (h.1 _ _ _ _ a2)
  · rintro ⟨p, hp, rfl, hn⟩
    have hmem : comment pre p.1 p.2 ∈ splitNl new := by
      rw [h2]
      simp only [List.mem_append]
      exact .inl (.inl (.inr (List.mem_map.2 ⟨p, hp, rfl⟩)))
    obtain ⟨k, hk⟩ := List.getElem?_of_mem hmem
    obtain ⟨x, hx, e1, e2, _⟩ := (extract_checks hex).2 k _ _ _ _ n hk
      (comment_checkAt pre (hcs p hp).1 p.2) ((hwords p hp n).2 hn)
    exact ⟨x, hx, e1, e2⟩

/-- What the tool does on a solution: the checks read from the file it wrote hold for the results they
come from, and every subtask has its check. -/
theorem tool_checks_hold_partial {content : Text} {old : List SolutionCheck} {ds : List Text}
    (hold : extract content = .ok (old, ds)) {pre : Text} (hpre : '\n' ∉ pre ∧ ¬ marker <:+: pre)
    {subtasks : List (String × List Outcome)} (hsne : subtasks ≠ [])
    (hnames : ∀ p ∈ subtasks, GoodName p.1.toList)
    (hwall : ∀ p ∈ subtasks, chooseCheck p.2 ≠ some .wallTimeLimit)
    (hbang : ['#', '!'] <+: content → ∀ x ∈ old, x.span.lineNumber ≠ 1) :
    ∃ cs new checks ds', checksToWrite subtasks = some cs ∧
      writeComments content (comments pre (cs.map (fun p => (p.1, p.2.map String.toList)))) old = some new ∧
      extract new = .ok (checks, ds') ∧
      (∀ x ∈ checks, ∃ p ∈ subtasks, x.pattern = p.1.toList ∧ x.result.check p.2 = true) ∧
      (∀ p ∈ subtasks, ∃ x ∈ checks, x.pattern = p.1.toList ∧ chooseCheck p.2 = some x.result) := by
  obtain ⟨cs, hcs, -, hmem⟩ := checks_to_write subtasks
  have hne : cs.map (fun p => (p.1, p.2.map String.toList)) ≠ [] := by
    intro h
    have hnil : cs = [] := by simpa using h
    cases subtasks with
    | nil => exact hsne rfl
    | cons p rest =>
      obtain ⟨c, hc, -⟩ := chosen_check p.2
      have := (hmem c _).2 ⟨?_, rfl⟩
      · rw [hnil] at this; cases this
      · simp [hc]
  obtain ⟨new, h1, checks, ds', h2, h3⟩ := rewrite_roundtrip_partial hold hpre hne (by
    intro q hq
    obtain ⟨p, hp, rfl⟩ := List.mem_map.1 hq
    obtain ⟨hpn, hpe⟩ := (hmem p.1 p.2).1 hp
    have hall : ∀ n ∈ p.2, ∃ s ∈ subtasks, s.1 = n ∧ chooseCheck s.2 = some p.1 := by
      intro n hn
      rw [hpe] at hn
      obtain ⟨s, hs, he⟩ := List.mem_map.1 hn
      obtain ⟨hs1, hs2⟩ := List.mem_filter.1 hs
      exact ⟨s, hs1, he, by simpa using hs2⟩
    constructor
    · obtain ⟨n, hn⟩ := List.exists_mem_of_ne_nil _ hpn
      obtain ⟨s, hs, _, hc⟩ := hall n hn
      intro hw
      simp only at hw
      exact hwall s hs (hw ▸ hc)
    · intro n hn
      simp only at hn
      obtain ⟨m, hm, rfl⟩ := List.mem_map.1 hn
      obtain ⟨s, hs, he, _⟩ := hall m hm
      exact he ▸ hnames s hs) hbang
  refine ⟨cs, new, checks, ds', hcs, h1, h2, ?_, ?_⟩
  · intro x hx
    obtain ⟨q, hq, h4, h5⟩ := (h3 x.result x.pattern).1 ⟨x, hx, rfl, rfl⟩
    obtain ⟨p, hp, rfl⟩ := List.mem_map.1 hq
    simp only at h4 h5
    obtain ⟨m, hm, he⟩ := List.mem_map.1 h5
    rw [((hmem p.1 p.2).1 hp).2] at hm
    obtain ⟨s, hs, hes⟩ := List.mem_map.1 hm
    obtain ⟨hs1, hs2⟩ := List.mem_filter.1 hs
    refine ⟨s, hs1, by rw [← he, hes], ?_⟩
    apply chosen_check_holds
    rw [← h4]
    simpa using hs2
  · intro p hp
    obtain ⟨c, hc, -⟩ := chosen_check p.2
    have hin : (c, (subtasks.filter (fun q => decide (chooseCheck q.2 = some c))).map (·.1)) ∈ cs := by
      refine (hmem _ _).2 ⟨?_, rfl⟩
      intro h
      rw [List.map_eq_nil_iff, List.filter_eq_nil_iff] at h
      exact h p hp (by simpa using hc)
    obtain ⟨x, hx, e1, e2⟩ := (h3 c p.1.toList).2 ⟨_, List.mem_map_of_mem hin, rfl, by
      simp only
      refine List.mem_map_of_mem (List.mem_map.2 ⟨p, List.mem_filter.2 ⟨hp, by simpa using hc⟩, rfl⟩)⟩
    exact ⟨x, hx, e2, by rw [hc, e1]⟩

/-- Non-vacuity: a file with an old check, overwritten after the `#!` line. -/
example : (do
    let content := "#!/bin/sh\n# @check-zero: a\r\necho @check-x\r\n".toList
    let (old, _) ← (extract content).toOption
    let cs ← checksToWrite [("a", [.accepted]), ("b", [.accepted, .timeLimit]), ("c", [])]
    let new ← writeComments content
      (comments "#".toList (cs.map (fun p => (p.1, p.2.map String.toList)))) old
    some (String.ofList new)) =
    some "#!/bin/sh\n# @check-accepted: a c\n# @check-time-limit-exceeded: b\necho @check-x\n" := by
  decide +kernel

/-- The check of the wall time limit, when chosen, is lost: it is written but not read. -/
theorem wall_check_lost : ∃ subtasks cs new, checksToWrite subtasks = some cs ∧
    writeComments [] (comments "#".toList (cs.map (fun p => (p.1, p.2.map String.toList)))) [] = some new ∧
    subtasks = [("a", [.wallTimeLimit])] ∧
    (extract new).toOption.map (fun p => p.1.length) = some 0 :=
  ⟨_, _, _, rfl, rfl, rfl, by decide +kernel⟩

/-- A check on the `#!` line: the line is removed and the comment goes after the following one, or the
tool panics if there is none. -/
theorem check_on_shebang_line :
    (do let (old, _) ← (extract "#!/bin/sh # @check-zero: a\necho\n".toList).toOption
        let new ← writeComments "#!/bin/sh # @check-zero: a\necho\n".toList ["# x".toList] old
        some (String.ofList new)) = some "echo\n# x\n" ∧
    (do let (old, _) ← (extract "#!/bin/sh # @check-zero: a\n".toList).toOption
        writeComments "#!/bin/sh # @check-zero: a\n".toList ["# x".toList] old) = none := by
  decide +kernel

end TM.Solution
