import Verif.Text.Lines
/-!
# Code spans (`task-maker-diagnostics/src/span.rs`)
-/
namespace TM.Text

/-- `CodeSpan`, `task-maker-diagnostics/src/span.rs:14-29` (without the name of the file). -/
structure CodeSpan where
  lineNumber : Nat
  fileOffset : Nat
  lineOffset : Nat
  len : Nat
  line : Text
  deriving DecidableEq, Repr

/-- The errors of `CodeSpan::from_str`. -/
inductive SpanError where
  | onNewline
  | multiline
  | exceeds
  deriving DecidableEq, Repr

/-- The loop of `CodeSpan::from_str`, `task-maker-diagnostics/src/span.rs:41-64`. -/
def CodeSpan.scan (offset len : Nat) : List Text → Nat → Nat → Except SpanError CodeSpan
  | [], _, _ => .error .exceeds
  | line :: rest, prev, skipped =>
    if prev + line.length = offset then .error .onNewline
    else if prev + line.length < offset then
      CodeSpan.scan offset len rest (prev + (line.length + 1)) (skipped + 1)
    else if offset - prev + len > line.length then .error .multiline
    else .ok { lineNumber := skipped + 1, line := line, fileOffset := offset,
               lineOffset := offset - prev, len := len }

/-- `CodeSpan::from_str`, `task-maker-diagnostics/src/span.rs:33-65`. -/
def CodeSpan.fromStr (content : Text) (offset len : Nat) : Except SpanError CodeSpan :=
  CodeSpan.scan offset len (splitNl content) 0 0

/-- `CodeSpan::as_str`, `task-maker-diagnostics/src/span.rs:68-71`. -/
def CodeSpan.asStr (s : CodeSpan) : Text := (s.line.drop s.lineOffset).take s.len

/-! ## Lemmas -/

/-- `t` is `pre ++ line ++ post` where `line` is a whole line. -/
def IsLine (t pre line post : Text) : Prop :=
  t = pre ++ line ++ post ∧ '\n' ∉ line ∧ (pre = [] ∨ ∃ p, pre = p ++ ['\n']) ∧
    (post = [] ∨ ∃ p, post = '\n' :: p)

theorem isLine_shift {l t pre line post : Text} (h : IsLine t pre line post) :
    IsLine (l ++ '\n' :: t) (l ++ '\n' :: pre) line post := by
  obtain ⟨h1, h2, h3, h4⟩ := h
  refine ⟨by simp [h1], h2, .inr ?_, h4⟩
  rcases h3 with rfl | ⟨p, rfl⟩
  · exact ⟨l, rfl⟩
  · exact ⟨l ++ '\n' :: p, by simp⟩

theorem scan_spec (offset len : Nat) {ls : List Text} (hne : ls ≠ []) (hnl : ∀ l ∈ ls, '\n' ∉ l)
    (prev skipped : Nat) (hprev : prev ≤ offset) :
    (∀ s, CodeSpan.scan offset len ls prev skipped = .ok s →
      ∃ pre post, IsLine (joinNl ls) pre s.line post ∧ pre.length = offset - prev - s.lineOffset ∧
        s.lineOffset ≤ offset - prev ∧
        s.lineOffset < s.line.length ∧ s.lineOffset + s.len ≤ s.line.length ∧ s.len = len ∧
        s.fileOffset = offset ∧ s.lineNumber = skipped + 1 + pre.count '\n') ∧
    ((∃ s, CodeSpan.scan offset len ls prev skipped = .ok s) ↔
      offset - prev < (joinNl ls).length ∧ offset - prev + len ≤ (joinNl ls).length ∧
      (joinNl ls)[offset - prev]? ≠ some '\n' ∧
      '\n' ∉ ((joinNl ls).drop (offset - prev)).take len) := by
  induction ls generalizing prev skipped with
  | nil => exact absurd rfl hne
  | cons line rest ih =>
    have hline := hnl line (by simp)
    simp only [CodeSpan.scan]
    -- what the whole text looks like
    have htext : ∃ tail, joinNl (line :: rest) = line ++ tail ∧
        (rest = [] ∧ tail = [] ∨ rest ≠ [] ∧ tail = '\n' :: joinNl rest) := by
      cases rest with
      | nil => exact ⟨[], by simp [joinNl], .inl ⟨rfl, rfl⟩⟩
      | cons a b => exact ⟨_, joinNl_cons (by simp), .inr ⟨by simp, rfl⟩⟩
    obtain ⟨tail, ht, htail⟩ := htext
    by_cases h1 : prev + line.length = offset
    · rw [if_pos h1]
      refine ⟨(by intro s hs; cases hs), ?_⟩
      constructor
      · rintro ⟨s, hs⟩; cases hs
      · rintro ⟨h2, _, h4, _⟩
        exfalso
        have he : offset - prev = line.length := by omega
        rw [he, ht] at h2 h4
        rcases htail with ⟨_, rfl⟩ | ⟨_, rfl⟩
        · simp at h2
        · simp at h4
    · rw [if_neg h1]
      by_cases h2 : prev + line.length < offset
      · rw [if_pos h2]
        rcases htail with ⟨hr, rfl⟩ | ⟨hr, rfl⟩
        · subst hr
          simp only [CodeSpan.scan]
          refine ⟨(by intro s hs; cases hs), ?_⟩
          constructor
          · rintro ⟨s, hs⟩; cases hs
          · rintro ⟨h3, _⟩
            rw [ht] at h3
            simp at h3
            omega
        · have ih' := ih hr (fun l hl => hnl l (by simp [hl])) (prev + (line.length + 1)) (skipped + 1)
            (by omega)
          have ho : offset - prev = line.length + 1 + (offset - (prev + (line.length + 1))) := by omega
          generalize hk : offset - (prev + (line.length + 1)) = k at ih' ho
          constructor
          · intro s hs
            obtain ⟨pre, post, a1, a2, a3, a4, a5, a6, a7, a8⟩ := ih'.1 s hs
            refine ⟨line ++ '\n' :: pre, post, ?_, ?_, ?_, a4, a5, a6, a7, ?_⟩
            · rw [ht]; exact isLine_shift a1
            · simp only [List.length_append, List.length_cons]; omega
            · omega
            · rw [a8, List.count_append, List.count_cons, List.count_eq_zero_of_not_mem hline]
              simp only [beq_self_eq_true, if_true]; omega
          · rw [ih'.2, ht, ho]
            have e1 : (line ++ '\n' :: joinNl rest).length = line.length + 1 + (joinNl rest).length := by
              simp; omega
            have e2 : (line ++ '\n' :: joinNl rest)[line.length + 1 + k]? = (joinNl rest)[k]? := by
              rw [List.getElem?_append_right (by omega)]
              have : line.length + 1 + k - line.length = k + 1 := by omega
              rw [this]; simp
            have e3 : (line ++ '\n' :: joinNl rest).drop (line.length + 1 + k) =
                (joinNl rest).drop k := by
              rw [List.drop_append]
              have : line.length + 1 + k - line.length = k + 1 := by omega
              rw [this, List.drop_eq_nil_of_le (by omega)]; simp
            rw [e1, e2, e3]
            constructor
            · rintro ⟨b1, b2, b3, b4⟩; exact ⟨by omega, by omega, b3, b4⟩
            · rintro ⟨b1, b2, b3, b4⟩; exact ⟨by omega, by omega, b3, b4⟩
      · rw [if_neg h2]
        have hlt : offset - prev < line.length := by omega
        have hget : (joinNl (line :: rest))[offset - prev]? ≠ some '\n' := by
          rw [ht, List.getElem?_append_left hlt, List.getElem?_eq_getElem hlt]
          intro h
          simp only [Option.some.injEq] at h
          exact hline (h ▸ List.getElem_mem hlt)
        by_cases h3 : offset - prev + len > line.length
        · rw [if_pos h3]
          refine ⟨(by intro s hs; cases hs), ?_⟩
          constructor
          · rintro ⟨s, hs⟩; cases hs
          · rintro ⟨_, b2, _, b4⟩
            exfalso
            rw [ht] at b2 b4
            rcases htail with ⟨_, rfl⟩ | ⟨_, rfl⟩
            · simp at b2; omega
            · apply b4
              rw [List.drop_append_of_le_length (by omega), List.take_append]
              have : 0 < len - (line.drop (offset - prev)).length := by
                simp only [List.length_drop]; omega
              obtain ⟨n, hn⟩ : ∃ n, len - (line.drop (offset - prev)).length = n + 1 :=
                ⟨_, (Nat.succ_pred_eq_of_pos this).symm⟩
              rw [hn]; simp
        · rw [if_neg h3]
          constructor
          · intro s hs
            simp only [Except.ok.injEq] at hs
            subst hs
            refine ⟨[], tail, ⟨by simpa using ht, hline, .inl rfl, ?_⟩, by simp, by simp, hlt, (by
              show offset - prev + len ≤ line.length; omega),
              rfl, rfl, by simp⟩
            rcases htail with ⟨_, h⟩ | ⟨_, h⟩
            · exact .inl h
            · exact .inr ⟨_, h⟩
          · constructor
            · intro _
              rw [ht] at hget ⊢
              have hl : (line ++ tail).length = line.length + tail.length := List.length_append
              refine ⟨by omega, by omega, hget, ?_⟩
              rw [List.drop_append_of_le_length (by omega), List.take_append]
              have : len - (line.drop (offset - prev)).length = 0 := by
                simp only [List.length_drop]; omega
              rw [this, List.take_zero, List.append_nil]
              intro hm
              exact hline (List.drop_subset _ _ (List.take_subset _ _ hm))
            · intro _; exact ⟨_, rfl⟩

/-! ## Properties (C39) -/

/-- A span that was built is on one line of the file: it has the number of that line, its content and
the offset in it, and denotes the `len` characters at the given offset of the file. -/
theorem span_correct {content : Text} {offset len : Nat} {s : CodeSpan}
    (h : CodeSpan.fromStr content offset len = .ok s) :
    ∃ pre post, content = pre ++ s.line ++ post ∧ '\n' ∉ s.line ∧
      (pre = [] ∨ ∃ p, pre = p ++ ['\n']) ∧ (post = [] ∨ ∃ p, post = '\n' :: p) ∧
      offset = pre.length + s.lineOffset ∧ s.lineNumber = 1 + pre.count '\n' ∧
      s.fileOffset = offset ∧ s.asStr = (content.drop offset).take len ∧ s.asStr.length = len := by
  have hs := scan_spec offset len (splitNl_ne_nil content) (splitNl_no_nl content) 0 0 (by omega)
  rw [joinNl_splitNl] at hs
  obtain ⟨pre, post, ⟨a1, a2, a3, a4⟩, b1, b2, b3, b4, b5, b6, b7⟩ := hs.1 s h
  have hoff : offset = pre.length + s.lineOffset := by omega
  refine ⟨pre, post, a1, a2, a3, a4, hoff, by omega, b6, ?_, ?_⟩
  · unfold CodeSpan.asStr
    have hd : content.drop offset = s.line.drop s.lineOffset ++ post := by
      rw [a1, hoff, List.append_assoc, List.drop_append, List.drop_eq_nil_of_le (by omega),
        Nat.add_sub_cancel_left, List.nil_append, List.drop_append_of_le_length (by omega)]
    rw [hd, b5, List.take_append_of_le_length (by simp only [List.length_drop]; omega)]
  · unfold CodeSpan.asStr
    rw [List.length_take, List.length_drop]; omega

/-- A span is built exactly when its characters are in the file, on one line, and it does not start
at the end of a line. -/
theorem span_ok_iff (content : Text) (offset len : Nat) :
    (∃ s, CodeSpan.fromStr content offset len = .ok s) ↔
      offset < content.length ∧ offset + len ≤ content.length ∧ content[offset]? ≠ some '\n' ∧
      '\n' ∉ (content.drop offset).take len := by
  have hs := scan_spec offset len (splitNl_ne_nil content) (splitNl_no_nl content) 0 0 (by omega)
  rw [joinNl_splitNl] at hs
  exact hs.2

/-- Non-vacuity: a span of the second line, and the failures. -/
example : (CodeSpan.fromStr "ab\nnope\n".toList 4 2).toOption =
      some ⟨2, 4, 1, 2, "nope".toList⟩ ∧
    (CodeSpan.fromStr "ab\nnope\n".toList 4 2).toOption.map CodeSpan.asStr = some "op".toList ∧
    (CodeSpan.fromStr "ab\nnope\n".toList 2 0).toOption = none ∧
    (CodeSpan.fromStr "ab\nnope\n".toList 1 3).toOption = none ∧
    (CodeSpan.fromStr "ab\nnope\n".toList 8 0).toOption = none := by decide +kernel

end TM.Text
