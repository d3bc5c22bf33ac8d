import Verif.Solution.Extract
/-!
# Lemmas on the extraction of the checks
-/
namespace TM.Solution
open TM.Text

/-! ## Specification -/

/-- At position `i` of the line there is `@check-NAME:` followed by `rest`; NAME is one of the names
known to the reader of the solutions. -/
def CheckAt (line : Text) (i : Nat) (c : Check) (rest : Text) : Prop :=
  line.drop i = marker ++ (c.asStr.toList ++ ':' :: rest) ∧ c ≠ .wallTimeLimit

/-- A check followed by another `@check-` on the same line. -/
def Ambiguous (line : Text) : Prop :=
  ∃ i c rest, CheckAt line i c rest ∧ ∃ j, i < j ∧ marker <+: line.drop j

/-- `w` is one of the words of the text. -/
def Word (w t : Text) : Prop :=
  w ≠ [] ∧ (∀ c ∈ w, isWs c = false) ∧ ∃ a b, t = a ++ w ++ b ∧
    (∀ c, a.getLast? = some c → isWs c = true) ∧ (∀ c, b.head? = some c → isWs c = true)

/-! ## Lemmas -/

theorem lastMarker_none {t : Text} : lastMarker t = none ↔ ∀ j, ¬ marker <+: t.drop j := by
  induction t with
  | nil => simp [lastMarker, marker]
  | cons c cs ih =>
    simp only [lastMarker]
    cases h : lastMarker cs with
    | some i =>
      simp only [reduceCtorEq, false_iff]
      rw [h] at ih
      simp only [reduceCtorEq, false_iff, Classical.not_forall, Classical.not_not] at ih
      obtain ⟨j, hj⟩ := ih
      intro hall
      exact hall (j + 1) (by simpa using hj)
    | none =>
      have hn := ih.1 h
      by_cases hp : marker.isPrefixOf (c :: cs) = true
      · rw [if_pos hp]
        simp only [reduceCtorEq, false_iff]
        intro hall
        exact hall 0 (by simpa [List.isPrefixOf_iff_prefix] using hp)
      · rw [if_neg hp]
        simp only [true_iff]
        intro j
        cases j with
        | zero => rw [List.isPrefixOf_iff_prefix] at hp; simpa using hp
        | succ j => simpa using hn j

theorem lastMarker_some {t : Text} {i : Nat} (h : lastMarker t = some i) :
    marker <+: t.drop i ∧ (∀ j, i < j → ¬ marker <+: t.drop j) ∧ i < t.length := by
  induction t generalizing i with
  | nil => simp [lastMarker] at h
  | cons c cs ih =>
    simp only [lastMarker] at h
    cases hl : lastMarker cs with
    | some k =>
      rw [hl] at h
      simp only [Option.some.injEq] at h
      subst h
      obtain ⟨h1, h2, h3⟩ := ih hl
      refine ⟨by simpa using h1, ?_, by simp; omega⟩
      intro j hj
      cases j with
      | zero => omega
      | succ j => simpa using h2 j (by omega)
    | none =>
      rw [hl] at h
      simp only at h
      split at h
      · rename_i hp
        simp only [Option.some.injEq] at h
        subst h
        refine ⟨by simpa [List.isPrefixOf_iff_prefix] using hp, ?_, by simp⟩
        intro j hj
        cases j with
        | zero => omega
        | succ j => simpa using lastMarker_none.1 hl j
      · cases h

theorem mem_regexNames {n : String} : n ∈ regexNames ↔ ∃ c : Check, c ≠ .wallTimeLimit ∧ n = c.asStr := by
  constructor
  · intro h
    simp only [regexNames, List.mem_cons, List.not_mem_nil, or_false] at h
    rcases h with h | h | h | h | h | h | h <;> subst h
    · exact ⟨.accepted, by decide, rfl⟩
    · exact ⟨.partialScore, by decide, rfl⟩
    · exact ⟨.wrongAnswer, by decide, rfl⟩
    · exact ⟨.timeLimit, by decide, rfl⟩
    · exact ⟨.memoryLimit, by decide, rfl⟩
    · exact ⟨.runtimeError, by decide, rfl⟩
    · exact ⟨.zero, by decide, rfl⟩
  · rintro ⟨c, hc, rfl⟩
    revert hc
    cases c <;> decide

theorem append_colon_inj {a b r s : Text} (ha : ':' ∉ a) (hb : ':' ∉ b)
    (h : a ++ ':' :: r = b ++ ':' :: s) : a = b ∧ r = s := by
  induction a generalizing b with
  | nil =>
    cases b with
    | nil => simpa using h
    | cons x b => simp at h; simp [← h.1] at hb
  | cons x a ih =>
    cases b with
    | nil => simp at h; simp [h.1] at ha
    | cons y b =>
      simp only [List.cons_append, List.cons.injEq] at h
      simp only [List.mem_cons, not_or] at ha hb
      obtain ⟨h1, h2⟩ := ih ha.2 hb.2 h.2
      exact ⟨by rw [h.1, h1], h2⟩

theorem asStr_no_colon (c : Check) : ':' ∉ c.asStr.toList := by cases c <;> decide

theorem asStr_inj {c d : Check} (h : c.asStr.toList = d.asStr.toList) : c = d := by
  revert h; cases c <;> cases d <;> decide

theorem matchAt_iff {t : Text} {n : String} {r : Text} : matchAt t = some (n, r) ↔
    ∃ c : Check, c ≠ .wallTimeLimit ∧ n = c.asStr ∧ t = marker ++ (c.asStr.toList ++ ':' :: r) := by
  unfold matchAt
  constructor
  · intro h
    split at h
    · rename_i hp
      rw [List.isPrefixOf_iff_prefix] at hp
      obtain ⟨u, rfl⟩ := hp
      obtain ⟨m, hm, h⟩ := List.exists_of_findSome?_eq_some h
      split at h
      · rename_i hp2
        rw [List.isPrefixOf_iff_prefix, List.drop_left] at hp2
        obtain ⟨v, hv⟩ := hp2
        simp only [Option.some.injEq, Prod.mk.injEq] at h
        obtain ⟨rfl, rfl⟩ := h
        obtain ⟨c, hc, rfl⟩ := mem_regexNames.1 hm
        refine ⟨c, hc, rfl, ?_⟩
        congr 1
        rw [List.drop_left, ← hv]
        have hl : c.asStr.toList.length + 1 = (c.asStr.toList ++ [':']).length := by simp
        rw [hl, List.drop_left]
        simp
      · cases h
    · cases h
  · rintro ⟨c, hc, rfl, rfl⟩
    rw [if_pos (by rw [List.isPrefixOf_iff_prefix]; exact List.prefix_append _ _)]
    rw [List.drop_left]
    have hmem := mem_regexNames.2 ⟨c, hc, rfl⟩
    -- only the name of `c` matches
    have hsome : ∀ m ∈ regexNames,
        (if (m.toList ++ [':']).isPrefixOf (c.asStr.toList ++ ':' :: r) then
          some (m, (c.asStr.toList ++ ':' :: r).drop (m.toList.length + 1)) else none) =
        if m = c.asStr then some (c.asStr, r) else none := by
      intro m hm
      obtain ⟨d, hd, rfl⟩ := mem_regexNames.1 hm
      by_cases he : d.asStr = c.asStr
      · rw [he, if_pos rfl, if_pos]
        · have hl : c.asStr.toList.length + 1 = (c.asStr.toList ++ [':']).length := by simp
          have : c.asStr.toList ++ ':' :: r = (c.asStr.toList ++ [':']) ++ r := by simp
          rw [hl, this, List.drop_left]
        · rw [List.isPrefixOf_iff_prefix]; exact ⟨r, by simp⟩
      · rw [if_neg he, if_neg]
        rw [List.isPrefixOf_iff_prefix]
        rintro ⟨v, hv⟩
        have hv' : d.asStr.toList ++ ':' :: v = c.asStr.toList ++ ':' :: r := by simpa using hv
        have := (append_colon_inj (asStr_no_colon d) (asStr_no_colon c) hv').1
        exact he (by rw [asStr_inj this])
    have : ∀ l : List String, (∀ m ∈ l, m ∈ regexNames) → c.asStr ∈ l →
        l.findSome? (fun m => if (m.toList ++ [':']).isPrefixOf (c.asStr.toList ++ ':' :: r) then
          some (m, (c.asStr.toList ++ ':' :: r).drop (m.toList.length + 1)) else none) =
        some (c.asStr, r) := by
      intro l
      induction l with
      | nil => intro _ h; cases h
      | cons m l ih =>
        intro hall hmem
        rw [List.findSome?_cons, hsome m (hall m (by simp))]
        by_cases he : m = c.asStr
        · rw [if_pos he]
        · rw [if_neg he]
          refine ih (fun x hx => hall x (by simp [hx])) ?_
          rcases List.mem_cons.1 hmem with h | h
          · exact absurd h.symm he
          · exact h
    exact this regexNames (fun m hm => hm) hmem

theorem matchAt_none {t : Text} : matchAt t = none ↔ ∀ c r, ¬ CheckAt t 0 c r := by
  constructor
  · intro h c r hc
    have := (matchAt_iff (n := c.asStr)).2 ⟨c, hc.2, rfl, by simpa using hc.1⟩
    rw [h] at this
    cases this
  · intro h
    cases hm : matchAt t with
    | none => rfl
    | some x =>
      obtain ⟨n, r⟩ := x
      obtain ⟨c, hc, _, ht⟩ := matchAt_iff.1 hm
      exact absurd ⟨by simpa using ht, hc⟩ (h c r)

theorem checkAt_succ {ch : Char} {t : Text} {i : Nat} {c : Check} {r : Text} :
    CheckAt (ch :: t) (i + 1) c r ↔ CheckAt t i c r := by
  simp [CheckAt]

theorem firstCheck_none {t : Text} : firstCheck t = none ↔ ∀ i c r, ¬ CheckAt t i c r := by
  induction t with
  | nil =>
    simp only [firstCheck, true_iff]
    intro i c r h
    have := h.1
    simp [marker] at this
  | cons ch cs ih =>
    simp only [firstCheck]
    cases hm : matchAt (ch :: cs) with
    | some x =>
      obtain ⟨n, r⟩ := x
      simp only [reduceCtorEq, false_iff]
      obtain ⟨c, hc, _, ht⟩ := matchAt_iff.1 hm
      intro hall
      exact hall 0 c r ⟨by simpa using ht, hc⟩
    | none =>
      have h0 := matchAt_none.1 hm
      cases hf : firstCheck cs with
      | some x =>
        obtain ⟨i, n, r⟩ := x
        simp only [reduceCtorEq, false_iff]
        intro hall
        have : firstCheck cs = none := ih.2 (fun i c r h => hall (i + 1) c r (checkAt_succ.2 h))
        rw [this] at hf; cases hf
      | none =>
        simp only [true_iff]
        intro i c r h
        cases i with
        | zero => exact h0 c r h
        | succ i => exact ih.1 hf i c r (checkAt_succ.1 h)

theorem firstCheck_some {t : Text} {i : Nat} {n : String} {r : Text} (h : firstCheck t = some (i, n, r)) :
    (∃ c, n = c.asStr ∧ CheckAt t i c r) ∧ (∀ j, j < i → ∀ c r, ¬ CheckAt t j c r) ∧ i < t.length := by
  induction t generalizing i with
  | nil => simp [firstCheck] at h
  | cons ch cs ih =>
    simp only [firstCheck] at h
    cases hm : matchAt (ch :: cs) with
    | some x =>
      obtain ⟨n', r'⟩ := x
      rw [hm] at h
      simp only [Option.some.injEq, Prod.mk.injEq] at h
      obtain ⟨rfl, rfl, rfl⟩ := h
      obtain ⟨c, hc, hn, ht⟩ := matchAt_iff.1 hm
      exact ⟨⟨c, hn, by simpa using ht, hc⟩, by intro j hj; omega, by simp⟩
    | none =>
      rw [hm] at h
      simp only at h
      cases hf : firstCheck cs with
      | none => rw [hf] at h; cases h
      | some x =>
        obtain ⟨k, n', r'⟩ := x
        rw [hf] at h
        simp only [Option.some.injEq, Prod.mk.injEq] at h
        obtain ⟨rfl, rfl, rfl⟩ := h
        obtain ⟨⟨c, h1, h2⟩, h3, h4⟩ := ih hf
        refine ⟨⟨c, h1, checkAt_succ.2 h2⟩, ?_, by simp; omega⟩
        intro j hj
        cases j with
        | zero => exact matchAt_none.1 hm
        | succ j => intro c r hc; exact h3 j (by omega) c r (checkAt_succ.1 hc)

theorem checkAt_inj {t : Text} {i : Nat} {c d : Check} {r s : Text} (h1 : CheckAt t i c r)
    (h2 : CheckAt t i d s) : c = d ∧ r = s := by
  have h := h1.1.symm.trans h2.1
  have h := List.append_cancel_left h
  obtain ⟨h3, h4⟩ := append_colon_inj (asStr_no_colon c) (asStr_no_colon d) h
  exact ⟨asStr_inj h3, h4⟩

theorem checkAt_marker {t : Text} {i : Nat} {c : Check} {r : Text} (h : CheckAt t i c r) :
    marker <+: t.drop i := by
  rw [h.1]; exact List.prefix_append _ _

theorem check_names' (c : Check) : Check.fromStr c.asStr = some c := by cases c <;> decide

/-- The length of the lines before a position, with their newlines. -/
def widths : List Text → Nat
  | [] => 0
  | l :: ls => l.length + 1 + widths ls

theorem widths_append (a b : List Text) : widths (a ++ b) = widths a + widths b := by
  induction a with
  | nil => simp [widths]
  | cons l a ih => simp only [List.cons_append, widths, ih]; omega

theorem scan_at (done post : List Text) (line : Text) (k len prev skipped : Nat) (hk : k < line.length) :
    CodeSpan.scan (prev + widths done + k) len (done ++ line :: post) prev skipped =
      if k + len > line.length then .error .multiline
      else .ok ⟨skipped + done.length + 1, prev + widths done + k, k, len, line⟩ := by
  induction done generalizing prev skipped with
  | nil =>
    simp only [List.nil_append, CodeSpan.scan, widths, Nat.add_zero, List.length_nil]
    rw [if_neg (by omega), if_neg (by omega), Nat.add_sub_cancel_left]
  | cons l done ih =>
    simp only [List.cons_append, CodeSpan.scan, widths, List.length_cons]
    rw [if_neg (by omega), if_pos (by omega)]
    have h := ih (prev + (l.length + 1)) (skipped + 1)
    have e1 : prev + (l.length + 1) + widths done + k = prev + (l.length + 1 + widths done) + k := by omega
    have e2 : skipped + 1 + done.length + 1 = skipped + (done.length + 1) + 1 := by omega
    rw [e1, e2] at h
    exact h

/-- A span of a known line. -/
theorem fromStr_at {done post : List Text} {line : Text} (hnl : ∀ l ∈ done ++ line :: post, '\n' ∉ l)
    {k len : Nat} (hk : k < line.length) :
    CodeSpan.fromStr (joinNl (done ++ line :: post)) (widths done + k) len =
      if k + len > line.length then .error .multiline
      else .ok ⟨done.length + 1, widths done + k, k, len, line⟩ := by
  unfold CodeSpan.fromStr
  rw [splitNl_joinNl (by simp) hnl]
  have := scan_at done post line k len 0 0 hk
  simpa using this

/-- The checks of the lines. -/
def FromLines (lines : List Text) (n : Nat) (x : SolutionCheck) : Prop :=
  ∃ (k : Nat) (line : Text) (i : Nat) (rest : Text), lines[k]? = some line ∧
    CheckAt line i x.result rest ∧ x.pattern ∈ splitWs rest ∧
    x.span.lineNumber = n + k + 1 ∧ x.span.line = line ∧ x.span.lineOffset = i ∧
    x.span.len = line.length - i

theorem fromLines_cons {l : Text} {ls : List Text} {n : Nat} {x : SolutionCheck} :
    FromLines (l :: ls) n x ↔ (∃ (i : Nat) (rest : Text), CheckAt l i x.result rest ∧
      x.pattern ∈ splitWs rest ∧ x.span.lineNumber = n + 1 ∧ x.span.line = l ∧ x.span.lineOffset = i ∧
      x.span.len = l.length - i) ∨ FromLines ls (n + 1) x := by
  constructor
  · rintro ⟨k, line, i, rest, h1, h2, h3, h4, h5⟩
    cases k with
    | zero =>
      simp only [List.getElem?_cons_zero, Option.some.injEq] at h1
      subst h1
      exact .inl ⟨i, rest, h2, h3, h4, h5⟩
    | succ k =>
      simp only [List.getElem?_cons_succ] at h1
      exact .inr ⟨k, line, i, rest, h1, h2, h3, by omega, h5⟩
  · rintro (⟨i, rest, h2, h3, h4, h5⟩ | ⟨k, line, i, rest, h1, h2, h3, h4, h5⟩)
    · exact ⟨0, l, i, rest, by simp, h2, h3, h4, h5⟩
    · exact ⟨k + 1, line, i, rest, by simpa using h1, h2, h3, by omega, h5⟩

/-- The checks found in a file have the offset of the file that goes with their line. -/
def Sited (lines : List Text) (x : SolutionCheck) : Prop :=
  x.span.fileOffset = widths (lines.take (x.span.lineNumber - 1)) + x.span.lineOffset

theorem extractLoop_spec (done lines : List Text) (hnl : ∀ l ∈ done ++ lines, '\n' ∉ l) :
    ((∃ r, extractLoop (joinNl (done ++ lines)) lines (widths done) = .ok r) ↔
      ∀ line ∈ lines, ¬ Ambiguous line) ∧
    ∀ cs ds, extractLoop (joinNl (done ++ lines)) lines (widths done) = .ok (cs, ds) →
      (∀ x, x ∈ cs → FromLines lines done.length x ∧ Sited (done ++ lines) x) ∧
      (∀ x, FromLines lines done.length x → Sited (done ++ lines) x → x ∈ cs) ∧
      (∀ l, l ∈ ds ↔ l ∈ lines ∧ (∃ j, marker <+: l.drop j) ∧ ∀ i c r, ¬ CheckAt l i c r) := by
  induction lines generalizing done with
  | nil =>
    simp only [extractLoop]
    refine ⟨by simp, ?_⟩
    intro cs ds h
    simp only [Except.ok.injEq, Prod.mk.injEq] at h
    obtain ⟨rfl, rfl⟩ := h
    refine ⟨by simp, ?_, by simp⟩
    rintro x ⟨k, line, i, rest, h1, _⟩ _
    simp at h1
  | cons line lines ih =>
    have ih' := ih (done ++ [line]) (by simpa using hnl)
    have e1 : done ++ [line] ++ lines = done ++ line :: lines := by simp
    have e2 : widths (done ++ [line]) = widths done + (line.length + 1) := by
      rw [widths_append]; simp [widths]
    rw [e1, e2] at ih'
    have e3 : (done ++ [line]).length = done.length + 1 := by simp
    rw [e3] at ih'
    simp only [extractLoop]
    generalize hrec : extractLoop (joinNl (done ++ line :: lines)) lines (widths done + (line.length + 1)) = R
      at ih'
    cases hlast : lastMarker line with
    | none =>
      have hno := lastMarker_none.1 hlast
      have hnc : ∀ i c r, ¬ CheckAt line i c r := fun i c r h => hno i (checkAt_marker h)
      have hna : ¬ Ambiguous line := by rintro ⟨i, c, r, h, _⟩; exact hnc i c r h
      simp only
      refine ⟨?_, ?_⟩
      · rw [ih'.1]; simp [hna]
      · intro cs ds h
        obtain ⟨h1, h2, h3⟩ := ih'.2 cs ds h
        refine ⟨fun x hx => ⟨fromLines_cons.2 (.inr (h1 x hx).1), (h1 x hx).2⟩, ?_, ?_⟩
        · intro x hx hs
          rcases fromLines_cons.1 hx with ⟨i, r, h, _⟩ | hx
          · exact absurd h (hnc _ _ _)
          · exact h2 x hx hs
        · intro l
          rw [h3 l]
          constructor
          · rintro ⟨a, b⟩; exact ⟨by simp [a], b⟩
          · rintro ⟨a, ⟨j, hj⟩, b⟩
            rcases List.mem_cons.1 a with rfl | a
            · exact absurd hj (hno j)
            · exact ⟨a, ⟨j, hj⟩, b⟩
    | some start =>
      obtain ⟨hm1, hm2, hm3⟩ := lastMarker_some hlast
      have hoff : widths done + (line.length + 1) - 1 - line.length + start = widths done + start := by
        omega
      simp only [hoff]
      cases hfirst : firstCheck line with
      | none =>
        have hnc := firstCheck_none.1 hfirst
        have hna : ¬ Ambiguous line := by rintro ⟨i, c, r, h, _⟩; exact hnc i c r h
        simp only
        cases R with
        | error e =>
          simp only [reduceCtorEq, exists_false, false_iff, false_implies, implies_true, and_true] at ih' ⊢
          intro h
          exact ih' (fun l hl => h l (by simp [hl]))
        | ok r =>
          obtain ⟨cs', ds'⟩ := r
          simp only [Except.ok.injEq, exists_eq', true_iff] at ih' ⊢
          obtain ⟨h1, h2, h3⟩ := ih'.2 cs' ds' rfl
          refine ⟨?_, ?_⟩
          · intro l hl
            rcases List.mem_cons.1 hl with rfl | hl
            · exact hna
            · exact ih'.1 l hl
          · intro cs ds h
            simp only [Prod.mk.injEq] at h
            obtain ⟨rfl, rfl⟩ := h
            refine ⟨fun x hx => ⟨fromLines_cons.2 (.inr (h1 x hx).1), (h1 x hx).2⟩, ?_, ?_⟩
            · intro x hx hs
              rcases fromLines_cons.1 hx with ⟨i, r, h, _⟩ | hx
              · exact absurd h (hnc _ _ _)
              · exact h2 x hx hs
            · intro l
              rw [List.mem_cons, List.mem_cons, h3 l]
              constructor
              · rintro (rfl | ⟨a, b⟩)
                · exact ⟨.inl rfl, ⟨start, hm1⟩, hnc⟩
                · exact ⟨.inr a, b⟩
              · rintro ⟨rfl | a, b⟩
                · exact .inl rfl
                · exact .inr ⟨a, b⟩
      | some x =>
        obtain ⟨pos, name, rest⟩ := x
        obtain ⟨⟨c, rfl, hc⟩, hbefore, hpos⟩ := firstCheck_some hfirst
        have hle : pos ≤ start := by
          rcases Nat.lt_or_ge start pos with h | h
          · exact absurd (checkAt_marker hc) (hm2 pos h)
          · exact h
        simp only
        rw [fromStr_at hnl hm3, (check_names' c)]
        by_cases hgt : start + (line.length - pos) > line.length
        · -- another marker after the check
          rw [if_pos hgt]
          simp only [reduceCtorEq, exists_false, false_iff, false_implies, implies_true, and_true]
          intro hall
          exact hall line (by simp) ⟨pos, c, rest, hc, start, by omega, hm1⟩
        · rw [if_neg hgt]
          have hstart : start = pos := by omega
          subst hstart
          have hna : ¬ Ambiguous line := by
            rintro ⟨i, c', r', h, j, hj, hmj⟩
            rcases Nat.lt_or_ge start j with h' | h'
            · exact hm2 j h' hmj
            · exact hbefore i (by omega) c' r' h
          have huniq : ∀ i c' r', CheckAt line i c' r' → i = start ∧ c' = c ∧ r' = rest := by
            intro i c' r' h
            have hi : i = start := by
              rcases Nat.lt_trichotomy i start with h' | h' | h'
              · exact absurd h (hbefore i h' c' r')
              · exact h'
              · exact absurd (checkAt_marker h) (hm2 i h')
            subst hi
            exact ⟨rfl, checkAt_inj h hc⟩
          simp only
          cases R with
          | error e =>
            simp only [reduceCtorEq, exists_false, false_iff, false_implies, implies_true, and_true] at ih' ⊢
            intro h
            exact ih' (fun l hl => h l (by simp [hl]))
          | ok r =>
            obtain ⟨cs', ds'⟩ := r
            simp only [Except.ok.injEq, exists_eq', true_iff] at ih' ⊢
            obtain ⟨h1, h2, h3⟩ := ih'.2 cs' ds' rfl
            refine ⟨?_, ?_⟩
            · intro l hl
              rcases List.mem_cons.1 hl with rfl | hl
              · exact hna
              · exact ih'.1 l hl
            · intro cs ds h
              simp only [Prod.mk.injEq] at h
              obtain ⟨rfl, rfl⟩ := h
              refine ⟨?_, ?_, ?_⟩
              · intro x hx
                rcases List.mem_append.1 hx with hx | hx
                · obtain ⟨p, hp, rfl⟩ := List.mem_map.1 hx
                  refine ⟨fromLines_cons.2 (.inl ⟨start, rest, hc, hp, rfl, rfl, rfl, rfl⟩), ?_⟩
                  simp [Sited]
                · exact ⟨fromLines_cons.2 (.inr (h1 x hx).1), (h1 x hx).2⟩
              · intro x hx hs
                rcases fromLines_cons.1 hx with ⟨i, r, h4, h5, h6, h7, h8, h9⟩ | hx
                · obtain ⟨rfl, hcc, rfl⟩ := huniq _ _ _ h4
                  apply List.mem_append_left
                  refine List.mem_map.2 ⟨x.pattern, h5, ?_⟩
                  obtain ⟨res, pat, ⟨ln, fo, lo, le, li⟩⟩ := x
                  simp only [Sited] at h6 h7 h8 h9 hs hcc ⊢
                  subst h6 h7 h8 h9 hcc
                  simp at hs
                  simp [hs]
                · exact List.mem_append_right _ (h2 x hx hs)
              · intro l
                rw [h3 l]
                constructor
                · rintro ⟨a, b⟩; exact ⟨by simp [a], b⟩
                · rintro ⟨a, ⟨j, hj⟩, b⟩
                  rcases List.mem_cons.1 a with rfl | a
                  · exact absurd hc (b _ _ _)
                  · exact ⟨a, ⟨j, hj⟩, b⟩

end TM.Solution
