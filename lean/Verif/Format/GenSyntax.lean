import Verif.Format.GenSyntaxSpec

/-!
# The parser of `gen/GEN` and its syntax: lemmas
-/
namespace TM.Format

/-- The text does not start with a character of a class. -/
def Stop (p : Char → Bool) (t : Text) : Prop := ∀ c u, t = c :: u → p c = false

/-- The end of a line. -/
def Eol (r : Text) : Prop := r = [] ∨ ∃ c u, r = c :: u ∧ isNl c = true

theorem dropWhile_app {p : Char → Bool} {a t : Text} (h : ∀ c ∈ a, p c = true) (ht : Stop p t) :
    (a ++ t).dropWhile p = t := by
  induction a with
  | nil =>
    cases t with
    | nil => rfl
    | cons c u => simp [List.dropWhile_cons, ht c u rfl]
  | cons c a ih =>
    rw [List.cons_append, List.dropWhile_cons, h c (by simp)]
    exact ih (fun c hc => h c (by simp [hc]))

theorem takeWhile_app {p : Char → Bool} {a t : Text} (h : ∀ c ∈ a, p c = true) (ht : Stop p t) :
    (a ++ t).takeWhile p = a := by
  induction a with
  | nil =>
    cases t with
    | nil => rfl
    | cons c u => simp [List.takeWhile_cons, ht c u rfl]
  | cons c a ih =>
    rw [List.cons_append, List.takeWhile_cons, h c (by simp)]
    simp [ih (fun c hc => h c (by simp [hc]))]

theorem dropWhile_stop (p : Char → Bool) (t : Text) : Stop p (t.dropWhile p) := by
  induction t with
  | nil => intro c u h; cases h
  | cons x t ih =>
    intro c u h
    rw [List.dropWhile_cons] at h
    cases hx : p x with
    | true => rw [hx] at h; exact ih c u h
    | false => rw [hx] at h; cases h; exact hx

theorem takeWhile_all' {p : Char → Bool} {t : Text} : ∀ c ∈ t.takeWhile p, p c = true := by
  induction t with
  | nil => simp
  | cons x t ih =>
    intro c hc
    rw [List.takeWhile_cons] at hc
    cases hx : p x with
    | true =>
      rw [hx] at hc
      rcases List.mem_cons.1 hc with rfl | hc
      · exact hx
      · exact ih c hc
    | false => rw [hx] at hc; cases hc

/-! ## The classes of characters -/

theorem blank_iff {a : Text} : Blank a ↔ ∀ c ∈ a, isWs c = true := by simp [Blank, isWs]

theorem isWord_iff {c : Char} : isWord c = true ↔
    c ≠ ' ' ∧ c ≠ '\t' ∧ c ≠ '#' ∧ c ≠ '\n' ∧ c ≠ '\r' := by
  simp [isWord, isWs, isNl]; grind

theorem word_iff {w : Text} : Word w ↔ w ≠ [] ∧ ∀ c ∈ w, isWord c = true := by
  simp only [Word, isWord_iff]

theorem digits_iff {w : Text} : Digits w ↔ w ≠ [] ∧ ∀ c ∈ w, isDigit c = true := by
  simp [Digits, isDigit]

theorem oneLine_iff {u : Text} : OneLine u ↔ ∀ c ∈ u, (!isNl c) = true := by
  simp [OneLine, isNl]

theorem eol_stop {r : Text} (h : Eol r) : Stop isWs r ∧ Stop isWord r ∧ Stop isDigit r ∧
    Stop (fun c => !isNl c) r := by
  rcases h with rfl | ⟨c, u, rfl, hc⟩
  · refine ⟨?_, ?_, ?_, ?_⟩ <;> intro c u h <;> cases h
  · have : c = '\n' ∨ c = '\r' := by simpa [isNl] using hc
    refine ⟨?_, ?_, ?_, ?_⟩ <;> intro c' u' h <;> cases h <;> rcases this with rfl | rfl <;> decide

/-- A comment up to the end of the line, or nothing. -/
theorem tail_stop {t r : Text} (ht : Tail t) (h : Eol r) : Stop isWs (t ++ r) ∧ Stop isWord (t ++ r) ∧
    Stop isDigit (t ++ r) := by
  rcases ht with rfl | ⟨u, rfl, _⟩
  · exact ⟨(eol_stop h).1, (eol_stop h).2.1, (eol_stop h).2.2.1⟩
  · refine ⟨?_, ?_, ?_⟩ <;> intro c' u' h <;> cases h <;> decide

theorem blank_stop {b t : Text} (hb : Blank b) (ht : Stop isWord t ∧ Stop isDigit t) :
    Stop isWord (b ++ t) ∧ Stop isDigit (b ++ t) := by
  cases b with
  | nil => exact ht
  | cons c b =>
    have := hb c (by simp)
    constructor <;> intro c' u' h <;> cases h <;> rcases this with rfl | rfl <;> decide

theorem word_stop {w t : Text} (hw : Word w) : Stop isWs (w ++ t) := by
  rw [word_iff] at hw
  cases w with
  | nil => exact absurd rfl hw.1
  | cons c w =>
    intro c' u' h
    cases h
    have := isWord_iff.1 (hw.2 c (by simp))
    simp [isWs, this.1, this.2.1]

theorem digits_stop {w t : Text} (hw : Digits w) : Stop isWs (w ++ t) := by
  rw [digits_iff] at hw
  cases w with
  | nil => exact absurd rfl hw.1
  | cons c w =>
    intro c' u' h
    cases h
    have := hw.2 c (by simp)
    simp [isDigit] at this
    simp only [isWs, Bool.or_eq_false_iff, beq_eq_false_iff_ne]
    constructor <;> rintro rfl <;> revert this <;> decide

/-! ## The rules -/

theorem skipWs_app {a t : Text} (ha : Blank a) (ht : Stop isWs t) : skipWs (a ++ t) = t :=
  dropWhile_app (blank_iff.1 ha) ht

theorem word?_app {w t : Text} (hw : Word w) (ht : Stop isWord t) : word? (w ++ t) = some (w, t) := by
  have h := word_iff.1 hw
  unfold word?
  rw [takeWhile_app h.2 ht, dropWhile_app h.2 ht]
  cases w with
  | nil => exact absurd rfl h.1
  | cons c w => rfl

theorem word?_none {t : Text} (ht : Stop isWord t) : word? t = none := by
  unfold word?
  have := takeWhile_app (p := isWord) (a := []) (t := t) (by simp) ht
  rw [List.nil_append] at this
  rw [this]

theorem number?_app {w t : Text} (hw : Digits w) (ht : Stop isDigit t) :
    number? (w ++ t) = some (w, t) := by
  have h := digits_iff.1 hw
  unfold number?
  rw [takeWhile_app h.2 ht, dropWhile_app h.2 ht]
  cases w with
  | nil => exact absurd rfl h.1
  | cons c w => rfl

theorem lit?_app (p t : Text) : lit? p (p ++ t) = some t := by
  induction p with
  | nil => rfl
  | cons c p ih => simp [lit?, ih]

theorem lit?_some {p s r : Text} (h : lit? p s = some r) : s = p ++ r := by
  induction p generalizing s with
  | nil => simp only [lit?, Option.some.injEq] at h; simp [h]
  | cons c p ih =>
    cases s with
    | nil => simp [lit?] at h
    | cons d s =>
      simp only [lit?] at h
      split at h
      · rename_i he; rw [he, ih h]; rfl
      · cases h

theorem word?_some {s w r : Text} (h : word? s = some (w, r)) : s = w ++ r ∧ Word w ∧ Stop isWord r := by
  unfold word? at h
  split at h
  · cases h
  · rename_i hne
    simp only [Option.some.injEq, Prod.mk.injEq] at h
    obtain ⟨rfl, rfl⟩ := h
    refine ⟨(List.takeWhile_append_dropWhile).symm, word_iff.2 ⟨?_, takeWhile_all'⟩, dropWhile_stop _ _⟩
    intro h0; exact hne h0

theorem number?_some {s w r : Text} (h : number? s = some (w, r)) :
    s = w ++ r ∧ Digits w ∧ Stop isDigit r := by
  unfold number? at h
  split at h
  · cases h
  · rename_i hne
    simp only [Option.some.injEq, Prod.mk.injEq] at h
    obtain ⟨rfl, rfl⟩ := h
    refine ⟨(List.takeWhile_append_dropWhile).symm, digits_iff.2 ⟨?_, takeWhile_all'⟩, dropWhile_stop _ _⟩
    intro h0; exact hne h0

theorem skipWs_some (s : Text) : ∃ a, s = a ++ skipWs s ∧ Blank a :=
  ⟨s.takeWhile isWs, (List.takeWhile_append_dropWhile).symm, blank_iff.2 takeWhile_all'⟩

theorem spaces?_some {s r : Text} (h : spaces? s = some r) : ∃ a, s = a ++ r ∧ Blank a ∧ a ≠ [] := by
  unfold spaces? at h
  split at h
  · rename_i c u
    split at h
    · rename_i hc
      simp only [Option.some.injEq] at h
      subst h
      refine ⟨(c :: u).takeWhile isWs, (List.takeWhile_append_dropWhile).symm, blank_iff.2 takeWhile_all', ?_⟩
      simp [hc]
    · cases h
  · cases h

theorem spaces?_app {a t : Text} (ha : Blank a) (hne : a ≠ []) (ht : Stop isWs t) :
    spaces? (a ++ t) = some t := by
  cases a with
  | nil => exact absurd rfl hne
  | cons c a =>
    have hc := blank_iff.1 ha c (by simp)
    have : spaces? (c :: a ++ t) = some (skipWs (c :: a ++ t)) := by
      simp [spaces?, hc]
    rw [this, skipWs_app ha ht]

theorem spaces?_none {t : Text} (ht : Stop isWs t) : spaces? t = none := by
  cases t with
  | nil => rfl
  | cons c u => simp [spaces?, ht c u rfl]

theorem word?_none_iff {t : Text} (h : word? t = none) : Stop isWord t := by
  intro c u e
  subst e
  cases hc : isWord c with
  | false => rfl
  | true =>
    unfold word? at h
    rw [List.takeWhile_cons, hc] at h
    simp at h

theorem cmdWords_some (n : Nat) : ∀ {s : Text} {ws : List Text} {r : Text}, cmdWords n s = (ws, r) →
    ∃ t, s = t ++ r ∧ Words ws t := by
  induction n with
  | zero =>
    intro s ws r h
    simp only [cmdWords, Prod.mk.injEq] at h
    obtain ⟨rfl, rfl⟩ := h
    exact ⟨[], rfl, .nil⟩
  | succ n ih =>
    intro s ws r h
    simp only [cmdWords] at h
    split at h
    · cases h; exact ⟨[], rfl, .nil⟩
    · rename_i r1 h1
      split at h
      · cases h; exact ⟨[], rfl, .nil⟩
      · rename_i w r2 h2
        obtain ⟨a, rfl, ha, hne⟩ := spaces?_some h1
        obtain ⟨rfl, hw, _⟩ := word?_some h2
        cases hc : cmdWords n r2 with
        | mk ws' r' =>
          rw [hc] at h
          simp only [Prod.mk.injEq] at h
          obtain ⟨rfl, rfl⟩ := h
          obtain ⟨t, rfl, ht⟩ := ih hc
          exact ⟨a ++ (w ++ t), by simp, .cons ha hne hw ht⟩

theorem words_stop {ws : List Text} {m : Text} (h : Words ws m) {t : Text}
    (ht : Stop isWord t ∧ Stop isDigit t) : Stop isWord (m ++ t) ∧ Stop isDigit (m ++ t) := by
  cases h with
  | nil => exact ht
  | @cons b w m ws hb hne hw hws =>
    cases b with
    | nil => exact absurd rfl hne
    | cons c b =>
      have := hb c (by simp)
      constructor <;> intro c' u' h <;> cases h <;> rcases this with rfl | rfl <;> decide

theorem cmdWords_app {ws : List Text} {m : Text} (h : Words ws m) {b t : Text} (hb : Blank b)
    (ht : Stop isWs t ∧ Stop isWord t ∧ Stop isDigit t) :
    ∀ n, m.length ≤ n → cmdWords n (m ++ (b ++ t)) = (ws, b ++ t) := by
  induction h with
  | nil =>
    intro n _
    rw [List.nil_append]
    cases n with
    | zero => rfl
    | succ n =>
      simp only [cmdWords]
      by_cases hne : b = []
      · subst hne
        rw [List.nil_append, spaces?_none ht.1]
      · rw [spaces?_app hb hne ht.1]
        simp only
        rw [word?_none ht.2.1]
  | @cons b' w m ws hb' hne hw hws ih =>
    intro n hn
    have hl : 0 < b'.length := by cases b' with | nil => exact absurd rfl hne | cons _ _ => simp
    cases n with
    | zero => simp only [List.length_append] at hn; omega
    | succ n =>
      simp only [cmdWords, List.append_assoc]
      rw [spaces?_app hb' hne (word_stop hw)]
      simp only
      rw [word?_app hw (words_stop hws (blank_stop hb ht.2)).1]
      simp only
      rw [ih n (by simp only [List.length_append] at hn; omega)]

theorem depWords_app {ws : List Text} {m : Text} (h : Words ws m) {b t : Text} (hb : Blank b)
    (ht : Stop isWs t ∧ Stop isWord t ∧ Stop isDigit t) :
    ∀ n, m.length ≤ n → depWords n (m ++ (b ++ t)) = (ws, b ++ t) := by
  induction h with
  | nil =>
    intro n _
    rw [List.nil_append]
    cases n with
    | zero => rfl
    | succ n =>
      simp only [depWords]
      rw [skipWs_app hb ht.1, word?_none ht.2.1]
  | @cons b' w m ws hb' hne hw hws ih =>
    intro n hn
    have hl : 0 < b'.length := by cases b' with | nil => exact absurd rfl hne | cons _ _ => simp
    cases n with
    | zero => simp only [List.length_append] at hn; omega
    | succ n =>
      simp only [depWords, List.append_assoc]
      rw [skipWs_app hb' (word_stop hw)]
      rw [word?_app hw (words_stop hws (blank_stop hb ht.2)).1]
      simp only
      rw [ih n (by simp only [List.length_append] at hn; omega)]

/-- Words that may touch what comes before the first one. -/
theorem depWords_some (n : Nat) : ∀ {s : Text} {ws : List Text} {r : Text}, depWords n s = (ws, r) →
    (ws = [] ∧ s = r) ∨ ∃ a w ws' m, ws = w :: ws' ∧ s = a ++ (w ++ (m ++ r)) ∧ Blank a ∧ Word w ∧
      Words ws' m := by
  induction n with
  | zero =>
    intro s ws r h
    simp only [depWords, Prod.mk.injEq] at h
    obtain ⟨rfl, rfl⟩ := h
    exact .inl ⟨rfl, rfl⟩
  | succ n ih =>
    intro s ws r h
    simp only [depWords] at h
    split at h
    · cases h; exact .inl ⟨rfl, rfl⟩
    · rename_i w r2 h2
      obtain ⟨a, ha, hb⟩ := skipWs_some s
      obtain ⟨h2e, hw, hstop⟩ := word?_some h2
      rw [h2e] at ha
      cases hc : depWords n r2 with
      | mk ws' r' =>
        rw [hc] at h
        simp only [Prod.mk.injEq] at h
        obtain ⟨rfl, rfl⟩ := h
        rcases ih hc with ⟨rfl, rfl⟩ | ⟨a', w', ws'', m, rfl, rfl, ha', hw', hm⟩
        · exact .inr ⟨a, w, [], [], rfl, by simpa using ha, hb, hw, .nil⟩
        · refine .inr ⟨a, w, w' :: ws'', a' ++ (w' ++ m), rfl, by rw [ha]; simp, hb, hw, .cons ha' ?_ hw' hm⟩
          rintro rfl
          cases w' with
          | nil => exact hw'.1 rfl
          | cons c w' =>
            have := hstop c (w' ++ (m ++ r')) rfl
            rw [(word_iff.1 hw').2 c (by simp)] at this
            cases this

/-! ## Lines -/

theorem risky_app {t r : Text} (ht : Tail t) (hr : Eol r) : (riskyComment? (t ++ r)).getD (t ++ r) = r := by
  rcases ht with rfl | ⟨u, rfl, hu⟩
  · rw [List.nil_append]
    rcases hr with rfl | ⟨c, u, rfl, hc⟩
    · rfl
    · have : c = '\n' ∨ c = '\r' := by simpa [isNl] using hc
      rcases this with rfl | rfl <;> rfl
  · have : riskyComment? ('#' :: u ++ r) = some (skipLine (u ++ r)) := by
      simp [riskyComment?, lit?]
    rw [this, Option.getD_some]
    exact dropWhile_app (oneLine_iff.1 hu) (eol_stop hr).2.2.2

theorem risky_some {s r : Text} (h : (riskyComment? s).getD s = r) : ∃ t, s = t ++ r ∧ Tail t := by
  unfold riskyComment? at h
  cases hl : lit? ['#'] s with
  | none => rw [hl] at h; exact ⟨[], by simpa using h, .inl rfl⟩
  | some u =>
    rw [hl] at h
    have := lit?_some hl
    simp only [Option.map_some, Option.getD_some] at h
    refine ⟨'#' :: u.takeWhile (fun c => !isNl c), ?_, .inr ⟨_, rfl, oneLine_iff.2 takeWhile_all'⟩⟩
    rw [this, ← h]
    simp [skipLine, List.takeWhile_append_dropWhile]

end TM.Format
