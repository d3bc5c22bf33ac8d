import Verif.Format.PropsGenGen
import Verif.Format.PropsCasesSyntax
/-!
# Numbers and names in `gen/GEN` and `gen/cases.gen` (C37, C38)
-/
namespace TM.Format

/-! ## Numbers -/

/-- The decimal digits of a number. -/
def decimal (n : Nat) : Text := (toString n).toList

/-- An integer as it is usually written. -/
def intText : Int → Text
  | .ofNat n => decimal n
  | .negSucc n => '-' :: decimal (n + 1)

theorem digitsVal_eq (s : Text) : digitsVal s = Nat.ofDigitChars 10 s 0 := by
  rw [Nat.ofDigitChars_eq_foldl]
  unfold digitsVal
  congr 1
  funext a c
  omega

theorem decimal_eq (n : Nat) : decimal n = Nat.toDigits 10 n := by
  unfold decimal
  rw [Nat.toString_eq_ofList_toDigits, String.toList_ofList]

/-- The value of the digits of a number is the number. -/
theorem digitsVal_decimal (n : Nat) : digitsVal (decimal n) = n := by
  rw [digitsVal_eq, decimal_eq, Nat.ofDigitChars_ten_toDigits]

theorem decimal_digits {n : Nat} {c : Char} (h : c ∈ decimal n) : isDigit c = true := by
  rw [decimal_eq] at h
  have := Nat.isDigit_of_mem_toDigits (by decide) (by decide) h
  simp only [Char.isDigit, Bool.and_eq_true, decide_eq_true_eq, ge_iff_le] at this
  simp only [isDigit, Bool.and_eq_true, decide_eq_true_eq]
  exact ⟨UInt32.le_iff_toNat_le.1 this.1, UInt32.le_iff_toNat_le.1 this.2⟩

theorem decimal_ne_nil (n : Nat) : decimal n ≠ [] := by
  rw [decimal_eq]; exact Nat.toDigits_ne_nil

theorem decimal_head (n : Nat) : ∃ c r, decimal n = c :: r ∧ c ≠ '-' ∧ c ≠ '+' := by
  cases h : decimal n with
  | nil => exact absurd h (decimal_ne_nil n)
  | cons c r =>
    have := isDigit_ne (decimal_digits (n := n) (c := c) (by rw [h]; simp))
    exact ⟨c, r, rfl, this.1, this.2.1⟩

theorem parseI64_iff {s : Text} {k : Int} : parseI64 s = some k ↔
    -2 ^ 63 ≤ k ∧ k < 2 ^ 63 ∧ ∃ d, d ≠ [] ∧ (∀ c ∈ d, isDigit c = true) ∧
      ((s = '-' :: d ∧ k = -(digitsVal d : Int)) ∨
       ((s = d ∨ s = '+' :: d) ∧ k = (digitsVal d : Int))) := by
  unfold parseI64
  constructor
  · intro h
    dsimp only at h
    split at h
    · rename_i d
      by_cases hd : d ≠ [] ∧ d.all isDigit = true
      · rw [if_pos hd] at h
        simp only at h
        split at h
        · cases h
          exact ⟨by omega, by omega, d, hd.1, List.all_eq_true.1 hd.2, .inl ⟨rfl, rfl⟩⟩
        · cases h
      · rw [if_neg hd] at h; cases h
    · rename_i d
      by_cases hd : d ≠ [] ∧ d.all isDigit = true
      · rw [if_pos hd] at h
        simp only at h
        split at h
        · cases h
          exact ⟨by omega, by omega, d, hd.1, List.all_eq_true.1 hd.2, .inr ⟨.inr rfl, rfl⟩⟩
        · cases h
      · rw [if_neg hd] at h; cases h
    · by_cases hd : s ≠ [] ∧ s.all isDigit = true
      · rw [if_pos hd] at h
        simp only at h
        split at h
        · cases h
          exact ⟨by omega, by omega, s, hd.1, List.all_eq_true.1 hd.2, .inr ⟨.inl rfl, rfl⟩⟩
        · cases h
      · rw [if_neg hd] at h; cases h
  · rintro ⟨h1, h2, d, h3, h4, h5⟩
    have hd : d ≠ [] ∧ d.all isDigit = true := ⟨h3, List.all_eq_true.2 h4⟩
    rcases h5 with ⟨rfl, rfl⟩ | ⟨rfl | rfl, rfl⟩
    · simp only
      rw [if_pos hd]
      simp only
      rw [if_pos (by omega)]
    · cases s with
      | nil => exact absurd rfl h3
      | cons c r =>
        have := isDigit_ne (h4 c (by simp))
        split
        · rename_i hh; cases hh; exact absurd rfl this.1
        · rename_i hh; cases hh; exact absurd rfl this.2.1
        · dsimp only
          rw [if_pos hd]
          dsimp only
          rw [if_pos (by omega)]
    · simp only
      rw [if_pos hd]
      simp only
      rw [if_pos (by omega)]

/-- **C38, integers.**  An integer of 64 bits, written as usual, is read back, also with a `+` sign and
with zeros in front. -/
theorem int_read {k : Int} (h1 : -2 ^ 63 ≤ k) (h2 : k < 2 ^ 63) : parseI64 (intText k) = some k := by
  refine parseI64_iff.2 ⟨h1, h2, ?_⟩
  cases k with
  | ofNat n =>
    exact ⟨decimal n, decimal_ne_nil n, fun c hc => decimal_digits hc,
      .inr ⟨.inl rfl, by rw [digitsVal_decimal]; rfl⟩⟩
  | negSucc n =>
    exact ⟨decimal (n + 1), decimal_ne_nil _, fun c hc => decimal_digits hc,
      .inl ⟨rfl, by rw [digitsVal_decimal]; rfl⟩⟩

/-- The number written by some digits is found again: a text of digits is the decimal writing of its
value, up to zeros in front. -/
theorem digitsVal_cons_zero (s : Text) : digitsVal ('0' :: s) = digitsVal s := rfl

/-- **C38, integers.**  A number out of the range, or with anything else in it, is not read. -/
theorem int_refused {s : Text} (h : ∀ d, d ≠ [] → (∀ c ∈ d, isDigit c = true) →
    s ≠ d ∧ s ≠ '+' :: d ∧ s ≠ '-' :: d) : parseI64 s = none := by
  cases hp : parseI64 s with
  | none => rfl
  | some k =>
    obtain ⟨-, -, d, h1, h2, h3⟩ := parseI64_iff.1 hp
    obtain ⟨h4, h5, h6⟩ := h d h1 h2
    grind

theorem int_out_of_range {k : Int} (h : k < -2 ^ 63 ∨ 2 ^ 63 ≤ k) : parseI64 (intText k) = none := by
  cases hp : parseI64 (intText k) with
  | none => rfl
  | some k' =>
    exfalso
    obtain ⟨h1, h2, d, h3, h4, h5⟩ := parseI64_iff.1 hp
    have : k' = k := by
      cases k with
      | ofNat n =>
        obtain ⟨c, r, h6, h7, h8⟩ := decimal_head n
        simp only [intText] at h5
        rcases h5 with ⟨h5, -⟩ | ⟨h5 | h5, h9⟩
        · rw [h6] at h5; cases h5; exact absurd rfl h7
        · rw [h9, ← h5, digitsVal_decimal]; rfl
        · rw [h6] at h5; cases h5; exact absurd rfl h8
      | negSucc n =>
        simp only [intText] at h5
        rcases h5 with ⟨h5, h9⟩ | ⟨h5 | h5, h9⟩
        · cases h5; rw [h9, digitsVal_decimal]; rfl
        · exact absurd rfl (isDigit_ne (h4 '-' (by rw [← h5]; simp))).1
        · cases h5
    subst this
    omega

/-- **C38, scores.**  A score is the number written: the integer part plus the decimals, divided by the
power of ten for their number. -/
theorem score_read (i : Nat) {f : Text} (hf : ∀ c ∈ f, isDigit c = true) :
    floatVal (decimal i) = (i : Rat) ∧
    floatVal (decimal i ++ '.' :: f) = (i : Rat) + (digitsVal f : Rat) / ((10 ^ f.length : Nat) : Rat) := by
  have dg : ∀ c ∈ decimal i, isDigit c = true := fun c hc => decimal_digits hc
  have s1 : Stop isDigit [] := by intro c r h; cases h
  have s2 : Stop isDigit ('.' :: f) := by
    intro c r h
    cases h
    decide
  have a1 := takeWhile_app (t := []) dg s1
  have b1 := dropWhile_app (t := []) dg s1
  have a2 := takeWhile_app dg s2
  have b2 := dropWhile_app dg s2
  rw [List.append_nil] at a1 b1
  unfold floatVal
  simp only [a1, b1, a2, b2, digitsVal_decimal]
  exact ⟨trivial, trivial⟩

/-- The decimals `025` are worth 25 thousandths. -/
example : floatVal "12.025".toList = 12 + 25 / 1000 ∧ parseI64 "-0042".toList = some (-42) ∧
    parseI64 "-9223372036854775808".toList = some (-9223372036854775808) ∧
    parseI64 "9223372036854775808".toList = none ∧ parseI64 "+7".toList = some 7 ∧
    parseI64 "1x".toList = none ∧ parseI64 "".toList = none := by decide +kernel

/-- The tokens of the grammar are decimal numbers: a positive score of `#ST:` is read exactly. -/
theorem gen_score_read {env : GenEnv} {lines pre post : List GenLine} {es : List Entry} {n : Nat}
    (h : interpGen env lines = .ok es) (e : lines = pre ++ .subtask (decimal n) :: post) :
    ∃ s, .subtask s ∈ es ∧ s.maxScore = (n : Rat) := by
  obtain ⟨s, h1, -, h2, -⟩ := gen_subtask h e
  rw [digitsVal_decimal] at h2
  exact ⟨s, h1, h2⟩

/-! ## Names -/

/-- **C37, names.**  A name is accepted exactly when, trimmed and normalised, it is not empty, does not
start with a dash, and has only characters of the allowed categories, no asterisk and no question
mark. -/
theorem name_accepted {env : GenEnv} {n c : Text} : cleanupName env n = some c ↔
    c = env.nfkc (trimWith env.isSpace n) ∧ c ≠ [] ∧ c.head? ≠ some '-' ∧
      ∀ x ∈ c, x ≠ '*' ∧ x ≠ '?' ∧ env.okCategory x = true := by
  unfold cleanupName
  simp only
  constructor
  · intro h
    split at h
    · cases h
    · rename_i c' r he
      split at h
      · cases h
      · rename_i hd
        split at h
        · cases h
        · rename_i ha
          cases h
          refine ⟨rfl, by rw [he]; simp, by rw [he]; simpa using hd, ?_⟩
          intro x hx
          simp only [List.any_eq_true, not_exists, not_and, Bool.not_eq_true] at ha
          have := ha x hx
          simpa [and_assoc] using this
  · rintro ⟨rfl, h1, h2, h3⟩
    split
    · rename_i he; exact absurd he h1
    · rename_i c' r he
      rw [if_neg (by rw [he] at h2; simpa using h2), if_neg]
      simp only [List.any_eq_true, not_exists, not_and, Bool.not_eq_true]
      intro x hx
      have := h3 x hx
      simpa [and_assoc] using this

/-- **C37, names.**  In an accepted file the names of the subtasks are of this kind, so that `*` in a
dependency and the patterns of the checks are never the name of a subtask, and they are distinct. -/
theorem gen_names_clean {env : GenEnv} {lines pre post : List GenLine} {es : List Entry} {score n : Text}
    (h : interpGen env lines = .ok es) (e : lines = pre ++ .subtask score :: post)
    (hn : GenLine.subtaskName n ∈ annots post) :
    ∃ s c, .subtask s ∈ es ∧ s.name = some c ∧ c = env.nfkc (trimWith env.isSpace n) ∧ c ≠ [] ∧
      c.head? ≠ some '-' ∧ '*' ∉ c ∧ '?' ∉ c ∧ ∀ x ∈ c, env.okCategory x = true := by
  obtain ⟨s, h1, -, -, -, -, h2, -⟩ := gen_subtask h e
  obtain ⟨h3, h4⟩ := h2 n hn
  cases hc : cleanupName env n with
  | none => rw [hc] at h3; rw [h3] at h4; cases h4
  | some c =>
    obtain ⟨h5, h6, h7, h8⟩ := name_accepted.1 hc
    exact ⟨s, c, h1, by rw [h3, hc], h5, h6, h7, fun hh => (h8 _ hh).1 rfl, fun hh => (h8 _ hh).2.1 rfl,
      fun x hx => (h8 x hx).2.2⟩

/-- Names that are refused: starting with a dash, with an asterisk, with a question mark, empty. -/
example : ["-a", "a*", "a?b", " ", " a_1 ", "a-b"].map (fun s => cleanupName exampleEnv s.toList) =
    [none, none, none, none, some "a_1".toList, none] := by decide +kernel

end TM.Format
