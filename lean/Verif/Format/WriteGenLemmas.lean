import Verif.Format.WriteGenSpec
import Verif.Format.PropsGenSyntax
import Verif.Format.PropsCasesSyntax
/-!
# Lemmas for C103
-/
namespace TM.Format
open TM AMap

/-! ## The text -/

/-- Some lines of text and what each one says. -/
inductive LinesAre : List Text → List GenLine → Prop
  | nil : LinesAre [] []
  | cons {t : Text} {l : GenLine} {ts : List Text} {ls : List GenLine} : GenLineIs t l → LinesAre ts ls →
      LinesAre (t :: ts) (l :: ls)

theorem LinesAre.append {ts ts' : List Text} {ls ls' : List GenLine} (h : LinesAre ts ls) (h' : LinesAre ts' ls') :
    LinesAre (ts ++ ts') (ls ++ ls') := by
  induction h with
  | nil => exact h'
  | cons h1 _ ih => exact .cons h1 ih

theorem fileIs_lines {ts : List Text} {ls : List GenLine} (h : LinesAre ts ls) :
    FileIs GenLineIs (ts.flatMap (· ++ ['\n'])) (ls ++ [.empty]) := by
  induction h with
  | nil => exact .last (GenLineIs.empty (a := []) (t := []) (by intro c hc; cases hc) (.inl rfl) (fun _ => rfl))
  | cons h1 _ ih =>
    simp only [List.flatMap_cons, List.append_assoc, List.cons_append]
    exact .line h1 (.inl rfl) ih

theorem emptyLine : GenLineIs [] .empty :=
  GenLineIs.empty (a := []) (t := []) (by intro c hc; cases hc) (.inl rfl) (fun _ => rfl)

theorem noteLine {t : Text} (h : OneLine t) : GenLineIs (note t) .comment := by
  refine .comment (u := ' ' :: t) ?_ ?_
  · intro c hc
    rcases List.mem_cons.1 hc with rfl | hc
    · exact ⟨by decide, by decide⟩
    · exact h c hc
  · intro c hc
    simp at hc
    exact .inl hc.symm

theorem notes {α : Type} {f : α → Text} : ∀ {l : List α}, (∀ x ∈ l, OneLine (f x)) →
    LinesAre (l.map (fun x => note (f x))) (l.map (fun _ => .comment))
  | [], _ => .nil
  | _ :: _, h => .cons (noteLine (h _ (by simp))) (notes (fun x hx => h x (List.mem_cons_of_mem _ hx)))

theorem OneLine.app {a b : Text} (ha : OneLine a) (hb : OneLine b) : OneLine (a ++ b) := by
  intro c hc
  rcases List.mem_append.1 hc with h | h
  · exact ha c h
  · exact hb c h

theorem natText_digit {n : Nat} : ∀ c ∈ natText n, c.isDigit = true := fun c hc => by
  unfold natText at hc
  exact Nat.isDigit_of_mem_toDigits (b := 10) (by decide) (by decide) hc

theorem natText_digits (n : Nat) : Digits (natText n) := by
  refine ⟨Nat.toDigits_ne_nil, fun c hc => ?_⟩
  have := natText_digit c hc
  simp only [Char.isDigit, Bool.and_eq_true, decide_eq_true_eq, ge_iff_le] at this
  exact ⟨UInt32.le_iff_toNat_le.1 this.1, UInt32.le_iff_toNat_le.1 this.2⟩

theorem natText_oneLine (n : Nat) : OneLine (natText n) := by
  intro c hc
  have := (natText_digits n).2 c hc
  constructor <;> (rintro rfl; revert this; decide)

theorem digitsVal_natText (n : Nat) : digitsVal (natText n) = n := by
  have h := Nat.ofDigitChars_toDigits (b := 10) (n := n) (by decide) (by decide)
  unfold Nat.ofDigitChars at h
  unfold digitsVal natText
  refine Eq.trans ?_ h
  congr 1
  funext acc c
  rw [Nat.mul_comm]

theorem OneLine.of_word {w : Text} (h : Word w) : OneLine w := fun c hc => ⟨(h.2 c hc).2.2.2.1, (h.2 c hc).2.2.2.2⟩

/-- What follows the first word of a command, whatever it is. -/
theorem words_any : ∀ (k : Nat) (u : Text), u.length ≤ k → OneLine u →
    (∀ c, u.head? = some c → c = ' ' ∨ c = '\t' ∨ c = '#') →
    ∃ ws m b t, u = m ++ (b ++ t) ∧ Words ws m ∧ Blank b ∧ Tail t := by
  intro k
  induction k with
  | zero =>
    intro u hk _ _
    have : u = [] := List.length_eq_zero_iff.1 (by omega)
    subst this
    exact ⟨[], [], [], [], rfl, .nil, (by intro c hc; cases hc), .inl rfl⟩
  | succ k ih =>
    intro u hk ho hh
    obtain ⟨a, hu, ha⟩ := skipWs_some u
    have hst : Stop isWs (skipWs u) := dropWhile_stop _ _
    generalize skipWs u = r at hu hst
    cases r with
    | nil => exact ⟨[], [], a, [], by simpa using hu, .nil, ha, .inl rfl⟩
    | cons c v =>
      by_cases hc : c = '#'
      · subst hc
        refine ⟨[], [], a, '#' :: v, by simpa using hu, .nil, ha, .inr ⟨v, rfl, fun x hx => ho x ?_⟩⟩
        rw [hu]; simp [hx]
      · have hane : a ≠ [] := by
          rintro rfl
          rw [hu] at hh
          rcases hh c rfl with rfl | rfl | rfl
          · exact absurd hst (by simp [Stop, isWs])
          · exact absurd hst (by simp [Stop, isWs])
          · exact hc rfl
        have hcw : isWord c = true := by
          have h1 := ho c (by rw [hu]; simp)
          have h2 : isWs c = false := by simpa [Stop] using hst
          rw [isWord_iff]
          simp only [isWs, Bool.or_eq_false_iff, beq_eq_false_iff_ne] at h2
          exact ⟨h2.1, h2.2, hc, h1.1, h1.2⟩
        have hsplit := List.takeWhile_append_dropWhile (p := isWord) (l := c :: v)
        have hr' : Stop isWord ((c :: v).dropWhile isWord) := dropWhile_stop _ _
        have hw : Word ((c :: v).takeWhile isWord) := word_iff.2 ⟨by simp [hcw], takeWhile_all'⟩
        have hsub : ∀ x ∈ (c :: v).dropWhile isWord, x ∈ u := by
          intro x hx
          rw [hu, ← hsplit]
          exact List.mem_append_right _ (List.mem_append_right _ hx)
        have hlen : ((c :: v).dropWhile isWord).length ≤ k := by
          have h1 : ((c :: v).dropWhile isWord).length ≤ v.length := by
            rw [List.dropWhile_cons, if_pos hcw]
            exact (List.dropWhile_sublist _).length_le
          have h2 : u.length = a.length + (v.length + 1) := by rw [hu]; simp
          omega
        obtain ⟨ws, m, b, t, e, h1, h2, h3⟩ := ih _ hlen (fun x hx => ho x (hsub x hx)) (by
          intro x hx
          have hxu := ho x (hsub x (List.mem_of_mem_head? hx))
          have hns : isWord x = false := by
            cases hd : (c :: v).dropWhile isWord with
            | nil => rw [hd] at hx; cases hx
            | cons y ys =>
              rw [hd] at hx hr'
              simp at hx
              subst hx
              simpa [Stop] using hr'
          by_cases e1 : x = ' '
          · exact .inl e1
          by_cases e2 : x = '\t'
          · exact .inr (.inl e2)
          by_cases e3 : x = '#'
          · exact .inr (.inr e3)
          have := isWord_iff.2 ⟨e1, e2, e3, hxu.1, hxu.2⟩
          rw [hns] at this; cases this)
        refine ⟨_ :: ws, a ++ ((c :: v).takeWhile isWord ++ m), b, t, ?_, .cons ha hane hw h1, h2, h3⟩
        rw [List.append_assoc, List.append_assoc, ← e, hsplit, ← hu]

theorem words_join : ∀ (args : List Text), args ≠ [] → (∀ a ∈ args, Word a) → Words args (' ' :: joinSp args)
  | [], h, _ => absurd rfl h
  | [a], _, h => by
    have := Words.cons (b := [' ']) (by intro c hc; simp at hc; exact .inl hc) (by simp) (h a (by simp)) .nil
    simpa [joinSp] using this
  | a :: b :: as, _, h => by
    have ih := words_join (b :: as) (by simp) (fun x hx => h x (List.mem_cons_of_mem _ hx))
    exact Words.cons (b := [' ']) (by intro c hc; simp at hc; exact .inl hc) (by simp) (h a (by simp)) ih

theorem joinSp_oneLine : ∀ {args : List Text}, (∀ a ∈ args, OneLine a) → OneLine (joinSp args)
  | [], _ => by intro c hc; cases hc
  | [a], h => h a (by simp)
  | a :: b :: as, h => by
    have ih := joinSp_oneLine (args := b :: as) (fun x hx => h x (List.mem_cons_of_mem _ hx))
    refine OneLine.app (h a (by simp)) ?_
    intro c hc
    rcases List.mem_cons.1 hc with rfl | hc
    · exact ⟨by decide, by decide⟩
    · exact ih c hc

theorem blankSp : Blank [' '] := by intro c hc; simp at hc; exact .inl hc
theorem blankNil : Blank [] := by intro c hc; cases hc

/-- The line of a program: the words read are its name and its arguments, when these are words. -/
theorem commandLine {n : Text} {args : List Text} (hn : Word n) (ha : ∀ a ∈ args, OneLine a) :
    ∃ ws, GenLineIs (n ++ ' ' :: joinSp args) (.command (n :: ws)) ∧ ((∀ a ∈ args, Word a) → ws = args) := by
  by_cases h : ∀ a ∈ args, Word a
  · refine ⟨args, ?_, fun _ => rfl⟩
    cases args with
    | nil =>
      have := GenLineIs.command (a := []) (b := [' ']) (t := []) blankNil hn .nil blankSp (.inl rfl)
      simpa [joinSp] using this
    | cons a as =>
      have := GenLineIs.command (a := []) (b := []) (t := []) blankNil hn (words_join (a :: as) (by simp) h) blankNil (.inl rfl)
      simpa using this
  · have ho : OneLine (' ' :: joinSp args) := by
      intro c hc
      rcases List.mem_cons.1 hc with rfl | hc
      · exact ⟨by decide, by decide⟩
      · exact joinSp_oneLine ha c hc
    obtain ⟨ws, m, b, t, e, h1, h2, h3⟩ := words_any _ (' ' :: joinSp args) (Nat.le_refl _) ho (by
      intro c hc; simp at hc; exact .inl hc.symm)
    refine ⟨ws, ?_, fun hc => absurd hc h⟩
    rw [e]
    exact GenLineIs.command (a := []) blankNil hn h1 h2 h3

end TM.Format
