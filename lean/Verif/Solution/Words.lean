import Verif.Solution.ExtractLemmas
/-!
# Words of a text
-/
namespace TM.Solution
open TM.Text

theorem takeWhile_word {w b : Text} (hw : ∀ c ∈ w, isWs c = false)
    (hb : ∀ c, b.head? = some c → isWs c = true) : (w ++ b).takeWhile (fun c => !isWs c) = w := by
  rw [List.takeWhile_append_of_pos (by intro a ha; simp [hw a ha])]
  cases b with
  | nil => simp
  | cons c b => simp [hb c (by simp)]

theorem word_ws {w cur cs : Text} {c : Char} (hcur : ∀ x ∈ cur, isWs x = false) (hc : isWs c = true) :
    Word w (cur ++ c :: cs) ↔ (w = cur ∧ cur ≠ []) ∨ Word w cs := by
  constructor
  · rintro ⟨h1, h2, a, b, h3, h4, h5⟩
    rw [List.append_assoc] at h3
    rcases List.append_eq_append_iff.1 h3 with ⟨x, hx1, hx2⟩ | ⟨x, hx1, hx2⟩
    · -- `a = cur ++ x`
      cases x with
      | nil =>
        -- `a = cur`, and the word would start with `c`
        simp only [List.append_nil] at hx1
        simp only [List.nil_append] at hx2
        cases w with
        | nil => exact absurd rfl h1
        | cons y w =>
          simp only [List.cons_append, List.cons.injEq] at hx2
          have := h2 y (by simp)
          rw [← hx2.1, hc] at this
          cases this
      | cons y x =>
        simp only [List.cons_append, List.cons.injEq] at hx2
        obtain ⟨rfl, hx2⟩ := hx2
        right
        refine ⟨h1, h2, x, b, by rw [hx2, List.append_assoc], ?_, h5⟩
        intro ch hch
        apply h4
        rw [hx1]
        rw [List.getLast?_append]
        cases x with
        | nil => simp at hch
        | cons z x => rw [List.getLast?_cons_cons, hch]; rfl
    · -- `cur = a ++ x`
      have ha : a = [] := by
        cases hl : a.getLast? with
        | none => simpa using hl
        | some ch =>
          have h6 := h4 ch hl
          have : ch ∈ cur := by rw [hx1]; exact List.mem_append_left _ (List.mem_of_getLast? hl)
          rw [hcur ch this] at h6
          cases h6
      subst ha
      simp only [List.nil_append] at hx1 h3
      subst hx1
      have e1 := takeWhile_word hcur (b := c :: cs) (by simp [hc])
      have e2 := takeWhile_word h2 h5
      rw [h3, e2] at e1
      left
      exact ⟨e1, e1 ▸ h1⟩
  · rintro (⟨rfl, h⟩ | ⟨h1, h2, a, b, h3, h4, h5⟩)
    · exact ⟨h, hcur, [], c :: cs, by simp, by simp, by simp [hc]⟩
    · refine ⟨h1, h2, cur ++ c :: a, b, by simp [h3], ?_, h5⟩
      intro ch hch
      rw [List.getLast?_append] at hch
      cases a with
      | nil => simp at hch; rw [← hch]; exact hc
      | cons z a =>
        rw [List.getLast?_cons_cons] at hch
        cases hz : (z :: a).getLast? with
        | none => simp at hz
        | some y => rw [hz] at hch; simp at hch; exact h4 ch (by rw [hz, hch])

theorem word_of_no_ws {w cur : Text} (hcur : ∀ x ∈ cur, isWs x = false) :
    Word w cur ↔ w = cur ∧ cur ≠ [] := by
  constructor
  · rintro ⟨h1, h2, a, b, h3, h4, h5⟩
    have ha : a = [] := by
      cases hl : a.getLast? with
      | none => simpa using hl
      | some ch =>
        have h6 := h4 ch hl
        rw [hcur ch (by rw [h3]; simp [List.mem_of_getLast? hl])] at h6
        cases h6
    have hb : b = [] := by
      cases b with
      | nil => rfl
      | cons ch b =>
        have h6 := h5 ch (by simp)
        rw [hcur ch (by rw [h3]; simp)] at h6
        cases h6
    subst ha hb
    simp only [List.nil_append, List.append_nil] at h3
    exact ⟨h3.symm, h3 ▸ h1⟩
  · rintro ⟨rfl, h⟩
    exact ⟨h, hcur, [], [], by simp, by simp, by simp⟩

theorem mem_splitWsAux {t cur w : Text} (hcur : ∀ x ∈ cur, isWs x = false) :
    w ∈ splitWsAux t cur ↔ Word w (cur ++ t) := by
  induction t generalizing cur with
  | nil =>
    rw [List.append_nil, word_of_no_ws hcur]
    cases cur with
    | nil => simp [splitWsAux]
    | cons c cur => simp [splitWsAux]
  | cons c cs ih =>
    simp only [splitWsAux]
    by_cases hc : isWs c = true
    · rw [if_pos hc, word_ws hcur hc]
      cases cur with
      | nil => simp [ih (cur := []) (by simp)]
      | cons x cur => simp [ih (cur := []) (by simp)]
    · rw [if_neg hc, ih (by
        intro x hx
        rcases List.mem_append.1 hx with hx | hx
        · exact hcur x hx
        · simp at hx; rw [hx]; simpa using hc)]
      simp

/-- The words given by the code are the words of the text. -/
theorem mem_splitWs {t w : Text} : w ∈ splitWs t ↔ Word w t := by
  unfold splitWs
  rw [mem_splitWsAux (by simp)]
  simp

theorem word_joinSp {names : List Text} (h : ∀ n ∈ names, n ≠ [] ∧ ∀ c ∈ n, isWs c = false) {w : Text} :
    Word w (joinSp names) ↔ w ∈ names := by
  induction names with
  | nil =>
    simp only [joinSp, List.not_mem_nil, iff_false]
    rintro ⟨h1, _, a, b, h3, _⟩
    have h4 : a ++ w = [] := (List.append_eq_nil_iff.1 h3.symm).1
    exact h1 (List.append_eq_nil_iff.1 h4).2
  | cons n names ih =>
    have hn := h n (by simp)
    have ih' := ih (fun x hx => h x (by simp [hx]))
    cases names with
    | nil => rw [show joinSp [n] = n from rfl, word_of_no_ws hn.2]; simp [hn.1]
    | cons m ms =>
      have : joinSp (n :: m :: ms) = n ++ ' ' :: joinSp (m :: ms) := rfl
      rw [this, word_ws hn.2 (by decide), ih']
      simp [hn.1]

/-- Blanks at the beginning do not matter. -/
theorem word_ws_cons {w t : Text} {c : Char} (hc : isWs c = true) : Word w (c :: t) ↔ Word w t := by
  have := word_ws (w := w) (cur := []) (cs := t) (by simp) hc
  simpa using this

/-- Nor a carriage return at the end. -/
theorem word_snoc_ws {w t : Text} {c : Char} (hc : isWs c = true) : Word w (t ++ [c]) ↔ Word w t := by
  constructor
  · rintro ⟨h1, h2, a, b, h3, h4, h5⟩
    cases hb : b.reverse with
    | nil =>
      have : b = [] := by simpa using hb
      subst this
      rw [List.append_nil] at h3
      -- the word would end with `c`
      exfalso
      have e := congrArg List.getLast? h3
      rw [List.getLast?_append, List.getLast?_append] at e
      cases hw : w.getLast? with
      | none => simp at hw; exact h1 hw
      | some y =>
        rw [hw] at e
        simp at e
        have := h2 y (List.mem_of_getLast? hw)
        rw [← e, hc] at this
        cases this
    | cons y b' =>
      have hb' : b = b'.reverse ++ [y] := by
        have := congrArg List.reverse hb; simpa using this
      subst hb'
      rw [← List.append_assoc] at h3
      obtain ⟨h6, h7⟩ := List.append_inj' h3 rfl
      refine ⟨h1, h2, a, b'.reverse, h6, h4, ?_⟩
      intro ch hch
      apply h5
      rw [List.head?_append, hch]; rfl
  · rintro ⟨h1, h2, a, b, h3, h4, h5⟩
    refine ⟨h1, h2, a, b ++ [c], by simp [h3], h4, ?_⟩
    intro ch hch
    cases b with
    | nil => simp at hch; rw [← hch]; exact hc
    | cons x b => simp at hch; exact h5 ch (by simp [hch])

end TM.Solution
