import Verif.Booklet.TexSpec
/-!
# The matches of `\usepackage.+`, line by line
-/
namespace TM.Booklet
open TM TM.Text

theorem use_eq : Spec.use = USE := rfl

theorem use_no_nl : '\n' ∉ USE := by decide

theorem matchHere_shrinks {t m rest : Text} (h : matchHere t = some (m, rest)) : rest.length < t.length := by
  unfold matchHere at h
  split at h
  · rename_i hp
    simp only at h
    split at h
    · cases h
    · simp only [Option.some.injEq, Prod.mk.injEq] at h
      obtain ⟨-, rfl⟩ := h
      have : USE.length ≤ t.length := (List.isPrefixOf_iff_prefix.1 hp).length_le
      have h2 : 0 < USE.length := by decide
      rw [List.length_drop]
      omega
  · cases h

theorem piecesFrom_enough (n : Nat) : ∀ (t : Text) (k : Nat), t.length ≤ n → t.length ≤ k →
    piecesFrom n t = piecesFrom k t := by
  induction n with
  | zero =>
    intro t k h _
    have : t = [] := List.length_eq_zero_iff.1 (by omega)
    subst this
    cases k with
    | zero => rfl
    | succ k => simp [piecesFrom, matchHere, USE]
  | succ n ih =>
    intro t k h hk
    cases k with
    | zero =>
      have : t = [] := List.length_eq_zero_iff.1 (by omega)
      subst this
      simp [piecesFrom, matchHere, USE]
    | succ k =>
      simp only [piecesFrom]
      cases hm : matchHere t with
      | some p =>
        obtain ⟨m, rest⟩ := p
        have := matchHere_shrinks hm
        simp only
        rw [ih rest k (by omega) (by omega)]
      | none =>
        cases t with
        | nil => rfl
        | cons c cs =>
          simp only [List.length_cons] at h hk
          simp only
          rw [ih cs k (by omega) (by omega)]

theorem pieces_nil : pieces [] = [] := rfl

theorem pieces_pkg {t m rest : Text} (h : matchHere t = some (m, rest)) : pieces t = .pkg m :: pieces rest := by
  have h1 := matchHere_shrinks h
  unfold pieces
  obtain ⟨n, hn⟩ : ∃ n, t.length = n + 1 := ⟨t.length - 1, by omega⟩
  rw [hn]
  simp only [piecesFrom, h]
  rw [piecesFrom_enough n rest rest.length (by omega) (by omega)]

theorem pieces_char {c : Char} {cs : Text} (h : matchHere (c :: cs) = none) :
    pieces (c :: cs) = .char c :: pieces cs := by
  unfold pieces
  rw [List.length_cons]
  simp only [piecesFrom, h]

/-- A rest of the text that begins with a new line, or is empty. -/
def AtEnd (r : Text) : Prop := r = [] ∨ ∃ r', r = '\n' :: r'

theorem takeWhile_line {l r : Text} (hl : '\n' ∉ l) (hr : AtEnd r) : (l ++ r).takeWhile (· ≠ '\n') = l := by
  induction l with
  | nil =>
    rcases hr with rfl | ⟨r', rfl⟩
    · rfl
    · simp
  | cons c cs ih =>
    simp only [List.mem_cons, not_or] at hl
    rw [List.cons_append, List.takeWhile_cons_of_pos (by simpa using Ne.symm hl.1), ih hl.2]

theorem prefix_stop {u l r : Text} {x : Char} (hu : x ∉ u) (h : u <+: l ++ x :: r) : u <+: l := by
  obtain ⟨s, hs⟩ := h
  rcases List.append_eq_append_iff.1 hs with ⟨a', h1, h2⟩ | ⟨c', h1, h2⟩
  · exact ⟨a', h1.symm⟩
  · cases c' with
    | nil => exact ⟨[], by simp [h1]⟩
    | cons c cs =>
      simp only [List.cons_append, List.cons.injEq] at h2
      exact absurd (by rw [h1, ← h2.1]; simp) hu

theorem prefix_line {u l r : Text} (hu : '\n' ∉ u) (hr : AtEnd r) (h : u <+: l ++ r) : u <+: l := by
  rcases hr with rfl | ⟨r', rfl⟩
  · simpa using h
  · exact prefix_stop hu h

theorem matchHere_line {l r : Text} (hl : '\n' ∉ l) (hr : AtEnd r) :
    matchHere (l ++ r) = if USE <+: l ∧ USE.length < l.length then some (l, r) else none := by
  unfold matchHere
  by_cases hp : USE <+: l
  · have hp2 : USE.isPrefixOf (l ++ r) = true := List.isPrefixOf_iff_prefix.2 (hp.trans (List.prefix_append l r))
    obtain ⟨b, rfl⟩ := hp
    have hb : '\n' ∉ b := fun h => hl (List.mem_append_right _ h)
    have hd : ((USE ++ b) ++ r).drop USE.length = b ++ r := by rw [List.append_assoc, List.drop_left]
    simp only [hp2, if_true, hd, takeWhile_line hb hr]
    cases b with
    | nil => simp
    | cons c cs =>
      have : (USE ++ c :: cs ++ r).drop (USE.length + (c :: cs).length) = r := by
        rw [← List.length_append, List.drop_left]
      rw [this]
      simp [List.prefix_append]
  · have hp2 : USE.isPrefixOf (l ++ r) = false := by
      rw [← Bool.not_eq_true, List.isPrefixOf_iff_prefix]
      exact fun h => hp (prefix_line use_no_nl hr h)
    rw [hp2]
    simp [hp]

/-- The pieces of a line. -/
def linePieces : Text → List Piece
  | [] => []
  | c :: cs => if USE <+: c :: cs ∧ USE.length < (c :: cs).length then [.pkg (c :: cs)] else .char c :: linePieces cs

theorem pieces_line {l r : Text} (hl : '\n' ∉ l) (hr : AtEnd r) : pieces (l ++ r) = linePieces l ++ pieces r := by
  induction l with
  | nil => simp [linePieces]
  | cons c cs ih =>
    have hm := matchHere_line hl hr
    unfold linePieces
    split
    · rename_i h
      rw [if_pos h] at hm
      rw [pieces_pkg hm]; rfl
    · rename_i h
      rw [if_neg h] at hm
      rw [List.cons_append] at hm ⊢
      rw [pieces_char hm, ih (fun h => hl (List.mem_cons_of_mem _ h))]
      rfl

theorem pieces_nl (r : Text) : pieces ('\n' :: r) = .char '\n' :: pieces r := by
  apply pieces_char
  simp [matchHere, USE]

theorem pieces_lines (ls : List Text) (h : ∀ l ∈ ls, '\n' ∉ l) (hne : ls ≠ []) :
    splitNl (commentOut (joinNl ls)) = ls.map (fun l => (linePieces l).flatMap Piece.commented) ∧
    packages (joinNl ls) = ls.flatMap (fun l => (linePieces l).filterMap Piece.package) := by
  have hc : ∀ l : Text, '\n' ∉ l → '\n' ∉ (linePieces l).flatMap Piece.commented := by
    intro l
    induction l with
    | nil => simp [linePieces]
    | cons c cs ih =>
      intro hl
      unfold linePieces
      split
      · simpa [Piece.commented] using hl
      · simp only [List.mem_cons, not_or] at hl
        simp only [List.flatMap_cons, Piece.commented, List.cons_append, List.nil_append, List.mem_cons, not_or]
        exact ⟨hl.1, ih hl.2⟩
  have key : commentOut (joinNl ls) = joinNl (ls.map (fun l => (linePieces l).flatMap Piece.commented)) ∧
      packages (joinNl ls) = ls.flatMap (fun l => (linePieces l).filterMap Piece.package) := by
    induction ls with
    | nil => exact absurd rfl hne
    | cons l ls ih =>
      cases ls with
      | nil =>
        have := pieces_line (l := l) (r := []) (h l (by simp)) (Or.inl rfl)
        rw [List.append_nil, pieces_nil, List.append_nil] at this
        simp [joinNl, commentOut, packages, this]
      | cons l2 ls =>
        obtain ⟨h1, h2⟩ := ih (fun x hx => h x (by simp [hx])) (by simp)
        have := pieces_line (l := l) (r := '\n' :: joinNl (l2 :: ls)) (h l (by simp)) (Or.inr ⟨_, rfl⟩)
        have e : joinNl (l :: l2 :: ls) = l ++ '\n' :: joinNl (l2 :: ls) := joinNl_cons (by simp)
        rw [e, List.map_cons, joinNl_cons (l := _) (by simp : (List.map _ (l2 :: ls)) ≠ []), ← h1, List.flatMap_cons, ← h2]
        simp only [commentOut, packages, this, pieces_nl]
        simp only [List.flatMap_append, List.filterMap_append, List.flatMap_cons, Piece.commented, List.cons_append,
          List.nil_append, true_and]
        congr 1
  refine ⟨?_, key.2⟩
  rw [key.1]
  apply splitNl_joinNl
  · simpa using hne
  · intro l hl
    obtain ⟨x, hx, rfl⟩ := List.mem_map.1 hl
    exact hc x (h x hx)

theorem line_spec (l : Text) : ∃ o : Option Text,
    Spec.Line l ((linePieces l).flatMap Piece.commented) o ∧ (linePieces l).filterMap Piece.package = o.toList := by
  induction l with
  | nil =>
    refine ⟨none, ?_, rfl⟩
    apply Spec.Line.kept
    intro a b h
    have := congrArg List.length h
    simp [Spec.use] at this
  | cons c cs ih =>
    unfold linePieces
    split
    · rename_i h
      obtain ⟨⟨b, hb⟩, hlen⟩ := h
      rw [← hb] at hlen ⊢
      refine ⟨some (USE ++ b), ?_, rfl⟩
      have hb' : b ≠ [] := by rintro rfl; simp at hlen
      have := Spec.Line.moved (a := []) (b := b) hb' (by intros; simp)
      simpa [Piece.commented, use_eq] using this
    · rename_i h
      obtain ⟨o, h1, h2⟩ := ih
      refine ⟨o, ?_, by rw [List.filterMap_cons_none (by rfl)]; exact h2⟩
      simp only [List.flatMap_cons, Piece.commented, List.cons_append, List.nil_append]
      have notHere : ∀ b, c :: cs = USE ++ b → b = [] := by
        intro b hb
        by_cases e : b = []
        · exact e
        · exfalso
          apply h
          rw [hb]
          refine ⟨List.prefix_append _ _, ?_⟩
          have := List.length_pos_iff.2 e
          simp; omega
      generalize (linePieces cs).flatMap Piece.commented = out at h1 ⊢
      cases h1 with
      | kept hk =>
        apply Spec.Line.kept
        intro a b hab
        cases a with
        | nil => exact notHere b (by simpa [use_eq] using hab)
        | cons a0 a =>
          simp only [List.cons_append, List.cons.injEq] at hab
          exact hk a b hab.2
      | @moved a b hb first =>
        have := Spec.Line.moved (a := c :: a) (b := b) hb (by
          intro a' b' he
          cases a' with
          | nil =>
            have hb' : b' = [] := notHere b' (by
              have : c :: (a ++ Spec.use ++ b) = USE ++ b' := by simpa [use_eq] using he
              exact this)
            subst hb'
            have h3 := congrArg List.length he
            have h4 := List.length_pos_iff.2 hb
            simp at h3
            omega
          | cons a0 a' =>
            simp only [List.cons_append, List.cons.injEq] at he
            have := first a' b' he.2
            simpa using this)
        simpa using this

end TM.Booklet
