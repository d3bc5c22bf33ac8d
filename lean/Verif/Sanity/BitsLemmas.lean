import Verif.Sanity.Bits
import Verif.Sanity.PropsStatement
/-!
# Lemmas about the inclusion of all the standard library
-/
namespace TM.Sanity.Bits
open TM TM.Text TM.Sanity

theorem oneOf_iff {a b : Char} {s r : Text} : oneOf a b s = some r ↔ ∃ c, (c = a ∨ c = b) ∧ s = c :: r := by
  cases s with
  | nil => simp [oneOf]
  | cons c s =>
    simp only [oneOf]
    constructor
    · intro h
      split at h
      · cases h; exact ⟨c, ‹_›, rfl⟩
      · cases h
    · rintro ⟨c', h, e⟩
      cases e
      rw [if_pos h]

theorem dropBlank {w : Text} (hw : Blank w) {c : Char} (hc : Solution.isWs c = false) (r : Text) :
    (w ++ c :: r).dropWhile Solution.isWs = c :: r := by
  induction w with
  | nil => rw [List.nil_append, List.dropWhile_cons_of_neg (by simp [hc])]
  | cons a w ih =>
    rw [List.cons_append, List.dropWhile_cons_of_pos (hw a (by simp))]
    exact ih (fun c h => hw c (by simp [h]))

theorem splitBlank (s : Text) : ∃ w, Blank w ∧ s = w ++ s.dropWhile Solution.isWs :=
  ⟨s.takeWhile Solution.isWs, fun c h => by
    have := List.all_takeWhile (p := Solution.isWs) (l := s)
    exact List.all_eq_true.1 this c h, (List.takeWhile_append_dropWhile).symm⟩

/-- The beginning of a directive. -/
def Start (s gaps r : Text) : Prop :=
  ∃ w w' a b, Blank w ∧ Blank w' ∧ gaps = w ++ w' ∧ (a = '<' ∨ a = '"') ∧ (b = '>' ∨ b = '"') ∧
    s = '#' :: (w ++ "include".toList ++ w' ++ [a] ++ "bits/stdc++.h".toList ++ [b] ++ r)

theorem include_head : ∃ r, "include".toList = 'i' :: r := ⟨"nclude".toList, by decide +kernel⟩

theorem directive_iff {s r : Text} : directive s = some r ↔ ∃ gaps, Start s gaps r := by
  obtain ⟨inc, hinc⟩ := include_head
  unfold directive Start
  rw [hinc]
  generalize "bits/stdc++.h".toList = bits
  simp only [Option.bind_eq_some_iff, after_iff, oneOf_iff]
  constructor
  · rintro ⟨s1, e1, s2, e2, s3, ⟨a, ha, e3⟩, s4, e4, b, hb, e5⟩
    obtain ⟨w, hw, e6⟩ := splitBlank s1
    obtain ⟨w', hw', e7⟩ := splitBlank s2
    refine ⟨_, w, w', a, b, hw, hw', rfl, ha, hb, ?_⟩
    rw [e1, e6, e2, e7, e3, e4, e5]
    simp only [List.cons_append, List.nil_append, List.append_assoc]
  · rintro ⟨gaps, w, w', a, b, hw, hw', -, ha, hb, rfl⟩
    refine ⟨w ++ 'i' :: (inc ++ (w' ++ a :: (bits ++ b :: r))), ?_, w' ++ a :: (bits ++ b :: r), ?_, bits ++ b :: r, ⟨a, ha, ?_⟩,
      b :: r, rfl, b, hb, rfl⟩
    · simp only [List.cons_append, List.nil_append, List.append_assoc]
    · exact dropBlank hw (by decide) _
    · refine dropBlank hw' ?_ _
      rcases ha with rfl | rfl <;> decide

theorem takeLine (r : Text) : '\n' ∉ r.takeWhile (fun c => decide (c ≠ '\n')) := by
  intro h
  have h1 := List.all_eq_true.1 (List.all_takeWhile (p := fun c => decide (c ≠ '\n')) (l := r)) _ h
  simp at h1

theorem dropLine (r : Text) : r.dropWhile (fun c => decide (c ≠ '\n')) = [] ∨
    ∃ p, r.dropWhile (fun c => decide (c ≠ '\n')) = '\n' :: p := by
  induction r with
  | nil => exact .inl rfl
  | cons c r ih =>
    by_cases h : c = '\n'
    · subst h
      exact .inr ⟨r, by rw [List.dropWhile_cons_of_neg (by simp)]⟩
    · rw [List.dropWhile_cons_of_pos (by simp [h])]
      exact ih

theorem takeLine_eq {tail post : Text} (ht : '\n' ∉ tail) (hp : post = [] ∨ ∃ p, post = '\n' :: p) :
    (tail ++ post).takeWhile (fun c => decide (c ≠ '\n')) = tail := by
  induction tail with
  | nil =>
    rcases hp with rfl | ⟨p, rfl⟩
    · rfl
    · simp
  | cons c t ih =>
    have hc : c ≠ '\n' := fun e => ht (by simp [e])
    rw [List.cons_append, List.takeWhile_cons_of_pos (by simp [hc]), ih (fun h => ht (by simp [h]))]

theorem matchLen_iff {s : Text} {n : Nat} : matchLen s = some n ↔
    ∃ d gaps post, s = d ++ post ∧ Directive d gaps ∧ (post = [] ∨ ∃ p, post = '\n' :: p) ∧ n = d.length := by
  unfold matchLen
  rw [Option.map_eq_some_iff]
  constructor
  · rintro ⟨r, h, rfl⟩
    obtain ⟨gaps, w, w', a, b, hw, hw', hg, ha, hb, rfl⟩ := directive_iff.1 h
    refine ⟨_, gaps, r.dropWhile (fun c => decide (c ≠ '\n')), ?_,
      ⟨w, w', r.takeWhile (fun c => decide (c ≠ '\n')), a, b, hw, hw', hg, ha, hb, takeLine r, rfl⟩, dropLine r, ?_⟩
    · simp only [List.cons_append, List.append_assoc, List.takeWhile_append_dropWhile]
    · simp only [List.length_cons, List.length_append]
      omega
  · rintro ⟨d, gaps, post, rfl, ⟨w, w', tail, a, b, hw, hw', hg, ha, hb, ht, rfl⟩, hp, rfl⟩
    refine ⟨tail ++ post, directive_iff.2 ⟨gaps, w, w', a, b, hw, hw', hg, ha, hb, ?_⟩, ?_⟩
    · simp only [List.cons_append, List.append_assoc]
    · rw [takeLine_eq ht hp]
      simp only [List.length_cons, List.length_append]
      omega

/-- A line starts at the end of `pre`. -/
def AtStart (pre : Text) : Prop := pre = [] ∨ ∃ p, pre = p ++ ['\n']

theorem atStart_snoc {pre : Text} {c : Char} : AtStart (pre ++ [c]) ↔ c = '\n' := by
  constructor
  · rintro (h | ⟨p, h⟩)
    · simp at h
    · exact (List.append_inj' h rfl).2 |> List.cons.inj |>.1
  · rintro rfl
    exact .inr ⟨pre, rfl⟩

theorem directive_ne {d gaps : Text} (h : Directive d gaps) : d ≠ [] := by
  obtain ⟨w, w', tail, a, b, -, -, -, -, -, -, rfl⟩ := h
  simp

theorem find_spec : ∀ (rest pre : Text) (start : Bool), (start = true ↔ AtStart pre) →
    (∀ pre' d gaps, Includes (pre ++ rest) pre' d gaps → pre.length ≤ pre'.length) →
    (∀ n l, find start pre.length rest = some (n, l) →
      ∃ pre' d gaps, FirstIncludes (pre ++ rest) pre' d gaps ∧ n = pre'.length ∧ l = d.length) ∧
    (find start pre.length rest = none → ∀ pre' d gaps, ¬ Includes (pre ++ rest) pre' d gaps)
  | [], pre, start, hs, hmin => by
    refine ⟨fun n l h => by simp [find] at h, fun _ pre' d gaps h => ?_⟩
    have h1 := hmin _ _ _ h
    obtain ⟨post, e, hd, -, -⟩ := h
    have := congrArg List.length e
    have h2 := List.length_pos_iff.2 (directive_ne hd)
    simp only [List.append_nil, List.length_append] at this
    omega
  | c :: r, pre, start, hs, hmin => by
    have next : (∀ d gaps, ¬ Includes (pre ++ c :: r) pre d gaps) →
        (∀ n l, find (c = '\n') (pre.length + 1) r = some (n, l) →
          ∃ pre' d gaps, FirstIncludes (pre ++ c :: r) pre' d gaps ∧ n = pre'.length ∧ l = d.length) ∧
        (find (c = '\n') (pre.length + 1) r = none → ∀ pre' d gaps, ¬ Includes (pre ++ c :: r) pre' d gaps) := by
      intro hno
      have ih := find_spec r (pre ++ [c]) (c = '\n') (by rw [atStart_snoc, decide_eq_true_eq]) (fun pre' d gaps h => by
        rw [List.append_assoc, List.singleton_append] at h
        have h1 := hmin _ _ _ h
        rcases Nat.lt_or_ge pre.length pre'.length with h2 | h2
        · rw [List.length_append, List.length_singleton]; omega
        · exfalso
          have h3 : pre' = pre := by
            obtain ⟨post, e, -⟩ := h
            rw [List.append_assoc] at e
            exact (List.append_inj e (by omega)).1.symm
          subst h3
          exact hno _ _ h)
      rw [List.append_assoc, List.singleton_append, List.length_append, List.length_singleton] at ih
      exact ih
    simp only [find]
    cases hm : (if start then matchLen (c :: r) else none) with
    | some l =>
      dsimp only
      refine ⟨fun n l' h => ?_, nofun⟩
      cases h
      split at hm
      · obtain ⟨d, gaps, post, e, hd, hp, hl⟩ := matchLen_iff.1 hm
        refine ⟨pre, d, gaps, ⟨⟨post, ?_, hd, hs.1 ‹_›, hp⟩, hmin⟩, rfl, hl⟩
        rw [e, List.append_assoc]
      · cases hm
    | none =>
      dsimp only
      apply next
      rintro d gaps ⟨post, e, hd, h1, hp⟩
      rw [if_pos (hs.2 h1)] at hm
      rw [List.append_assoc] at e
      have := matchLen_iff.2 ⟨d, gaps, post, List.append_cancel_left e, hd, hp, rfl⟩
      rw [hm] at this
      cases this

theorem find_some {content : Text} {n l : Nat} (h : find true 0 content = some (n, l)) :
    ∃ pre d gaps, FirstIncludes content pre d gaps ∧ n = pre.length ∧ l = d.length :=
  (find_spec content [] true (by simp [AtStart]) (fun _ _ _ _ => Nat.zero_le _)).1 n l h

theorem find_none {content : Text} (h : find true 0 content = none) (pre d gaps : Text) : ¬ Includes content pre d gaps :=
  (find_spec content [] true (by simp [AtStart]) (fun _ _ _ _ => Nat.zero_le _)).2 h pre d gaps

theorem directive_noNl {d gaps : Text} (h : Directive d gaps) (hg : '\n' ∉ gaps) : '\n' ∉ d := by
  obtain ⟨w, w', tail, a, b, -, -, rfl, ha, hb, ht, rfl⟩ := h
  have h1 : '\n' ∉ "include".toList := by decide +kernel
  have h2 : '\n' ∉ "bits/stdc++.h".toList := by decide +kernel
  simp only [List.mem_append, not_or] at hg
  simp only [List.mem_cons, List.mem_append, not_or, List.not_mem_nil, not_false_eq_true, and_true]
  refine ⟨by decide, ⟨⟨⟨⟨⟨hg.1, h1⟩, hg.2⟩, ?_⟩, h2⟩, ?_⟩, ht⟩
  · rcases ha with rfl | rfl <;> decide
  · rcases hb with rfl | rfl <;> decide

end TM.Sanity.Bits
