import Verif.Booklet.Warnings
import Verif.Booklet.WarnSpec
import Verif.Booklet.PropsTex
/-!
# Properties of the errors of LaTeX shown to the user (C99)
-/
namespace TM.Booklet
open TM TM.Text Spec

theorem errorMessage_iff {l m : Text} : errorMessage l = some m ↔ ErrorLine l m := by
  have e1 : "! LaTeX Error: ".toList = '!' :: " LaTeX Error: ".toList := by decide
  have e2 : "! ".toList = ['!', ' '] := by decide
  have e3 : " LaTeX Error: ".toList = ' ' :: "LaTeX Error: ".toList := by decide
  have e4 : " LaTeX Error: ".length = " LaTeX Error: ".toList.length := by decide
  constructor
  · intro h
    unfold errorMessage at h
    split at h
    · rename_i rest
      split at h
      · rename_i hp
        simp only [Bool.and_eq_true, List.isPrefixOf_iff_prefix, decide_eq_true_eq] at hp
        obtain ⟨⟨t, ht⟩, hl⟩ := hp
        subst ht
        simp only [Option.some.injEq] at h
        rw [e4, List.drop_left] at h
        subst h
        rw [e4, List.length_append] at hl
        have := ErrorLine.latex (m := t) (by rintro rfl; simp at hl)
        rwa [e1] at this
      · rename_i hp
        split at h
        · rename_i c cs
          cases h
          have := ErrorLine.plain (m := c :: cs) (by simp) (by
            intro m' hm
            by_cases hne : m' = []
            · exact hne
            · exfalso
              apply hp
              simp only [Bool.and_eq_true, List.isPrefixOf_iff_prefix, decide_eq_true_eq]
              rw [hm, e4, e3]
              refine ⟨⟨m', rfl⟩, ?_⟩
              have := List.length_pos_iff.2 hne
              simp only [List.length_cons, List.length_append]
              omega)
          rwa [e2] at this
        · cases h
    · cases h
  · intro h
    cases h with
    | @latex m hm =>
      rw [e1]
      unfold errorMessage
      rw [List.cons_append]
      simp only
      rw [if_pos, e4, List.drop_left]
      simp only [Bool.and_eq_true, List.isPrefixOf_iff_prefix, decide_eq_true_eq]
      refine ⟨List.prefix_append _ _, ?_⟩
      have := List.length_pos_iff.2 hm
      rw [e4, List.length_append]
      omega
    | @plain m hm hn =>
      rw [e2]
      unfold errorMessage
      simp only [List.cons_append, List.nil_append]
      rw [if_neg]
      · cases m with
        | nil => exact absurd rfl hm
        | cons c cs => rfl
      · simp only [Bool.and_eq_true, List.isPrefixOf_iff_prefix, decide_eq_true_eq]
        rintro ⟨⟨t, ht⟩, hl⟩
        rw [e3, List.cons_append, List.cons.injEq] at ht
        have := hn t ht.2.symm
        subst this
        rw [e4, e3, ← ht.2] at hl
        simp at hl

theorem takeWhile_append_stop {p : Char → Bool} {d rest : Text} (hd : ∀ c ∈ d, p c = true)
    (hr : ∀ c cs, rest = c :: cs → p c = false) : (d ++ rest).takeWhile p = d := by
  induction d with
  | nil =>
    cases rest with
    | nil => rfl
    | cons c cs => simp [List.takeWhile_cons, hr c cs rfl]
  | cons c cs ih =>
    rw [List.cons_append, List.takeWhile_cons_of_pos (hd c (by simp)), ih (fun x hx => hd x (by simp [hx]))]

theorem lineNumber_iff {l d : Text} : lineNumber l = some d ↔ PlaceLine l d := by
  have e1 : "l.".toList = ['l', '.'] := by decide
  constructor
  · intro h
    unfold lineNumber at h
    split at h
    · rename_i ds
      simp only at h
      split at h
      · cases h
      · rename_i hne
        cases h
        have := PlaceLine.mk (d := ds.takeWhile Char.isDigit) (rest := ds.dropWhile Char.isDigit) hne
          (fun c hc => (List.all_takeWhile (l := ds) (p := Char.isDigit) |> fun h => List.all_eq_true.1 h c hc)) (by
            intro c cs hcs
            have := List.head?_dropWhile_not (p := Char.isDigit) (l := ds)
            rw [hcs] at this
            simpa using this)
        rw [e1, List.append_assoc, List.takeWhile_append_dropWhile] at this
        exact this
    · cases h
  · intro h
    cases h with
    | mk hne hd hr =>
      rw [e1]
      unfold lineNumber
      simp only [List.cons_append, List.nil_append, List.append_assoc]
      rw [takeWhile_append_stop hd hr, if_neg hne]

theorem not_place {l : Text} : lineNumber l = none ↔ ∀ d, ¬ PlaceLine l d := by
  constructor
  · intro h d hd
    rw [lineNumber_iff.2 hd] at h; cases h
  · intro h
    cases hl : lineNumber l with
    | none => rfl
    | some d => exact absurd (lineNumber_iff.1 hl) (h d)

theorem error_not_place {l m : Text} (h : ErrorLine l m) : lineNumber l = none := by
  have e1 : "! LaTeX Error: ".toList = '!' :: " LaTeX Error: ".toList := by decide
  have e2 : "! ".toList = ['!', ' '] := by decide
  cases h with
  | latex _ => rw [e1]; rfl
  | plain _ _ => rw [e2]; rfl

theorem Complete.nil : Complete [] := by
  intro a e b m h; simp at h

theorem Complete.cons_plain {l : Text} {ls : List Text} (h : errorMessage l = none) :
    Complete (l :: ls) ↔ Complete ls := by
  constructor
  · intro hc a e b m he hm
    exact hc (l :: a) e b m (by rw [he]; rfl) hm
  · intro hc a e b m he hm
    cases a with
    | nil =>
      simp only [List.nil_append, List.cons.injEq] at he
      rw [← he.1] at hm
      rw [errorMessage_iff.2 hm] at h; cases h
    | cons x a =>
      simp only [List.cons_append, List.cons.injEq] at he
      exact hc a e b m he.2 hm

/-- What `findErrors` finds, in the two states of the search. -/
theorem findErrors_iff (ls : List Text) : (∀ d m, (d, m) ∈ findErrors none ls ↔ ∃ a, Complete a ∧ Occurs ls a m d) ∧
    ∀ m₀ d m, (d, m) ∈ findErrors (some m₀) ls ↔ ∃ mid p rest d₀, ls = mid ++ p :: rest ∧ PlaceLine p d₀ ∧
      (∀ x ∈ mid, ∀ d', ¬ PlaceLine x d') ∧
      ((d = d₀ ∧ m = m₀) ∨ ∃ a, Complete a ∧ Occurs rest a m d) := by
  induction ls with
  | nil =>
    refine ⟨?_, ?_⟩
    · intro d m
      simp only [findErrors, List.not_mem_nil, false_iff]
      rintro ⟨a, -, e, mid, p, rest, h, -⟩
      simp at h
    · intro m₀ d m
      simp only [findErrors, List.not_mem_nil, false_iff]
      rintro ⟨mid, p, rest, d₀, h, -⟩
      simp at h
  | cons l ls ih =>
    obtain ⟨ih1, ih2⟩ := ih
    refine ⟨?_, ?_⟩
    · intro d m
      simp only [findErrors]
      cases he : errorMessage l with
      | none =>
        rw [ih1]
        constructor
        · rintro ⟨a, hc, e, mid, p, rest, h, h2⟩
          exact ⟨l :: a, (Complete.cons_plain he).2 hc, e, mid, p, rest, by rw [h]; rfl, h2⟩
        · rintro ⟨a, hc, e, mid, p, rest, h, h2, h3⟩
          cases a with
          | nil =>
            simp only [List.nil_append, List.cons.injEq] at h
            rw [← h.1] at h2
            rw [errorMessage_iff.2 h2] at he; cases he
          | cons x a =>
            simp only [List.cons_append, List.cons.injEq] at h
            obtain ⟨rfl, h⟩ := h
            exact ⟨a, (Complete.cons_plain he).1 hc, e, mid, p, rest, h, h2, h3⟩
      | some m₀ =>
        have hm₀ := errorMessage_iff.1 he
        rw [ih2]
        constructor
        · rintro ⟨mid, p, rest, d₀, rfl, hp, hmid, h⟩
          rcases h with ⟨rfl, rfl⟩ | ⟨a, hc, e, mid', p', rest', rfl, h⟩
          · exact ⟨[], Complete.nil, l, mid, p, rest, rfl, hm₀, hp, hmid⟩
          · refine ⟨l :: mid ++ p :: a, ?_, e, mid', p', rest', by simp, h⟩
            intro x y z m' hx hm'
            rcases List.append_eq_append_iff.1 hx with ⟨w, h1, h2⟩ | ⟨w, h1, h2⟩
            · cases w with
              | nil =>
                simp only [List.nil_append, List.cons.injEq] at h2
                rw [h2.1] at hp
                have := error_not_place hm'
                rw [lineNumber_iff.2 hp] at this; cases this
              | cons w0 w =>
                simp only [List.cons_append, List.cons.injEq] at h2
                exact hc w y z m' h2.2 hm'
            · cases w with
              | nil =>
                simp only [List.nil_append, List.cons.injEq] at h2
                rw [← h2.1] at hp
                have := error_not_place hm'
                rw [lineNumber_iff.2 hp] at this; cases this
              | cons w0 w =>
                simp only [List.cons_append, List.cons.injEq] at h2
                exact ⟨p, by rw [h2.2]; simp, d₀, hp⟩
        · rintro ⟨a, hc, e, mid, p, rest, h, h2, h3, h4⟩
          cases a with
          | nil =>
            simp only [List.nil_append, List.cons.injEq] at h
            obtain ⟨rfl, rfl⟩ := h
            have := errorMessage_iff.2 h2
            rw [he] at this; cases this
            exact ⟨mid, p, rest, d, rfl, h3, h4, Or.inl ⟨rfl, rfl⟩⟩
          | cons x a =>
            simp only [List.cons_append, List.cons.injEq] at h
            obtain ⟨rfl, rfl⟩ := h
            obtain ⟨q, hq, d', hq'⟩ := hc [] l a m₀ rfl hm₀
            -- the first place in `a`
            have first : ∀ a : List Text, (∃ q ∈ a, ∃ d', PlaceLine q d') → ∃ u q v d', a = u ++ q :: v ∧
                PlaceLine q d' ∧ ∀ x ∈ u, ∀ d', ¬ PlaceLine x d' := by
              intro a
              induction a with
              | nil => rintro ⟨q, hq, -⟩; simp at hq
              | cons y a iha =>
                rintro ⟨q, hq, d', hq'⟩
                cases hy : lineNumber y with
                | some dy => exact ⟨[], y, a, dy, rfl, lineNumber_iff.1 hy, by simp⟩
                | none =>
                  rcases List.mem_cons.1 hq with rfl | hq
                  · rw [lineNumber_iff.2 hq'] at hy; cases hy
                  · obtain ⟨u, q, v, d'', rfl, h5, h6⟩ := iha ⟨q, hq, d', hq'⟩
                    refine ⟨y :: u, q, v, d'', rfl, h5, ?_⟩
                    intro x hx
                    rcases List.mem_cons.1 hx with rfl | hx
                    · exact not_place.1 hy
                    · exact h6 x hx
            obtain ⟨u, q, v, d', rfl, h5, h6⟩ := first a ⟨q, hq, d', hq'⟩
            refine ⟨u, q, v ++ e :: (mid ++ p :: rest), d', by simp, h5, h6, Or.inr ⟨v, ?_, e, mid, p, rest, rfl, h2, h3, h4⟩⟩
            intro x y z m' hx hm'
            exact hc (l :: u ++ q :: x) y z m' (by rw [hx]; simp) hm'
    · intro m₀ d m
      simp only [findErrors]
      cases hl : lineNumber l with
      | some d₀ =>
        have hp := lineNumber_iff.1 hl
        simp only [List.mem_cons, Prod.mk.injEq]
        rw [ih1]
        constructor
        · rintro h
          exact ⟨[], l, ls, d₀, rfl, hp, by simp, h⟩
        · rintro ⟨mid, p, rest, d₁, h, h1, h2, h3⟩
          cases mid with
          | nil =>
            simp only [List.nil_append, List.cons.injEq] at h
            obtain ⟨rfl, rfl⟩ := h
            have := lineNumber_iff.2 h1
            rw [hl] at this; cases this
            exact h3
          | cons x mid =>
            simp only [List.cons_append, List.cons.injEq] at h
            obtain ⟨rfl, -⟩ := h
            exact absurd hp (h2 l (by simp) d₀)
      | none =>
        simp only
        rw [ih2]
        constructor
        · rintro ⟨mid, p, rest, d₁, rfl, h1, h2, h3⟩
          refine ⟨l :: mid, p, rest, d₁, rfl, h1, ?_, h3⟩
          intro x hx
          rcases List.mem_cons.1 hx with rfl | hx
          · exact not_place.1 hl
          · exact h2 x hx
        · rintro ⟨mid, p, rest, d₁, h, h1, h2, h3⟩
          cases mid with
          | nil =>
            simp only [List.nil_append, List.cons.injEq] at h
            obtain ⟨rfl, rfl⟩ := h
            exact absurd h1 (not_place.1 hl d₁)
          | cons x mid =>
            simp only [List.cons_append, List.cons.injEq] at h
            obtain ⟨rfl, rfl⟩ := h
            exact ⟨mid, p, rest, d₁, rfl, h1, fun y hy => h2 y (by simp [hy]), h3⟩

theorem lineLe_total : TotalLe lineLe := by
  refine ⟨?_, ?_, ?_⟩
  · intro a b; cases a <;> cases b <;> simp [lineLe]; omega
  · intro a b c; cases a <;> cases b <;> cases c <;> simp [lineLe]; omega
  · intro a b; cases a <;> cases b <;> simp [lineLe]; omega

theorem shown_eq (d : Text) : parseI32 d = shown d := by
  unfold parseI32 shown number
  have : '0'.toNat = 48 := by decide
  simp only [this]
  split <;> split <;> first | rfl | omega

theorem mem_foldl_insertNew [DecidableEq α] (xs s : List α) :
    (∀ y, y ∈ xs.foldl insertNew s ↔ y ∈ xs ∨ y ∈ s) ∧ (s.Nodup → (xs.foldl insertNew s).Nodup) := by
  induction xs generalizing s with
  | nil => simp
  | cons x xs ih =>
    obtain ⟨h1, h2⟩ := ih (insertNew s x)
    constructor
    · intro y
      rw [List.foldl_cons, h1, List.mem_cons]
      unfold insertNew
      split
      · rename_i hx
        constructor
        · rintro (h | h) <;> simp [h]
        · rintro ((rfl | h) | h)
          · exact Or.inr hx
          · exact Or.inl h
          · exact Or.inr h
      · simp only [List.mem_cons]
        constructor
        · rintro (h | h | h) <;> simp [h]
        · rintro ((h | h) | h) <;> simp [h]
    · intro hs
      rw [List.foldl_cons]
      apply h2
      unfold insertNew
      split
      · exact hs
      · rename_i h
        exact List.nodup_cons.2 ⟨h, hs⟩

/-- **C99** What is shown of the log of LaTeX: an error is shown, with the first place that the log gives after it, exactly when
all the errors before it have their own place before it. -/
theorem shown_iff (log : Text) (n : Option Nat) (m : Text) :
    (n, m) ∈ sortedErrors log ↔ ∃ a d, Complete a ∧ Occurs (splitNl log) a m d ∧ n = shown d := by
  unfold sortedErrors errorSet
  rw [(isort_perm _ _).mem_iff, (mem_foldl_insertNew _ _).1]
  simp only [List.not_mem_nil, or_false, List.mem_map, Prod.mk.injEq, Prod.exists]
  constructor
  · rintro ⟨d, m', h, rfl, rfl⟩
    obtain ⟨a, h1, h2⟩ := ((findErrors_iff _).1 d m').1 h
    exact ⟨a, d, h1, h2, shown_eq d⟩
  · rintro ⟨a, d, h1, h2, rfl⟩
    exact ⟨d, m, ((findErrors_iff _).1 d m).2 ⟨a, h1, h2⟩, shown_eq d, rfl⟩

/-- **C99** (partial) Every error of the log is shown.  Proved when in the log every error has its place before the next one: see
`error_hidden` for the others. -/
theorem every_error_shown_partial (log : Text) {a b : List Text} {e m : Text} (he : splitNl log = a ++ e :: b)
    (hm : ErrorLine e m) (ha : Complete a) (hb : ∃ p ∈ b, ∃ d, PlaceLine p d) :
    ∃ d, Occurs (splitNl log) a m d ∧ (shown d, m) ∈ sortedErrors log := by
  have first : ∀ b : List Text, (∃ q ∈ b, ∃ d', PlaceLine q d') → ∃ u q v d', b = u ++ q :: v ∧
      PlaceLine q d' ∧ ∀ x ∈ u, ∀ d', ¬ PlaceLine x d' := by
    intro b
    induction b with
    | nil => rintro ⟨q, hq, -⟩; simp at hq
    | cons y a iha =>
      rintro ⟨q, hq, d', hq'⟩
      cases hy : lineNumber y with
      | some dy => exact ⟨[], y, a, dy, rfl, lineNumber_iff.1 hy, by simp⟩
      | none =>
        rcases List.mem_cons.1 hq with rfl | hq
        · rw [lineNumber_iff.2 hq'] at hy; cases hy
        · obtain ⟨u, q, v, d'', rfl, h5, h6⟩ := iha ⟨q, hq, d', hq'⟩
          refine ⟨y :: u, q, v, d'', rfl, h5, ?_⟩
          intro x hx
          rcases List.mem_cons.1 hx with rfl | hx
          · exact not_place.1 hy
          · exact h6 x hx
  obtain ⟨u, q, v, d, rfl, h1, h2⟩ := first b hb
  have ho : Occurs (splitNl log) a m d := ⟨e, u, q, v, he, hm, h1, h2⟩
  exact ⟨d, ho, (shown_iff _ _ _).2 ⟨a, d, ha, ho, rfl⟩⟩

/-- **C99** The errors are shown once each, by line. -/
theorem errors_sorted (log : Text) : (sortedErrors log).Nodup ∧
    (sortedErrors log).Pairwise (fun x y => (∀ k, x.1 = some k → ∃ k', y.1 = some k' ∧ k ≤ k') ∧ (x.1 = y.1 → x.2 ≤ y.2)) := by
  constructor
  · exact (isort_perm _ _).nodup_iff.2 ((mem_foldl_insertNew _ _).2 List.nodup_nil)
  · refine (isort_sorted (lineLe_total.lex textLe_total) _).imp ?_
    rintro ⟨a, b⟩ ⟨c, d⟩ h
    unfold lexLe at h
    simp only at h
    constructor
    · rintro k rfl
      split at h
      · rename_i e
        exact ⟨k, e.symm, Nat.le_refl _⟩
      · cases c with
        | none => simp [lineLe] at h
        | some k' => exact ⟨k', rfl, by simpa [lineLe] using h⟩
    · rintro rfl
      rw [if_pos rfl] at h
      simpa [textLe] using h

/-- **C99** The user is warned exactly when there is something to show, and the warning shows all of it. -/
theorem warned_iff (log : Text) : (warning log = none ↔ sortedErrors log = []) ∧
    (sortedErrors log ≠ [] → warning log = some (joinNl ((sortedErrors log).map (fun p => match p.1 with
      | some n => "Line ".toList ++ (toString n).toList ++ ": ".toList ++ p.2
      | none => p.2)))) := by
  have h : errorSet log = [] ↔ sortedErrors log = [] := by
    constructor
    · intro h; unfold sortedErrors; rw [h]; rfl
    · intro h
      have := (isort_perm (lexLe lineLe textLe) (errorSet log)).length_eq
      unfold sortedErrors at h
      rw [h] at this
      exact List.length_eq_zero_iff.1 this.symm
  unfold warning
  constructor
  · rw [← h]
    split
    · rename_i e; simp [e]
    · rename_i e; simp [e]
  · intro hne
    rw [if_neg (fun e => hne (h.1 e))]
    congr 2
    apply List.map_congr_left
    rintro ⟨n, m⟩ _
    cases n <;> rfl

/-- An error without a place hides the next one and takes its place. -/
theorem error_hidden : ∃ log : Text, (∃ a e b, splitNl log = a ++ e :: b ∧ ErrorLine e "B".toList) ∧
    sortedErrors log = [(some 7, "A".toList)] := by
  refine ⟨"! A\n! B\nl.7 x".toList, ⟨["! A".toList], "! B".toList, ["l.7 x".toList], by decide +kernel, ?_⟩, by decide +kernel⟩
  exact errorMessage_iff.1 (by decide +kernel)

/-- A log with two errors, one of them twice. -/
example : warning "x\n! LaTeX Error: A.\n..\nl.12 foo\n! B\nl.7 x\n! LaTeX Error: A.\nl.12 foo".toList =
    some "Line 7: B\nLine 12: A.".toList := by decide +kernel

end TM.Booklet
