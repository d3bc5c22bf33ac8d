/-!
# Lines of a text

A text is a list of characters; lengths and offsets are in characters (in the code they are in
bytes: the two agree on ASCII texts, and the offsets used by the code are always at the boundary of a
character).
-/
namespace TM.Text

abbrev Text := List Char

/-- `str::split('\n')`: always at least one piece. -/
def splitNl : Text → List Text
  | [] => [[]]
  | c :: cs =>
    if c = '\n' then [] :: splitNl cs
    else match splitNl cs with
      | [] => [[c]]
      | l :: ls => (c :: l) :: ls

/-- Pieces joined by newlines: `join("\n")`. -/
def joinNl : List Text → Text
  | [] => []
  | [l] => l
  | l :: ls => l ++ '\n' :: joinNl ls

theorem splitNl_ne_nil (t : Text) : splitNl t ≠ [] := by
  cases t with
  | nil => simp [splitNl]
  | cons c cs =>
    simp only [splitNl]
    split
    · simp
    · split <;> simp

theorem joinNl_cons {l : Text} {ls : List Text} (h : ls ≠ []) :
    joinNl (l :: ls) = l ++ '\n' :: joinNl ls := by
  cases ls with
  | nil => exact absurd rfl h
  | cons a b => rfl

theorem joinNl_splitNl (t : Text) : joinNl (splitNl t) = t := by
  induction t with
  | nil => rfl
  | cons c cs ih =>
    simp only [splitNl]
    split
    · rename_i h
      rw [joinNl_cons (splitNl_ne_nil cs), ih, h]; rfl
    · cases hs : splitNl cs with
      | nil => exact absurd hs (splitNl_ne_nil cs)
      | cons l ls =>
        rw [hs] at ih
        cases ls with
        | nil => simp only [joinNl] at ih ⊢; rw [ih]
        | cons a b =>
          rw [joinNl_cons (by simp)] at ih ⊢
          rw [List.cons_append, ih]

theorem splitNl_no_nl (t : Text) : ∀ l ∈ splitNl t, '\n' ∉ l := by
  induction t with
  | nil => simp [splitNl]
  | cons c cs ih =>
    intro l hl
    simp only [splitNl] at hl
    split at hl
    · rcases List.mem_cons.1 hl with rfl | hl
      · simp
      · exact ih l hl
    · rename_i hc
      cases hs : splitNl cs with
      | nil => exact absurd hs (splitNl_ne_nil cs)
      | cons a b =>
        rw [hs] at ih hl
        rcases List.mem_cons.1 hl with rfl | hl
        · have := ih a (by simp)
          simp only [List.mem_cons, not_or]
          exact ⟨fun h => hc h.symm, this⟩
        · exact ih l (by simp [hl])

/-- Splitting is the inverse of joining pieces without newlines. -/
theorem splitNl_joinNl {ls : List Text} (hne : ls ≠ []) (h : ∀ l ∈ ls, '\n' ∉ l) :
    splitNl (joinNl ls) = ls := by
  have one : ∀ l : Text, '\n' ∉ l → splitNl l = [l] := by
    intro l
    induction l with
    | nil => intro _; rfl
    | cons c cs ih =>
      intro h
      have h1 : c ≠ '\n' := by intro he; subst he; simp at h
      have h2 : '\n' ∉ cs := by intro he; simp [he] at h
      simp only [splitNl, if_neg h1, ih h2]
  have app : ∀ (l t : Text), '\n' ∉ l → splitNl (l ++ '\n' :: t) = l :: splitNl t := by
    intro l t
    induction l with
    | nil => intro _; simp [splitNl]
    | cons c cs ih =>
      intro h
      have h1 : c ≠ '\n' := by intro he; subst he; simp at h
      have h2 : '\n' ∉ cs := by intro he; simp [he] at h
      simp only [List.cons_append, splitNl, if_neg h1, ih h2]
  induction ls with
  | nil => exact absurd rfl hne
  | cons l ls ih =>
    cases ls with
    | nil => exact one l (h l (by simp))
    | cons a b =>
      rw [joinNl_cons (by simp), app _ _ (h l (by simp)), ih (by simp) (fun x hx => h x (by simp [hx]))]

end TM.Text
