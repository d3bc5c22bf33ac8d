import Verif.Format.CasesSyntaxSpec
import Verif.Format.GenSyntaxMain

/-!
# The parser of `gen/cases.gen` and its syntax: lemmas
-/
namespace TM.Format

theorem free_iff {t : Text} : Free t ↔ t ≠ [] ∧ ∀ c ∈ t, isRest c = true := by
  simp only [Free, isRest, isNl]
  constructor
  · rintro ⟨h1, h2⟩
    exact ⟨h1, fun c hc => by have := h2 c hc; simp [this]⟩
  · rintro ⟨h1, h2⟩
    exact ⟨h1, fun c hc => by have := h2 c hc; simp at this; grind⟩

theorem rest_stop {t r : Text} (ht : Tail t) (hr : Eol r) : Stop isRest (t ++ r) := by
  rcases ht with rfl | ⟨u, rfl, _⟩
  · rcases hr with rfl | ⟨c, u, rfl, hc⟩
    · intro c u h; cases h
    · have : c = '\n' ∨ c = '\r' := by simpa [isNl] using hc
      intro c' u' h; cases h; rcases this with rfl | rfl <;> decide
  · intro c' u' h; cases h; decide

theorem rest?_app {d t : Text} (hd : Free d) (ht : Stop isRest t) : rest? (d ++ t) = some (d, t) := by
  have h := free_iff.1 hd
  unfold rest?
  rw [takeWhile_app h.2 ht, dropWhile_app h.2 ht]
  cases d with
  | nil => exact absurd rfl h.1
  | cons c w => rfl

theorem rest?_none {t : Text} (ht : Stop isRest t) : rest? t = none := by
  unfold rest?
  have := takeWhile_app (p := isRest) (a := []) (t := t) (by simp) ht
  rw [List.nil_append] at this
  rw [this]

theorem rest?_some {s w r : Text} (h : rest? s = some (w, r)) : s = w ++ r ∧ Free w ∧ Stop isRest r := by
  unfold rest? at h
  split at h
  · cases h
  · rename_i hne
    simp only [Option.some.injEq, Prod.mk.injEq] at h
    obtain ⟨rfl, rfl⟩ := h
    refine ⟨(List.takeWhile_append_dropWhile).symm, free_iff.2 ⟨?_, takeWhile_all'⟩, dropWhile_stop _ _⟩
    intro h0; exact hne h0

theorem rest?_none_iff {t : Text} (h : rest? t = none) : Stop isRest t := by
  intro c u e
  subst e
  cases hc : isRest c with
  | false => rfl
  | true =>
    unfold rest? at h
    rw [List.takeWhile_cons, hc] at h
    simp at h

theorem noBlank_stop {d : Text} (hd : NoBlank d) (hne : d ≠ []) (t : Text) : Stop isWs (d ++ t) := by
  cases d with
  | nil => exact absurd rfl hne
  | cons c d =>
    intro c' u' h
    cases h
    have := hd c rfl
    simp [isWs, this]

theorem spaces?_stop {s r : Text} (h : spaces? s = some r) : Stop isWs r := by
  unfold spaces? at h
  split at h
  · split at h
    · cases h; exact dropWhile_stop _ _
    · cases h
  · cases h

theorem stop_noBlank {d r : Text} (h : Stop isWs (d ++ r)) : NoBlank d := by
  intro c hc
  cases d with
  | nil => cases hc
  | cons x d =>
    cases hc
    have := h c (d ++ r) rfl
    simpa [isWs] using this

/-! ## Operands and operators -/

theorem digits_head {d : Text} (h : Digits d) : ∃ c u, d = c :: u ∧ isDigit c = true := by
  obtain ⟨h1, h2⟩ := digits_iff.1 h
  cases d with
  | nil => exact absurd rfl h1
  | cons c u => exact ⟨c, u, rfl, h2 c (by simp)⟩

theorem isDigit_ne {c : Char} (h : isDigit c = true) : c ≠ '-' ∧ c ≠ '+' ∧ c ≠ '$' ∧ c ≠ '=' ∧ c ≠ '<' ∧
    c ≠ '>' ∧ c ≠ '.' := by
  refine ⟨?_, ?_, ?_, ?_, ?_, ?_, ?_⟩ <;> rintro rfl <;> revert h <;> decide

theorem number?_none {t : Text} (ht : Stop isDigit t) : number? t = none := by
  unfold number?
  have := takeWhile_app (p := isDigit) (a := []) (t := t) (by simp) ht
  rw [List.nil_append] at this
  rw [this]

theorem operand?_app {xt m : Text} {x : CTerm} (h : OperandIs xt x)
    (hm : Stop isDigit m) (hw : (∃ v, x = .var v) → Stop isWord m) : operand? (xt ++ m) = some (x, m) := by
  cases h with
  | number hd =>
    obtain ⟨c, u, he, hc⟩ := digits_head hd
    have hn := number?_app hd hm
    have : signed? (xt ++ m) = some (xt, m) := by
      rw [← hn, he]
      rw [List.cons_append]
      unfold signed?
      split
      · rename_i hh; cases hh; exact absurd rfl (isDigit_ne hc).1
      · rename_i hh; cases hh; exact absurd rfl (isDigit_ne hc).2.1
      · rfl
    simp only [operand?, this]
  | @minus d hd =>
    have : signed? ('-' :: d ++ m) = some ('-' :: d, m) := by
      simp only [List.cons_append, signed?]
      rw [number?_app hd hm]; rfl
    simp only [operand?, this]
  | @plus d hd =>
    have : signed? ('+' :: d ++ m) = some ('+' :: d, m) := by
      simp only [List.cons_append, signed?]
      rw [number?_app hd hm]; rfl
    simp only [operand?, this]
  | @var w hw' =>
    have h1 : signed? ('$' :: w ++ m) = none := by
      simp only [List.cons_append, signed?]
      exact number?_none (by intro c u h; cases h; decide)
    have h2 : variable? ('$' :: w ++ m) = some (w, m) := by
      simp only [variable?, List.cons_append, lit?, if_true]
      exact word?_app hw' (hw ⟨w, rfl⟩)
    simp only [operand?, h1, h2]

theorem signed?_some {s n r : Text} (h : signed? s = some (n, r)) :
    s = n ++ r ∧ OperandIs n (.number n) ∧ Stop isDigit r := by
  unfold signed? at h
  split at h
  · rename_i u
    cases hn : number? u with
    | none => rw [hn] at h; cases h
    | some p =>
      rw [hn] at h
      cases h
      obtain ⟨e, hd, hs⟩ := number?_some hn
      exact ⟨by rw [e]; rfl, .minus hd, hs⟩
  · rename_i u
    cases hn : number? u with
    | none => rw [hn] at h; cases h
    | some p =>
      rw [hn] at h
      cases h
      obtain ⟨e, hd, hs⟩ := number?_some hn
      exact ⟨by rw [e]; rfl, .plus hd, hs⟩
  · obtain ⟨e, hd, hs⟩ := number?_some h
    exact ⟨e, .number hd, hs⟩

theorem operand?_some {s r : Text} {x : CTerm} (h : operand? s = some (x, r)) : ∃ xt, s = xt ++ r ∧
    OperandIs xt x ∧ ((∃ v, x = .var v) → Stop isWord r) := by
  unfold operand? at h
  split at h
  · rename_i n r' hs
    cases h
    obtain ⟨e, ho, _⟩ := signed?_some hs
    exact ⟨n, e, ho, by rintro ⟨v, hv⟩; cases hv⟩
  · split at h
    · rename_i v r' hv
      cases h
      unfold variable? at hv
      split at hv
      · cases hv
      · rename_i u hu
        have e := lit?_some hu
        obtain ⟨e2, hw, hs⟩ := word?_some hv
        exact ⟨'$' :: v, by rw [e, e2]; rfl, .var hw, fun _ => hs⟩
    · cases h

theorem operand_head {xt : Text} {x : CTerm} (h : OperandIs xt x) :
    ∃ c u, xt = c :: u ∧ c ≠ '=' ∧ isWs c = false := by
  cases h with
  | number hd =>
    obtain ⟨c, u, rfl, hc⟩ := digits_head hd
    refine ⟨c, u, rfl, (isDigit_ne hc).2.2.2.1, ?_⟩
    have := digits_stop (t := []) hd c (u ++ []) rfl
    exact this
  | minus _ => exact ⟨'-', _, rfl, by decide, by decide⟩
  | plus _ => exact ⟨'+', _, rfl, by decide, by decide⟩
  | var _ => exact ⟨'$', _, rfl, by decide, by decide⟩

theorem operand_stop {xt : Text} {x : CTerm} (h : OperandIs xt x) (t : Text) : Stop isWs (xt ++ t) := by
  obtain ⟨c, u, rfl, _, hc⟩ := operand_head h
  intro c' u' h; cases h; exact hc

theorem compOp?_app {ot : Text} {o : CmpOp} (h : OpIs ot o) {t : Text} (ht : t.head? ≠ some '=') :
    compOp? (ot ++ t) = some (o, t) := by
  have hl : ∀ c p, t.head? ≠ some '=' → lit? [c, '='] (c :: t) = none ∨ p := by
    intro c p h
    left
    cases t with
    | nil => simp [lit?]
    | cons d t =>
      have : '=' ≠ d := by rintro rfl; exact h rfl
      simp [lit?, this]
  cases h with
  | lessEqual => simp [compOp?, lit?]
  | greaterEqual => simp [compOp?, lit?]
  | less =>
    have := (hl '<' False ht).resolve_right (fun h => h)
    simp only [compOp?, List.singleton_append, this]
    simp [lit?]
  | greater =>
    have := (hl '>' False ht).resolve_right (fun h => h)
    have h1 : lit? ['<', '='] ('>' :: t) = none := by simp [lit?]
    have h2 : lit? ['<'] ('>' :: t) = none := by simp [lit?]
    simp only [compOp?, List.singleton_append, this, h1, h2]
    simp [lit?]
  | equal => simp [compOp?, lit?]

theorem compOp?_some {s r : Text} {o : CmpOp} (h : compOp? s = some (o, r)) : ∃ ot, s = ot ++ r ∧ OpIs ot o := by
  unfold compOp? at h
  split at h
  · rename_i u hu; cases h; exact ⟨_, lit?_some hu, .lessEqual⟩
  split at h
  · rename_i u hu; cases h; exact ⟨_, lit?_some hu, .less⟩
  split at h
  · rename_i u hu; cases h; exact ⟨_, lit?_some hu, .greaterEqual⟩
  split at h
  · rename_i u hu; cases h; exact ⟨_, lit?_some hu, .greater⟩
  split at h
  · rename_i u hu; cases h; exact ⟨_, lit?_some hu, .equal⟩
  · cases h

/-- What follows a constraint. -/
theorem compOp?_none {t r : Text} (ht : Tail t) (hr : Eol r) : compOp? (t ++ r) = none := by
  rcases ht with rfl | ⟨u, rfl, _⟩
  · rcases hr with rfl | ⟨c, u, rfl, hc⟩
    · rfl
    · have : c = '\n' ∨ c = '\r' := by simpa [isNl] using hc
      rcases this with rfl | rfl <;> simp [compOp?, lit?]
  · simp [compOp?, lit?]

theorem op_head {ot : Text} {o : CmpOp} (h : OpIs ot o) : ∃ c u, ot = c :: u ∧ isWs c = false ∧
    isDigit c = false := by
  cases h <;> exact ⟨_, _, rfl, by decide, by decide⟩

theorem op_stop {ot : Text} {o : CmpOp} (h : OpIs ot o) (t : Text) : Stop isWs (ot ++ t) := by
  obtain ⟨c, u, rfl, hc, _⟩ := op_head h
  intro c' u' h; cases h; exact hc

/-- What comes after an operand does not extend it. -/
theorem cmps_stop {rest : List (CmpOp × CTerm)} {m : Text} (h : CmpsIs rest m) {z : Text}
    (hz : Stop isWord z ∧ Stop isDigit z) {x : CTerm} (hx : Closed x m) :
    Stop isDigit (m ++ z) ∧ ((∃ v, x = .var v) → Stop isWord (m ++ z)) := by
  constructor
  · cases h with
    | nil => exact hz.2
    | @cons a ot b xt m o x rest ha ho hb hx' hc hm =>
      cases a with
      | nil =>
        obtain ⟨c, u, rfl, _, hd⟩ := op_head ho
        intro c' u' h; cases h; exact hd
      | cons c a =>
        intro c' u' h; cases h
        rcases ha c (by simp) with rfl | rfl <;> decide
  · rintro ⟨v, hv⟩
    have hg := hx v hv
    cases m with
    | nil => exact hz.1
    | cons c m =>
      intro c' u' h; cases h
      rcases hg c rfl with rfl | rfl <;> decide

theorem comparisons_app {rest : List (CmpOp × CTerm)} {m : Text} (h : CmpsIs rest m) {z t r : Text}
    (hz : Blank z) (ht : Tail t) (hr : Eol r) : ∀ n, m.length ≤ n →
    comparisons n (m ++ (z ++ (t ++ r))) = (rest, z ++ (t ++ r)) := by
  have hs := tail_stop ht hr
  induction h with
  | nil =>
    intro n _
    rw [List.nil_append]
    cases n with
    | zero => rfl
    | succ n =>
      simp only [comparisons]
      rw [skipWs_app hz hs.1, compOp?_none ht hr]
  | @cons a ot b xt m o x rest ha ho hb hx hc hm ih =>
    intro n hn
    have hl : 0 < ot.length := by obtain ⟨c, u, rfl, _⟩ := op_head ho; simp
    cases n with
    | zero => simp only [List.length_append] at hn; omega
    | succ n =>
      simp only [comparisons, List.append_assoc]
      obtain ⟨c, u, he, hce, hcw⟩ := operand_head hx
      rw [skipWs_app ha (op_stop ho _), compOp?_app ho (by
        cases b with
        | nil => rw [he]; simpa using hce
        | cons d b =>
          simp only [List.cons_append, List.head?_cons, ne_eq, Option.some.injEq]
          rcases hb d (by simp) with rfl | rfl <;> decide)]
      simp only
      have hstop := cmps_stop hm (blank_stop hz hs.2) hc
      rw [skipWs_app hb (operand_stop hx _), operand?_app hx hstop.1 hstop.2]
      simp only
      rw [ih n (by simp only [List.length_append] at hn; omega)]

/-- A text that does not start with a character of a word starts with a blank, if it starts with an
operator after some blanks. -/
theorem gap_of_stop {m z : Text} (h : Stop isWord (m ++ z))
    (hm : m = [] ∨ ∃ a o ot u, m = a ++ (ot ++ u) ∧ Blank a ∧ OpIs ot o) : Gap m := by
  rcases hm with rfl | ⟨a, o, ot, u, rfl, ha, ho⟩
  · intro c hc; cases hc
  · intro c hc
    cases a with
    | cons d a => cases hc; exact ha c (by simp)
    | nil =>
      exfalso
      cases ho <;> (have := h _ _ rfl; revert this; decide)

theorem cmps_shape {rest : List (CmpOp × CTerm)} {m : Text} (h : CmpsIs rest m) :
    m = [] ∨ ∃ a o ot u, m = a ++ (ot ++ u) ∧ Blank a ∧ OpIs ot o := by
  cases h with
  | nil => exact .inl rfl
  | cons ha ho hb hx hc hm => exact .inr ⟨_, _, _, _, rfl, ha, ho⟩

theorem comparisons_some (n : Nat) : ∀ {s : Text} {rest : List (CmpOp × CTerm)} {r : Text},
    comparisons n s = (rest, r) → ∃ m, s = m ++ r ∧ CmpsIs rest m := by
  induction n with
  | zero =>
    intro s rest r h
    simp only [comparisons, Prod.mk.injEq] at h
    obtain ⟨rfl, rfl⟩ := h
    exact ⟨[], rfl, .nil⟩
  | succ n ih =>
    intro s rest r h
    simp only [comparisons] at h
    split at h
    · cases h; exact ⟨[], rfl, .nil⟩
    · rename_i o r1 h1
      split at h
      · cases h; exact ⟨[], rfl, .nil⟩
      · rename_i x r2 h2
        cases hc : comparisons n r2 with
        | mk xs r3 =>
          rw [hc] at h
          simp only [Prod.mk.injEq] at h
          obtain ⟨rfl, rfl⟩ := h
          obtain ⟨a, e1, ha⟩ := skipWs_some s
          obtain ⟨ot, e2, ho⟩ := compOp?_some h1
          obtain ⟨b, e3, hb⟩ := skipWs_some r1
          obtain ⟨xt, e4, hx, hst⟩ := operand?_some h2
          obtain ⟨m, e5, hm⟩ := ih hc
          refine ⟨a ++ (ot ++ (b ++ (xt ++ m))), ?_, .cons ha ho hb hx ?_ hm⟩
          · rw [e1, e2, e3, e4, e5]; simp
          · intro v hv
            exact gap_of_stop (z := r3) (by rw [← e5]; exact hst ⟨v, hv⟩) (cmps_shape hm)

/-! ## Numbers with a fraction -/

theorem float?_app {f m : Text} (h : FloatIs f) (hm : Stop isDigit m) (hd : m.head? ≠ some '.') :
    float? (f ++ m) = some (f, m) := by
  cases h with
  | int hi =>
    unfold float?
    rw [number?_app hi hm]
    have : lit? ['.'] m = none := by
      cases m with
      | nil => rfl
      | cons c m =>
        have : '.' ≠ c := by rintro rfl; exact hd rfl
        simp [lit?, this]
    simp only [this]
  | @frac i g hi hg =>
    unfold float?
    rw [List.append_assoc, List.cons_append, number?_app hi (by intro c u h; cases h; decide)]
    have : lit? ['.'] ('.' :: (g ++ m)) = some (g ++ m) := by simp [lit?]
    simp only [this]
    rw [number?_app hg hm]

theorem float?_some {s f r : Text} (h : float? s = some (f, r)) : s = f ++ r ∧ FloatIs f := by
  unfold float? at h
  split at h
  · cases h
  · rename_i i u hi
    obtain ⟨e, hd, _⟩ := number?_some hi
    split at h
    · cases h; exact ⟨e, .int hd⟩
    · rename_i v hv
      have e2 := lit?_some hv
      split at h
      · cases h; exact ⟨e, .int hd⟩
      · rename_i g w hg
        cases h
        obtain ⟨e3, hd2, _⟩ := number?_some hg
        exact ⟨by rw [e, e2, e3]; simp, .frac hd hd2⟩

theorem float_stop {f : Text} (h : FloatIs f) (t : Text) : Stop isWs (f ++ t) := by
  cases h with
  | int hi => exact digits_stop hi
  | frac hi hg => rw [List.append_assoc]; exact digits_stop hi

end TM.Format
