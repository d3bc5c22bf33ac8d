import Verif.Sanity.Statement
/-!
# The subtasks of the statement (C81)
-/
namespace TM.Sanity
open TM TM.Text
open TM.Format (decimal digitsVal isDigit)

/-! ## Specification -/

/-- The scores are equal up to the precision of the comparison. -/
def SameScore (a b : Rat) : Prop := a - b ≤ 1 / 2 ^ 52 ∧ b - a ≤ 1 / 2 ^ 52

/-- The subtasks of a task with these scores: the numbers start from 0. -/
def numbered (scores : List Rat) : List (Nat × Rat) := scores.zipIdx.map (fun p => (p.2, p.1))

/-- The subtask in position `i` of the statement is the one of the task, numbered from `base`. -/
def Fine (base : Nat) (scores : List Rat) (subs : List StSub) (i : Nat) : Prop :=
  ∀ m a, scores[i]? = some m → subs[i]? = some a → a.id = i + base ∧ ∀ s, a.score = some s → SameScore m s

/-- The statement has the subtasks of the task, numbered from 0 or from 1. -/
def Agree (scores : List Rat) (subs : List StSub) : Prop :=
  subs.length = scores.length ∧ ((∀ i, Fine 0 scores subs i) ∨ (∀ i, Fine 1 scores subs i))

/-- `w` is somewhere in the line. -/
def Has (w : String) (l : Text) : Prop := w.toList <:+: l

/-- The line of subtask `n` with `p` points in the first format, e.g.
`\item \textbf{\makebox[2cm][l]{Subtask 2} [20 punti]}: $L\leq 10$.` -/
def OiiLine (l : Text) (n p : Nat) : Prop :=
  ∃ pre ph mid post k, l = pre ++ ("{Subtask ".toList ++ (decimal n ++ ('}' :: (List.replicate k ' ' ++ ('[' ::
      (ph ++ (decimal p ++ (mid ++ ']' :: post)))))))) ∧
    (ph = [] ∨ ∃ x, x ≠ [] ∧ '}' ∉ x ∧ ¬ Has "{Subtask " x ∧ ph = "\\phantom{".toList ++ (x ++ ['}'])) ∧
    (∀ c, mid.head? = some c → isDigit c = false) ∧
    ¬ Has "{Subtask " (decimal n ++ ('}' :: (List.replicate k ' ' ++ ('[' :: (ph ++ (decimal p ++ (mid ++ ']' :: post)))))))

/-- The subtasks of a statement in the first format. -/
inductive OiiStatement : List Text → List (Nat × Nat) → Prop
  | nil : OiiStatement [] []
  | other {l : Text} {ls : List Text} {ss : List (Nat × Nat)} :
      ¬ Has "{Subtask " l → OiiStatement ls ss → OiiStatement (l :: ls) ss
  | subtask {l : Text} {ls : List Text} {ss : List (Nat × Nat)} {n p : Nat} :
      OiiLine l n p → OiiStatement ls ss → OiiStatement (l :: ls) ((n, p) :: ss)

/-- The line of a subtask with `p` points in the third format, e.g. `\OISubtask{10}{1}{$N \le 10$.}` -/
def OisLine (l : Text) (p : Nat) : Prop :=
  ∃ pre w n c txt post, (w = "\\OISubtask{" ∨ w = "\\IIOTsubtask{") ∧
    l = pre ++ (w.toList ++ (decimal p ++ ("}{".toList ++ (decimal n ++ ("}{".toList ++ (c :: (txt ++ '}' :: post))))))) ∧
    ∀ w' ∈ ["\\OISubtask{", "\\IIOTsubtask{"],
      ¬ Has w' (decimal p ++ ("}{".toList ++ (decimal n ++ ("}{".toList ++ (c :: (txt ++ '}' :: post))))))

/-- The points of the subtasks of a statement in the third format. -/
inductive OisStatement : List Text → List Nat → Prop
  | nil : OisStatement [] []
  | other {l : Text} {ls : List Text} {ps : List Nat} :
      ¬ Has "\\OISubtask{" l → ¬ Has "\\IIOTsubtask{" l → OisStatement ls ps → OisStatement (l :: ls) ps
  | subtask {l : Text} {ls : List Text} {ps : List Nat} {p : Nat} :
      OisLine l p → OisStatement ls ps → OisStatement (l :: ls) (p :: ps)

/-! ## The comparison -/

theorem scoreDiffers_iff (a b : Rat) : scoreDiffers a b = true ↔ ¬ SameScore a b := by
  unfold scoreDiffers SameScore
  rw [decide_eq_true_eq, not_congr]
  have h0 : (0 : Rat) ≤ 1 / 2 ^ 52 := by decide +kernel
  split
  · next h =>
    refine ⟨fun h2 => ⟨?_, h2⟩, fun h2 => h2.2⟩
    exact Rat.le_trans (by grind) h0
  · next h =>
    refine ⟨fun h2 => ⟨h2, ?_⟩, fun h2 => h2.1⟩
    exact Rat.le_trans (by grind) h0

/-- The subtasks numbered from `k`. -/
def numberedFrom (k : Nat) (scores : List Rat) : List (Nat × Rat) := (scores.zipIdx k).map (fun p => (p.2, p.1))

def FineK (k base : Nat) (scores : List Rat) (subs : List StSub) (i : Nat) : Prop :=
  ∀ m a, scores[i]? = some m → subs[i]? = some a → a.id = k + i + base ∧ ∀ s, a.score = some s → SameScore m s

/-- The error at position `i`. -/
def ErrAt (k base i : Nat) (m : Rat) (a : StSub) (e : StErr) : Prop :=
  (a.id ≠ k + i + base ∧ e = .numbering (k + i + base) a.id) ∨
  (a.id = k + i + base ∧ ∃ s, a.score = some s ∧ ¬ SameScore m s ∧ e = .score a.id m s)

theorem errAt_shift {k b i : Nat} {m : Rat} {a : StSub} {e : StErr} :
    ErrAt (k + 1) b i m a e ↔ ErrAt k b (i + 1) m a e := by
  unfold ErrAt
  rw [show k + 1 + i + b = k + (i + 1) + b by omega]

theorem fineK_shift {k b i : Nat} {m : Rat} {a : StSub} {scores : List Rat} {subs : List StSub} :
    FineK (k + 1) b scores subs i ↔ FineK k b (m :: scores) (a :: subs) (i + 1) := by
  unfold FineK
  simp only [List.getElem?_cons_succ]
  rw [show k + 1 + i + b = k + (i + 1) + b by omega]

theorem compareLoop_mem (b : Nat) (e : StErr) : ∀ (scores : List Rat) (subs : List StSub) (k : Nat),
    e ∈ compareLoop b (numberedFrom k scores) subs ↔ ∃ i m a, scores[i]? = some m ∧ subs[i]? = some a ∧
      (∀ j, j < i → FineK k b scores subs j) ∧ ErrAt k b i m a e := by
  intro scores
  induction scores with
  | nil => intro subs k; simp [numberedFrom, compareLoop]
  | cons m scores ih =>
    intro subs k
    cases subs with
    | nil => simp [numberedFrom, compareLoop]
    | cons a subs =>
      have hn : numberedFrom k (m :: scores) = (k, m) :: numberedFrom (k + 1) scores := by
        simp [numberedFrom, List.zipIdx_cons]
      rw [hn]
      have hhere : ErrAt k b 0 m a e → ∃ i m' a', (m :: scores)[i]? = some m' ∧ (a :: subs)[i]? = some a' ∧
          (∀ j, j < i → FineK k b (m :: scores) (a :: subs) j) ∧ ErrAt k b i m' a' e := by
        intro h
        exact ⟨0, m, a, rfl, rfl, fun j hj => absurd hj (Nat.not_lt_zero j), h⟩
      have hbad : ¬ FineK k b (m :: scores) (a :: subs) 0 →
          (∃ i m' a', (m :: scores)[i]? = some m' ∧ (a :: subs)[i]? = some a' ∧
            (∀ j, j < i → FineK k b (m :: scores) (a :: subs) j) ∧ ErrAt k b i m' a' e) → ErrAt k b 0 m a e := by
        rintro hnf ⟨i, m', a', h1, h2, h3, h4⟩
        cases i with
        | zero =>
          simp only [List.getElem?_cons_zero, Option.some.injEq] at h1 h2
          subst h1; subst h2; exact h4
        | succ i => exact absurd (h3 0 (Nat.succ_pos i)) hnf
      have hgood : FineK k b (m :: scores) (a :: subs) 0 →
          ((∃ i m' a', scores[i]? = some m' ∧ subs[i]? = some a' ∧
            (∀ j, j < i → FineK (k + 1) b scores subs j) ∧ ErrAt (k + 1) b i m' a' e) ↔
          (∃ i m' a', (m :: scores)[i]? = some m' ∧ (a :: subs)[i]? = some a' ∧
            (∀ j, j < i → FineK k b (m :: scores) (a :: subs) j) ∧ ErrAt k b i m' a' e)) := by
        intro hf
        constructor
        · rintro ⟨i, m', a', h1, h2, h3, h4⟩
          refine ⟨i + 1, m', a', by simpa using h1, by simpa using h2, ?_, errAt_shift.1 h4⟩
          intro j hj
          cases j with
          | zero => exact hf
          | succ j => exact fineK_shift.1 (h3 j (by omega))
        · rintro ⟨i, m', a', h1, h2, h3, h4⟩
          cases i with
          | zero =>
            exfalso
            simp only [List.getElem?_cons_zero, Option.some.injEq] at h1 h2
            subst h1; subst h2
            have := hf m a rfl rfl
            rcases h4 with ⟨h, -⟩ | ⟨-, s, hs, hns, -⟩
            · exact h this.1
            · exact hns (this.2 s hs)
          | succ i =>
            refine ⟨i, m', a', by simpa using h1, by simpa using h2, ?_, errAt_shift.2 h4⟩
            intro j hj
            exact fineK_shift.2 (h3 (j + 1) (by omega))
      unfold compareLoop
      by_cases hid : k + b ≠ a.id
      · rw [if_pos hid]
        have hnf : ¬ FineK k b (m :: scores) (a :: subs) 0 := by
          intro h
          exact hid (by have := (h m a rfl rfl).1; omega)
        refine ⟨fun h => hhere (.inl ⟨by omega, ?_⟩), fun h => ?_⟩
        · simpa using h
        · rcases hbad hnf h with ⟨-, h⟩ | ⟨h, -⟩
          · simpa using h
          · exact absurd (by omega) hid
      · rw [if_neg hid]
        cases hs : a.score with
        | none =>
          simp only
          rw [ih]
          apply hgood
          intro m' a' h1 h2
          simp only [List.getElem?_cons_zero, Option.some.injEq] at h1 h2
          subst h1; subst h2
          refine ⟨by omega, fun s h => ?_⟩
          rw [hs] at h; cases h
        | some s =>
          simp only
          by_cases hd : scoreDiffers m s = true
          · rw [if_pos hd]
            have hd' := (scoreDiffers_iff m s).1 hd
            have hnf : ¬ FineK k b (m :: scores) (a :: subs) 0 := fun h => hd' ((h m a rfl rfl).2 s hs)
            refine ⟨fun h => hhere (.inr ⟨by omega, s, hs, hd', by simpa using h⟩), fun h => ?_⟩
            rcases hbad hnf h with ⟨h, -⟩ | ⟨-, s', hs', -, h⟩
            · exact absurd (by omega) h
            · rw [hs] at hs'; cases hs'; simpa using h
          · rw [if_neg hd]
            simp only [ih]
            apply hgood
            intro m' a' h1 h2
            simp only [List.getElem?_cons_zero, Option.some.injEq] at h1 h2
            subst h1; subst h2
            refine ⟨by omega, fun s' h => ?_⟩
            rw [hs] at h; cases h
            exact Classical.byContradiction fun hn => hd ((scoreDiffers_iff m s).2 hn)

theorem fineK_zero {b i : Nat} {scores : List Rat} {subs : List StSub} :
    FineK 0 b scores subs i ↔ Fine b scores subs i := by unfold FineK Fine; simp

/-- The least position that is not fine. -/
theorem first_bad {P : Nat → Prop} (h : ¬ ∀ i, P i) : ∃ i, ¬ P i ∧ ∀ j, j < i → P j := by
  have hw : ∀ n, (∀ j, j < n → P j) ∨ ∃ i, ¬ P i ∧ ∀ j, j < i → P j := by
    intro n
    induction n with
    | zero => exact .inl (fun j hj => absurd hj (Nat.not_lt_zero j))
    | succ n ih =>
      rcases ih with ih | ih
      · by_cases hp : P n
        · exact .inl (fun j hj => if h : j = n then h ▸ hp else ih j (by omega))
        · exact .inr ⟨n, hp, ih⟩
      · exact .inr ih
  apply Classical.byContradiction
  intro hc
  exact h (fun i => (hw (i + 1)).elim (fun h => h i (by omega)) (fun h => absurd h hc))

theorem compareLoop_nil {b : Nat} {scores : List Rat} {subs : List StSub} :
    compareLoop b (numbered scores) subs = [] ↔ ∀ i, Fine b scores subs i := by
  have hmem := fun e => compareLoop_mem b e scores subs 0
  have hn : numbered scores = numberedFrom 0 scores := rfl
  rw [hn]
  constructor
  · intro h
    apply Classical.byContradiction
    intro hc
    obtain ⟨i, hi, hj⟩ := first_bad hc
    have hne : ∃ m a, scores[i]? = some m ∧ subs[i]? = some a ∧
        ¬ (a.id = i + b ∧ ∀ s, a.score = some s → SameScore m s) := by
      apply Classical.byContradiction
      intro h
      exact hi (fun m a h1 h2 => Classical.byContradiction fun h3 => h ⟨m, a, h1, h2, h3⟩)
    obtain ⟨m, a, h1, h2, h3⟩ := hne
    have hex : ∃ e, ErrAt 0 b i m a e := by
      by_cases hid : a.id = i + b
      · have : ∃ s, a.score = some s ∧ ¬ SameScore m s := by
          apply Classical.byContradiction
          intro h4
          exact h3 ⟨hid, fun s hs => Classical.byContradiction fun h5 => h4 ⟨s, hs, h5⟩⟩
        obtain ⟨s, hs, hd⟩ := this
        exact ⟨_, .inr ⟨by omega, s, hs, hd, rfl⟩⟩
      · exact ⟨_, .inl ⟨by omega, rfl⟩⟩
    obtain ⟨e, he⟩ := hex
    have := (hmem e).2 ⟨i, m, a, h1, h2, fun j h => fineK_zero.2 (hj j h), he⟩
    rw [h] at this
    cases this
  · intro h
    cases hc : compareLoop b (numberedFrom 0 scores) subs with
    | nil => rfl
    | cons e r =>
      obtain ⟨i, m, a, h1, h2, -, h4⟩ := (hmem e).1 (by rw [hc]; simp)
      have hf := h i m a h1 h2
      rcases h4 with ⟨h5, -⟩ | ⟨-, s, hs, hns, -⟩
      · exact absurd (by omega) h5
      · exact absurd (hf.2 s hs) hns

/-! ## What is found in the text -/

theorem after_iff {p s r : Text} : after p s = some r ↔ s = p ++ r := by
  unfold after
  split
  · next h =>
    obtain ⟨t, rfl⟩ := List.isPrefixOf_iff_prefix.1 h
    simp
  · next h =>
    constructor
    · intro h; cases h
    · rintro rfl
      exact absurd (List.isPrefixOf_iff_prefix.2 (List.prefix_append ..)) h

theorem takeWhile_app {p : Char → Bool} {a b : Text} (h1 : ∀ c ∈ a, p c = true)
    (h2 : ∀ c, b.head? = some c → p c = false) : (a ++ b).takeWhile p = a ∧ (a ++ b).dropWhile p = b := by
  rw [List.takeWhile_append_of_pos h1, List.dropWhile_append_of_pos h1]
  cases b with
  | nil => simp
  | cons c b => simp [List.takeWhile_cons, List.dropWhile_cons, h2 c rfl]

theorem takeDigits_of {d r : Text} (h1 : d ≠ []) (h2 : ∀ c ∈ d, isDigit c = true)
    (h3 : ∀ c, r.head? = some c → isDigit c = false) : takeDigits (d ++ r) = some (d, r) := by
  obtain ⟨ht, hd⟩ := takeWhile_app h2 h3
  unfold takeDigits
  rw [ht, hd, if_neg h1]

theorem takeDigits_decimal {n : Nat} {r : Text} (h3 : ∀ c, r.head? = some c → isDigit c = false) :
    takeDigits (decimal n ++ r) = some (decimal n, r) :=
  takeDigits_of (Format.decimal_ne_nil n) (fun _ h => Format.decimal_digits h) h3

theorem lastMatch_none {A : Type} {f : Text → Option A} {s : Text} (h : ∀ t, t <:+ s → f t = none) :
    lastMatch f s = none := by
  induction s with
  | nil => exact h [] (List.suffix_refl _)
  | cons c r ih =>
    unfold lastMatch
    rw [ih (fun t ht => h t (ht.trans (List.suffix_cons c r)))]
    exact h _ (List.suffix_refl _)

theorem lastMatch_append {A : Type} {f : Text → Option A} {pre s : Text} {a : A} (h : lastMatch f s = some a) :
    lastMatch f (pre ++ s) = some a := by
  induction pre with
  | nil => exact h
  | cons c r ih => rw [List.cons_append]; unfold lastMatch; rw [ih]

/-- The words an expression starts with; each has its first character in no other place. -/
def Words (c0 : Char) (ps : List Text) : Prop := ∀ p ∈ ps, ∃ q, p = c0 :: q ∧ c0 ∉ q

theorem lastMatch_absent {A : Type} {f : Text → Option A} {ps : List Text} {s : Text}
    (hf : ∀ t a, f t = some a → ∃ p ∈ ps, p <+: t) (h : ∀ p ∈ ps, ¬ p <:+: s) : lastMatch f s = none := by
  apply lastMatch_none
  intro t ht
  cases hm : f t with
  | none => rfl
  | some a =>
    obtain ⟨p, hp, hpt⟩ := hf t a hm
    exact absurd (hpt.isInfix.trans ht.isInfix) (h p hp)

theorem lastMatch_word {A : Type} {f : Text → Option A} {c0 : Char} {ps : List Text} (hw : Words c0 ps)
    (hf : ∀ t a, f t = some a → ∃ p ∈ ps, p <+: t) {p tail : Text} (hp : p ∈ ps)
    (h : ∀ p ∈ ps, ¬ p <:+: tail) {a : A} (hm : f (p ++ tail) = some a) (pre : Text) :
    lastMatch f (pre ++ (p ++ tail)) = some a := by
  apply lastMatch_append
  obtain ⟨q, rfl, hq⟩ := hw p hp
  rw [List.cons_append]
  unfold lastMatch
  have hnone : lastMatch f (q ++ tail) = none := by
    clear hm
    induction q with
    | nil => exact lastMatch_absent hf h
    | cons c q ih =>
      rw [List.cons_append]
      unfold lastMatch
      have hne : c0 ≠ c := by intro h; exact hq (by simp [h])
      have hno : f (c :: (q ++ tail)) = none := by
        cases hm : f (c :: (q ++ tail)) with
        | none => rfl
        | some a =>
          obtain ⟨p, hp, t, ht⟩ := hf _ a hm
          obtain ⟨q', rfl, -⟩ := hw p hp
          rw [List.cons_append, List.cons.injEq] at ht
          exact absurd ht.1 hne
      have : lastMatch f (q ++ tail) = none := by
        clear hno
        have hq' : c0 ∉ q := fun h => hq (by simp [h])
        clear hq hp ih
        induction q with
        | nil => exact lastMatch_absent hf h
        | cons d q ih2 =>
          rw [List.cons_append]
          unfold lastMatch
          rw [ih2 (fun h => hq' (by simp [h]))]
          cases hm : f (d :: (q ++ tail)) with
          | none => rfl
          | some a =>
            obtain ⟨p, hp, t, ht⟩ := hf _ a hm
            obtain ⟨q', rfl, -⟩ := hw p hp
            rw [List.cons_append, List.cons.injEq] at ht
            exact absurd (by simp [ht.1]) hq'
      rw [this]
      exact hno
  rw [hnone]
  exact hm

theorem oiiAt_word (t : Text) (a : Text × Text) (h : oiiAt t = some a) :
    ∃ p ∈ ["{Subtask ".toList], p <+: t := by
  unfold oiiAt at h
  rw [Option.bind_eq_some_iff] at h
  obtain ⟨r, hr, -⟩ := h
  exact ⟨_, List.mem_singleton.2 rfl, r, (after_iff.1 hr).symm⟩

theorem oiiAt_line {ph mid post : Text} {n p k : Nat}
    (hph : ph = [] ∨ ∃ x, x ≠ [] ∧ '}' ∉ x ∧ ¬ Has "{Subtask " x ∧ ph = "\\phantom{".toList ++ (x ++ ['}']))
    (hmid : ∀ c, mid.head? = some c → isDigit c = false) :
    oiiAt ("{Subtask ".toList ++ (decimal n ++ ('}' :: (List.replicate k ' ' ++ ('[' ::
      (ph ++ (decimal p ++ (mid ++ ']' :: post)))))))) = some (decimal n, decimal p) := by
  have h1 := takeDigits_decimal (n := n) (r := '}' :: (List.replicate k ' ' ++ ('[' ::
      (ph ++ (decimal p ++ (mid ++ ']' :: post)))))) (by intro c hc; cases hc; decide)
  have h2 : (List.replicate k ' ' ++ ('[' :: (ph ++ (decimal p ++ (mid ++ ']' :: post))))).dropWhile
      (fun c => decide (c = ' ')) = '[' :: (ph ++ (decimal p ++ (mid ++ ']' :: post))) := by
    apply (takeWhile_app ?_ ?_).2
    · intro c hc; simp [(List.mem_replicate.1 hc).2]
    · intro c hc; cases hc; decide
  have h3 : skipPhantom (ph ++ (decimal p ++ (mid ++ ']' :: post))) = some (decimal p ++ (mid ++ ']' :: post)) := by
    unfold skipPhantom
    rcases hph with rfl | ⟨x, hx, hbr, -, rfl⟩
    · rw [List.nil_append]
      have : after "\\phantom{".toList (decimal p ++ (mid ++ ']' :: post)) = none := by
        cases hm : after "\\phantom{".toList (decimal p ++ (mid ++ ']' :: post)) with
        | none => rfl
        | some r =>
          have := after_iff.1 hm
          cases hd : decimal p with
          | nil => exact absurd hd (Format.decimal_ne_nil p)
          | cons c d =>
            have hc := Format.decimal_digits (n := p) (c := c) (by rw [hd]; simp)
            rw [hd, List.cons_append, show "\\phantom{".toList = '\\' :: "phantom{".toList from rfl,
              List.cons_append, List.cons.injEq] at this
            rw [this.1] at hc
            exact absurd hc (by decide)
      rw [this]
    · have : after "\\phantom{".toList ("\\phantom{".toList ++ (x ++ ['}']) ++ (decimal p ++ (mid ++ ']' :: post))) =
          some (x ++ ('}' :: (decimal p ++ (mid ++ ']' :: post)))) := after_iff.2 (by simp)
      rw [this]
      simp only
      obtain ⟨ht, hd⟩ := takeWhile_app (p := fun c => decide (c ≠ '}')) (a := x)
        (b := '}' :: (decimal p ++ (mid ++ ']' :: post)))
        (fun c hc => by simp only [decide_eq_true_eq]; rintro rfl; exact hbr hc)
        (fun c hc => by cases hc; decide)
      rw [ht, hd, if_neg hx]
      exact after_iff.2 rfl
  have h4 := takeDigits_decimal (n := p) (r := mid ++ ']' :: post) (by
    intro c hc
    cases mid with
    | nil => cases hc; decide
    | cons d m => exact hmid c hc)
  unfold oiiAt
  rw [after_iff.2 rfl, Option.bind_some, h1, Option.bind_some]
  simp only
  have hb1 : ∀ r, after "}".toList ('}' :: r) = some r := fun r => after_iff.2 rfl
  have hb2 : ∀ r, after "[".toList ('[' :: r) = some r := fun r => after_iff.2 rfl
  rw [hb1, Option.bind_some, h2, hb2, Option.bind_some, h3, Option.bind_some, h4, Option.bind_some]
  simp

theorem words_oii : Words '{' ["{Subtask ".toList] := by
  intro p hp
  rw [List.mem_singleton] at hp
  subst hp
  exact ⟨"Subtask ".toList, rfl, by decide⟩

theorem oii_matches {lines : List Text} {ss : List (Nat × Nat)} (h : OiiStatement lines ss) :
    lines.filterMap (lastMatch oiiAt) = ss.map (fun p => (decimal p.1, decimal p.2)) := by
  induction h with
  | nil => rfl
  | other hl _ ih =>
    rw [List.filterMap_cons, lastMatch_absent oiiAt_word (by intro p hp; rw [List.mem_singleton] at hp; subst hp; exact hl)]
    exact ih
  | @subtask l ls ss n p hl _ ih =>
    obtain ⟨pre, ph, mid, post, k, rfl, h1, h2, h3⟩ := hl
    rw [List.filterMap_cons, lastMatch_word words_oii oiiAt_word (List.mem_singleton.2 rfl)
      (by intro p hp; rw [List.mem_singleton] at hp; subst hp; exact h3) (oiiAt_line h1 h2) pre]
    simp [ih]

theorem oiiLoop_of {ss : List (Nat × Nat)} (h : ∀ s ∈ ss, s.1 < 2 ^ 32) :
    oiiLoop (ss.map (fun p => (decimal p.1, decimal p.2))) =
      some (ss.map (fun p => ⟨p.1, some (p.2 : Rat)⟩)) := by
  induction ss with
  | nil => rfl
  | cons s ss ih =>
    rw [List.map_cons, oiiLoop, parseU32, Format.digitsVal_decimal, if_pos (h s (by simp))]
    simp only
    rw [ih (fun s hs => h s (by simp [hs])), Format.digitsVal_decimal]
    rfl

theorem oii_none {lines : List Text} (h : ∀ l ∈ lines, ¬ Has "{Subtask " l) : subtasksOii lines = none := by
  have : lines.filterMap (lastMatch oiiAt) = [] := by
    rw [List.filterMap_eq_nil_iff]
    intro l hl
    exact lastMatch_absent oiiAt_word (by intro p hp; rw [List.mem_singleton] at hp; subst hp; exact h l hl)
  unfold subtasksOii
  rw [this]
  rfl

theorem subtask_word (t : Text) (a : Text) (h : after "\\subtask".toList t = some a) :
    ∃ p ∈ ["\\subtask".toList], p <+: t := ⟨_, List.mem_singleton.2 rfl, a, (after_iff.1 h).symm⟩

theorem lastMatch_after {p l : Text} : (lastMatch (after p) l).isSome = true ↔ p <:+: l := by
  constructor
  · intro h
    apply Classical.byContradiction
    intro hn
    rw [lastMatch_absent (ps := [p]) (fun t a h => ⟨p, List.mem_singleton.2 rfl, a, (after_iff.1 h).symm⟩)
      (by intro q hq; rw [List.mem_singleton] at hq; subst hq; exact hn)] at h
    cases h
  · rintro ⟨s, t, rfl⟩
    rw [List.append_assoc]
    have : (lastMatch (after p) (p ++ t)).isSome = true := by
      cases hpt : p ++ t with
      | nil =>
        have hp : p = [] := (List.append_eq_nil_iff.1 hpt).1
        subst hp
        rfl
      | cons c r =>
        unfold lastMatch
        split
        · rfl
        · rw [← hpt, after_iff.2 rfl]; rfl
    obtain ⟨a, ha⟩ := Option.isSome_iff_exists.1 this
    rw [lastMatch_append ha]
    rfl

theorem filterMap_length {A B : Type} (f : A → Option B) (l : List A) :
    (l.filterMap f).length = (l.filter (fun a => (f a).isSome)).length := by
  induction l with
  | nil => rfl
  | cons a l ih =>
    rw [List.filterMap_cons, List.filter_cons]
    cases f a with
    | none => exact ih
    | some b => simp [ih]

theorem new_none {lines : List Text} (h : ∀ l ∈ lines, ¬ Has "\\subtask" l) : subtasksNew lines = none := by
  have : lines.filterMap (lastMatch (after "\\subtask".toList)) = [] := by
    rw [List.filterMap_eq_nil_iff]
    intro l hl
    exact lastMatch_absent subtask_word (by intro p hp; rw [List.mem_singleton] at hp; subst hp; exact h l hl)
  unfold subtasksNew
  rw [this]
  rfl

theorem oisAt_word (t : Text) (a : Text) (h : oisAt t = some a) :
    ∃ p ∈ ["\\OISubtask{".toList, "\\IIOTsubtask{".toList], p <+: t := by
  unfold oisAt at h
  rw [Option.bind_eq_some_iff] at h
  obtain ⟨r, hr, -⟩ := h
  rw [Option.or_eq_some_iff] at hr
  rcases hr with hr | ⟨-, hr⟩
  · exact ⟨_, List.mem_cons_self, r, (after_iff.1 hr).symm⟩
  · exact ⟨_, List.mem_cons_of_mem _ List.mem_cons_self, r, (after_iff.1 hr).symm⟩

theorem words_ois : Words '\\' ["\\OISubtask{".toList, "\\IIOTsubtask{".toList] := by
  intro p hp
  rcases List.mem_cons.1 hp with rfl | hp
  · exact ⟨"OISubtask{".toList, rfl, by decide⟩
  · rw [List.mem_singleton] at hp
    subst hp
    exact ⟨"IIOTsubtask{".toList, rfl, by decide⟩

theorem oisAt_line {w : String} {p n : Nat} {c : Char} {txt post : Text}
    (hw : w = "\\OISubtask{" ∨ w = "\\IIOTsubtask{") :
    oisAt (w.toList ++ (decimal p ++ ("}{".toList ++ (decimal n ++ ("}{".toList ++ (c :: (txt ++ '}' :: post))))))) =
      some (decimal p) := by
  have hhead : ∀ (r : Text) (c : Char), ("}{".toList ++ r).head? = some c → isDigit c = false := by
    intro r c hc
    rw [show "}{".toList ++ r = '}' :: '{' :: r from rfl] at hc
    cases hc
    decide
  have hfirst : (after "\\OISubtask{".toList (w.toList ++ (decimal p ++ ("}{".toList ++ (decimal n ++ ("}{".toList ++
      (c :: (txt ++ '}' :: post)))))))).or (after "\\IIOTsubtask{".toList (w.toList ++ (decimal p ++ ("}{".toList ++
      (decimal n ++ ("}{".toList ++ (c :: (txt ++ '}' :: post)))))))) =
      some (decimal p ++ ("}{".toList ++ (decimal n ++ ("}{".toList ++ (c :: (txt ++ '}' :: post)))))) := by
    rcases hw with rfl | rfl
    · rw [after_iff.2 rfl]; rfl
    · have : ∀ r, after "\\OISubtask{".toList ("\\IIOTsubtask{".toList ++ r) = none := by
        intro r
        rw [show "\\OISubtask{".toList = '\\' :: 'O' :: "ISubtask{".toList from rfl,
          show "\\IIOTsubtask{".toList ++ r = '\\' :: 'I' :: ("IOTsubtask{".toList ++ r) from rfl]
        rfl
      rw [this, after_iff.2 rfl]
      rfl
  unfold oisAt
  rw [hfirst, Option.bind_some, takeDigits_decimal (hhead _), Option.bind_some]
  simp only
  rw [after_iff.2 rfl, Option.bind_some, takeDigits_decimal (hhead _), Option.bind_some]
  simp only
  rw [after_iff.2 rfl, Option.bind_some, if_pos (by simp)]

theorem ois_matches {lines : List Text} {ps : List Nat} (h : OisStatement lines ps) :
    lines.filterMap (lastMatch oisAt) = ps.map decimal := by
  induction h with
  | nil => rfl
  | other hl1 hl2 _ ih =>
    rw [List.filterMap_cons, lastMatch_absent oisAt_word (by
      intro p hp
      rcases List.mem_cons.1 hp with rfl | hp
      · exact hl1
      · rw [List.mem_singleton] at hp; subst hp; exact hl2)]
    exact ih
  | @subtask l ls ps p hl _ ih =>
    obtain ⟨pre, w, n, c, txt, post, hw, rfl, h3⟩ := hl
    rw [List.filterMap_cons, lastMatch_word (p := w.toList) words_ois oisAt_word (by rcases hw with rfl | rfl <;> simp)
      (by
        intro p hp
        rcases List.mem_cons.1 hp with rfl | hp
        · exact h3 _ List.mem_cons_self
        · rw [List.mem_singleton] at hp; subst hp; exact h3 _ (List.mem_cons_of_mem _ List.mem_cons_self))
      (oisAt_line hw) pre]
    simp [ih]

/-! ## Properties -/

/-- **C81** In a statement in the first format the subtasks found are the ones there are. -/
theorem oii_found {lines : List Text} {ss : List (Nat × Nat)} (h : OiiStatement lines ss) (hne : ss ≠ [])
    (hn : ∀ s ∈ ss, s.1 < 2 ^ 32) :
    extractSubtasks lines = some (ss.map (fun p => ⟨p.1, some (p.2 : Rat)⟩)) := by
  have : subtasksOii lines = some (ss.map (fun p => ⟨p.1, some (p.2 : Rat)⟩)) := by
    unfold subtasksOii
    rw [oii_matches h, oiiLoop_of hn, Option.bind_some, nonEmpty, if_neg (by simpa using hne)]
  unfold extractSubtasks
  rw [this]
  rfl

/-- **C81** In a statement in the second format there is a subtask for each line with `\subtask`, numbered
from 0. -/
theorem new_found {lines : List Text} (h1 : ∀ l ∈ lines, ¬ Has "{Subtask " l) (h2 : ∃ l ∈ lines, Has "\\subtask" l)
    [DecidablePred (Has "\\subtask")] :
    extractSubtasks lines =
      some ((List.range (lines.filter (fun l => decide (Has "\\subtask" l))).length).map (fun i => ⟨i, none⟩)) := by
  have hlen : (lines.filterMap (lastMatch (after "\\subtask".toList))).length =
      (lines.filter (fun l => decide (Has "\\subtask" l))).length := by
    rw [filterMap_length]
    congr 1
    apply List.filter_congr
    intro l _
    rw [Bool.eq_iff_iff, lastMatch_after, decide_eq_true_eq]
    rfl
  have hmap : ∀ (l : List Text) (k : Nat), (l.zipIdx k).map (fun p => (⟨p.2, none⟩ : StSub)) =
      (List.range' k l.length).map (fun i => ⟨i, none⟩) := by
    intro l
    induction l with
    | nil => intro k; rfl
    | cons a l ih => intro k; simp [List.zipIdx_cons, List.range'_succ, ih]
  have : subtasksNew lines = some ((List.range (lines.filter (fun l => decide (Has "\\subtask" l))).length).map
      (fun i => ⟨i, none⟩)) := by
    unfold subtasksNew
    rw [hmap, hlen, ← List.range_eq_range', nonEmpty, if_neg]
    obtain ⟨l, hl, hs⟩ := h2
    have : l ∈ lines.filter (fun l => decide (Has "\\subtask" l)) := List.mem_filter.2 ⟨hl, by simpa using hs⟩
    cases hc : lines.filter (fun l => decide (Has "\\subtask" l)) with
    | nil => rw [hc] at this; cases this
    | cons a b => simp
  unfold extractSubtasks
  rw [oii_none h1, this]
  rfl

/-- **C81** In a statement in the third format the points found are the ones there are. -/
theorem ois_found {lines : List Text} {ps : List Nat} (h : OisStatement lines ps) (hne : ps ≠ [])
    (h1 : ∀ l ∈ lines, ¬ Has "{Subtask " l) (h2 : ∀ l ∈ lines, ¬ Has "\\subtask" l) :
    extractSubtasks lines = some (ps.zipIdx.map (fun p => ⟨p.2, some (p.1 : Rat)⟩)) := by
  have hmap : ∀ (ps : List Nat) (k : Nat), ((ps.map decimal).zipIdx k).map
      (fun p => (⟨p.2, some (digitsVal p.1 : Rat)⟩ : StSub)) = (ps.zipIdx k).map (fun p => ⟨p.2, some (p.1 : Rat)⟩) := by
    intro ps
    induction ps with
    | nil => intro k; rfl
    | cons a l ih => intro k; simp [List.zipIdx_cons, ih, Format.digitsVal_decimal]
  have : subtasksOis lines = some (ps.zipIdx.map (fun p => ⟨p.2, some (p.1 : Rat)⟩)) := by
    unfold subtasksOis
    rw [ois_matches h, hmap, nonEmpty, if_neg]
    cases ps with
    | nil => exact absurd rfl hne
    | cons a l => simp [List.zipIdx_cons]
  unfold extractSubtasks
  rw [oii_none h1, new_none h2, this]
  rfl

theorem errors_eq {task : List (Nat × Rat)} {lines : List Text} {a : StSub} {rest : List StSub}
    (h : extractSubtasks lines = some (a :: rest)) : statementErrors task lines =
      compareLoop (if a.id = 1 then 1 else 0) task (a :: rest) ++
        (if task.length ≠ (a :: rest).length then [.count task.length (a :: rest).length] else []) := by
  unfold statementErrors
  rw [h]
  rfl

/-- **C81** No error is shown if and only if the subtasks found in the statement are those of the task, numbered
from 0 or from 1, with their scores where there are scores. -/
theorem statement_accepted {scores : List Rat} {lines : List Text} {subs : List StSub}
    (h : extractSubtasks lines = some subs) : statementErrors (numbered scores) lines = [] ↔ Agree scores subs := by
  have hne : subs ≠ [] := by
    rintro rfl
    have hn : ∀ l, nonEmpty l ≠ some [] := by
      intro l h
      unfold nonEmpty at h
      split at h
      · cases h
      · next hc => cases h; exact hc rfl
    unfold extractSubtasks at h
    rw [Option.or_eq_some_iff, Option.or_eq_some_iff] at h
    rcases h with h | ⟨-, h | ⟨-, h⟩⟩
    · unfold subtasksOii at h
      obtain ⟨l, -, h⟩ := Option.bind_eq_some_iff.1 h
      exact hn l h
    · exact hn _ h
    · exact hn _ h
  obtain ⟨a, rest, rfl⟩ := List.exists_cons_of_ne_nil hne
  rw [errors_eq h, List.append_eq_nil_iff]
  have hlen : (numbered scores).length = scores.length := by simp [numbered]
  rw [hlen, compareLoop_nil]
  unfold Agree
  constructor
  · rintro ⟨h1, h2⟩
    have hl : scores.length = (a :: rest).length := by
      by_cases hl : scores.length = (a :: rest).length
      · exact hl
      · rw [if_pos hl] at h2; cases h2
    refine ⟨hl.symm, ?_⟩
    by_cases hid : a.id = 1
    · rw [if_pos hid] at h1; exact .inr h1
    · rw [if_neg hid] at h1; exact .inl h1
  · rintro ⟨hl, hf⟩
    refine ⟨?_, by rw [if_neg (by simp [hl])]⟩
    have hm : ∃ m, scores[0]? = some m := by
      cases scores with
      | nil => simp at hl
      | cons m _ => exact ⟨m, rfl⟩
    obtain ⟨m, hm⟩ := hm
    rcases hf with hf | hf
    · have := (hf 0 m a hm rfl).1
      rw [if_neg (by omega)]
      exact hf
    · have := (hf 0 m a hm rfl).1
      rw [if_pos (by omega)]
      exact hf

/-- **C81** The error about the numbers and the one about the scores are about the first subtask that does not
agree; the error about the number of subtasks is shown when it is different. -/
theorem statement_errors_exact {scores : List Rat} {lines : List Text} {a : StSub} {rest : List StSub}
    (h : extractSubtasks lines = some (a :: rest)) (e : StErr) :
    e ∈ statementErrors (numbered scores) lines ↔
      (∃ i m x, scores[i]? = some m ∧ (a :: rest)[i]? = some x ∧
        (∀ j, j < i → Fine (if a.id = 1 then 1 else 0) scores (a :: rest) j) ∧
        ((x.id ≠ i + (if a.id = 1 then 1 else 0) ∧ e = .numbering (i + (if a.id = 1 then 1 else 0)) x.id) ∨
          (x.id = i + (if a.id = 1 then 1 else 0) ∧ ∃ s, x.score = some s ∧ ¬ SameScore m s ∧ e = .score x.id m s))) ∨
      (scores.length ≠ (a :: rest).length ∧ e = .count scores.length (a :: rest).length) := by
  rw [errors_eq h, List.mem_append]
  have hlen : (numbered scores).length = scores.length := by simp [numbered]
  have := compareLoop_mem (if a.id = 1 then 1 else 0) e scores (a :: rest) 0
  simp only [fineK_zero, ErrAt, Nat.zero_add] at this
  rw [hlen]
  refine or_congr this ?_
  by_cases hl : scores.length ≠ (a :: rest).length
  · rw [if_pos hl, List.mem_singleton]
    exact ⟨fun h => ⟨hl, h⟩, fun h => h.2⟩
  · rw [if_neg hl]
    exact ⟨fun h => (nomatch h), fun h => absurd h.1 hl⟩

/-- **C81** ... each error is about a booklet with one statement, and each of them is looked at. -/
theorem booklet_errors_exact (task : List (Nat × Rat)) (booklets : List (List (List Text))) (i : Nat) (e : StErr) :
    (i, e) ∈ statementSubtasks task booklets ↔
      ∃ lines, booklets[i]? = some [lines] ∧ e ∈ statementErrors task lines := by
  unfold statementSubtasks
  rw [List.mem_flatMap]
  constructor
  · rintro ⟨⟨b, k⟩, hb, he⟩
    rw [List.mem_zipIdx_iff_getElem?] at hb
    simp only at hb he
    split at he
    · next lines =>
      obtain ⟨e', he', heq⟩ := List.mem_map.1 he
      cases heq
      exact ⟨lines, hb, he'⟩
    · cases he
  · rintro ⟨lines, hb, he⟩
    exact ⟨([lines], i), List.mem_zipIdx_iff_getElem?.2 hb, List.mem_map.2 ⟨e, he, rfl⟩⟩

/-- **C81** ... the lines that are comments count: the subtasks that can be seen are those of the task and there
is an error. -/
theorem statement_comment_counted : ∃ (scores : List Rat) (lines : List Text),
    lines = ["\\subtask $N = 1$".toList, "% \\subtask $N = 2$".toList] ∧ scores = [100] ∧
    statementErrors (numbered scores) lines = [.count 1 2] := by
  refine ⟨_, _, rfl, rfl, ?_⟩
  decide +kernel

/-! ## Examples -/

/-- A statement in the first format. -/
def demoOii : List Text :=
  ["\\section*{Subtasks}".toList, "\\item \\textbf{\\makebox[2cm][l]{Subtask 1} [\\phantom{1}0 punti]}: examples.".toList,
   "\\item \\textbf{\\makebox[2cm][l]{Subtask 2} [20 punti]}: $L\\leq 10$.".toList]

theorem demoOii_ok : OiiStatement demoOii [(1, 0), (2, 20)] := by
  have hno : ∀ l : Text, (lastMatch (after "{Subtask ".toList) l).isSome = false → ¬ Has "{Subtask " l := by
    intro l h hc
    rw [lastMatch_after.2 hc] at h
    cases h
  refine .other (hno _ (by decide +kernel)) (.subtask ?_ (.subtask ?_ .nil))
  · refine ⟨"\\item \\textbf{\\makebox[2cm][l]".toList, "\\phantom{1}".toList, " punti".toList, "}: examples.".toList, 1,
      by decide +kernel, .inr ⟨['1'], by decide, by decide, hno _ (by decide +kernel), by decide +kernel⟩, ?_,
      hno _ (by decide +kernel)⟩
    intro c hc
    rw [show " punti".toList.head? = some ' ' from rfl] at hc
    cases hc
    decide
  · refine ⟨"\\item \\textbf{\\makebox[2cm][l]".toList, [], " punti".toList, "}: $L\\leq 10$.".toList, 1,
      by decide +kernel, .inl rfl, ?_, hno _ (by decide +kernel)⟩
    intro c hc
    rw [show " punti".toList.head? = some ' ' from rfl] at hc
    cases hc
    decide

/-- The subtasks are found and agree with those of a task. -/
example : statementErrors (numbered [0, 20]) demoOii = [] := by decide +kernel
example : statementErrors (numbered [0, 30]) demoOii = [.score 2 30 20] := by decide +kernel
example : statementErrors (numbered [0, 20, 80]) demoOii = [.count 3 2] := by decide +kernel
example : extractSubtasks demoOii = some [⟨1, some 0⟩, ⟨2, some 20⟩] :=
  oii_found demoOii_ok (by decide) (by decide)
example : Agree [0, 20] [⟨1, some 0⟩, ⟨2, some 20⟩] :=
  (statement_accepted (oii_found demoOii_ok (by decide) (by decide))).1 (by decide +kernel)
example : extractSubtasks ["\\OISubtask{10}{1}{$N \\le 10$.}".toList, "text".toList, "\\OISubtask{90}{1}{No limits}".toList] =
    some [⟨0, some 10⟩, ⟨1, some 90⟩] := by decide +kernel
example : extractSubtasks ["\\item \\subtask $L\\leq 10$.".toList, "text".toList] = some [⟨0, none⟩] := by decide +kernel

/-- A statement in the third format. -/
theorem demoOis_ok : OisStatement ["\\OISubtask{10}{1}{$N \\le 10$.}".toList, "text".toList] [10] := by
  have hno : ∀ (w : String) (l : Text), (lastMatch (after w.toList) l).isSome = false → ¬ Has w l := by
    intro w l h hc
    rw [lastMatch_after.2 hc] at h
    cases h
  refine .subtask ⟨[], "\\OISubtask{", 1, '$', "N \\le 10$.".toList, [], .inl rfl, by decide +kernel, ?_⟩
    (.other (hno _ _ (by decide +kernel)) (hno _ _ (by decide +kernel)) .nil)
  intro w hw
  rcases List.mem_cons.1 hw with rfl | hw
  · exact hno _ _ (by decide +kernel)
  · rw [List.mem_singleton] at hw
    subst hw
    exact hno _ _ (by decide +kernel)

end TM.Sanity
