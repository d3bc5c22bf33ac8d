import Verif.Lang.ImportsProps

/-!
# The imports of a Python file are found
-/
namespace TM.Lang
open TM TM.Text

/-- A line of a Python file. -/
inductive PyLine where
  /-- `import first, second, ...`; each name after the first has some blanks before and after. -/
  | import_ (indent blanks first pad : Text) (others : List (Text × Text × Text))
  /-- `from name import tail` -/
  | from_ (indent blanks name blanks' tail : Text)
  /-- Anything else. -/
  | other (t : Text)

/-- The text of the names. -/
def namesText (first pad : Text) (others : List (Text × Text × Text)) : Text :=
  first ++ pad ++ others.flatMap (fun o => ',' :: (o.1 ++ o.2.1 ++ o.2.2))

/-- The text of the line. -/
def PyLine.text : PyLine → Text
  | .import_ indent blanks first pad others =>
    indent ++ "import".toList ++ blanks ++ namesText first pad others
  | .from_ indent blanks name blanks' tail =>
    indent ++ "from".toList ++ blanks ++ name ++ blanks' ++ "import".toList ++ tail
  | .other t => t

/-- The files the line imports. -/
def PyLine.files : PyLine → List Text
  | .import_ _ _ first _ others => (first :: others.map (·.2.1)).map (· ++ ".py".toList)
  | .from_ _ _ name _ _ => [name ++ ".py".toList]
  | .other _ => []

/-- One or more blanks. -/
def Blanks (t : Text) : Prop := t ≠ [] ∧ ∀ c ∈ t, c = ' '

/-- The name of a module. -/
def IsName (t : Text) : Prop := t ≠ [] ∧ ∀ c ∈ t, TM.Solution.isWs c = false ∧ c ≠ ','

/-- White space in a line. -/
def Pad (t : Text) : Prop := ∀ c ∈ t, c = ' ' ∨ c = '\t'

/-- The line is well formed. -/
def PyLine.Ok : PyLine → Prop
  | .import_ indent blanks first pad others =>
    Pad indent ∧ Blanks blanks ∧ IsName first ∧ Pad pad ∧
      ∀ o ∈ others, Pad o.1 ∧ IsName o.2.1 ∧ Pad o.2.2
  | .from_ indent blanks name blanks' tail =>
    Pad indent ∧ Blanks blanks ∧ IsName name ∧ Blanks blanks' ∧ '\n' ∉ tail ∧
      Free "import".toList tail
  | .other t => '\n' ∉ t ∧ Free "import".toList t

/-- What may follow a line. -/
def LineEnd (b : Text) : Prop := b = [] ∨ ∃ r, b = '\n' :: r

theorem word_inside {w a b : Text} (hw : '\n' ∉ w) (hb : LineEnd b) (h : w.isPrefixOf (a ++ b) = true) :
    ∃ r, a = w ++ r := by
  obtain ⟨r, hr⟩ := List.isPrefixOf_iff_prefix.1 h
  induction w generalizing a with
  | nil => exact ⟨a, rfl⟩
  | cons c w ih =>
    cases a with
    | nil =>
      rcases hb with rfl | ⟨t, rfl⟩
      · simp at hr
      · simp at hr
        exact absurd (by rw [hr.1]; exact List.mem_cons_self ..) hw
    | cons x a =>
      simp only [List.cons_append, List.cons.injEq] at hr
      obtain ⟨r', e⟩ := ih (fun h => hw (List.mem_cons_of_mem _ h))
        (List.isPrefixOf_iff_prefix.2 ⟨r, hr.2⟩) hr.2
      exact ⟨r', by rw [hr.1, e]; rfl⟩

theorem lastImport_none {t : Text} (h : ∀ c cs, t = c :: cs → Free blankImport cs) :
    lastImport t = none := by
  induction t with
  | nil => rfl
  | cons c cs ih =>
    have hf := h c cs rfl
    rw [lastImport, ih (by
      intro x xs e
      subst e
      exact hf.tail)]
    simp only []
    rw [if_neg]
    intro hp
    obtain ⟨r, hr⟩ := List.isPrefixOf_iff_prefix.1 hp
    exact hf ⟨[], r, by rw [List.nil_append, hr]⟩

theorem free_blank {t : Text} (h : Free importWord t) : Free blankImport t := by
  rintro ⟨a, b, rfl⟩
  exact h ⟨a ++ [' '], b, by simp⟩

theorem free_cons {c : Char} {t : Text} (h : Free importWord t) (hc : c ≠ 'i') :
    Free importWord (c :: t) := by
  rintro ⟨a, b, e⟩
  cases a with
  | nil => simp at e; exact hc e.1
  | cons x a =>
    simp only [List.cons_append, List.cons.injEq] at e
    exact h ⟨a, b, e.2⟩

theorem lastImport_some {a tail : Text} (ha : a ≠ []) (ht : Free importWord tail) :
    lastImport (a ++ blankImport ++ tail) = some (a, tail) := by
  induction a with
  | nil => exact absurd rfl ha
  | cons c a ih =>
    cases a with
    | nil =>
      have hn : lastImport (blankImport ++ tail) = none := by
        apply lastImport_none
        intro x xs e
        simp only [List.cons_append, List.nil_append, List.cons.injEq] at e
        obtain ⟨_, rfl⟩ := e
        have h5 : Free importWord ('m' :: 'p' :: 'o' :: 'r' :: 't' :: tail) :=
          free_cons (free_cons (free_cons (free_cons (free_cons ht (by decide)) (by decide))
            (by decide)) (by decide)) (by decide)
        rintro ⟨p, q, e⟩
        cases p with
        | nil => simp at e
        | cons y p =>
          simp only [List.cons_append, List.cons.injEq] at e
          exact free_blank h5 ⟨p, q, by simpa using e.2⟩
      change lastImport (c :: (blankImport ++ tail)) = _
      rw [lastImport, hn]
      simp only []
      rw [if_pos (List.isPrefixOf_iff_prefix.2 ⟨_, rfl⟩)]
      rfl
    | cons d a =>
      have := ih (by simp)
      change lastImport (c :: (d :: a ++ blankImport ++ tail)) = _
      rw [lastImport, this]

theorem takeWhile_line {a b : Text} (h : '\n' ∉ a) (hb : LineEnd b) :
    (a ++ b).takeWhile notNl = a ∧ (a ++ b).dropWhile notNl = b := by
  have ha : ∀ c ∈ a, notNl c = true := by
    intro c hc
    simp only [notNl, bne_iff_ne]
    rintro rfl; exact h hc
  rw [takeWhile_all ha, dropWhile_all ha]
  rcases hb with rfl | ⟨r, rfl⟩
  · simp
  · simp [notNl]

theorem dropWhile_sub {p : Char → Bool} (t : Text) : ∃ a, t = a ++ t.dropWhile p :=
  ⟨t.takeWhile p, (List.takeWhile_append_dropWhile).symm⟩

/-- Nothing is found in the text of a line without `import`. -/
theorem importAt_free {c : Char} {a b : Text} (hn : '\n' ∉ c :: a) (hf : Free importWord (c :: a))
    (hb : LineEnd b) : importAt (c :: a ++ b) = none := by
  unfold importAt
  rw [if_neg]
  · split
    · rename_i h
      obtain ⟨r, hr⟩ := word_inside (by decide) hb h
      have hdrop : (c :: a ++ b).drop 4 = r ++ b := by
        rw [hr]; rfl
      simp only [hdrop]
      have hnr : '\n' ∉ r := by
        intro h; apply hn; rw [hr]; exact List.mem_append_right _ h
      have hfr : Free importWord r := by
        rintro ⟨x, y, rfl⟩
        exact hf ⟨fromWord ++ x, y, by rw [hr]; simp⟩
      -- the blanks
      have hsp : ∃ r', '\n' ∉ r' ∧ Free importWord r' ∧
          (r ++ b).dropWhile (· == ' ') = r' ++ b := by
        clear hdrop hr h
        induction r with
        | nil =>
          refine ⟨[], by simp, ?_, ?_⟩
          · rintro ⟨x, y, e⟩
            have := congrArg List.length e
            simp at this
          · rcases hb with rfl | ⟨t, rfl⟩ <;> simp
        | cons x r ih =>
          rw [List.cons_append, List.dropWhile_cons]
          split
          · exact ih (fun h => hnr (List.mem_cons_of_mem _ h)) hfr.tail
          · exact ⟨x :: r, hnr, hfr, rfl⟩
      obtain ⟨r', h1, h2, h3⟩ := hsp
      simp only [h3, (takeWhile_line h1 hb).1]
      split
      · rfl
      · have hl : lastImport r' = none := lastImport_none (by
          intro x xs e
          subst e
          exact free_blank h2.tail)
        rw [hl]
        simp only []
        rw [if_neg]
        intro hc
        rw [Bool.and_eq_true] at hc
        obtain ⟨q, hq⟩ := List.isPrefixOf_iff_prefix.1 hc.2
        exact h2 ⟨[], q, by rw [List.nil_append, hq]⟩
    · rfl
  · intro h
    obtain ⟨r, hr⟩ := word_inside (by decide) hb h
    exact hf ⟨[], r, by rw [List.nil_append, hr]⟩

theorem scan_free {t b : Text} (hn : '\n' ∉ t) (hf : Free importWord t) (hb : LineEnd b) (n : Nat)
    (hl : (t ++ b).length ≤ n) :
    ∃ m, b.length ≤ m ∧ scan importAt n (t ++ b) = scan importAt m b := by
  induction t generalizing n with
  | nil => exact ⟨n, hl, rfl⟩
  | cons c t ih =>
    cases n with
    | zero => simp at hl
    | succ n =>
      have h1 : scan importAt (n + 1) (c :: t ++ b) = scan importAt n (t ++ b) := by
        have := importAt_free hn hf hb
        rw [List.cons_append] at this ⊢
        rw [scan, this]
      rw [h1]
      exact ih (fun h => hn (List.mem_cons_of_mem _ h)) hf.tail n (by simp at hl ⊢; omega)

/-- Nothing starts at the blanks before a line. -/
theorem scan_pad {t b : Text} (hp : Pad t) (n : Nat) (hl : (t ++ b).length ≤ n) :
    ∃ m, b.length ≤ m ∧ scan importAt n (t ++ b) = scan importAt m b := by
  induction t generalizing n with
  | nil => exact ⟨n, hl, rfl⟩
  | cons c t ih =>
    cases n with
    | zero => simp at hl
    | succ n =>
      have h0 : importAt (c :: (t ++ b)) = none := by
        unfold importAt
        rcases hp c (List.mem_cons_self ..) with rfl | rfl
        · rw [if_neg (by simp [List.isPrefixOf]), if_neg (by simp [List.isPrefixOf])]
        · rw [if_neg (by simp [List.isPrefixOf]), if_neg (by simp [List.isPrefixOf])]
      rw [List.cons_append, scan, h0]
      exact ih (fun x hx => hp x (List.mem_cons_of_mem _ hx)) n (by simp at hl ⊢; omega)

/-! ## Names -/

theorem splitComma_append {a : Text} (h : ',' ∉ a) (b : Text) :
    splitComma (a ++ ',' :: b) = a :: splitComma b := by
  induction a with
  | nil => simp [splitComma]
  | cons c a ih =>
    have hc : c ≠ ',' := fun e => h (by rw [e]; exact List.mem_cons_self ..)
    rw [List.cons_append, splitComma, if_neg hc, ih (fun h' => h (List.mem_cons_of_mem _ h'))]

theorem splitComma_single {a : Text} (h : ',' ∉ a) : splitComma a = [a] := by
  induction a with
  | nil => rfl
  | cons c a ih =>
    have hc : c ≠ ',' := fun e => h (by rw [e]; exact List.mem_cons_self ..)
    rw [splitComma, if_neg hc, ih (fun h' => h (List.mem_cons_of_mem _ h'))]

theorem pad_ws {t : Text} (h : Pad t) : ∀ c ∈ t, TM.Solution.isWs c = true := by
  intro c hc
  rcases h c hc with rfl | rfl <;> decide

theorem trim_name {l n r : Text} (hl : ∀ c ∈ l, TM.Solution.isWs c = true) (hn : IsName n)
    (hr : ∀ c ∈ r, TM.Solution.isWs c = true) : trim (l ++ n ++ r) = n := by
  unfold trim
  rw [List.append_assoc, dropWhile_all hl]
  obtain ⟨c, cs, rfl⟩ : ∃ c cs, n = c :: cs := by
    cases hh : n with
    | nil => exact absurd hh hn.1
    | cons c cs => exact ⟨c, cs, rfl⟩
  rw [List.cons_append, List.dropWhile_cons, if_neg (by
    rw [(hn.2 c (List.mem_cons_self ..)).1]; simp)]
  rw [← List.cons_append, List.reverse_append, dropWhile_all (by simpa using hr)]
  have hne : (c :: cs) ≠ [] := by simp
  have hlast : ∃ x xs, (c :: cs).reverse = x :: xs := by
    cases hh : (c :: cs).reverse with
    | nil => simp at hh
    | cons x xs => exact ⟨x, xs, rfl⟩
  obtain ⟨x, xs, hx⟩ := hlast
  rw [hx, List.dropWhile_cons, if_neg, ← hx, List.reverse_reverse]
  have : x ∈ c :: cs := by
    rw [← List.mem_reverse, hx]; exact List.mem_cons_self ..
  rw [(hn.2 x this).1]; simp

theorem name_no_comma {l n r : Text} (hl : Pad l) (hn : IsName n) (hr : Pad r) :
    ',' ∉ l ++ n ++ r := by
  intro h
  rcases List.mem_append.1 h with h | h
  · rcases List.mem_append.1 h with h | h
    · rcases hl _ h with e | e <;> cases e
    · exact (hn.2 _ h).2 rfl
  · rcases hr _ h with e | e <;> cases e

theorem names_split (first pad : Text) (others : List (Text × Text × Text)) (hf : IsName first)
    (hp : Pad pad) (ho : ∀ o ∈ others, Pad o.1 ∧ IsName o.2.1 ∧ Pad o.2.2) :
    (splitComma (namesText first pad others)).map trim = first :: others.map (·.2.1) := by
  have main : ∀ (l n r : Text), Pad l → IsName n → Pad r →
      (splitComma (l ++ n ++ r ++ others.flatMap (fun o => ',' :: (o.1 ++ o.2.1 ++ o.2.2)))).map trim =
        n :: others.map (·.2.1) := by
    induction others with
    | nil =>
      intro l n r hl hn hr
      rw [List.flatMap_nil, List.append_nil, splitComma_single (name_no_comma hl hn hr)]
      simp only [List.map_cons, List.map_nil]
      rw [trim_name (pad_ws hl) hn (pad_ws hr)]
    | cons o others ih =>
      intro l n r hl hn hr
      have h1 := ho o (List.mem_cons_self ..)
      rw [List.flatMap_cons, List.cons_append, splitComma_append (name_no_comma hl hn hr)]
      simp only [List.map_cons]
      rw [trim_name (pad_ws hl) hn (pad_ws hr),
        ih (fun o ho' => ho o (List.mem_cons_of_mem _ ho')) o.1 o.2.1 o.2.2 h1.1 h1.2.1 h1.2.2]
  have := main [] first pad (by intro c hc; cases hc) hf hp
  simpa [namesText] using this

theorem blanks_prefix {bl r : Text} (hb : Blanks bl) (hr : ∀ c cs, r = c :: cs → c ≠ ' ') :
    (bl ++ r).dropWhile (· == ' ') = r ∧ ∃ x xs, (bl ++ r).takeWhile (· == ' ') = x :: xs := by
  have ha : ∀ c ∈ bl, (fun x : Char => x == ' ') c = true := by
    intro c hc; simp [hb.2 c hc]
  constructor
  · rw [dropWhile_all ha]
    cases r with
    | nil => rfl
    | cons c cs => rw [List.dropWhile_cons, if_neg (by simpa using hr c cs rfl)]
  · rw [takeWhile_all ha]
    cases bl with
    | nil => exact absurd rfl hb.1
    | cons x xs => exact ⟨x, _, rfl⟩

theorem name_head {n : Text} (h : IsName n) (r : Text) :
    ∃ c cs, n ++ r = c :: cs ∧ c ≠ ' ' := by
  cases n with
  | nil => exact absurd rfl h.1
  | cons c cs =>
    refine ⟨c, cs ++ r, rfl, ?_⟩
    rintro rfl
    have := (h.2 ' ' (List.mem_cons_self ..)).1
    revert this; decide

theorem pad_no_nl {t : Text} (h : Pad t) : '\n' ∉ t := by
  intro hn
  rcases h _ hn with e | e <;> cases e

theorem name_no_nl {t : Text} (h : IsName t) : '\n' ∉ t := by
  intro hn
  have := (h.2 _ hn).1
  revert this; decide

theorem names_no_nl {first pad : Text} {others : List (Text × Text × Text)} (hf : IsName first)
    (hp : Pad pad) (ho : ∀ o ∈ others, Pad o.1 ∧ IsName o.2.1 ∧ Pad o.2.2) :
    '\n' ∉ namesText first pad others := by
  intro h
  unfold namesText at h
  rcases List.mem_append.1 h with h | h
  · rcases List.mem_append.1 h with h | h
    · exact name_no_nl hf h
    · exact pad_no_nl hp h
  · obtain ⟨o, ho', h⟩ := List.mem_flatMap.1 h
    obtain ⟨h1, h2, h3⟩ := ho o ho'
    rcases List.mem_cons.1 h with h | h
    · cases h
    · rcases List.mem_append.1 h with h | h
      · rcases List.mem_append.1 h with h | h
        · exact pad_no_nl h1 h
        · exact name_no_nl h2 h
      · exact pad_no_nl h3 h

/-- What is found in one line. -/
theorem scan_line (l : PyLine) (h : l.Ok) (b : Text) (hb : LineEnd b) (n : Nat)
    (hl : (l.text ++ b).length ≤ n) :
    ∃ m caps, b.length ≤ m ∧ scan importAt n (l.text ++ b) = caps ++ scan importAt m b ∧
      caps.flatMap PyCap.files = l.files := by
  cases l with
  | other t =>
    obtain ⟨m, hm, e⟩ := scan_free h.1 h.2 hb n hl
    exact ⟨m, [], hm, e, rfl⟩
  | import_ indent blanks first pad others =>
    obtain ⟨hi, hbl, hf, hp, ho⟩ := h
    have e1 : (PyLine.import_ indent blanks first pad others).text ++ b =
        indent ++ (importWord ++ (blanks ++ (namesText first pad others ++ b))) := by
      simp [PyLine.text]
    rw [e1] at hl ⊢
    obtain ⟨m, hm, e⟩ := scan_pad hi n hl
    rw [e]
    have hnl := names_no_nl hf hp ho
    have hat : importAt (importWord ++ (blanks ++ (namesText first pad others ++ b))) =
        some (.import_ (namesText first pad others), b) := by
      unfold importAt
      rw [if_pos (List.isPrefixOf_iff_prefix.2 ⟨_, rfl⟩)]
      have hd : (importWord ++ (blanks ++ (namesText first pad others ++ b))).drop 6 =
        blanks ++ (namesText first pad others ++ b) := rfl
      have hne : ∃ c cs, namesText first pad others ++ b = c :: cs ∧ c ≠ ' ' := by
        unfold namesText
        rw [List.append_assoc, List.append_assoc]
        exact name_head hf _
      obtain ⟨c, cs, hc, hcs⟩ := hne
      obtain ⟨p1, x, xs, p2⟩ := blanks_prefix (r := namesText first pad others ++ b) hbl (by
        intro y ys e; rw [hc] at e; cases e; exact hcs)
      simp only [hd, p1, p2]
      rw [(takeWhile_line hnl hb).1, (takeWhile_line hnl hb).2]
      have hn2 : ∃ c cs, namesText first pad others = c :: cs := by
        unfold namesText
        rw [List.append_assoc]
        obtain ⟨c, cs, e, _⟩ := name_head hf (pad ++ others.flatMap (fun o => ',' :: (o.1 ++ o.2.1 ++ o.2.2)))
        exact ⟨c, cs, e⟩
      obtain ⟨y, ys, hy⟩ := hn2
      rw [hy]
    cases m with
    | zero => simp at hm
    | succ m =>
      have hsc : scan importAt (m + 1) (importWord ++ (blanks ++ (namesText first pad others ++ b))) =
          .import_ (namesText first pad others) :: scan importAt m b := by
        have h2 : ∃ c cs, importWord ++ (blanks ++ (namesText first pad others ++ b)) = c :: cs :=
          ⟨_, _, rfl⟩
        obtain ⟨c, cs, e2⟩ := h2
        rw [e2] at hat ⊢
        rw [scan, hat]
      refine ⟨m, [.import_ (namesText first pad others)], by simp at hm; omega, hsc, ?_⟩
      have hns := names_split first pad others hf hp ho
      simp only [List.flatMap_cons, List.flatMap_nil, List.append_nil, PyCap.files, PyLine.files]
      have hcomp : (splitComma (namesText first pad others)).map (fun p => trim p ++ ['.', 'p', 'y']) =
          ((splitComma (namesText first pad others)).map trim).map (· ++ ['.', 'p', 'y']) := by
        rw [List.map_map]; rfl
      rw [hcomp, hns]; rfl
  | from_ indent blanks name blanks' tail =>
    obtain ⟨hi, hbl, hn, hbl', hnt, hft⟩ := h
    have hb2 : ∃ q, blanks' = q ++ [' '] ∧ ∀ c ∈ q, c = ' ' := by
      refine ⟨blanks'.dropLast, ?_, fun c hc => hbl'.2 c ((List.dropLast_sublist _).subset hc)⟩
      have := List.dropLast_concat_getLast hbl'.1
      rw [hbl'.2 _ (List.getLast_mem hbl'.1)] at this
      exact this.symm
    obtain ⟨q, rfl, hq⟩ := hb2
    have e1 : (PyLine.from_ indent blanks name (q ++ [' ']) tail).text ++ b =
        indent ++ (fromWord ++ (blanks ++ ((name ++ q ++ blankImport ++ tail) ++ b))) := by
      simp [PyLine.text]
    rw [e1] at hl ⊢
    obtain ⟨m, hm, e⟩ := scan_pad hi n hl
    rw [e]
    have hnl : '\n' ∉ name ++ q ++ blankImport ++ tail := by
      intro h
      rcases List.mem_append.1 h with h | h
      · rcases List.mem_append.1 h with h | h
        · rcases List.mem_append.1 h with h | h
          · exact name_no_nl hn h
          · have := hq _ h; cases this
        · revert h; decide
      · exact hnt h
    have hat : importAt (fromWord ++ (blanks ++ ((name ++ q ++ blankImport ++ tail) ++ b))) =
        some (.from_ (name ++ q), tail ++ b) := by
      unfold importAt
      rw [if_neg (by simp [List.isPrefixOf]), if_pos (List.isPrefixOf_iff_prefix.2 ⟨_, rfl⟩)]
      have hd : (fromWord ++ (blanks ++ ((name ++ q ++ blankImport ++ tail) ++ b))).drop 4 =
        blanks ++ ((name ++ q ++ blankImport ++ tail) ++ b) := rfl
      have hne : ∃ c cs, (name ++ q ++ blankImport ++ tail) ++ b = c :: cs ∧ c ≠ ' ' := by
        rw [List.append_assoc, List.append_assoc, List.append_assoc]
        exact name_head hn _
      obtain ⟨c, cs, hc, hcs⟩ := hne
      obtain ⟨p1, x, xs, p2⟩ := blanks_prefix (r := (name ++ q ++ blankImport ++ tail) ++ b) hbl (by
        intro y ys e; rw [hc] at e; cases e; exact hcs)
      simp only [hd, p1, p2]
      rw [(takeWhile_line hnl hb).1, (takeWhile_line hnl hb).2,
        lastImport_some (by
          obtain ⟨c, cs, e, _⟩ := name_head hn q
          rw [e]; simp) hft]
    cases m with
    | zero => simp at hm
    | succ m =>
      have hsc : scan importAt (m + 1) (fromWord ++ (blanks ++ ((name ++ q ++ blankImport ++ tail) ++ b))) =
          .from_ (name ++ q) :: scan importAt m (tail ++ b) := by
        have h2 : ∃ c cs, fromWord ++ (blanks ++ ((name ++ q ++ blankImport ++ tail) ++ b)) = c :: cs :=
          ⟨_, _, rfl⟩
        obtain ⟨c, cs, e2⟩ := h2
        rw [e2] at hat ⊢
        rw [scan, hat]
      obtain ⟨m', hm', e'⟩ := scan_free hnt hft hb m (by simp at hm ⊢; omega)
      refine ⟨m', [.from_ (name ++ q)], hm', by rw [hsc, e']; rfl, ?_⟩
      simp only [List.flatMap_cons, List.flatMap_nil, List.append_nil, PyCap.files, PyLine.files]
      have := trim_name (l := []) (n := name) (r := q) (by simp) hn (by
        intro c hc; rw [hq c hc]; decide)
      rw [List.nil_append] at this
      rw [this]
      rfl

/-- Exactly the files the lines of a Python file import are found, in order. -/
theorem imports_found (ls : List PyLine) (h : ∀ l ∈ ls, l.Ok) :
    extractImports (joinNl (ls.map PyLine.text)) = ls.flatMap PyLine.files := by
  have main : ∀ (ls : List PyLine), (∀ l ∈ ls, l.Ok) → ∀ n, (joinNl (ls.map PyLine.text)).length ≤ n →
      (scan importAt n (joinNl (ls.map PyLine.text))).flatMap PyCap.files = ls.flatMap PyLine.files := by
    intro ls
    induction ls with
    | nil => intro _ n _; simp [joinNl, scan_nil]
    | cons l ls ih =>
      intro h n hn
      cases ls with
      | nil =>
        obtain ⟨m, caps, _, e, hc⟩ := scan_line l (h l (List.mem_cons_self ..)) [] (Or.inl rfl) n
          (by simpa [joinNl] using hn)
        rw [List.append_nil] at e
        simp only [List.map_cons, List.map_nil, joinNl]
        rw [e, scan_nil, List.append_nil, hc]
        simp
      | cons l' ls =>
        have hj : joinNl ((l :: l' :: ls).map PyLine.text) =
            l.text ++ '\n' :: joinNl ((l' :: ls).map PyLine.text) := by
          simp only [List.map_cons, joinNl]
        rw [hj] at hn ⊢
        obtain ⟨m, caps, hm, e, hc⟩ := scan_line l (h l (List.mem_cons_self ..))
          ('\n' :: joinNl ((l' :: ls).map PyLine.text)) (Or.inr ⟨_, rfl⟩) n hn
        rw [e, List.flatMap_append, hc, List.flatMap_cons]
        congr 1
        cases m with
        | zero => simp at hm
        | succ m =>
          have h0 : importAt ('\n' :: joinNl ((l' :: ls).map PyLine.text)) = none := by
            unfold importAt
            rw [if_neg (by simp [List.isPrefixOf]), if_neg (by simp [List.isPrefixOf])]
          rw [scan, h0]
          exact ih (fun x hx => h x (List.mem_cons_of_mem _ hx)) m (by simpa using hm)
  exact main ls h _ (Nat.le_refl _)

/-! ## Examples -/

/-- The hypotheses of `includes_found` are met. -/
example : extractIncludes "// x\n#include <bits/stdc++.h>\n#include\t\"lib.h\"\nint main() {}".toList =
    ["bits/stdc++.h".toList, "lib.h".toList] :=
  includes_found "// x\n".toList
    [⟨[' '], '<', "bits/stdc++.h".toList, '>', ['\n']⟩, ⟨['\t'], '"', "lib.h".toList, '"', "\nint main() {}".toList⟩]
    (by
      rintro ⟨a, b, e⟩
      have h : '#' ∈ "// x\n".toList := by rw [e]; simp
      revert h; decide)
    (by
      have fr : ∀ t : Text, '#' ∉ t → Free includeWord t := by
        rintro t h ⟨a, b, rfl⟩
        exact h (by simp)
      intro i hi
      simp only [List.mem_cons, List.not_mem_nil, or_false] at hi
      rcases hi with rfl | rfl
      · exact ⟨by decide, Or.inl rfl, Or.inl rfl, by decide, fr _ (by decide)⟩
      · exact ⟨by decide, Or.inr rfl, Or.inr rfl, by decide, fr _ (by decide)⟩)

/-- The hypotheses of `imports_found` are met. -/
example : extractImports "import sys, lib\n\nfrom utils import f, g\nprint(1)".toList =
    ["sys.py".toList, "lib.py".toList, "utils.py".toList] :=
  imports_found
    [.import_ [] [' '] "sys".toList [] [([' '], "lib".toList, [])], .other [],
      .from_ [] [' '] "utils".toList [' '] " f, g".toList, .other "print(1)".toList]
    (by
      have fr : ∀ t : Text, 'm' ∉ t → Free "import".toList t := by
        rintro t h ⟨a, b, rfl⟩
        exact h (by simp)
      intro l hl
      simp only [List.mem_cons, List.not_mem_nil, or_false] at hl
      rcases hl with rfl | rfl | rfl | rfl
      · exact ⟨(by intro c hc; cases hc), ⟨by decide, by decide⟩, ⟨by decide, by decide⟩,
          (by intro c hc; cases hc), by
            intro o ho
            rw [List.mem_singleton] at ho
            subst ho
            exact ⟨(by intro c hc; left; simpa using hc), ⟨by decide, by decide⟩,
              (by intro c hc; cases hc)⟩⟩
      · exact ⟨by decide, fr _ (by decide)⟩
      · exact ⟨(by intro c hc; cases hc), ⟨by decide, by decide⟩, ⟨by decide, by decide⟩,
          ⟨by decide, by decide⟩, by decide, fr _ (by decide)⟩
      · exact ⟨by decide, fr _ (by decide)⟩)

/-- `# include "x.h"` is an include of the language that is not found. -/
theorem include_with_blank_missed : extractIncludes "# include \"x.h\"\n".toList = [] := by decide

/-- Of `import x as y` the file `x as y.py` is looked for. -/
theorem import_as_missed : extractImports "import x as y\n".toList = ["x as y.py".toList] := by decide

end TM.Lang
