import Verif.Ui.Checks
import Verif.Format.PropsNumbers
/-!
# The sample files among the attachments (`ioi/sanity_checks/att.rs`)

`get_sample_files`, whose answer is what `AttSampleFilesValid` validates, solves and checks.

A file is its name inside `att/`; the files are in the order of `list_files` (the one of `glob`).  The order
of the maps (that of the pairs and of the last two kinds of errors) is left unspecified by the code: the
theorems are about which elements there are.
-/
namespace TM.Sanity
open TM TM.Ui

abbrev Name := List Char

/-- `extract_num`, att.rs:337-347: the regex is `(in|out)put(\d+)\.txt$`, and the number has to be a `u32`.
(`\d` matches other digits too, but then the number is not parsed.) -/
def sampleNumber (name : Name) : Option Nat :=
  let r := name.reverse
  if "txt.".toList.isPrefixOf r then
    let r := r.drop 4
    let digits := (r.takeWhile Format.isDigit).reverse
    let rest := r.dropWhile Format.isDigit
    if digits.isEmpty then none
    else if "tupni".toList.isPrefixOf rest || "tuptuo".toList.isPrefixOf rest then
      if Format.digitsVal digits < 2 ^ 32 then some (Format.digitsVal digits) else none
    else none
  else none

/-- The map of the files by number, att.rs:348-353 and 368-373. -/
def byNumber (files : List Name) : AMap Nat (List Name) :=
  files.foldl (fun m f => match sampleNumber f with
    | none => m
    | some n => m.insert n ((m.get? n).getD [] ++ [f])) []

/-- The answer and the errors. -/
structure Samples where
  pairs : List (Name × Name) := []
  /-- "Sample input .. is present more than once", with the files -/
  twiceIn : List (Nat × List Name) := []
  twiceOut : List (Nat × List Name) := []
  /-- "Sample input file .. does not have its output file" -/
  noOutput : List Name := []
  /-- "Sample output file .. does not have its input file" -/
  noInput : List Name := []
  deriving DecidableEq, Repr

/-- The loop on the inputs, att.rs:388-400: it takes the outputs out of their map. -/
def pairLoop : AMap Nat (List Name) → AMap Nat (List Name) × List (Name × Name) × List Name →
    AMap Nat (List Name) × List (Name × Name) × List Name
  | [], s => s
  | (n, inputs) :: rest, (outputs, pairs, missing) =>
    match outputs.get? n with
    | some o => pairLoop rest (outputs.erase n, pairs ++ [(inputs.headD [], o.headD [])], missing)
    | none => pairLoop rest (outputs, pairs, missing ++ [inputs.headD []])

/-- `get_sample_files`, att.rs:332-408. -/
def getSampleFiles (files : List Name) : Samples :=
  let inputs := byNumber (files.filter (wildMatch "*input*.txt".toList))
  let outputs := byNumber (files.filter (wildMatch "*output*.txt".toList))
  let (left, pairs, missing) := pairLoop inputs (outputs, [], [])
  { pairs := pairs
    twiceIn := inputs.filter (fun p => p.2.length ≠ 1)
    twiceOut := outputs.filter (fun p => p.2.length ≠ 1)
    noOutput := missing
    noInput := left.map (fun p => p.2.headD []) }

/-! ## Specification -/

/-- The name ends with the kind of the file, a number and `.txt`. -/
def Ends (kind : String) (name : Name) (n : Nat) : Prop :=
  ∃ pre digits, name = pre ++ kind.toList ++ digits ++ ".txt".toList ∧ digits ≠ [] ∧
    (∀ c ∈ digits, '0' ≤ c ∧ c ≤ '9') ∧ Nat.ofDigitChars 10 digits 0 = n ∧ n < 2 ^ 32

/-- The file has a number. -/
def Numbered (name : Name) (n : Nat) : Prop := Ends "input" name n ∨ Ends "output" name n

/-- The files that are taken as inputs, and those that are taken as outputs. -/
def TakenIn (name : Name) (n : Nat) : Prop := Glob "*input*.txt".toList name ∧ Numbered name n
def TakenOut (name : Name) (n : Nat) : Prop := Glob "*output*.txt".toList name ∧ Numbered name n

/-- The first of the files with some property. -/
def IsFirst (P : Name → Prop) (files : List Name) (f : Name) : Prop :=
  ∃ a b, files = a ++ f :: b ∧ P f ∧ ∀ x ∈ a, ¬ P x

/-! ## Lemmas -/

theorem digit_iff (c : Char) : Format.isDigit c = true ↔ '0' ≤ c ∧ c ≤ '9' := by
  unfold Format.isDigit
  simp only [Bool.and_eq_true, decide_eq_true_eq, Char.le_def, UInt32.le_iff_toNat_le, Char.toNat]

theorem prefix_split {a l : Name} (h : a.isPrefixOf l = true) : ∃ r, l = a ++ r := by
  obtain ⟨r, hr⟩ := List.isPrefixOf_iff_prefix.1 h
  exact ⟨r, hr.symm⟩

theorem span_digits {ds r : Name} (hd : ∀ c ∈ ds, Format.isDigit c = true)
    (hr : ∀ c t, r = c :: t → Format.isDigit c = false) :
    (ds ++ r).takeWhile Format.isDigit = ds ∧ (ds ++ r).dropWhile Format.isDigit = r := by
  induction ds with
  | nil =>
    cases r with
    | nil => exact ⟨rfl, rfl⟩
    | cons c t => simp [List.takeWhile_cons, List.dropWhile_cons, hr c t rfl]
  | cons d ds ih =>
    obtain ⟨h1, h2⟩ := ih (fun c hc => hd c (by simp [hc]))
    have := hd d (by simp)
    simp [List.takeWhile_cons, List.dropWhile_cons, this, h1, h2]

theorem sampleNumber_iff (name : Name) (n : Nat) : sampleNumber name = some n ↔ Numbered name n := by
  constructor
  · intro h
    unfold sampleNumber at h
    simp only at h
    split at h
    · next h0 =>
      obtain ⟨r, hr⟩ := prefix_split h0
      rw [hr] at h
      have hdrop : ("txt.".toList ++ r).drop 4 = r := by
        rw [List.drop_append]
        rfl
      rw [hdrop] at h
      split at h
      · cases h
      · next hne =>
        split at h
        · next hkind =>
          split at h
          · next hlt =>
            cases h
            have hsplit : r = r.takeWhile Format.isDigit ++ r.dropWhile Format.isDigit :=
              (List.takeWhile_append_dropWhile ..).symm
            have hdig : ∀ c ∈ (r.takeWhile Format.isDigit).reverse, '0' ≤ c ∧ c ≤ '9' := by
              intro c hc
              rw [List.mem_reverse] at hc
              have hall := List.all_takeWhile (p := Format.isDigit) (l := r)
              rw [List.all_eq_true] at hall
              exact (digit_iff c).1 (hall c hc)
            have hname : ∀ {k : Name} {rest : Name}, r.dropWhile Format.isDigit = k.reverse ++ rest →
                name = rest.reverse ++ k ++ (r.takeWhile Format.isDigit).reverse ++ ".txt".toList := by
              intro k rest hk
              have h2 : name.reverse = "txt.".toList ++ (r.takeWhile Format.isDigit ++ (k.reverse ++ rest)) := by
                rw [hr, ← hk, List.takeWhile_append_dropWhile]
              have h1 : name = name.reverse.reverse := by simp
              rw [h1, h2]
              simp
            rw [Bool.or_eq_true] at hkind
            rcases hkind with hk | hk
            · obtain ⟨rest, hrest⟩ := prefix_split hk
              refine .inl ⟨rest.reverse, _, hname (k := "input".toList) (by rw [hrest]; rfl), ?_, hdig,
                (Format.digitsVal_eq _).symm, hlt⟩
              intro hn; rw [hn] at hne; exact hne rfl
            · obtain ⟨rest, hrest⟩ := prefix_split hk
              refine .inr ⟨rest.reverse, _, hname (k := "output".toList) (by rw [hrest]; rfl), ?_, hdig,
                (Format.digitsVal_eq _).symm, hlt⟩
              intro hn; rw [hn] at hne; exact hne rfl
          · cases h
        · cases h
    · cases h
  · have key : ∀ (k : Name) (pre digits : Name), (k = "input".toList ∨ k = "output".toList) →
        name = pre ++ k ++ digits ++ ".txt".toList → digits ≠ [] → (∀ c ∈ digits, '0' ≤ c ∧ c ≤ '9') →
        Nat.ofDigitChars 10 digits 0 = n → n < 2 ^ 32 → sampleNumber name = some n := by
      intro k pre digits hk hn hne hd hv hlt
      have hrev : name.reverse = "txt.".toList ++ (digits.reverse ++ (k.reverse ++ pre.reverse)) := by
        rw [hn]; simp
      have hspan := span_digits (ds := digits.reverse) (r := k.reverse ++ pre.reverse)
        (by intro c hc; rw [List.mem_reverse] at hc; exact (digit_iff c).2 (hd c hc))
        (by
          intro c t hc
          rcases hk with rfl | rfl
          · have : c = 't' := by simp at hc; exact hc.1.symm
            subst this; rfl
          · have : c = 't' := by simp at hc; exact hc.1.symm
            subst this; rfl)
      unfold sampleNumber
      simp only
      rw [if_pos (by rw [hrev]; exact List.isPrefixOf_iff_prefix.2 (List.prefix_append ..)), hrev]
      have hdrop : ∀ r : Name, ("txt.".toList ++ r).drop 4 = r := by
        intro r; rw [List.drop_append]; rfl
      rw [hdrop, hspan.1, hspan.2, List.reverse_reverse, if_neg (by simpa using hne)]
      have hp : ("tupni".toList.isPrefixOf (k.reverse ++ pre.reverse) ||
          "tuptuo".toList.isPrefixOf (k.reverse ++ pre.reverse)) = true := by
        rw [Bool.or_eq_true]
        rcases hk with rfl | rfl
        · left; exact List.isPrefixOf_iff_prefix.2 ⟨pre.reverse, rfl⟩
        · right; exact List.isPrefixOf_iff_prefix.2 ⟨pre.reverse, rfl⟩
      rw [if_pos hp, Format.digitsVal_eq, hv, if_pos hlt]
    rintro (⟨pre, digits, h1, h2, h3, h4, h5⟩ | ⟨pre, digits, h1, h2, h3, h4, h5⟩)
    · exact key _ pre digits (.inl rfl) h1 h2 h3 h4 h5
    · exact key _ pre digits (.inr rfl) h1 h2 h3 h4 h5

/-- The files with a number. -/
theorem byNumber_get (files : List Name) (n : Nat) :
    (byNumber files).get? n = if files.filter (fun f => sampleNumber f = some n) = [] then none
      else some (files.filter (fun f => sampleNumber f = some n)) := by
  have key : ∀ (files : List Name) (m : AMap Nat (List Name)),
      (files.foldl (fun m f => match sampleNumber f with
        | none => m
        | some n => m.insert n ((m.get? n).getD [] ++ [f])) m).get? n =
      if files.filter (fun f => sampleNumber f = some n) = [] then m.get? n
      else some ((m.get? n).getD [] ++ files.filter (fun f => sampleNumber f = some n)) := by
    intro files
    induction files with
    | nil => intro m; rfl
    | cons f files ih =>
      intro m
      rw [List.foldl_cons, ih, List.filter_cons]
      cases hf : sampleNumber f with
      | none => simp
      | some k =>
        by_cases hk : k = n
        · subst hk
          simp only [AMap.get?_insert, if_true, Option.getD_some, decide_true]
          rw [if_neg (List.cons_ne_nil _ _)]
          split
          · next h => rw [h]
          · simp
        · have hk' : ¬ n = k := fun h => hk h.symm
          simp only [AMap.get?_insert, hk', if_false, Option.some.injEq, hk, decide_false, Bool.false_eq_true]
  have := key files []
  rw [show (AMap.get? ([] : AMap Nat (List Name)) n) = none from rfl] at this
  unfold byNumber
  rw [this]
  simp

theorem byNumber_wf (files : List Name) : (byNumber files).Wf := by
  have : ∀ (files : List Name) (m : AMap Nat (List Name)), m.Wf → (files.foldl (fun m f => match sampleNumber f with
        | none => m
        | some n => m.insert n ((m.get? n).getD [] ++ [f])) m).Wf := by
    intro files
    induction files with
    | nil => intro m h; exact h
    | cons f files ih =>
      intro m h
      rw [List.foldl_cons]
      refine ih _ ?_
      split
      · exact h
      · exact AMap.wf_insert h _ _
  exact this files [] AMap.wf_nil

theorem filterMap_congr' {α β : Type} {f g : α → Option β} : ∀ {l : List α}, (∀ a ∈ l, f a = g a) →
    l.filterMap f = l.filterMap g := by
  intro l
  induction l with
  | nil => intro _; rfl
  | cons a l ih =>
    intro h
    rw [List.filterMap_cons, List.filterMap_cons, h a (by simp), ih (fun b hb => h b (by simp [hb]))]

theorem pairLoop_eq : ∀ (inputs outputs : AMap Nat (List Name)) (pairs : List (Name × Name)) (missing : List Name),
    inputs.Wf → outputs.Wf →
    pairLoop inputs (outputs, pairs, missing) =
      (outputs.filter (fun p => decide (p.1 ∉ inputs.keys)),
       pairs ++ inputs.filterMap (fun p => (outputs.get? p.1).map (fun o => (p.2.headD [], o.headD []))),
       missing ++ inputs.filterMap (fun p => if (outputs.get? p.1).isSome then none else some (p.2.headD []))) := by
  intro inputs
  induction inputs with
  | nil =>
    intro outputs pairs missing _ _
    have : outputs.filter (fun p => decide (p.1 ∉ AMap.keys ([] : AMap Nat (List Name)))) = outputs := by
      rw [List.filter_eq_self]; intro p _; simp [AMap.keys]
    simp only [pairLoop, List.filterMap_nil, List.append_nil, this]
  | cons q rest ih =>
    intro outputs pairs missing hi ho
    obtain ⟨n, l⟩ := q
    have hi' : AMap.Wf rest := by
      unfold AMap.Wf AMap.keys at hi ⊢
      rw [List.map_cons, List.nodup_cons] at hi
      exact hi.2
    have hn : n ∉ AMap.keys rest := by
      unfold AMap.Wf AMap.keys at hi
      rw [List.map_cons, List.nodup_cons] at hi
      exact hi.1
    unfold pairLoop
    cases hg : outputs.get? n with
    | some o =>
      simp only
      rw [ih _ _ _ hi' (AMap.wf_erase ho n)]
      have hsame : ∀ p ∈ rest, AMap.get? (outputs.erase n) p.1 = outputs.get? p.1 := by
        intro p hp
        apply AMap.get?_erase_ne
        rintro rfl
        exact hn (List.mem_map.2 ⟨p, hp, rfl⟩)
      refine Prod.ext ?_ (Prod.ext ?_ ?_)
      · simp only [AMap.erase, List.filter_filter]
        apply List.filter_congr
        intro p _
        simp only [AMap.keys, List.map_cons, List.mem_cons]
        by_cases h1 : p.1 = n
        · simp [h1]
        · by_cases h2 : p.1 ∈ rest.map (·.1)
          · simp [h1, h2]
          · simp only [h1, h2, false_or, not_false_eq_true, decide_true, ne_eq, Bool.and_true]
      · simp only [List.filterMap_cons, hg, Option.map_some, List.append_assoc, List.singleton_append]
        congr 2
        apply filterMap_congr'
        intro p hp
        rw [hsame p hp]
      · simp only [List.filterMap_cons, hg, Option.isSome_some, if_true]
        congr 1
        apply filterMap_congr'
        intro p hp
        rw [hsame p hp]
    | none =>
      simp only
      rw [ih _ _ _ hi' ho]
      refine Prod.ext ?_ (Prod.ext ?_ ?_)
      · apply List.filter_congr
        intro p hp
        have : p.1 ≠ n := by
          rintro rfl
          have := AMap.get?_of_mem ho (k := p.1) (v := p.2) hp
          rw [hg] at this; cases this
        have hiff : p.1 ∈ AMap.keys ((n, l) :: rest) ↔ p.1 ∈ AMap.keys rest := by
          simp [AMap.keys, this]
        exact decide_eq_decide.2 (not_congr hiff).symm
      · simp [List.filterMap_cons, hg]
      · simp [List.filterMap_cons, hg]

end TM.Sanity
