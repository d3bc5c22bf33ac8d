import Verif.Text.Diag
/-!
# C128, C129: what a diagnostic shows
-/
namespace TM.Diag
open TM.Text

/-! ## Specification -/

/-- A row for each text, with consecutive numbers. -/
def Spec.numbered (width : Nat) : Nat → List Text → List Text
  | _, [] => []
  | k, t :: ts => (List.replicate (width - (Nat.toDigits 10 k).length) ' ' ++ Nat.toDigits 10 k ++ [' ', '|', ' '] ++ t) ::
      Spec.numbered width (k + 1) ts

/-- The rows of an attachment: all its lines, or the first five and the last five. -/
def Spec.AttachmentRows (width : Nat) (lines rows : List Text) : Prop :=
  (lines.length ≤ 11 → rows = Spec.numbered width 1 lines) ∧
  (11 < lines.length → ∃ first middle last, lines = first ++ middle ++ last ∧ first.length = 5 ∧ last.length = 5 ∧
    rows = Spec.numbered width 1 first ++ [List.replicate (width - 3) ' ' ++ "... |".toList] ++
      Spec.numbered width (lines.length - 4) last)

/-- The rows of a note: the first is labelled, the others are aligned with it. -/
def Spec.noteRows (width : Nat) : List Text → List Text
  | [] => []
  | t :: ts => (List.replicate (width - 4) ' ' ++ "Note: ".toList ++ t) ::
      ts.map (fun t => List.replicate (width + 2) ' ' ++ t)

/-- One line. -/
def Spec.OneLine (t : Text) : Prop := '\n' ∉ t

/-- The rows of a code span: where it is, the line, the marks. -/
def Spec.spanRows (width : Nat) (s : Span) : List Text :=
  [List.replicate (width + 2) ' ' ++ s.file ++ [':'] ++ Nat.toDigits 10 s.lineNumber ++ [':'] ++
     Nat.toDigits 10 s.lineOffset,
   List.replicate (width + 2) ' ' ++ Nat.toDigits 10 s.lineNumber ++ [' ', '|', ' '] ++ stripCr s.line,
   List.replicate (width + 2) ' ' ++ List.replicate ((Nat.toDigits 10 s.lineNumber).length + 3 + s.lineOffset) ' ' ++
     List.replicate (max s.len 1) '^']

/-- The length of a text in bytes. -/
def Spec.bytes (t : Text) : Nat := (t.map Char.utf8Size).sum

open Spec

/-! ## Lemmas -/

theorem splitNl_row {t : Text} (h : '\n' ∉ t) (r : Text) : splitNl (t ++ '\n' :: r) = t :: splitNl r := by
  induction t with
  | nil => simp [splitNl]
  | cons c t ih =>
    simp only [List.mem_cons, not_or] at h
    simp only [List.cons_append, splitNl, Ne.symm h.1, ↓reduceIte, ih h.2]

theorem splitNl_end {t : Text} (h : '\n' ∉ t) : splitNl t = [t] := by
  induction t with
  | nil => rfl
  | cons c t ih =>
    simp only [List.mem_cons, not_or] at h
    simp only [splitNl, Ne.symm h.1, ↓reduceIte, ih h.2]

theorem splitNl_rows {rows : List Text} (h : ∀ t ∈ rows, '\n' ∉ t) (r : Text) :
    splitNl (rows.flatMap ln ++ r) = rows ++ splitNl r := by
  induction rows with
  | nil => rfl
  | cons t ts ih =>
    simp only [List.flatMap_cons, ln, List.append_assoc, List.cons_append, List.nil_append]
    rw [splitNl_row (h t (by simp))]
    have := ih (fun t ht => h t (by simp [ht]))
    rw [this]

theorem toDigits_char {n : Nat} {c : Char} (h : c ∈ Nat.toDigits 10 n) : '0' ≤ c := by
  have := Nat.isDigit_of_mem_toDigits (by decide) (by decide) h
  simp only [Char.isDigit, Bool.and_eq_true, decide_eq_true_eq] at this
  exact this.1

theorem noNl_replicate {n : Nat} {c : Char} (h : c ≠ '\n') : '\n' ∉ List.replicate n c :=
  fun hm => h (List.eq_of_mem_replicate hm).symm

theorem zipIdx_take' : ∀ (l : List Text) (k n : Nat), (l.zipIdx k).take n = (l.take n).zipIdx k
  | [], _, _ => by simp
  | _ :: _, _, 0 => rfl
  | _ :: l, k, n + 1 => by simp [List.zipIdx_cons, zipIdx_take' l (k + 1) n]

theorem zipIdx_drop' : ∀ (l : List Text) (k n : Nat), (l.zipIdx k).drop n = (l.drop n).zipIdx (k + n)
  | [], _, _ => by simp
  | _ :: _, _, 0 => rfl
  | _ :: l, k, n + 1 => by
    simp only [List.zipIdx_cons, List.drop_succ_cons, zipIdx_drop' l (k + 1) n]
    congr 1
    omega

theorem number_noNl (n : Nat) : '\n' ∉ number n := fun h => absurd (toDigits_char h) (by decide)

theorem stripCr_noNl {t : Text} (h : '\n' ∉ t) : '\n' ∉ stripCr t := by
  unfold stripCr
  split
  · exact fun hm => h (List.dropLast_subset _ hm)
  · exact h

theorem strLines_noNl {t l : Text} (h : l ∈ strLines t) : '\n' ∉ l := by
  unfold strLines at h
  rcases List.mem_append.1 h with h | h
  · obtain ⟨x, hx, rfl⟩ := List.mem_map.1 h
    exact stripCr_noNl (splitNl_no_nl t x (List.dropLast_subset _ hx))
  · split at h
    · cases h
    · simp only [Option.mem_toList] at h
      exact splitNl_no_nl t l (List.mem_of_getLast? h)

theorem strLines_rows {rows : List Text} (h : ∀ t ∈ rows, '\n' ∉ t) :
    strLines (rows.flatMap ln) = rows.map stripCr := by
  have := splitNl_rows h []
  rw [List.append_nil] at this
  simp [strLines, this, splitNl]

theorem strLines_eq_nil {t : Text} : strLines t = [] ↔ t = [] := by
  constructor
  · intro h
    unfold strLines at h
    obtain ⟨h1, h2⟩ := List.append_eq_nil_iff.1 h
    have h3 := List.map_eq_nil_iff.1 h1
    have h4 := joinNl_splitNl t
    rcases hs : splitNl t with _ | ⟨a, b⟩
    · exact absurd hs (splitNl_ne_nil t)
    · rw [hs] at h3 h2 h4
      cases b with
      | nil =>
        simp only [List.getLast?_singleton] at h2
        by_cases h5 : a = []
        · rw [h5] at h4
          exact h4.symm
        · simp [h5] at h2
      | cons x y => simp at h3
  · rintro rfl
    rfl

theorem right_noNl {w : Nat} {t : Text} (h : '\n' ∉ t) : '\n' ∉ right w t := by
  unfold right
  intro hm
  rcases List.mem_append.1 hm with hm | hm
  · cases List.eq_of_mem_replicate hm
  · exact h hm

theorem flatMap_ln (f : α → Text) (l : List α) : l.flatMap (fun a => ln (f a)) = (l.map f).flatMap ln := by
  rw [List.flatMap_map]

theorem numbered_eq (w : Nat) : ∀ (ts : List Text) (k : Nat),
    numbered w (k + 1) ts = (ts.zipIdx k).map (fun p => right w (number (p.2 + 1)) ++ " | ".toList ++ p.1) := by
  intro ts
  induction ts with
  | nil => intro k; rfl
  | cons t ts ih =>
    intro k
    simp only [numbered, List.zipIdx_cons, List.map_cons, ih (k + 1)]
    rfl

theorem numbered_noNl {w k : Nat} {ts : List Text} (h : ∀ t ∈ ts, '\n' ∉ t) : ∀ r ∈ numbered w k ts, '\n' ∉ r := by
  induction ts generalizing k with
  | nil => intro r hr; cases hr
  | cons t ts ih =>
    intro r hr
    rcases List.mem_cons.1 hr with rfl | hr
    · simp only [List.mem_append, List.mem_replicate]
      have h1 := number_noNl k
      have h2 := h t (by simp)
      unfold number at h1
      simp [h1, h2]
    · exact ih (fun t ht => h t (by simp [ht])) r hr

theorem attachment_rows (w : Nat) (a : Text) :
    ∃ rows, AttachmentRows w (strLines a) rows ∧ (∀ r ∈ rows, '\n' ∉ r) ∧ attachmentText w a = rows.flatMap ln := by
  have key : ∀ l : List (Text × Nat), l.flatMap (attachmentLine w) =
      (l.map (fun p => right w (number (p.2 + 1)) ++ " | ".toList ++ p.1)).flatMap ln := by
    intro l
    rw [List.flatMap_map]
    rfl
  have hnl := fun l (h : l ∈ strLines a) => strLines_noNl h
  by_cases h : 11 < (strLines a).length
  · have e1 : (strLines a).zipIdx.take 5 = ((strLines a).take 5).zipIdx 0 := zipIdx_take' _ _ _
    have e2 : (strLines a).zipIdx.drop ((strLines a).length - 5) =
        ((strLines a).drop ((strLines a).length - 5)).zipIdx ((strLines a).length - 5) := by
      rw [zipIdx_drop']; simp
    refine ⟨numbered w 1 ((strLines a).take 5) ++ [List.replicate (w - 3) ' ' ++ "... |".toList] ++
      numbered w ((strLines a).length - 4) ((strLines a).drop ((strLines a).length - 5)),
      ⟨fun h' => absurd h (by omega), fun _ => ⟨(strLines a).take 5,
        ((strLines a).drop 5).take ((strLines a).length - 10), (strLines a).drop ((strLines a).length - 5),
        ?_, ?_, ?_, rfl⟩⟩, ?_, ?_⟩
    · have : (strLines a).drop ((strLines a).length - 5) = ((strLines a).drop 5).drop ((strLines a).length - 10) := by
        rw [List.drop_drop]
        congr 1
        omega
      rw [this, List.append_assoc, List.take_append_drop, List.take_append_drop]
    · rw [List.length_take]; omega
    · rw [List.length_drop]; omega
    · intro r hr
      rcases List.mem_append.1 hr with hr | hr
      · rcases List.mem_append.1 hr with hr | hr
        · exact numbered_noNl (fun t ht => hnl t (List.take_subset _ _ ht)) r hr
        · rw [List.mem_singleton] at hr
          subst hr
          rw [List.mem_append, not_or]
          exact ⟨noNl_replicate (by decide), by decide⟩
      · exact numbered_noNl (fun t ht => hnl t (List.drop_subset _ _ ht)) r hr
    · have e3 : (strLines a).length - 4 = (strLines a).length - 5 + 1 := by omega
      simp only [attachmentText, h, ↓reduceIte, gt_iff_lt, Nat.reduceAdd, e1, e2, key, List.flatMap_append, e3]
      rw [← numbered_eq w _ 0, ← numbered_eq]
      simp only [List.flatMap_cons, List.flatMap_nil, List.append_nil]
      congr 3
      simp only [right, List.append_assoc]
      rfl
  · refine ⟨numbered w 1 (strLines a), ⟨fun _ => rfl, fun h' => absurd h' h⟩, numbered_noNl hnl, ?_⟩
    simp only [attachmentText, gt_iff_lt, Nat.reduceAdd, h, ↓reduceIte, key]
    rw [← numbered_eq w _ 0]

theorem noteText_rows (w : Nat) {t : Text} (h : t ≠ []) :
    noteText w t = (noteRows w (strLines t)).flatMap ln := by
  unfold noteText
  cases hs : strLines t with
  | nil => exact absurd (strLines_eq_nil.1 hs) h
  | cons l ls =>
    simp only [noteRows, List.flatMap_cons, List.flatMap_map]
    have e : ∀ l : Text, right w [] ++ "  ".toList ++ l = List.replicate (w + 2) ' ' ++ l := by
      intro l
      simp only [right, List.length_nil, Nat.sub_zero, List.append_nil]
      rw [List.replicate_succ' (n := w + 1), List.replicate_succ' (n := w), List.append_assoc, List.append_assoc, List.append_assoc]
      rfl
    simp only [e]
    have e2 : right w "Note".toList ++ ": ".toList = List.replicate (w - 4) ' ' ++ "Note: ".toList := by
      simp only [right, List.append_assoc]
      rfl
    rw [e2]
    simp only [ln, List.append_assoc]

theorem noteRows_noNl {w : Nat} {ls : List Text} (h : ∀ l ∈ ls, '\n' ∉ l) : ∀ r ∈ noteRows w ls, '\n' ∉ r := by
  intro r hr
  cases ls with
  | nil => cases hr
  | cons l ls =>
    rcases List.mem_cons.1 hr with rfl | hr
    · simp only [List.mem_append, not_or]
      exact ⟨⟨noNl_replicate (by decide), by decide⟩, h l (by simp)⟩
    · obtain ⟨x, hx, rfl⟩ := List.mem_map.1 hr
      simp only [List.mem_append, not_or]
      exact ⟨noNl_replicate (by decide), h x (by simp [hx])⟩

theorem stripCr_of_last {t : Text} (h : t.getLast? ≠ some '\r') : stripCr t = t := by
  simp [stripCr, h]

theorem stripCr_append {a b : Text} (h : a.getLast? ≠ some '\r') : stripCr (a ++ b) = a ++ stripCr b := by
  cases hb : b with
  | nil => rw [List.append_nil, stripCr_of_last h]; simp [stripCr]
  | cons x y =>
    have e : (a ++ x :: y).getLast? = (x :: y).getLast? := by
      rw [List.getLast?_append]
      cases h : (x :: y).getLast? with
      | none => simp at h
      | some z => rfl
    unfold stripCr
    rw [e]
    split
    · rw [List.dropLast_append_of_ne_nil (by simp)]
    · rfl

theorem span_lines (s : Span) (hf : '\n' ∉ s.file) (hl : '\n' ∉ s.line) :
    strLines s.text =
      [s.file ++ [':'] ++ number s.lineNumber ++ [':'] ++ number s.lineOffset,
       number s.lineNumber ++ " | ".toList ++ stripCr s.line,
       List.replicate ((number s.lineNumber).length + 3 + s.lineOffset) ' ' ++ List.replicate (max s.len 1) '^'] := by
  have e : s.text = [s.file ++ [':'] ++ number s.lineNumber ++ [':'] ++ number s.lineOffset,
       number s.lineNumber ++ " | ".toList ++ s.line,
       List.replicate ((number s.lineNumber).length + 3 + s.lineOffset) ' ' ++
         List.replicate (max s.len 1) '^'].flatMap ln := by
    simp [Span.text, ln]
  have hn := number_noNl
  rw [e, strLines_rows]
  · simp only [List.map_cons, List.map_nil]
    congr 1
    · apply stripCr_of_last
      intro h
      have h1 := List.mem_of_getLast? h
      rw [List.getLast?_append] at h
      have h2 : (number s.lineOffset).getLast? = some ((number s.lineOffset).getLast Nat.toDigits_ne_nil) :=
        List.getLast?_eq_some_getLast _
      rw [h2] at h
      simp only [Option.some_or, Option.some.injEq] at h
      have h3 := List.getLast_mem (l := number s.lineOffset) Nat.toDigits_ne_nil
      rw [h] at h3
      exact absurd (toDigits_char h3) (by decide)
    · congr 1
      · apply stripCr_append
        rw [List.getLast?_append]
        have : " | ".toList.getLast? = some ' ' := by decide
        rw [this]
        simp
      · congr 1
        apply stripCr_of_last
        rw [List.getLast?_append, List.getLast?_replicate, if_neg (by omega)]
        simp
  · intro t ht
    simp only [List.mem_cons, List.not_mem_nil, or_false] at ht
    rcases ht with rfl | rfl | rfl
    · simp [hf, hn]
    · simp only [List.mem_append, not_or]
      exact ⟨⟨hn _, by decide⟩, hl⟩
    · simp only [List.mem_append, not_or]
      exact ⟨noNl_replicate (by decide), noNl_replicate (by decide)⟩

theorem spans_rows (w : Nat) {spans : List Span} (h : ∀ s ∈ spans, '\n' ∉ s.file ∧ '\n' ∉ s.line) :
    spansText w spans = (spans.flatMap (spanRows w)).flatMap ln := by
  induction spans with
  | nil => rfl
  | cons s ss ih =>
    have h1 := ih (fun s hs => h s (by simp [hs]))
    have h2 := h s (by simp)
    simp only [spansText] at h1
    simp only [spansText, List.flatMap_cons, h1, List.flatMap_append, span_lines s h2.1 h2.2]
    congr 1
    have e : ∀ l : Text, right (w + 1) [] ++ ' ' :: l = List.replicate (w + 2) ' ' ++ l := by
      intro l
      simp only [right, List.length_nil, Nat.sub_zero, List.append_nil]
      rw [List.replicate_succ' (n := w + 1)]
      simp
    simp only [List.flatMap_cons, List.flatMap_nil, List.append_nil, e, spanRows]
    simp only [number, List.append_assoc, List.cons_append, List.nil_append]
    rfl

theorem spanRows_noNl {w : Nat} {s : Span} (hf : '\n' ∉ s.file) (hl : '\n' ∉ s.line) :
    ∀ r ∈ spanRows w s, '\n' ∉ r := by
  intro r hr
  have hn := number_noNl
  unfold number at hn
  have hc := stripCr_noNl hl
  simp only [spanRows, List.mem_cons, List.not_mem_nil, or_false] at hr
  rcases hr with rfl | rfl | rfl
  · simp [hf, hn]
  · simp [hc, hn]
  · simp

theorem sorted_filter (ds : List Diagnostic) (v : Level) :
    (sorted ds).filter (fun d => d.level == v) = ds.filter (fun d => d.level == v) := by
  have hsub : List.Sublist (ds.filter (fun d => d.level == v)) (sorted ds) := by
    refine List.sublist_mergeSort (le := fun (a b : Diagnostic) => a.level.le b.level) (fun a b c => ?_) (fun a b => ?_) ?_ List.filter_sublist
    · cases a.level <;> cases b.level <;> cases c.level <;> decide
    · cases a.level <;> cases b.level <;> decide
    · rw [List.pairwise_iff_forall_sublist]
      intro a b hab
      have ha : a ∈ ds.filter (fun d => d.level == v) := hab.subset (by simp)
      have hb : b ∈ ds.filter (fun d => d.level == v) := hab.subset (by simp)
      simp only [List.mem_filter, beq_iff_eq] at ha hb
      rw [ha.2, hb.2]
      cases v <;> rfl
  have h2 := hsub.filter (fun d => d.level == v)
  rw [List.filter_filter] at h2
  simp only [Bool.and_self] at h2
  refine (h2.eq_of_length ?_).symm
  exact ((List.mergeSort_perm ds _).filter _).length_eq.symm

theorem le_split {ds : List Diagnostic} (h : ds.Pairwise (fun a b => a.level.le b.level = true)) :
    ds = ds.filter (fun d => d.level == .warning) ++ ds.filter (fun d => d.level == .error) := by
  induction ds with
  | nil => rfl
  | cons d ds ih =>
    obtain ⟨h1, h2⟩ := List.pairwise_cons.1 h
    have ih := ih h2
    cases hd : d.level with
    | warning =>
      simp only [List.filter_cons, hd, beq_self_eq_true, ↓reduceIte, List.cons_append]
      rw [if_neg (by decide), ← ih]
    | error =>
      have h3 : ds.filter (fun d => d.level == .warning) = [] := by
        rw [List.filter_eq_nil_iff]
        intro e he h4
        have h5 := h1 e he
        simp only [beq_iff_eq] at h4
        rw [hd, h4] at h5
        cases h5
      simp only [List.filter_cons, hd, beq_self_eq_true, ↓reduceIte]
      rw [if_neg (by decide), h3, List.nil_append]
      rw [h3, List.nil_append] at ih
      rw [← ih]

theorem strLines_join (t : Text) (h : '\r' ∉ t) :
    (t = (strLines t).flatMap ln) ∨ (∃ init last, strLines t = init ++ [last] ∧ last ≠ [] ∧ t = init.flatMap ln ++ last) := by
  have key : ∀ ps : List Text, ps ≠ [] → joinNl ps = ps.dropLast.flatMap ln ++ ps.getLast?.getD [] := by
    intro ps
    induction ps with
    | nil => intro h; exact absurd rfl h
    | cons a b ih =>
      intro _
      cases b with
      | nil => simp [joinNl]
      | cons x y =>
        have := ih (by simp)
        rw [joinNl_cons (by simp), this]
        simp [ln]
  have hj := joinNl_splitNl t
  rw [key _ (splitNl_ne_nil t)] at hj
  have hcr : (splitNl t).dropLast.map stripCr = (splitNl t).dropLast := by
    have : ∀ l ∈ (splitNl t).dropLast, stripCr l = l := by
      intro l hl
      refine stripCr_of_last (fun hr => h ?_)
      rw [← hj]
      refine List.mem_append_left _ (List.mem_flatMap.2 ⟨l, hl, ?_⟩)
      exact List.mem_append_left _ (List.mem_of_getLast? hr)
    rw [List.map_congr_left this, List.map_id']
  unfold strLines
  rw [hcr]
  cases hl : (splitNl t).getLast? with
  | none => exact absurd (List.getLast?_eq_none_iff.1 hl) (splitNl_ne_nil t)
  | some l =>
    rw [hl] at hj
    by_cases h0 : l = []
    · left
      rw [if_pos (by rw [h0]), List.append_nil]
      rw [h0] at hj
      simpa using hj.symm
    · right
      rw [if_neg (by simpa using h0)]
      exact ⟨_, l, rfl, h0, hj.symm⟩

/-! ## The theorems -/

/-- The width of the labels: that of the level. -/
def Spec.width : Level → Nat
  | .warning => 7
  | .error => 5

/-- **C128** The lines of an attachment or of a note: they have no newline, and together they are the text, up to the
last newline. -/
theorem lines_of_text (t : Text) (h : '\r' ∉ t) :
    (∀ l ∈ strLines t, OneLine l) ∧
    ((t = (strLines t).flatMap (· ++ ['\n'])) ∨
      (∃ init last, strLines t = init ++ [last] ∧ last ≠ [] ∧ t = init.flatMap (· ++ ['\n']) ++ last)) :=
  ⟨fun _ hl => strLines_noNl hl, strLines_join t h⟩

/-- **C128** What a diagnostic prints, row by row: the level and the message, the note, the help, the attachment, the
code spans; if the message and the help are on one line and the note is not empty. -/
theorem diagnostic_rows_partial (d : Diagnostic) (hm : OneLine d.message) (hn : d.note ≠ some [])
    (hh : ∀ t, d.help = some t → OneLine t) (hs : ∀ s ∈ d.spans, OneLine s.file ∧ OneLine s.line) :
    ∃ attachment : List Text,
      (match d.attachment with
       | some a => AttachmentRows (width d.level) (strLines a) attachment
       | none => attachment = []) ∧
      splitNl d.print =
        [(match d.level with | .warning => "Warning: ".toList | .error => "Error: ".toList) ++ d.message] ++
        (match d.note with | some t => noteRows (width d.level) (strLines t) | none => []) ++
        (match d.help with
         | some t => [List.replicate (width d.level - 4) ' ' ++ "Help: ".toList ++ t]
         | none => []) ++
        attachment ++ d.spans.flatMap (spanRows (width d.level)) ++ [[]] := by
  have hw : d.level.text.length = width d.level := by cases d.level <;> rfl
  obtain ⟨att, h1, h2, h3⟩ : ∃ att : List Text, (match d.attachment with
      | some a => AttachmentRows (width d.level) (strLines a) att
      | none => att = []) ∧ (∀ r ∈ att, '\n' ∉ r) ∧ optText (attachmentText (width d.level)) d.attachment = att.flatMap ln := by
    cases d.attachment with
    | none => exact ⟨[], rfl, by simp, rfl⟩
    | some a => exact attachment_rows (width d.level) a
  refine ⟨att, h1, ?_⟩
  have e0 : d.level.text ++ ": ".toList ++ d.message =
      (match d.level with | .warning => "Warning: ".toList | .error => "Error: ".toList) ++ d.message := by
    cases d.level <;> rfl
  have e1 : optText (noteText (width d.level)) d.note =
      (match d.note with | some t => noteRows (width d.level) (strLines t) | none => []).flatMap ln := by
    cases hd : d.note with
    | none => rfl
    | some t => exact noteText_rows _ (fun h => hn (by rw [hd, h]))
  have e2 : optText (helpText (width d.level)) d.help = (match d.help with
         | some t => [List.replicate (width d.level - 4) ' ' ++ "Help: ".toList ++ t]
         | none => []).flatMap ln := by
    cases d.help with
    | none => rfl
    | some t =>
      simp only [optText, helpText, right, List.flatMap_cons, List.flatMap_nil, List.append_nil, ln, List.append_assoc]
      rfl
  have hp : d.print = ([(match d.level with | .warning => "Warning: ".toList | .error => "Error: ".toList) ++ d.message] ++
        (match d.note with | some t => noteRows (width d.level) (strLines t) | none => []) ++
        (match d.help with
         | some t => [List.replicate (width d.level - 4) ' ' ++ "Help: ".toList ++ t]
         | none => []) ++
        att ++ d.spans.flatMap (spanRows (width d.level))).flatMap ln ++ [] := by
    unfold Diagnostic.print
    simp only [hw, e0, e1, e2, h3, spans_rows _ hs, List.flatMap_append, List.append_nil, List.append_assoc,
      List.flatMap_cons, List.flatMap_nil]
  rw [hp, splitNl_rows]
  · rfl
  · intro t ht
    simp only [List.mem_append, List.mem_singleton, List.mem_flatMap] at ht
    rcases ht with (((rfl | ht) | ht) | ht) | ⟨s, hs1, hs2⟩
    · intro h
      rcases List.mem_append.1 h with h | h
      · revert h
        cases d.level <;> decide
      · exact hm h
    · cases hd : d.note with
      | none => rw [hd] at ht; cases ht
      | some x =>
        rw [hd] at ht
        exact noteRows_noNl (fun l hl => strLines_noNl hl) t ht
    · cases hd : d.help with
      | none => rw [hd] at ht; cases ht
      | some x =>
        rw [hd] at ht
        rw [List.mem_singleton] at ht
        subst ht
        simp only [List.mem_append, not_or]
        exact ⟨⟨noNl_replicate (by decide), by decide⟩, hh x hd⟩
    · exact h2 t ht
    · exact spanRows_noNl (hs s hs1).1 (hs s hs1).2 t hs2

/-- **C128** Not for an empty note: what follows is on the same row. -/
theorem rows_not_always : ∃ d : Diagnostic, d.note = some [] ∧
    splitNl d.print = ["Error: m".toList, " Note:  Help: h".toList, []] :=
  ⟨{ level := .error, message := ['m'], note := some [], help := some ['h'] }, rfl, by decide +kernel⟩

/-- **C128** Of an attachment of any length, eleven rows at most. -/
theorem attachment_short {w : Nat} {lines rows : List Text} (h : AttachmentRows w lines rows) : rows.length ≤ 11 := by
  have key : ∀ (ts : List Text) k, (numbered w k ts).length = ts.length := by
    intro ts
    induction ts with
    | nil => intro k; rfl
    | cons t ts ih => intro k; simp [numbered, ih]
  by_cases hl : 11 < lines.length
  · obtain ⟨a, b, c, h1, h2, h3, rfl⟩ := h.2 hl
    simp [key, h2, h3]
  · rw [h.1 (by omega), key]
    omega

/-- **C128** Whatever they are, the message, the lines of the note and the help are printed. -/
theorem nothing_lost (d : Diagnostic) :
    d.message <:+: d.print ∧ (∀ t, d.note = some t → ∀ l ∈ strLines t, l <:+: d.print) ∧
    (∀ t, d.help = some t → t <:+: d.print) := by
  have trans : ∀ {x y a b : Text}, x <:+: y → x <:+: a ++ y ++ b :=
    fun {x y a b} h => h.trans ⟨a, b, rfl⟩
  refine ⟨?_, fun t ht l hl => ?_, fun t ht => ?_⟩
  · refine ⟨d.level.text ++ ": ".toList, ['\n'] ++ optText (noteText d.level.text.length) d.note ++
      optText (helpText d.level.text.length) d.help ++ optText (attachmentText d.level.text.length) d.attachment ++
      spansText d.level.text.length d.spans, ?_⟩
    simp only [Diagnostic.print, ln, List.append_assoc]
  · have h1 : l <:+: noteText d.level.text.length t := by
      unfold noteText
      cases hs : strLines t with
      | nil => rw [hs] at hl; cases hl
      | cons x xs =>
        rw [hs] at hl
        rcases List.mem_cons.1 hl with rfl | hl
        · exact ⟨right d.level.text.length "Note".toList ++ ": ".toList,
            ['\n'] ++ xs.flatMap (fun l => ln (right d.level.text.length [] ++ "  ".toList ++ l)),
            by simp only [ln, List.append_assoc]⟩
        · obtain ⟨a, b, rfl⟩ := List.append_of_mem hl
          refine ⟨right d.level.text.length "Note".toList ++ ": ".toList ++ ln x ++
            a.flatMap (fun l => ln (right d.level.text.length [] ++ "  ".toList ++ l)) ++
            right d.level.text.length [] ++ "  ".toList,
            ['\n'] ++ b.flatMap (fun l => ln (right d.level.text.length [] ++ "  ".toList ++ l)), ?_⟩
          simp only [List.flatMap_append, List.flatMap_cons, ln, List.append_assoc]
    have h2 : d.print = ln (d.level.text ++ ": ".toList ++ d.message) ++ noteText d.level.text.length t ++
        (optText (helpText d.level.text.length) d.help ++ optText (attachmentText d.level.text.length) d.attachment ++
          spansText d.level.text.length d.spans) := by
      simp only [Diagnostic.print, ht, optText, List.append_assoc]
    rw [h2]
    exact trans h1
  · have h2 : d.print = (ln (d.level.text ++ ": ".toList ++ d.message) ++ optText (noteText d.level.text.length) d.note ++
        (right d.level.text.length "Help".toList ++ ": ".toList)) ++ t ++
        (['\n'] ++ optText (attachmentText d.level.text.length) d.attachment ++
          spansText d.level.text.length d.spans) := by
      simp only [Diagnostic.print, ht, optText, helpText, ln, List.append_assoc]
    rw [h2]
    exact ⟨_, _, rfl⟩

/-- **C128** At the end all the diagnostics are printed: the warnings in the order they came, then the errors in the
order they came. -/
theorem report_order (ds : List Diagnostic) :
    printAll ds = (ds.filter (fun d => d.level == .warning) ++ ds.filter (fun d => d.level == .error)).flatMap
      (fun d => d.print ++ ['\n']) := by
  unfold printAll
  have h : (sorted ds).Pairwise (fun a b => a.level.le b.level = true) := by
    refine List.pairwise_mergeSort (le := fun (a b : Diagnostic) => a.level.le b.level) (fun a b c => ?_) (fun a b => ?_) ds
    · cases a.level <;> cases b.level <;> cases c.level <;> decide
    · cases a.level <;> cases b.level <;> decide
  rw [le_split h, sorted_filter, sorted_filter]
  rfl

/-! ## The marks under a code span -/

theorem ascii_bytes {t : Text} (h : ∀ c ∈ t, c.utf8Size = 1) : bytes t = t.length := by
  induction t with
  | nil => rfl
  | cons c t ih =>
    have := ih (fun c hc => h c (by simp [hc]))
    simp only [bytes] at this
    simp only [bytes, List.map_cons, List.sum_cons, h c (by simp), this, List.length_cons]
    omega

/-- **C129** The marks are under the characters of the span, in the row below that of the line, if these characters
and those before them on the line are ASCII. -/
theorem marks_partial (w : Nat) (s : Span) (pre mid post : Text) (hl : s.line = pre ++ mid ++ post)
    (hp : bytes pre = s.lineOffset) (hm : bytes mid = s.len) (hne : mid ≠ [])
    (ha : ∀ c ∈ pre ++ mid, c.utf8Size = 1) :
    ∃ place line marks, spanRows w s = [place, line, marks] ∧ ∃ start, line.drop start = stripCr s.line ∧
      ∀ i, marks[i]? = some '^' ↔ start + pre.length ≤ i ∧ i < start + pre.length + mid.length := by
  rw [ascii_bytes (fun c hc => ha c (by simp [hc]))] at hp hm
  refine ⟨_, _, _, rfl, w + 2 + (Nat.toDigits 10 s.lineNumber).length + 3, ?_, fun i => ?_⟩
  · rw [List.append_assoc, List.append_assoc, ← List.append_assoc, ← List.append_assoc]
    rw [List.drop_append, List.drop_eq_nil_of_le (by simp; omega)]
    simp only [List.nil_append]
    have : w + 2 + (Nat.toDigits 10 s.lineNumber).length + 3 -
      (List.replicate (w + 2) ' ' ++ Nat.toDigits 10 s.lineNumber ++ [' ', '|', ' ']).length = 0 := by simp; omega
    rw [this, List.drop_zero]
  · have hlen : 0 < mid.length := by
      cases mid with
      | nil => exact absurd rfl hne
      | cons => simp
    have hmax : max s.len 1 = mid.length := by omega
    rw [hmax, ← hp, List.replicate_append_replicate]
    by_cases h : i < w + 2 + ((Nat.toDigits 10 s.lineNumber).length + 3 + pre.length)
    · rw [List.getElem?_append_left (by simpa using h), List.getElem?_replicate, if_pos h]
      simp only [Option.some.injEq, (by decide : ¬ ' ' = '^'), false_iff]
      omega
    · rw [List.getElem?_append_right (by simpa using h), List.getElem?_replicate]
      simp only [List.length_replicate]
      split <;> simp <;> omega

/-- **C129** Not in general: after a character of two bytes the mark is under the next character. -/
theorem marks_not_always : ∃ (s : Span) (pre mid post : Text), s.line = pre ++ mid ++ post ∧
    bytes pre = s.lineOffset ∧ bytes mid = s.len ∧ mid.length = 1 ∧
    ∀ place line marks, spanRows 5 s = [place, line, marks] → ∃ i, line.drop i = post ∧ marks[i]? = some '^' ∧
      marks[i - 1]? = some ' ' :=
  ⟨⟨['f'], 1, 2, 1, ['é', 'x', 'y']⟩, ['é'], ['x'], ['y'], by decide, by decide +kernel, by decide +kernel, by decide,
    (fun place line marks h => by
      have h' : spanRows 5 ⟨['f'], 1, 2, 1, ['é', 'x', 'y']⟩ =
        ["       f:1:2".toList, "       1 | éxy".toList, "             ^".toList] := by decide +kernel
      rw [h'] at h
      simp only [List.cons.injEq, and_true] at h
      obtain ⟨-, rfl, rfl⟩ := h
      exact ⟨13, by decide +kernel, by decide +kernel, by decide +kernel⟩)⟩

/-! ## Examples -/

/-- A diagnostic with everything. -/
def Spec.sample : Diagnostic :=
  { level := .warning, message := "bad".toList, note := some "one\ntwo".toList, help := some "do it".toList
    attachment := some "a\nb\n".toList, spans := [⟨"f.txt".toList, 3, 2, 2, "x yz;\r".toList⟩] }

example : splitNl Spec.sample.print =
    ["Warning: bad".toList, "   Note: one".toList, "         two".toList, "   Help: do it".toList,
     "      1 | a".toList, "      2 | b".toList, "         f.txt:3:2".toList, "         3 | x yz;".toList,
     "               ^^".toList, []] := by decide +kernel

example : OneLine Spec.sample.message ∧ Spec.sample.note ≠ some [] ∧
    (∀ t, Spec.sample.help = some t → OneLine t) ∧ (∀ s ∈ Spec.sample.spans, OneLine s.file ∧ OneLine s.line) := by
  unfold OneLine
  refine ⟨by decide +kernel, by decide +kernel, ?_, ?_⟩
  · rintro t ⟨⟩
    decide +kernel
  · intro s hs
    cases List.mem_singleton.1 hs
    exact ⟨by decide +kernel, by decide +kernel⟩

/-- Twelve lines: the sixth and the seventh are left out. -/
example : splitNl (attachmentText 5 "a\nb\nc\nd\ne\nf\ng\nh\ni\nj\nk\nl".toList) =
    ["    1 | a".toList, "    2 | b".toList, "    3 | c".toList, "    4 | d".toList, "    5 | e".toList, "  ... |".toList,
     "    8 | h".toList, "    9 | i".toList, "   10 | j".toList, "   11 | k".toList, "   12 | l".toList, []] := by
  decide +kernel

example : ∃ (s : Span) (pre mid post : Text), s.line = pre ++ mid ++ post ∧ bytes pre = s.lineOffset ∧
    bytes mid = s.len ∧ mid ≠ [] ∧ ∀ c ∈ pre ++ mid, c.utf8Size = 1 :=
  ⟨⟨['f'], 1, 1, 1, ['x', 'y', 'é']⟩, ['x'], ['y'], ['é'], by decide, by decide +kernel, by decide +kernel, by decide,
    by decide +kernel⟩

end TM.Diag
