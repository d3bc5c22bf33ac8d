import Verif.Sanity.Pdf
/-!
# C134: the official statement is checked
-/
namespace TM.Sanity.Pdf
open TM.Disk

/-! ## Lemmas -/

section
variable {d : Disk} {task : Path} {booklets : List Path} {o : Official}

theorem isThere_iff (hd : Roomy d) {p : Path} : isThere d p = true ↔ Present d p := by
  unfold isThere Present
  rw [Bool.or_eq_true, exists_iff hd, Option.isSome_iff_exists]
  simp only [readLink_iff hd]

theorem findPdf_iff (hd : Roomy d) : findPdf d task = some o ↔ IsOfficial d task o := by
  have h1 : isThere d (Official.path task .statement) = true ↔ Present d (task ++ ["statement".toList, "statement.pdf".toList]) :=
    isThere_iff hd
  have h2 : isThere d (Official.path task .testo) = true ↔ Present d (task ++ ["testo".toList, "testo.pdf".toList]) :=
    isThere_iff hd
  unfold findPdf IsOfficial
  by_cases a : Present d (task ++ ["statement".toList, "statement.pdf".toList])
  · rw [if_pos (h1.2 a)]
    constructor
    · intro h; cases h; exact .inl ⟨rfl, a⟩
    · rintro (⟨rfl, -⟩ | ⟨-, h, -⟩)
      · rfl
      · exact absurd a h
  · rw [if_neg (fun h => a (h1.1 h))]
    by_cases b : Present d (task ++ ["testo".toList, "testo.pdf".toList])
    · rw [if_pos (h2.2 b)]
      constructor
      · intro h; cases h; exact .inr ⟨rfl, a, b⟩
      · rintro (⟨-, h⟩ | ⟨rfl, -⟩)
        · exact absurd h a
        · rfl
    · rw [if_neg (fun h => b (h2.1 h))]
      constructor
      · intro h; cases h
      · rintro (⟨-, h⟩ | ⟨-, -, h⟩)
        · exact absurd h a
        · exact absurd h b

theorem findPdf_none (hd : Roomy d) : findPdf d task = none ↔ ∀ o, ¬ IsOfficial d task o := by
  constructor
  · intro h o ho
    rw [(findPdf_iff hd).2 ho] at h
    cases h
  · intro h
    cases hf : findPdf d task with
    | none => rfl
    | some o => exact absurd ((findPdf_iff hd).1 hf) (h o)

/-- What is there and leads nowhere is a link. -/
theorem official_present (hd : Roomy d) (h : IsOfficial d task o) : Present d (o.path task) := by
  rcases h with ⟨rfl, h⟩ | ⟨rfl, -, h⟩ <;> exact h

theorem isPdf_iff {content : Text} : isPdf content = true ↔ "%PDF".toList <+: content := by
  have hl : "%PDF".toList.length = 4 := by decide +kernel
  unfold isPdf
  rw [decide_eq_true_eq]
  constructor
  · intro h
    rw [← h]
    exact List.take_prefix _ _
  · intro h
    rw [← hl]
    exact (List.prefix_iff_eq_take.1 h).symm

theorem pdfAt_iff (hd : Roomy d) {p : Path} : PdfAt d p ↔ ∃ content, d.read p = some content ∧ isPdf content = true := by
  unfold PdfAt
  constructor
  · rintro ⟨r, content, h1, h2, h3⟩
    exact ⟨content, (read_iff hd).2 ⟨r, h1, h2⟩, isPdf_iff.2 h3⟩
  · rintro ⟨content, h1, h2⟩
    obtain ⟨r, h3, h4⟩ := (read_iff hd).1 h1
    exact ⟨r, content, h3, h4, isPdf_iff.1 h2⟩

theorem pdf_leads {p : Path} (h : PdfAt d p) : ∃ r, LeadsTo d p r := by
  obtain ⟨r, _, h, -⟩ := h
  exact ⟨r, h⟩

/-- The cases of the check. -/
theorem valid_cases (hd : Roomy d) :
    ((∀ o, ¬ IsOfficial d task o) ∧ valid d task booklets = [.missing (booklets.head?.bind (·.getLast?))]) ∨
    ∃ o, IsOfficial d task o ∧
      ((PdfAt d (o.path task) ∧ valid d task booklets = []) ∨
       ((∃ r, LeadsTo d (o.path task) r) ∧ ¬ PdfAt d (o.path task) ∧ valid d task booklets = [.invalid o]) ∨
       ((¬ ∃ r, LeadsTo d (o.path task) r) ∧ valid d task booklets = [.broken o])) := by
  unfold valid
  cases hf : findPdf d task with
  | none => exact .inl ⟨(findPdf_none hd).1 hf, rfl⟩
  | some o =>
    have ho := (findPdf_iff hd).1 hf
    refine .inr ⟨o, ho, ?_⟩
    dsimp only
    cases he : d.exists (o.path task) with
    | true =>
      rw [if_pos rfl]
      have hr := (exists_iff hd).1 he
      cases hc : d.read (o.path task) with
      | none =>
        refine .inr (.inl ⟨hr, fun h => ?_, rfl⟩)
        obtain ⟨content, h1, -⟩ := (pdfAt_iff hd).1 h
        rw [hc] at h1; cases h1
      | some content =>
        dsimp only
        cases hp : isPdf content with
        | true => exact .inl ⟨(pdfAt_iff hd).2 ⟨content, hc, hp⟩, rfl⟩
        | false =>
          refine .inr (.inl ⟨hr, fun h => ?_, rfl⟩)
          obtain ⟨content', h1, h2⟩ := (pdfAt_iff hd).1 h
          rw [hc] at h1; cases h1
          rw [hp] at h2; cases h2
    | false =>
      have hr : ¬ ∃ r, LeadsTo d (o.path task) r := fun h => by rw [(exists_iff hd).2 h] at he; cases he
      rw [if_neg (by decide)]
      refine .inr (.inr ⟨hr, ?_⟩)
      rcases official_present hd ho with h | ⟨t, h⟩
      · exact absurd h hr
      · rw [(readLink_iff hd).2 h]
        rfl

theorem official_unique {o' : Official} (h : IsOfficial d task o) (h' : IsOfficial d task o') : o = o' := by
  rcases h with ⟨rfl, a⟩ | ⟨rfl, a, -⟩ <;> rcases h' with ⟨rfl, b⟩ | ⟨rfl, b, -⟩
  · rfl
  · exact absurd a b
  · exact absurd b a
  · rfl

theorem otherPdfs_spec (hd : Roomy d) (target : Path) : ∀ (bs : List Path),
    (otherPdfs d target bs = none ↔ ∃ b ∈ bs, LeadsTo d b target) ∧
    ∀ dests, otherPdfs d target bs = some dests → ∀ x, x ∈ dests ↔ ∃ b ∈ bs, LeadsTo d b x
  | [] => by simp [otherPdfs]
  | b :: bs => by
    obtain ⟨h1, h2⟩ := otherPdfs_spec hd target bs
    simp only [otherPdfs]
    cases hc : d.canonicalize b with
    | none =>
      have hn := (canon_none hd).1 hc
      dsimp only
      refine ⟨?_, fun dests h x => ?_⟩
      · rw [h1]
        simp [hn]
      · rw [h2 dests h x]
        simp [hn]
    | some dest =>
      have hl := (canon_iff hd).1 hc
      dsimp only
      by_cases he : dest = target
      · rw [if_pos he]
        subst he
        exact ⟨by simp [hl], nofun⟩
      · rw [if_neg he]
        have hne : ¬ LeadsTo d b target := fun h => he (leads_unique hl h)
        refine ⟨?_, fun dests h x => ?_⟩
        · rw [Option.map_eq_none_iff, h1]
          simp [hne]
        · obtain ⟨ds, h3, rfl⟩ := Option.map_eq_some_iff.1 h
          rw [List.mem_cons, h2 ds h3 x]
          constructor
          · rintro (rfl | ⟨c, h4, h5⟩)
            · exact ⟨b, by simp, hl⟩
            · exact ⟨c, by simp [h4], h5⟩
          · rintro ⟨c, h4, h5⟩
            rcases List.mem_cons.1 h4 with rfl | h4
            · exact .inl (leads_unique h5 hl)
            · exact .inr ⟨c, h4, h5⟩

theorem splitNul_word {w : Text} (hw : '\x00' ∉ w) (r : Text) : splitNul (w ++ '\x00' :: r) = w :: splitNul r := by
  induction w with
  | nil => simp only [List.nil_append, splitNul, if_true]
  | cons c w ih =>
    have hc : c ≠ '\x00' := fun e => hw (by simp [e])
    simp only [List.cons_append, splitNul, if_neg hc, ih (fun h => hw (by simp [h]))]

theorem splitNul_names {names : List Text} (h : ∀ w ∈ names, '\x00' ∉ w) :
    splitNul (names.flatMap (fun w => w ++ ['\x00'])) = names ++ [[]] := by
  induction names with
  | nil => rfl
  | cons w names ih =>
    rw [List.flatMap_cons, List.append_assoc, List.singleton_append, splitNul_word (h w (by simp)),
      ih (fun w hw => h w (by simp [hw])), List.cons_append]

theorem name_ne (o : Official) : o.name ≠ [] := by
  cases o <;> decide +kernel

/-! ## C134 -/

/-- **C134** The statement is said to be missing, broken or not a PDF exactly when it is so, and nothing is said exactly
when it is a PDF. -/
theorem valid_exact (hd : Roomy d) :
    (valid d task booklets = [] ↔ ∃ o, IsOfficial d task o ∧ PdfAt d (o.path task)) ∧
    (∀ link, Says.missing link ∈ valid d task booklets ↔
      (∀ o, ¬ IsOfficial d task o) ∧ link = booklets.head?.bind (·.getLast?)) ∧
    (∀ o, Says.invalid o ∈ valid d task booklets ↔
      IsOfficial d task o ∧ (∃ r, LeadsTo d (o.path task) r) ∧ ¬ PdfAt d (o.path task)) ∧
    (∀ o, Says.broken o ∈ valid d task booklets ↔ IsOfficial d task o ∧ ¬ ∃ r, LeadsTo d (o.path task) r) ∧
    (valid d task booklets).length ≤ 1 := by
  rcases valid_cases (booklets := booklets) (task := task) hd with ⟨h, e⟩ | ⟨o, ho, ⟨h, e⟩ | ⟨h, h', e⟩ | ⟨h, e⟩⟩ <;> rw [e]
  · refine ⟨⟨nofun, fun ⟨o, ho, _⟩ => absurd ho (h o)⟩, fun link => ?_, fun o => ?_, fun o => ?_, Nat.le_refl _⟩
    · simp [h]
    · simp [h]
    · simp [h]
  · refine ⟨⟨fun _ => ⟨o, ho, h⟩, fun _ => rfl⟩, fun link => ?_, fun o' => ?_, fun o' => ?_, Nat.zero_le _⟩
    · exact ⟨nofun, fun h1 => absurd ho (h1.1 o)⟩
    · exact ⟨nofun, fun h1 => by cases official_unique ho h1.1; exact absurd h h1.2.2⟩
    · exact ⟨nofun, fun h1 => by cases official_unique ho h1.1; exact absurd (pdf_leads h) h1.2⟩
  · refine ⟨⟨nofun, fun ⟨o', h1, h2⟩ => ?_⟩, fun link => ?_, fun o' => ?_, fun o' => ?_, Nat.le_refl _⟩
    · cases official_unique ho h1; exact absurd h2 h'
    · exact ⟨fun h1 => (nomatch (List.mem_singleton.1 h1)), fun h1 => absurd ho (h1.1 o)⟩
    · rw [List.mem_singleton]
      exact ⟨fun h1 => by cases h1; exact ⟨ho, h, h'⟩, fun h1 => by cases official_unique ho h1.1; rfl⟩
    · exact ⟨fun h1 => (nomatch (List.mem_singleton.1 h1)), fun h1 => by cases official_unique ho h1.1; exact absurd h h1.2⟩
  · refine ⟨⟨nofun, fun ⟨o', h1, h2⟩ => ?_⟩, fun link => ?_, fun o' => ?_, fun o' => ?_, Nat.le_refl _⟩
    · cases official_unique ho h1; exact absurd (pdf_leads h2) h
    · exact ⟨fun h1 => (nomatch (List.mem_singleton.1 h1)), fun h1 => absurd ho (h1.1 o)⟩
    · exact ⟨fun h1 => (nomatch (List.mem_singleton.1 h1)), fun h1 => by cases official_unique ho h1.1; exact absurd h1.2.1 h⟩
    · rw [List.mem_singleton]
      exact ⟨fun h1 => by cases h1; exact ⟨ho, h⟩, fun h1 => by cases official_unique ho h1.1; rfl⟩

/-- **C134** The warning that the statement is not a compiled one is there exactly when there are booklets, the statement is
there and none of the booklets is the same file; it names all the compiled files. -/
theorem compiled_exact (hd : Roomy d) :
    (∀ o, (∃ dests, compiled d task booklets = some (o, dests)) ↔
      booklets ≠ [] ∧ IsOfficial d task o ∧ ∃ r, LeadsTo d (o.path task) r ∧ ∀ b ∈ booklets, ¬ LeadsTo d b r) ∧
    ∀ o dests, compiled d task booklets = some (o, dests) → ∀ x, x ∈ dests ↔ ∃ b ∈ booklets, LeadsTo d b x := by
  have key : ∀ o dests, compiled d task booklets = some (o, dests) → booklets ≠ [] ∧ IsOfficial d task o ∧
      ∃ r, LeadsTo d (o.path task) r ∧ otherPdfs d r booklets = some dests := by
    intro o dests h
    unfold compiled at h
    split at h
    · cases h
    · split at h
      · cases h
      · split at h
        · cases h
        · obtain ⟨ds, h1, h2⟩ := Option.map_eq_some_iff.1 h
          cases h2
          exact ⟨‹_›, (findPdf_iff hd).1 ‹_›, _, (canon_iff hd).1 ‹_›, h1⟩
  refine ⟨fun o => ⟨?_, ?_⟩, fun o dests h x => ?_⟩
  · rintro ⟨dests, h⟩
    obtain ⟨h1, h2, r, h3, h4⟩ := key o dests h
    refine ⟨h1, h2, r, h3, fun b hb hl => ?_⟩
    rw [(otherPdfs_spec hd r booklets).1.2 ⟨b, hb, hl⟩] at h4
    cases h4
  · rintro ⟨h1, h2, r, h3, h4⟩
    unfold compiled
    rw [if_neg h1, (findPdf_iff hd).2 h2]
    dsimp only
    rw [(canon_iff hd).2 h3]
    dsimp only
    cases hp : otherPdfs d r booklets with
    | none =>
      obtain ⟨b, hb, hl⟩ := (otherPdfs_spec hd r booklets).1.1 hp
      exact absurd hl (h4 b hb)
    | some dests => exact ⟨dests, rfl⟩
  · obtain ⟨-, -, r, -, h4⟩ := key o dests h
    exact (otherPdfs_spec hd r booklets).2 dests h4 x

/-- **C134** The error that the statement is not known to git is there exactly when git knows some files of the task and not
that one. -/
theorem git_exact (hd : Roomy d) {names : List Text} (hn : ∀ w ∈ names, '\x00' ∉ w) :
    (∀ o, gitCheck d task (some (names.flatMap (fun w => w ++ ['\x00']))) = some o ↔
      IsOfficial d task o ∧ names ≠ [] ∧ o.name ∉ names) ∧
    gitCheck d task none = none := by
  refine ⟨fun o => ?_, ?_⟩
  · have hne : names.flatMap (fun w => w ++ ['\x00']) ≠ [] ↔ names ≠ [] := by
      cases names <;> simp
    have hmem : ∀ o : Official, o.name ∉ splitNul (names.flatMap (fun w => w ++ ['\x00'])) ↔ o.name ∉ names := by
      intro o
      rw [splitNul_names hn]
      simp [name_ne o]
    unfold gitCheck
    constructor
    · intro h
      split at h
      · cases h
      · dsimp only at h
        split at h
        · rename_i hc
          cases h
          exact ⟨(findPdf_iff hd).1 ‹_›, hne.1 hc.1, (hmem _).1 hc.2⟩
        · cases h
    · rintro ⟨h1, h2, h3⟩
      rw [(findPdf_iff hd).2 h1]
      dsimp only
      rw [if_pos ⟨hne.2 h2, (hmem o).2 h3⟩]
  · unfold gitCheck
    split <;> rfl

/-- **C134** If nothing is said, there are booklets and git knows some files, the statement that is imported is a PDF, it
is one of the compiled booklets and it is known to git. -/
theorem official_good (hd : Roomy d) {names : List Text} (hn : ∀ w ∈ names, '\x00' ∉ w) (hb : booklets ≠ []) (hnames : names ≠ [])
    (h1 : valid d task booklets = []) (h2 : compiled d task booklets = none)
    (h3 : gitCheck d task (some (names.flatMap (fun w => w ++ ['\x00']))) = none) :
    ∃ o, IsOfficial d task o ∧ PdfAt d (o.path task) ∧ o.name ∈ names ∧
      ∃ b ∈ booklets, ∃ r, LeadsTo d b r ∧ LeadsTo d (o.path task) r := by
  obtain ⟨o, ho, hp⟩ := (valid_exact (booklets := booklets) hd).1.1 h1
  refine ⟨o, ho, hp, ?_, ?_⟩
  · refine Classical.byContradiction fun hno => ?_
    rw [((git_exact hd hn).1 o).2 ⟨ho, hnames, hno⟩] at h3
    cases h3
  · obtain ⟨r, hr⟩ := pdf_leads hp
    refine Classical.byContradiction fun hno => ?_
    obtain ⟨dests, h⟩ := ((compiled_exact (booklets := booklets) hd).1 o).2
      ⟨hb, ho, r, hr, fun b hb' hl => hno ⟨b, hb', r, hl, hr⟩⟩
    rw [h] at h2
    cases h2
end

end TM.Sanity.Pdf
