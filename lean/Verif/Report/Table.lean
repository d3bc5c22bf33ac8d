import Verif.Report.Summary
/-!
# The table of the checks
-/
namespace TM.Report
open TM TM.Build TM.Ui Report.Spec

variable {task : Task} {v : View} {s : State}

theorem utf8Size_pos' (c : Char) : 1 ≤ c.utf8Size := Char.utf8Size_pos c

theorem length_le_byteLen (t : Text) : t.length ≤ byteLen t := by
  unfold byteLen
  induction t with
  | nil => simp
  | cons c t ih =>
    have := utf8Size_pos' c
    simp only [List.map_cons, List.sum_cons, List.length_cons]
    omega

theorem byteLen_append (a b : Text) : byteLen (a ++ b) = byteLen a + byteLen b := by
  unfold byteLen; simp

theorem padRight_length {w : Nat} {t : Text} (h : t.length ≤ w) : (padRight w t).length = w := by
  unfold padRight; simp; omega

theorem padLeft_length {w : Nat} {t : Text} (h : t.length ≤ w) : (padLeft w t).length = w := by
  unfold padLeft; simp; omega

theorem center_length {w : Nat} {t : Text} (h : t.length ≤ w) : (center w t).length = w := by
  unfold center; simp; omega

theorem foldl_max_le {α : Type} (f : α → Nat) : ∀ (l : List α) (w : Nat), w ≤ l.foldl (fun w a => max w (f a)) w := by
  intro l
  induction l with
  | nil => intro w; exact Nat.le_refl _
  | cons a l ih => intro w; exact Nat.le_trans (Nat.le_max_left _ _) (ih _)

theorem foldl_max_mem {α : Type} (f : α → Nat) : ∀ (l : List α) (w : Nat) (a : α), a ∈ l →
    f a ≤ l.foldl (fun w a => max w (f a)) w := by
  intro l
  induction l with
  | nil => intro w a h; cases h
  | cons b l ih =>
    intro w a h
    rcases List.mem_cons.1 h with rfl | h
    · exact Nat.le_trans (Nat.le_max_right _ _) (foldl_max_le f l _)
    · exact ih _ a h

theorem lineText_append (a b : Line) : lineText (a ++ b) = lineText a ++ lineText b := by
  unfold lineText; simp

theorem lineText_flatten (l : List Line) : (lineText l.flatten).length = (l.map (fun x => (lineText x).length)).sum := by
  induction l with
  | nil => rfl
  | cons a l ih => rw [List.flatten_cons, lineText_append, List.length_append, ih]; simp

/-! ## A cell -/

theorem compact_ascii (c : Solution.Check) : byteLen (compact c) = (compact c).length ∧ 0 < (compact c).length := by
  cases c <;> decide

/-- A list of words, with a space before each of them but the first of the line. -/
def spaced (first : Bool) : List Text → Text
  | [] => []
  | w :: ws => (if first then [] else [' ']) ++ w ++ spaced false ws

theorem intercalate_spaced (ws : List Text) : List.intercalate [' '] ws = spaced true ws := by
  cases ws with
  | nil => rfl
  | cons w ws =>
    induction ws generalizing w with
    | nil => simp [List.intercalate, spaced]
    | cons u ws ih =>
      have := ih u
      simp only [List.intercalate, List.intersperse_cons_cons, List.flatten_cons] at this ⊢
      rw [this]
      simp [spaced]

theorem cellSegs_text (rs : List CheckOutcome) : ∀ n, lineText (cellSegs rs n).1 =
    spaced (n == 0) (rs.map (fun r => compact r.check.result)) ∧
    (cellSegs rs n).2 = n + (lineText (cellSegs rs n).1).length := by
  induction rs with
  | nil => intro n; exact ⟨rfl, rfl⟩
  | cons r rs ih =>
    intro n
    have hc := compact_ascii r.check.result
    unfold cellSegs
    simp only
    obtain ⟨h1, h2⟩ := ih ((if n > 0 then n + 1 else n) + byteLen (compact r.check.result))
    have hne : ((if n > 0 then n + 1 else n) + byteLen (compact r.check.result) == 0) = false := by
      simp only [beq_eq_false_iff_ne]; omega
    rw [hne] at h1
    constructor
    · rw [lineText_append]
      simp only [List.map_cons, spaced]
      have : lineText (⟨if r.success then Color.green else .red, compact r.check.result⟩ ::
          (cellSegs rs ((if n > 0 then n + 1 else n) + byteLen (compact r.check.result))).1) =
          compact r.check.result ++ spaced false (rs.map (fun r => compact r.check.result)) := by
        rw [← h1]; rfl
      rw [this]
      cases n with
      | zero => simp [lineText]
      | succ n => simp [lineText, say]
    · rw [h2, lineText_append]
      have : lineText (⟨if r.success then Color.green else .red, compact r.check.result⟩ ::
          (cellSegs rs ((if n > 0 then n + 1 else n) + byteLen (compact r.check.result))).1) =
          compact r.check.result ++ lineText (cellSegs rs ((if n > 0 then n + 1 else n) + byteLen (compact r.check.result))).1 := rfl
      rw [this, List.length_append, List.length_append, hc.1]
      cases n with
      | zero => simp [lineText]
      | succ n => simp [lineText, say]; omega

theorem cellSegs_shown (rs : List CheckOutcome) : ∀ n, (cellSegs rs n).1.filter (fun x => x.color ≠ .plain) =
    rs.map (fun r => ⟨if r.success then .green else .red, compact r.check.result⟩) ∧
    ∀ x ∈ (cellSegs rs n).1, x.color = .plain → x.text = [' '] := by
  induction rs with
  | nil => intro n; exact ⟨rfl, fun x hx => nomatch hx⟩
  | cons r rs ih =>
    intro n
    unfold cellSegs
    simp only
    obtain ⟨h1, h2⟩ := ih ((if n > 0 then n + 1 else n) + byteLen (compact r.check.result))
    constructor
    · rw [List.filter_append, List.filter_cons, h1]
      have hs : (if n > 0 then [say [' ']] else []).filter (fun x => decide (x.color ≠ .plain)) = [] := by
        split <;> simp [say]
      rw [hs]
      cases hr : r.success <;> simp [hr]
    · intro x hx hp
      rcases List.mem_append.1 hx with hx | hx
      · split at hx
        · rw [List.mem_singleton] at hx; rw [hx]; rfl
        · cases hx
      · rcases List.mem_cons.1 hx with rfl | hx
        · cases hr : r.success <;> simp [hr] at hp
        · exact h2 x hx hp

theorem ascii_spaced (rs : List CheckOutcome) : ∀ b, byteLen (spaced b (rs.map (fun r => compact r.check.result))) =
    (spaced b (rs.map (fun r => compact r.check.result))).length := by
  induction rs with
  | nil => intro b; rfl
  | cons r rs ih =>
    intro b
    have hc := (compact_ascii r.check.result).1
    simp only [List.map_cons, spaced]
    rw [byteLen_append, byteLen_append, List.length_append, List.length_append, ih, hc]
    cases b <;> rfl

theorem codeOf_eq (c : Solution.Check) : codeOf c = compact c := by cases c <;> rfl

theorem cell_eq {rs : List CheckOutcome} {w : Nat} (h1 : 1 ≤ w)
    (h : byteLen (List.intercalate [' '] (rs.map (fun r => compact r.check.result))) ≤ w) :
    ∃ c, cell rs w = some c ∧ (lineText c).length = w ∧ CellShows rs c := by
  unfold cell
  cases hrs : rs with
  | nil =>
    refine ⟨_, rfl, ?_, by simp [say], ?_, fun _ => by simp [lineText, say, padRight]⟩
    · simp only [lineText, say, List.flatMap_cons, List.flatMap_nil, List.append_nil]
      exact padRight_length h1
    · intro x hx _ ch hch
      rw [List.mem_singleton] at hx
      subst hx
      simp only [say, padRight, List.mem_append, List.mem_singleton, List.mem_replicate] at hch
      rcases hch with rfl | ⟨-, rfl⟩
      · exact .inr ⟨rfl, rfl⟩
      · exact .inl rfl
  | cons r rest =>
    rw [← hrs]
    have hne : rs.isEmpty = false := by rw [hrs]; rfl
    obtain ⟨h2, h3⟩ := cellSegs_text rs 0
    have hle : (cellSegs rs 0).2 ≤ w := by
      rw [h3, h2, ← ascii_spaced]
      rw [intercalate_spaced] at h
      simpa using h
    simp only [hne, Bool.false_eq_true, if_false, hle, if_true]
    refine ⟨_, rfl, ?_, ?_, ?_, fun he => by rw [he] at hne; cases hne⟩
    · rw [lineText_append, List.length_append]
      simp only [lineText, List.flatMap_cons, List.flatMap_nil, say, List.append_nil, List.length_replicate]
      unfold lineText at h3
      omega
    · rw [List.filter_append, (cellSegs_shown rs 0).1]
      simp [say, codeOf_eq]
    · intro x hx hp ch hch
      rcases List.mem_append.1 hx with hx | hx
      · rw [(cellSegs_shown rs 0).2 x hx hp] at hch
        exact .inl (by simpa using hch)
      · rw [List.mem_singleton] at hx
        subst hx
        simp only [say, List.mem_replicate] at hch
        exact .inl hch.2

/-! ## The whole table -/

/-- The subtasks are numbered from 0 and have a name. -/
def Named (task : Task) : Prop :=
  ∀ st info, task.subtasks.get? st = some info → st < task.subtasks.length ∧ info.name.isSome

theorem column_eq (hn : Named task) (rs : List CheckOutcome) (sols : List Nat) {st : Nat}
    (hst : ∃ info, task.subtasks.get? st = some info) :
    column task rs sols st = some (nameOf task st, columnWidth rs sols st (nameOf task st)) := by
  obtain ⟨info, hi⟩ := hst
  obtain ⟨h1, h2⟩ := hn st info hi
  obtain ⟨n, h3⟩ := Option.isSome_iff_exists.1 h2
  unfold column
  simp only [hi, h3, nameOf, Option.bind_some, Option.getD_some]
  rw [if_pos (by omega)]

theorem columnWidth_name (rs : List CheckOutcome) (sols : List Nat) (st : Nat) (n : Text) :
    1 ≤ columnWidth rs sols st n ∧ byteLen n ≤ columnWidth rs sols st n := by
  have := foldl_max_le (fun j => byteLen (List.intercalate [' '] ((resultsOf rs j st).map (fun r => compact r.check.result))))
    sols (max 1 (byteLen n))
  unfold columnWidth
  omega

theorem columnWidth_cell (rs : List CheckOutcome) {sols : List Nat} (st : Nat) (n : Text) {j : Nat} (hj : j ∈ sols) :
    byteLen (List.intercalate [' '] ((resultsOf rs j st).map (fun r => compact r.check.result))) ≤ columnWidth rs sols st n :=
  foldl_max_mem (fun j => byteLen (List.intercalate [' '] ((resultsOf rs j st).map (fun r => compact r.check.result))))
    sols _ j hj

/-- The width of the table. -/
def tableWidth (task : Task) (v : View) (rs : List CheckOutcome) (sols : List Nat) : Nat :=
  nameWidth v sols + ((sortedNats task.subtasks.keys).map (fun st => 3 + columnWidth rs sols st (nameOf task st))).sum

theorem header_eq (hk : Keyed task) (hn : Named task) (rs : List CheckOutcome) (sols : List Nat) :
    tableHeader task v rs sols = some (say (padRight (nameWidth v sols) []) ::
      (sortedNats task.subtasks.keys).flatMap (fun st =>
        [say " | ".toList, ⟨.bold, padRight (columnWidth rs sols st (nameOf task st)) (nameOf task st)⟩])) := by
  unfold tableHeader
  rw [mapM_map (g := fun st =>
        [say " | ".toList, ⟨.bold, padRight (columnWidth rs sols st (nameOf task st)) (nameOf task st)⟩])]
  · rfl
  · intro st hst
    rw [column_eq hn rs sols (((subtasks_sorted hk).2 st).1 hst)]
    rfl

theorem header_length (rs : List CheckOutcome) (sols : List Nat) :
    (lineText (say (padRight (nameWidth v sols) []) ::
      (sortedNats task.subtasks.keys).flatMap (fun st =>
        [say " | ".toList, ⟨.bold, padRight (columnWidth rs sols st (nameOf task st)) (nameOf task st)⟩]))).length =
      tableWidth task v rs sols := by
  have h0 : ∀ (a : Seg) (l : Line), lineText (a :: l) = a.text ++ lineText l := fun a l => rfl
  rw [h0, List.length_append, List.flatMap_def, lineText_flatten, List.map_map]
  unfold tableWidth
  congr 1
  · exact padRight_length (Nat.zero_le _)
  · congr 1
    apply List.map_congr_left
    intro st _
    have := columnWidth_name rs sols st (nameOf task st)
    have hl := length_le_byteLen (nameOf task st)
    simp only [Function.comp_apply, h0, List.length_append]
    rw [padRight_length (by omega)]
    rfl

theorem row_eq (hk : Keyed task) (hn : Named task) (rs : List CheckOutcome) {sols : List Nat} {j : Nat} (hj : j ∈ sols) :
    ∃ row, tableRow task v rs sols j = some row ∧ (lineText row).length = tableWidth task v rs sols ∧
      TableRow v (resultsOf rs) (sortedNats task.subtasks.keys) j row := by
  have hcell : ∀ st ∈ sortedNats task.subtasks.keys, ∃ c,
      cell (resultsOf rs j st) (columnWidth rs sols st (nameOf task st)) = some c ∧
      (lineText c).length = columnWidth rs sols st (nameOf task st) ∧ CellShows (resultsOf rs j st) c := fun st _ =>
    cell_eq (columnWidth_name rs sols st _).1 (columnWidth_cell rs st _ hj)
  have hg : ∀ st ∈ sortedNats task.subtasks.keys,
      cell (resultsOf rs j st) (columnWidth rs sols st (nameOf task st)) =
        some ((cell (resultsOf rs j st) (columnWidth rs sols st (nameOf task st))).getD []) := by
    intro st hst
    obtain ⟨c, hc, -⟩ := hcell st hst
    rw [hc]; rfl
  refine ⟨say (padLeft (nameWidth v sols) (v.name j)) :: (sortedNats task.subtasks.keys).flatMap (fun st =>
      say " | ".toList :: (cell (resultsOf rs j st) (columnWidth rs sols st (nameOf task st))).getD []), ?_, ?_, ?_⟩
  · unfold tableRow
    rw [mapM_map (g := fun st =>
      say " | ".toList :: (cell (resultsOf rs j st) (columnWidth rs sols st (nameOf task st))).getD [])]
    · rfl
    · intro st hst
      rw [column_eq hn rs sols (((subtasks_sorted hk).2 st).1 hst)]
      simp only [Option.bind_some]
      rw [hg st hst]
      rfl
  · have h0 : ∀ (a : Seg) (l : Line), lineText (a :: l) = a.text ++ lineText l := fun a l => rfl
    rw [h0, List.length_append, List.flatMap_def, lineText_flatten, List.map_map]
    unfold tableWidth
    congr 1
    · refine padLeft_length ?_
      have h1 := foldl_max_mem (fun j => byteLen (v.name j)) sols 1 j hj
      have h2 := length_le_byteLen (v.name j)
      unfold nameWidth
      omega
    · congr 1
      apply List.map_congr_left
      intro st hst
      obtain ⟨c, hc, hl, -⟩ := hcell st hst
      simp only [Function.comp_apply, h0, List.length_append]
      rw [hc, Option.getD_some, hl]
      rfl
  · refine ⟨nameWidth v sols, (sortedNats task.subtasks.keys).map (fun st =>
      (cell (resultsOf rs j st) (columnWidth rs sols st (nameOf task st))).getD []), ?_, by simp, ?_⟩
    · rw [List.flatMap_map]; rfl
    · intro i st hi
      obtain ⟨c, hc, -, h1⟩ := hcell st (List.mem_of_getElem? hi)
      refine ⟨c, ?_, h1⟩
      rw [List.getElem?_map, hi]
      simp only [Option.map_some, hc, Option.getD_some]

theorem tableLines_eq (hk : Keyed task) (hn : Named task) (hle : TotalLe v.le) (hx : Exact task s)
    {rs : List CheckOutcome} (hrs : runSolutionChecks task v.nfkc s = some rs) :
    ∃ header sols rows, tableLines task v s = some (header :: rows) ∧
      Spec.Ordered v (fun j => (∃ c, s.solutions.get? j = some c) ∧ v.symlink j = false) sols ∧
      rows.length = sols.length ∧ (∀ (i : Nat) j, sols[i]? = some j → ∃ row, rows[i]? = some row ∧
        TableRow v (resultsOf rs) (sortedNats task.subtasks.keys) j row) ∧
      ∃ w, ∀ row ∈ header :: rows, (lineText row).length = w := by
  have hord : Spec.Ordered v (fun j => (∃ c, s.solutions.get? j = some c) ∧ v.symlink j = false) (tableSols v s) := by
    refine ⟨isort_sorted hle _, (isort_perm _ _).nodup_iff.2 (hx.solWf.filter _), fun j => ?_⟩
    unfold tableSols
    rw [(isort_perm _ _).mem_iff, List.mem_filter, AMap.mem_keys_iff]
    simp
  obtain ⟨rows, hr⟩ : ∃ rows, (tableSols v s).mapM (tableRow task v rs (tableSols v s)) = some rows :=
    mapM_total (fun j hj => by
      obtain ⟨row, h1, -⟩ := row_eq (v := v) hk hn rs hj
      exact ⟨row, h1⟩)
  refine ⟨_, tableSols v s, rows, (by unfold tableLines; simp only [hrs, header_eq hk hn, hr]; rfl), hord, (mapM_get hr).1, ?_,
    tableWidth task v rs (tableSols v s), ?_⟩
  · intro i j hij
    obtain ⟨row, h1, h2⟩ := (mapM_get hr).2 i j hij
    obtain ⟨row', h3, -, h4⟩ := row_eq (v := v) hk hn rs (List.mem_of_getElem? hij)
    rw [h2] at h3
    cases h3
    exact ⟨row, h1, h4⟩
  · intro row hrow
    rcases List.mem_cons.1 hrow with rfl | hrow
    · exact header_length rs (tableSols v s)
    · obtain ⟨i, hi⟩ := List.mem_iff_getElem?.1 hrow
      have hlt : i < (tableSols v s).length := by
        rw [← (mapM_get hr).1]
        exact (List.getElem?_eq_some_iff.1 hi).1
      obtain ⟨row', h1, h2⟩ := (mapM_get hr).2 i _ (List.getElem?_eq_getElem hlt)
      rw [hi] at h1
      cases h1
      obtain ⟨row', h3, h4, -⟩ := row_eq (v := v) hk hn rs (List.getElem_mem hlt)
      rw [h2] at h3
      cases h3
      exact h4

end TM.Report
