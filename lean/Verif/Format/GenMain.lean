import Verif.Format.GenLemmas

/-! # `parse_gen_gen` accepts exactly the files of the specification -/
namespace TM.Format
open TM AMap

/-- The state after the default subtask has been added or discarded. -/
def startState (env : GenEnv) (d : Bool) : GenState :=
  if d then { rev := [.subtask (defaultSubtask env)], subtaskId := 1, hasDefault := false }
  else { hasDefault := false }

theorem startState_ok (env : GenEnv) (d : Bool) : StOk (startState env d) := by
  cases d
  · exact ⟨rfl, by intro s h; simp [startState, headSub] at h, fun _ _ => rfl⟩
  · refine ⟨rfl, ?_, fun _ _ => rfl⟩
    intro s h
    simp only [startState, if_true, headSub, Option.some.injEq] at h
    subst h
    exact Nat.zero_lt_one

theorem startsWith_annot {l : GenLine} (h : isAnnot l = true) (ls : List GenLine) :
    startsWithTestcase (l :: ls) = startsWithTestcase ls := by
  simp [startsWithTestcase, h]

theorem startsWith_not {l : GenLine} (h : isAnnot l = false) (ls : List GenLine) :
    startsWithTestcase (l :: ls) = isTcLine l := by
  simp [startsWithTestcase, h]

/-- The first lines, up to the first subtask or testcase. -/
theorem genLoop_start {env : GenEnv} {gen : Source} (lines : List GenLine) {st' : GenState}
    (h : genLoop env gen {} lines = .ok st') :
    namesIn (annots lines) = [] ∧ (∀ ws, GenLine.subtaskDep ws ∉ annots lines) ∧
    genLoop env gen (startState env (startsWithTestcase lines)) lines =
      .ok { st' with hasDefault := false, } ∨
    (∀ l ∈ lines, l = .comment ∨ l = .empty) ∧ st' = {} := by
  induction lines with
  | nil => cases h; exact .inr ⟨by simp, rfl⟩
  | cons l lines ih =>
    cases l with
    | comment =>
      rcases ih h with ⟨h1, h2, h3⟩ | ⟨h1, h2⟩
      · refine .inl ⟨?_, ?_, ?_⟩
        · rw [annots_cons_annot rfl]; exact h1
        · rw [annots_cons_annot rfl]; intro ws hws; exact h2 ws (by simpa using hws)
        · rw [startsWith_annot rfl]; exact h3
      · refine .inr ⟨?_, h2⟩
        intro l hl
        rcases List.mem_cons.1 hl with rfl | hl
        · exact .inl rfl
        · exact h1 l hl
    | empty =>
      rcases ih h with ⟨h1, h2, h3⟩ | ⟨h1, h2⟩
      · refine .inl ⟨?_, ?_, ?_⟩
        · rw [annots_cons_annot rfl]; exact h1
        · rw [annots_cons_annot rfl]; intro ws hws; exact h2 ws (by simpa using hws)
        · rw [startsWith_annot rfl]; exact h3
      · refine .inr ⟨?_, h2⟩
        intro l hl
        rcases List.mem_cons.1 hl with rfl | hl
        · exact .inr rfl
        · exact h1 l hl
    | subtaskName n => simp [genLoop, genStep] at h
    | subtaskDep n => simp [genLoop, genStep] at h
    | subtask sc =>
      left
      rw [annots_cons_not rfl, startsWith_not rfl]
      refine ⟨rfl, by simp, ?_⟩
      have hd := (genLoop_ok env gen lines _ st' (by
        refine ⟨rfl, ?_, fun _ _ => rfl⟩
        intro s h
        simp only [headSub, Option.some.injEq] at h
        subst h
        exact Nat.zero_lt_one) h).dflt
      have e : ({ st' with hasDefault := false } : GenState) = st' := by
        cases st'; simp_all
      rw [e]; exact h
    | copy p =>
      left
      rw [annots_cons_not rfl, startsWith_not rfl]
      refine ⟨rfl, by simp, ?_⟩
      have hd := (genLoop_ok env gen lines _ st' (by
        refine ⟨rfl, ?_, fun _ _ => rfl⟩
        intro s h
        simp [headSub] at h) h).dflt
      have e : ({ st' with hasDefault := false } : GenState) = st' := by
        cases st'; simp_all
      rw [e]; exact h
    | command p =>
      left
      rw [annots_cons_not rfl, startsWith_not rfl]
      refine ⟨rfl, by simp, ?_⟩
      have h' : genLoop env gen (startState env true) (.command p :: lines) = .ok st' := h
      have hd := (genLoop_ok env gen _ _ st' (startState_ok env true) h').dflt
      have e : ({ st' with hasDefault := false } : GenState) = st' := by
        cases st'; simp_all
      rw [e]; exact h

/-! ## Facts about the tables -/

theorem nameTable_fst (env : GenEnv) (ls : List GenLine) : ∀ k k',
    (nameTable env k ls).map (·.1) = (nameTable env k' ls).map (·.1) := by
  induction ls with
  | nil => intro k k'; rfl
  | cons l ls ih =>
    intro k k'
    cases l with
    | subtask sc =>
      simp only [nameTable, List.map_append, List.map_map]
      rw [ih (k + 1) (k' + 1)]
      rfl
    | _ => exact ih k k'

theorem nameTable_bound (env : GenEnv) (ls : List GenLine) : ∀ k, ∀ p ∈ nameTable env k ls,
    k ≤ p.2 ∧ p.2 < k + nSub ls := by
  induction ls with
  | nil => intro k p hp; simp [nameTable] at hp
  | cons l ls ih =>
    intro k p hp
    cases l with
    | subtask sc =>
      simp only [nSub, List.filter_cons, isStLine, if_true, List.length_cons]
      simp only [nameTable, List.mem_append, List.mem_map] at hp
      rcases hp with ⟨n, _, rfl⟩ | hp
      · simp only; omega
      · have := ih (k + 1) p hp; simp only [nSub] at this; omega
    | _ =>
      have := ih k p hp
      simpa [nSub, isStLine] using this

theorem nameTable_noStar (env : GenEnv) (ls : List GenLine) : ∀ k, ∀ p ∈ nameTable env k ls,
    p.1 ≠ ['*'] := by
  induction ls with
  | nil => intro k p hp; simp [nameTable] at hp
  | cons l ls ih =>
    intro k p hp
    cases l with
    | subtask sc =>
      simp only [nameTable, List.mem_append, List.mem_map, List.mem_filterMap] at hp
      rcases hp with ⟨n, ⟨m, _, hm⟩, rfl⟩ | hp
      · intro e
        simp only at e
        subst e
        unfold cleanupName at hm
        cases hn : env.nfkc (trimWith env.isSpace m) with
        | nil => rw [hn] at hm; simp at hm
        | cons c cs =>
          rw [hn] at hm
          simp only at hm
          split at hm
          · cases hm
          · split at hm
            · cases hm
            · rename_i _ h2
              simp only [Option.some.injEq] at hm
              simp [hm] at h2
      · exact ih (k + 1) p hp
    | _ => exact ih k p hp

theorem look_mem_iff {α β : Type} [DecidableEq α] {l : List (α × β)} (h : (l.map (·.1)).Nodup)
    {k : α} {v : β} : look k l = some v ↔ (k, v) ∈ l := by
  refine ⟨mem_of_look, ?_⟩
  induction l with
  | nil => intro hm; cases hm
  | cons p l ih =>
    obtain ⟨a, b⟩ := p
    intro hm
    simp only [List.map_cons, List.nodup_cons] at h
    simp only [look]
    rcases List.mem_cons.1 hm with e | hm
    · cases e; simp
    · rw [if_neg ?_]
      · exact ih h.2 hm
      · intro e; exact h.1 (List.mem_map.2 ⟨(k, v), hm, e.symm⟩)

theorem look_isSome {α β : Type} [DecidableEq α] {l : List (α × β)} {k : α} :
    (look k l).isSome = true ↔ k ∈ l.map (·.1) := by
  induction l with
  | nil => simp [look]
  | cons p l ih =>
    obtain ⟨a, b⟩ := p
    simp only [look, List.map_cons, List.mem_cons]
    split
    · rename_i e; simp [e]
    · rename_i e
      rw [ih]
      constructor
      · exact .inr
      · rintro (e' | h)
        · exact absurd e'.symm e
        · exact h

/-! ## The dependencies -/

theorem resolveDeps_ok {names : AMap Text Nat} {n : Nat} (hn : ∀ d i, names.get? d = some i → i < n)
    (ds : List Text) : ∀ acc, (∀ x ∈ acc, x < n) → (∀ d ∈ ds, d = ['*'] ∨ (names.get? d).isSome = true) →
    ∃ l, resolveDeps names n acc ds = .ok l ∧ ∀ x, x ∈ l ↔
      (['*'] ∈ ds ∧ x < n) ∨ x ∈ acc ∨ ∃ d ∈ ds, d ≠ ['*'] ∧ names.get? d = some x := by
  induction ds with
  | nil => intro acc _ _; exact ⟨acc, rfl, by simp⟩
  | cons d ds ih =>
    intro acc hacc hds
    have hds' : ∀ d ∈ ds, d = ['*'] ∨ (names.get? d).isSome = true := fun d hd => hds d (by simp [hd])
    simp only [resolveDeps]
    by_cases e : d = ['*']
    · rw [if_pos e]
      obtain ⟨l, h1, h2⟩ := ih (List.range n) (by simp) hds'
      refine ⟨l, h1, fun x => ?_⟩
      rw [h2 x]
      simp only [List.mem_range, List.mem_cons]
      constructor
      · rintro (h | h | ⟨d', hd', h⟩)
        · exact .inl ⟨.inr h.1, h.2⟩
        · exact .inl ⟨.inl e.symm, h⟩
        · exact .inr (.inr ⟨d', .inr hd', h⟩)
      · rintro (h | h | ⟨d', hd' | hd', h⟩)
        · exact .inr (.inl h.2)
        · exact .inr (.inl (hacc x h))
        · rw [hd'] at h; exact absurd e h.1
        · exact .inr (.inr ⟨d', hd', h⟩)
    · rw [if_neg e]
      rcases hds d (by simp) with e' | hsome
      · exact absurd e' e
      · obtain ⟨i, hi⟩ := Option.isSome_iff_exists.1 hsome
        rw [hi]
        simp only
        obtain ⟨l, h1, h2⟩ := ih (acc ++ [i]) (by
          intro x hx
          rcases List.mem_append.1 hx with hx | hx
          · exact hacc x hx
          · simp only [List.mem_singleton] at hx; subst hx; exact hn d x hi) hds'
        refine ⟨l, h1, fun x => ?_⟩
        rw [h2 x]
        simp only [List.mem_append, List.mem_cons, List.not_mem_nil, or_false]
        constructor
        · rintro (h | (h | h) | ⟨d', hd', h⟩)
          · exact .inl ⟨.inr h.1, h.2⟩
          · exact .inr (.inl h)
          · exact .inr (.inr ⟨d, .inl rfl, e, by rw [hi, h]⟩)
          · exact .inr (.inr ⟨d', .inr hd', h⟩)
        · rintro (⟨h | h, hx⟩ | h | ⟨d', hd' | hd', h⟩)
          · exact absurd h.symm e
          · exact .inl ⟨h, hx⟩
          · exact .inr (.inl (.inl h))
          · subst hd'
            rw [hi] at h
            exact .inr (.inl (.inr (Option.some.inj h.2).symm))
          · exact .inr (.inr ⟨d', hd', h⟩)

theorem resolveDeps_error {names : AMap Text Nat} {n : Nat} (ds : List Text) : ∀ acc l,
    resolveDeps names n acc ds = .ok l → ∀ d ∈ ds, d = ['*'] ∨ (names.get? d).isSome = true := by
  induction ds with
  | nil => intro acc l _ d hd; cases hd
  | cons d ds ih =>
    intro acc l h d' hd'
    simp only [resolveDeps] at h
    split at h
    · rename_i e
      rcases List.mem_cons.1 hd' with rfl | hd'
      · exact .inl e
      · exact ih _ _ h d' hd'
    · split at h
      · cases h
      · rename_i i hi
        rcases List.mem_cons.1 hd' with rfl | hd'
        · exact .inr (by rw [hi]; rfl)
        · exact ih _ _ h d' hd'

theorem depIds_sorted (table : List (Text × Nat)) (n : Nat) (ws : List Text) :
    (depIds table n ws).Pairwise (· < ·) := List.Pairwise.filter _ List.pairwise_lt_range

theorem mem_depIds {table : List (Text × Nat)} {n : Nat} {ws : List Text} {x : Nat} :
    x ∈ depIds table n ws ↔ x < n ∧ (['*'] ∈ ws ∨ ∃ w ∈ ws, (w, x) ∈ table) := by
  simp only [depIds, List.mem_filter, List.mem_range, List.any_eq_true, Bool.or_eq_true,
    beq_iff_eq, List.contains_iff_mem]
  constructor
  · rintro ⟨h, w, hw, e | ht⟩
    · exact ⟨h, .inl (e ▸ hw)⟩
    · exact ⟨h, .inr ⟨w, hw, ht⟩⟩
  · rintro ⟨h, hs | ⟨w, hw, ht⟩⟩
    · exact ⟨h, _, hs, .inl rfl⟩
    · exact ⟨h, w, hw, .inr ht⟩

theorem resolve_eq {names : AMap Text Nat} {table : List (Text × Nat)} {n : Nat}
    (hnames : ∀ d, names.get? d = look d table) (hnd : (table.map (·.1)).Nodup)
    (hb : ∀ p ∈ table, p.2 < n) (hstar : ∀ p ∈ table, p.1 ≠ ['*'])
    {ws : List Text} (hws : ∀ w ∈ ws, w = ['*'] ∨ w ∈ table.map (·.1)) :
    ∃ l, resolveDeps names n [] ws = .ok l ∧ dedup (sortNat l) = depIds table n ws := by
  obtain ⟨l, h1, h2⟩ := resolveDeps_ok (names := names) (n := n) (fun d i h => by
    rw [hnames] at h; exact hb _ (mem_of_look h)) ws [] (by simp) (by
      intro d hd
      rcases hws d hd with h | h
      · exact .inl h
      · right; rw [hnames, look_isSome]; exact h)
  refine ⟨l, h1, ?_⟩
  refine strict_ext (norm_sorted l) (depIds_sorted _ _ _) fun x => ?_
  rw [mem_norm, h2 x, mem_depIds]
  constructor
  · rintro (⟨h, hx⟩ | h | ⟨d, hd, _, h⟩)
    · exact ⟨hx, .inl h⟩
    · cases h
    · rw [hnames, look_mem_iff hnd] at h
      exact ⟨hb _ h, .inr ⟨d, hd, h⟩⟩
  · rintro ⟨hx, h | ⟨w, hw, h⟩⟩
    · exact .inl ⟨h, hx⟩
    · exact .inr (.inr ⟨w, hw, hstar _ h, by rw [hnames, look_mem_iff hnd]; exact h⟩)

/-- The entries of the specification are resolved one by one. -/
theorem resolveAll_spec {env : GenEnv} {gen : Source} {names : AMap Text Nat}
    {deps : AMap Nat (List Text)} {n : Nat} {dep : List Text → List Nat} (hdep0 : dep [] = [])
    (ls : List GenLine) : ∀ k t,
    (∀ i, k ≤ i → deps.get? i = (look i (depTable k ls)).bind (addDeps none)) →
    (∀ p ∈ depTable k ls, ∃ l, resolveDeps names n [] p.2 = .ok l ∧ dedup (sortNat l) = dep p.2) →
    resolveAll names deps n (spec env gen (fun _ => []) k t ls) = .ok (spec env gen dep k t ls) := by
  induction ls with
  | nil => intro k t _ _; rfl
  | cons l ls ih =>
    intro k t hd hres
    cases l with
    | subtask sc =>
      have ih' := ih (k + 1) t (by
        intro i hi
        rw [hd i (by omega)]
        simp only [depTable, look]
        rw [if_neg (by omega)]) (fun p hp => hres p (by simp only [depTable]; exact List.mem_cons_of_mem _ hp))
      obtain ⟨l, h1, h2⟩ := hres (k, depsIn (annots ls)) (by simp [depTable])
      have hk : deps.get? k = addDeps none (depsIn (annots ls)) := by
        rw [hd k (Nat.le_refl _)]; simp [depTable, look]
      simp only [spec, resolveAll, hk]
      cases hds : depsIn (annots ls) with
      | nil => simp only [addDeps, List.isEmpty_nil, if_true, ih', hdep0]
      | cons w ws =>
        simp only [hds] at h1 h2
        simp only [addDeps, List.isEmpty_cons, Bool.false_eq_true, if_false, Option.getD_none,
          List.nil_append, h1, h2, ih']
    | copy p => simp only [spec, resolveAll, ih k (t + 1) hd hres]
    | command p => simp only [spec, resolveAll, ih k (t + 1) hd hres]
    | _ => exact ih k t hd hres

theorem resolveAll_known {env : GenEnv} {gen : Source} {names : AMap Text Nat}
    {deps : AMap Nat (List Text)} {n : Nat} (ls : List GenLine) : ∀ k t es,
    (∀ i, k ≤ i → deps.get? i = (look i (depTable k ls)).bind (addDeps none)) →
    resolveAll names deps n (spec env gen (fun _ => []) k t ls) = .ok es →
    ∀ p ∈ depTable k ls, ∀ d ∈ p.2, d = ['*'] ∨ (names.get? d).isSome = true := by
  induction ls with
  | nil => intro k t es _ _ p hp; simp [depTable] at hp
  | cons l ls ih =>
    intro k t es hd h
    cases l with
    | subtask sc =>
      have hk : deps.get? k = addDeps none (depsIn (annots ls)) := by
        rw [hd k (Nat.le_refl _)]; simp [depTable, look]
      have hd' : ∀ i, k + 1 ≤ i → deps.get? i = (look i (depTable (k + 1) ls)).bind (addDeps none) := by
        intro i hi
        rw [hd i (by omega)]
        simp only [depTable, look]
        rw [if_neg (by omega)]
      simp only [spec, resolveAll, hk] at h
      intro p hp
      rcases List.mem_cons.1 hp with rfl | hp
      · intro d hdm
        simp only at hdm
        cases hds : depsIn (annots ls) with
        | nil => rw [hds] at hdm; cases hdm
        | cons w ws =>
          simp only [hds, addDeps, List.isEmpty_cons, Bool.false_eq_true, if_false,
            Option.getD_none, List.nil_append] at h
          cases hr : resolveDeps names n [] (w :: ws) with
          | error e => rw [hr] at h; cases h
          | ok l => exact resolveDeps_error _ _ _ hr d (hds ▸ hdm)
      · have hrest : ∃ es', resolveAll names deps n (spec env gen (fun _ => []) (k + 1) t ls) = .ok es' := by
          cases hr : resolveAll names deps n (spec env gen (fun _ => []) (k + 1) t ls) with
          | ok es' => exact ⟨es', rfl⟩
          | error e =>
            rw [hr] at h
            simp only at h
            split at h <;> cases h
        obtain ⟨es', hes'⟩ := hrest
        exact ih (k + 1) t es' hd' hes' p hp
    | copy p =>
      simp only [spec, resolveAll] at h
      cases hr : resolveAll names deps n (spec env gen (fun _ => []) k (t + 1) ls) with
      | error e => rw [hr] at h; cases h
      | ok es' => exact ih k (t + 1) es' hd hr
    | command p =>
      simp only [spec, resolveAll] at h
      cases hr : resolveAll names deps n (spec env gen (fun _ => []) k (t + 1) ls) with
      | error e => rw [hr] at h; cases h
      | ok es' => exact ih k (t + 1) es' hd hr
    | subtaskName n => exact ih k t es hd h
    | subtaskDep n => exact ih k t es hd h
    | comment => exact ih k t es hd h
    | empty => exact ih k t es hd h

/-- A dependency line belongs to the first lines or to a subtask or testcase. -/
theorem attach {ls : List GenLine} {x : GenLine} (hx : x ∈ ls) (ha : isAnnot x = true) :
    x ∈ annots ls ∨ ∃ pre l post, ls = pre ++ l :: post ∧ isAnnot l = false ∧ x ∈ annots post := by
  induction ls with
  | nil => cases hx
  | cons l ls ih =>
    cases hl : isAnnot l with
    | true =>
      rw [annots_cons_annot hl]
      rcases List.mem_cons.1 hx with rfl | hx
      · exact .inl (by simp)
      · rcases ih hx with h | ⟨pre, l', post, rfl, h⟩
        · exact .inl (List.mem_cons_of_mem _ h)
        · exact .inr ⟨l :: pre, l', post, rfl, h⟩
    | false =>
      rcases List.mem_cons.1 hx with rfl | hx
      · rw [ha] at hl; cases hl
      · rcases ih hx with h | ⟨pre, l', post, rfl, h⟩
        · exact .inr ⟨[], l, ls, rfl, hl, h⟩
        · exact .inr ⟨l :: pre, l', post, rfl, h⟩

theorem depTable_mem {pre post : List GenLine} {sc : Text} : ∀ k,
    ∃ i, (i, depsIn (annots post)) ∈ depTable k (pre ++ .subtask sc :: post) := by
  induction pre with
  | nil => intro k; exact ⟨k, by simp [depTable]⟩
  | cons l pre ih =>
    intro k
    cases l with
    | subtask sc' =>
      obtain ⟨i, hi⟩ := ih (k + 1)
      exact ⟨i, List.mem_cons_of_mem _ hi⟩
    | _ => exact ih k

theorem depTable_sub {ls : List GenLine} : ∀ k, ∀ p ∈ depTable k ls, ∀ w ∈ p.2, ∃ ws,
    GenLine.subtaskDep ws ∈ ls ∧ w ∈ ws := by
  induction ls with
  | nil => intro k p hp; simp [depTable] at hp
  | cons l ls ih =>
    intro k p hp w hw
    have lift : (∃ ws, GenLine.subtaskDep ws ∈ ls ∧ w ∈ ws) →
        ∃ ws, GenLine.subtaskDep ws ∈ l :: ls ∧ w ∈ ws := by
      rintro ⟨ws, h1, h2⟩; exact ⟨ws, List.mem_cons_of_mem _ h1, h2⟩
    cases l with
    | subtask sc =>
      rcases List.mem_cons.1 hp with rfl | hp
      · apply lift
        simp only [depsIn, List.mem_flatMap] at hw
        obtain ⟨l, hl, hw⟩ := hw
        have hl' : l ∈ ls := by
          unfold annots at hl
          exact (List.takeWhile_sublist isAnnot).subset hl
        cases l with
        | subtaskDep ws => exact ⟨ws, hl', hw⟩
        | _ => simp at hw
      · exact lift (ih (k + 1) p hp w hw)
    | _ => exact lift (ih k p hp w hw)

theorem spec_comments {env : GenEnv} {gen : Source} {dep : List Text → List Nat} {k t : Nat}
    {ls : List GenLine} (h : ∀ l ∈ ls, l = .comment ∨ l = .empty) : spec env gen dep k t ls = [] := by
  induction ls with
  | nil => rfl
  | cons l ls ih =>
    rcases h l (by simp) with rfl | rfl <;> exact ih fun l hl => h l (by simp [hl])

theorem annots_all {ls : List GenLine} (h : ∀ l ∈ ls, isAnnot l = true) : annots ls = ls := by
  induction ls with
  | nil => rfl
  | cons l ls ih =>
    rw [annots_cons_annot (h l (by simp)), ih fun l hl => h l (by simp [hl])]

/-- **Success.**  What a successful run produces. -/
theorem interpGen_ok {env : GenEnv} {lines : List GenLine} {es : List Entry}
    (h : interpGen env lines = .ok es) :
    ∃ gen, env.generators = [gen] ∧ Accepted env lines ∧ es = genEntries env gen lines := by
  unfold interpGen at h
  split at h
  · cases h
  · cases h
  · rename_i gen hgen
    refine ⟨gen, hgen, ?_⟩
    cases hl : genLoop env gen {} lines with
    | error e => rw [hl] at h; cases h
    | ok st =>
      rw [hl] at h
      simp only at h
      rcases genLoop_start lines hl with ⟨hlead1, hlead2, hrun⟩ | ⟨hcom, rfl⟩
      · -- some line makes an entry
        have H := genLoop_ok env gen lines _ _ (startState_ok env (startsWithTestcase lines)) hrun
        have hsub : (startState env (startsWithTestcase lines)).subtaskId = firstId lines := by
          unfold startState firstId; cases startsWithTestcase lines <;> rfl
        have htc0 : (startState env (startsWithTestcase lines)).testcaseCount = 0 := by
          unfold startState; cases startsWithTestcase lines <;> rfl
        have hnm0 : (startState env (startsWithTestcase lines)).nameToId = [] := by
          unfold startState; cases startsWithTestcase lines <;> rfl
        have hdp0 : (startState env (startsWithTestcase lines)).deps = [] := by
          unfold startState; cases startsWithTestcase lines <;> rfl
        have hpairs : headPairs env (startState env (startsWithTestcase lines)).rev (annots lines) = [] := by
          unfold headPairs; split <;> simp [hlead1]
        have hnames : ∀ d, st.nameToId.get? d = look d (nameTable env (firstId lines) lines) := by
          intro d
          have := H.names d
          rw [hpairs, hsub, hnm0] at this
          simpa [AMap.get?] using this
        have hdist := H.dist.1
        rw [hpairs, hsub, List.nil_append] at hdist
        have hn : st.subtaskId = firstId lines + nSub lines := by
          have := H.sub
          rw [hsub] at this
          exact this
        have hdeps : ∀ i, firstId lines ≤ i → st.deps.get? i =
            (look i (depTable (firstId lines) lines)).bind (addDeps none) := by
          intro i hi
          have := H.depsNew i (by rw [hsub]; exact hi)
          rw [hsub] at this
          exact this
        have hrev : st.rev.reverse = (if startsWithTestcase lines then
            [Entry.subtask (defaultSubtask env)] else []) ++
            spec env gen (fun _ => []) (firstId lines) 0 lines := by
          have := H.rev
          rw [hsub, htc0] at this
          simp only at this
          rw [this]
          congr 1
          unfold startState
          cases startsWithTestcase lines with
          | false => rfl
          | true => simp [annHead, hlead1, defaultSubtask]
        have hdef : startsWithTestcase lines = true → st.deps.get? 0 = none := by
          intro e
          have := H.depsHead (defaultSubtask env) (by rw [e]; rfl)
          rw [hdp0] at this
          have hd0 : depsIn (annots lines) = [] := by
            unfold depsIn
            rw [List.flatMap_eq_nil_iff]
            intro l hl
            cases l with
            | subtaskDep ws => exact absurd hl (hlead2 ws)
            | _ => rfl
          rw [hd0] at this
          exact this
        -- the default subtask has nothing to resolve
        have hstep : resolveAll st.nameToId st.deps st.subtaskId st.rev.reverse =
            match resolveAll st.nameToId st.deps st.subtaskId
              (spec env gen (fun _ => []) (firstId lines) 0 lines) with
            | .error e => .error e
            | .ok es' => .ok ((if startsWithTestcase lines then
                [Entry.subtask (defaultSubtask env)] else []) ++ es') := by
          rw [hrev]
          cases hsw : startsWithTestcase lines with
          | false =>
            simp only [Bool.false_eq_true, if_false, List.nil_append]
            cases resolveAll st.nameToId st.deps st.subtaskId
              (spec env gen (fun _ => []) (firstId lines) 0 lines) <;> rfl
          | true =>
            have hd : st.deps.get? (defaultSubtask env).id = none := hdef hsw
            simp only [if_true, List.cons_append, List.nil_append, resolveAll, hd]
            cases resolveAll st.nameToId st.deps st.subtaskId
              (spec env gen (fun _ => []) (firstId lines) 0 lines) <;> rfl
        rw [hstep] at h
        cases hra : resolveAll st.nameToId st.deps st.subtaskId
            (spec env gen (fun _ => []) (firstId lines) 0 lines) with
        | error e => rw [hra] at h; cases h
        | ok es' =>
          rw [hra] at h
          simp only [Except.ok.injEq] at h
          have hknown := resolveAll_known lines _ _ _ hdeps hra
          have hacc : Accepted env lines := by
            refine ⟨⟨hlead1, hlead2⟩, H.follow, ?_, ?_, ?_⟩
            · rw [nameTable_fst env lines 0 (firstId lines)]; exact hdist
            · intro ws hws w hw
              rcases attach hws rfl with hann | ⟨pre, l, post, e, hl, hann⟩
              · exact absurd hann (hlead2 ws)
              · have hf := H.follow pre l post e
                cases l with
                | subtask sc =>
                  obtain ⟨i, hi⟩ := depTable_mem (pre := pre) (post := post) (sc := sc) (firstId lines)
                  rw [← e] at hi
                  have := hknown _ hi w (by
                    simp only [depsIn, List.mem_flatMap]
                    exact ⟨_, hann, hw⟩)
                  rw [hnames, look_isSome, nameTable_fst env lines (firstId lines) 0] at this
                  exact this
                | copy p => exact absurd hann ((hf.1 rfl).2 ws)
                | command p => exact absurd hann ((hf.1 rfl).2 ws)
                | subtaskName n => simp [isAnnot] at hl
                | subtaskDep n => simp [isAnnot] at hl
                | comment => simp [isAnnot] at hl
                | empty => simp [isAnnot] at hl
            · intro pre args post e p
              have := H.outs pre args post e p
              rw [htc0, Nat.zero_add] at this
              exact this
          refine ⟨hacc, ?_⟩
          rw [← h]
          unfold genEntries
          congr 1
          have := resolveAll_spec (env := env) (gen := gen) (names := st.nameToId) (deps := st.deps)
            (n := st.subtaskId)
            (dep := depIds (nameTable env (firstId lines) lines) (firstId lines + nSub lines))
            (by simp [depIds]) lines (firstId lines) 0 hdeps (by
              intro p hp
              rw [hn]
              refine resolve_eq hnames hdist (fun q hq => (nameTable_bound env lines _ q hq).2)
                (nameTable_noStar env lines _) ?_
              intro w hw
              have := hknown p hp w hw
              rw [hnames, look_isSome] at this
              exact this)
          rw [this] at hra
          exact (Except.ok.inj hra).symm
      · -- only comments
        simp only [List.reverse_nil, resolveAll, Except.ok.injEq] at h
        have hann : annots lines = lines := by
          exact annots_all (by intro l hl; rcases hcom l hl with rfl | rfl <;> rfl)
        have hsw : startsWithTestcase lines = false := by
          unfold startsWithTestcase
          have : lines.dropWhile isAnnot = [] := by
            have := List.takeWhile_append_dropWhile (p := isAnnot) (l := lines)
            rw [show lines.takeWhile isAnnot = lines from hann] at this
            exact List.append_cancel_left (this.trans (List.append_nil lines).symm)
          rw [this]
        have hnt : ∀ k, nameTable env k lines = [] := by
          intro k
          clear h hl hann hsw
          induction lines generalizing k with
          | nil => rfl
          | cons l ls ih =>
            rcases hcom l (by simp) with rfl | rfl <;> exact ih (fun l hl => hcom l (by simp [hl])) k
        refine ⟨⟨⟨?_, ?_⟩, ?_, ?_, ?_, ?_⟩, ?_⟩
        · unfold namesIn
          rw [hann, List.filterMap_eq_nil_iff]
          intro l hl
          rcases hcom l hl with rfl | rfl <;> rfl
        · rw [hann]; intro ws hws
          rcases hcom _ hws with e | e <;> cases e
        · intro pre l post e
          have hl : l ∈ lines := by rw [e]; simp
          exact follow_annot (by rcases hcom l hl with rfl | rfl <;> rfl) _
        · rw [hnt]; simp
        · intro ws hws
          rcases hcom _ hws with e | e <;> cases e
        · intro pre args post e
          have hl : GenLine.command args ∈ lines := by rw [e]; simp
          rcases hcom _ hl with e | e <;> cases e
        · rw [← h]
          simp [genEntries, hsw, spec_comments hcom]

end TM.Format
