import Verif.Format.CasesFinal
import Verif.Format.PropsLoad

/-!
# The result of the reader of `gen/cases.gen`
-/
namespace TM.Format
open TM AMap

/-- The entries of an accepted file. -/
def casesEntries (env : CasesEnv) (lines : List CLine) : List Entry :=
  (revEnt env lines.reverse).reverse.map
    (fill (namesOf lines.reverse) (depsOf lines.reverse) (nSubs lines))

theorem dropWhile_split {α : Type} {p : α → Bool} {l : List α} {x : α} {r : List α}
    (h : l.dropWhile p = x :: r) : ∃ a, l = a ++ x :: r ∧ ∀ y ∈ a, p y = true := by
  refine ⟨l.takeWhile p, ?_, takeWhile_sat⟩
  rw [← h, List.takeWhile_append_dropWhile]

theorem nSubs_append (a b : List CLine) : nSubs (a ++ b) = nSubs a + nSubs b := by
  simp [nSubs]

theorem nSubs_plain {a : List CLine} (h : ∀ l ∈ a, plain l = true) : nSubs a = 0 := by
  unfold nSubs
  rw [List.length_eq_zero_iff, List.filter_eq_nil_iff]
  intro l hl
  have := h l hl
  simp [plain] at this
  simp [this.1]

theorem AfterSub.split {a : List CLine} (h : AfterSub a) : ∃ p l r, a = p ++ l :: r ∧
    isSub l = true ∧ ∀ y ∈ p, plain y = true := by
  obtain ⟨l, r, h1, h2⟩ := h
  obtain ⟨p, e, hp⟩ := dropWhile_split h1
  exact ⟨p, l, r, e, h2, hp⟩

theorem AllOk.suffix {env : CasesEnv} {b a : List CLine} (h : AllOk env (b ++ a)) : AllOk env a := by
  induction b with
  | nil => exact h
  | cons x b ih => exact ih h.2

/-- The dependencies are known in the terms of the state and in those of the lines. -/
theorem known_iff {env : CasesEnv} {lines : List CLine} (ha : AllOk env lines.reverse) :
    (∀ s, .subtask s ∈ (revEnt env lines.reverse).reverse → ∀ ds,
        (depsOf lines.reverse).get? s.id = some ds →
        ∀ d ∈ ds, d = ['*'] ∨ ((namesOf lines.reverse).get? d).isSome = true) ↔
    ∀ ws, CLine.command (.stDep ws) ∈ lines → ∀ w ∈ ws, w = ['*'] ∨ w ∈ lines.filterMap subName := by
  have hname : ∀ w, ((namesOf lines.reverse).get? w).isSome = true ↔ w ∈ lines.filterMap subName := by
    intro w; rw [names_mem, List.filterMap_reverse, List.mem_reverse]
  simp only [hname]
  constructor
  · intro h ws hws w hw
    obtain ⟨post, rest, e⟩ := List.append_of_mem (List.mem_reverse.2 hws)
    have hl : AllOk env (.command (.stDep ws) :: rest) := AllOk.suffix (e ▸ ha)
    have has : AfterSub rest := by
      have := hl.1
      simp only [LineOk] at this
      rcases this with h0 | h0
      · rw [h0] at hw; cases hw
      · exact h0
    obtain ⟨p, l, r, er, hsub, hp⟩ := has.split
    have hpos : 0 < nSubs rest := nSubs_pos_iff.2 ⟨l, by rw [er]; simp, hsub⟩
    have hlt : nSubs rest - 1 < nSubs lines.reverse := by
      rw [e, nSubs_append, nSubs_cons]; simp only [isSub]; simp; omega
    have hin : nSubs rest - 1 ∈ stIds (revEnt env lines.reverse) := by
      rw [revEnt_stIds, List.mem_reverse, List.mem_range]; exact hlt
    obtain ⟨s, hs, hid⟩ := mem_stIds.1 hin
    have hd := (depsOf_iff lines.reverse (nSubs rest - 1) w).2 ⟨post, ws, rest, e, hw, rfl⟩
    cases hg : (depsOf lines.reverse).get? (nSubs rest - 1) with
    | none => rw [hg] at hd; cases hd
    | some ds =>
      rw [hg] at hd
      exact h s (List.mem_reverse.2 hs) ds (by rw [hid]; exact hg) w hd
  · intro h s hs ds hds d hd
    obtain ⟨post, ws, rest, e, hw, _⟩ := (depsOf_iff lines.reverse s.id d).1 (by rw [hds]; exact hd)
    exact h ws (List.mem_reverse.1 (by rw [e]; simp)) d hw

/-- The reader accepts exactly the files of the specification. -/
theorem interpCases_iff (env : CasesEnv) (lines : List CLine) :
    (CasesAccepted env lines → AllOk env lines.reverse ∧
      interpCases env lines = .ok (casesEntries env lines)) ∧
    (¬ CasesAccepted env lines → ∃ e, interpCases env lines = .error e ∧ e ≠ .panic) := by
  obtain ⟨h1, h2⟩ := casesLoop_iff env lines (a := []) trivial
  simp only [List.append_nil] at h1 h2
  have hst : stateOf env [] = {} := rfl
  rw [hst] at h1 h2
  unfold interpCases
  have hn : nSubs lines.reverse = nSubs lines := nSubs_reverse lines
  constructor
  · rintro ⟨he, hk⟩
    have ha := allOk_iff.2 he
    refine ⟨ha, ?_⟩
    rw [h1 ha]
    simp only
    have hr := (resolveAll_iff (namesOf lines.reverse) (depsOf lines.reverse) (nSubs lines.reverse)
      (revEnt env lines.reverse).reverse).1 ((known_iff ha).2 hk)
    have : resolveAll (stateOf env lines.reverse).nameToId (stateOf env lines.reverse).deps
        (stateOf env lines.reverse).subtaskId (stateOf env lines.reverse).rev.reverse =
        .ok (casesEntries env lines) := by
      unfold casesEntries
      rw [← hn]
      exact hr
    rw [this]
  · intro h
    by_cases ha : AllOk env lines.reverse
    · rw [h1 ha]
      simp only
      have hk : ¬ ∀ s, .subtask s ∈ (revEnt env lines.reverse).reverse → ∀ ds,
          (depsOf lines.reverse).get? s.id = some ds →
          ∀ d ∈ ds, d = ['*'] ∨ ((namesOf lines.reverse).get? d).isSome = true := by
        intro hk
        exact h ⟨allOk_iff.1 ha, (known_iff ha).1 hk⟩
      obtain ⟨e, he⟩ := (resolveAll_iff (namesOf lines.reverse) (depsOf lines.reverse)
        (nSubs lines.reverse) (revEnt env lines.reverse).reverse).2 hk
      have : resolveAll (stateOf env lines.reverse).nameToId (stateOf env lines.reverse).deps
          (stateOf env lines.reverse).subtaskId (stateOf env lines.reverse).rev.reverse = .error e := he
      rw [this]
      exact ⟨_, rfl, by simp⟩
    · obtain ⟨e, he, hne⟩ := h2 ha
      rw [he]
      exact ⟨e, rfl, hne⟩

theorem interpCases_ok {env : CasesEnv} {lines : List CLine} {es : List Entry}
    (h : interpCases env lines = .ok es) :
    CasesAccepted env lines ∧ AllOk env lines.reverse ∧ es = casesEntries env lines := by
  by_cases hc : CasesAccepted env lines
  · obtain ⟨ha, he⟩ := (interpCases_iff env lines).1 hc
    rw [he] at h
    cases h
    exact ⟨hc, ha, rfl⟩
  · obtain ⟨e, he, _⟩ := (interpCases_iff env lines).2 hc
    rw [he] at h; cases h

theorem stIds_reverse (es : List Entry) : stIds es.reverse = (stIds es).reverse := by
  simp [stIds, List.filterMap_reverse]

theorem tcIds_reverse (es : List Entry) : tcIds es.reverse = (tcIds es).reverse := by
  simp [tcIds, List.filterMap_reverse]

theorem casesEntries_stIds (env : CasesEnv) (lines : List CLine) :
    stIds (casesEntries env lines) = List.range (nSubs lines) := by
  unfold casesEntries
  rw [stIds_fill, stIds_reverse, revEnt_stIds, List.reverse_reverse, nSubs_reverse]

theorem nTests_reverse (a : List CLine) : nTests a.reverse = nTests a := by
  simp [nTests, List.filter_reverse]

theorem casesEntries_tcIds (env : CasesEnv) (lines : List CLine) :
    tcIds (casesEntries env lines) = List.range (nTests lines) := by
  unfold casesEntries
  rw [tcIds_fill, tcIds_reverse, revEnt_tcIds, List.reverse_reverse, nTests_reverse]

theorem names_lt {env : CasesEnv} {a : List CLine} (ha : AllOk env a) {n : Text} {i : Nat}
    (h : (namesOf a).get? n = some i) : i < nSubs a := by
  obtain ⟨s, hs, _, rfl⟩ := (names_iff ha).1 h
  have := mem_stIds.2 ⟨s, hs, rfl⟩
  rwa [revEnt_stIds, List.mem_reverse, List.mem_range] at this

/-- A subtask of the result, and the one it comes from. -/
theorem casesEntries_subtask {env : CasesEnv} {lines : List CLine} (hc : CasesAccepted env lines)
    {s : Subtask} (hs : .subtask s ∈ revEnt env lines.reverse) :
    ∃ l : List Nat, .subtask { s with dependencies := l } ∈ casesEntries env lines ∧
      fill (namesOf lines.reverse) (depsOf lines.reverse) (nSubs lines) (.subtask s) =
        .subtask { s with dependencies := l } ∧
      l.Pairwise (· < ·) ∧
      ∀ d, d ∈ l ↔ ∃ w, w ∈ ((depsOf lines.reverse).get? s.id).getD [] ∧
        ((w = ['*'] ∧ d < nSubs lines) ∨ (w ≠ ['*'] ∧ (namesOf lines.reverse).get? w = some d)) := by
  have ha := allOk_iff.2 hc.each
  have hdep := (revEnt_fresh s hs).1
  have hk := (known_iff ha).2 hc.known s (List.mem_reverse.2 hs)
  have hin : ∀ x, fill (namesOf lines.reverse) (depsOf lines.reverse) (nSubs lines) (.subtask s) = x →
      x ∈ casesEntries env lines := by
    rintro x rfl
    exact List.mem_map.2 ⟨_, List.mem_reverse.2 hs, rfl⟩
  have hsame : { s with dependencies := ([] : List Nat) } = s := by
    cases s; simp only at hdep; subst hdep; rfl
  cases hd : (depsOf lines.reverse).get? s.id with
  | none =>
    have : fill (namesOf lines.reverse) (depsOf lines.reverse) (nSubs lines) (.subtask s) =
        .subtask { s with dependencies := [] } := by
      simp only [fill, hd]; rw [hsame]
    refine ⟨[], hin _ this, this, List.Pairwise.nil, ?_⟩
    intro d; simp
  | some ds =>
    have hall := hk ds hd
    obtain ⟨l, h1, h2⟩ := resolveDeps_ok (names := namesOf lines.reverse) (n := nSubs lines)
      (fun d i h => by
        have := names_lt ha h
        rwa [nSubs_reverse] at this) ds [] (by intro x hx; cases hx) hall
    have : fill (namesOf lines.reverse) (depsOf lines.reverse) (nSubs lines) (.subtask s) =
        .subtask { s with dependencies := dedup (sortNat l) } := by
      simp only [fill, hd, hdep, h1]
    refine ⟨_, hin _ this, this, norm_sorted l, ?_⟩
    intro d
    rw [mem_norm, h2]
    simp only [Option.getD_some]
    constructor
    · rintro (⟨h, hlt⟩ | h | ⟨w, hw, hne, hg⟩)
      · exact ⟨_, h, .inl ⟨rfl, hlt⟩⟩
      · cases h
      · exact ⟨w, hw, .inr ⟨hne, hg⟩⟩
    · rintro ⟨w, hw, ⟨rfl, hlt⟩ | ⟨hne, hg⟩⟩
      · exact .inl ⟨hw, hlt⟩
      · exact .inr (.inr ⟨w, hw, hne, hg⟩)

/-- The words of the `:STDEP` lines that follow a subtask. -/
theorem words_iff {env : CasesEnv} {lines pre post : List CLine} {x : CLine}
    (ha : AllOk env lines.reverse) (e : lines = pre ++ x :: post) (hx : isSub x = true) (w : Text) :
    w ∈ ((depsOf lines.reverse).get? (nSubs pre)).getD [] ↔
      ∃ ws, CLine.command (.stDep ws) ∈ post.takeWhile plain ∧ w ∈ ws := by
  rw [depsOf_iff]
  constructor
  · rintro ⟨b, ws, rest, er, hw, hn⟩
    have hl : AllOk env (.command (.stDep ws) :: rest) := AllOk.suffix (er ▸ ha)
    have has : AfterSub rest := by
      have := hl.1
      simp only [LineOk] at this
      rcases this with h0 | h0
      · rw [h0] at hw; cases hw
      · exact h0
    obtain ⟨p, l, r, err, hsub, hp⟩ := has.split
    have hnr : nSubs rest = 1 + nSubs r := by
      rw [err, nSubs_append, nSubs_cons, nSubs_plain hp, hsub]; simp
    have el : lines = r.reverse ++ l :: (p.reverse ++ .command (.stDep ws) :: b.reverse) := by
      have := congrArg List.reverse er
      rw [List.reverse_reverse] at this
      rw [this, err]; simp
    have hnn : nSubs pre = nSubs r.reverse := by rw [nSubs_reverse]; omega
    obtain ⟨_, _, h3⟩ := sub_unique hx hsub pre r.reverse post _ hnn (e ▸ el)
    refine ⟨ws, ?_, hw⟩
    rw [h3, List.takeWhile_append_of_pos (fun y hy => hp y (List.mem_reverse.1 hy))]
    refine List.mem_append_right _ ?_
    rw [List.takeWhile_cons]
    have : plain (.command (.stDep ws)) = true := rfl
    rw [this]; simp
  · rintro ⟨ws, hws, hw⟩
    obtain ⟨p1, p2, e2⟩ := List.append_of_mem hws
    have epost : post = (p1 ++ .command (.stDep ws) :: p2) ++ post.dropWhile plain := by
      rw [← e2, List.takeWhile_append_dropWhile]
    have hp1 : ∀ y ∈ p1, plain y = true := fun y hy =>
      takeWhile_sat (p := plain) (l := post) y (by rw [e2]; simp [hy])
    refine ⟨(p2 ++ post.dropWhile plain).reverse, ws, p1.reverse ++ x :: pre.reverse, ?_, hw, ?_⟩
    · generalize post.dropWhile plain = q at epost
      subst epost
      rw [e]; simp
    · rw [nSubs_append, nSubs_cons, hx, nSubs_reverse, nSubs_reverse, nSubs_plain hp1]; simp

/-- A subtask line, with the lines that follow it. -/
theorem sub_entry {env : CasesEnv} {lines pre post : List CLine} {sc : Text} {d : Option Text}
    (e : lines = pre ++ .command (.subtask sc d) :: post) :
    Entry.subtask { id := nSubs pre, name := d.map nameOf, description := d, maxScore := floatVal sc
                    validator := valAt env (.command (.subtask sc d) :: pre.reverse)
                      ((startValidator env pre.reverse (d.map nameOf)).getD .assumeValid)
                      (post.takeWhile plain).reverse } ∈ revEnt env lines.reverse := by
  have hr : lines.reverse = (post.dropWhile plain).reverse ++
      ((post.takeWhile plain).reverse ++ .command (.subtask sc d) :: pre.reverse) := by
    rw [← List.append_assoc, ← List.reverse_append, List.takeWhile_append_dropWhile, e]; simp
  have ha := revEnt_annots (env := env) (sc := sc) (d := d) (a := pre.reverse)
    (post.takeWhile plain).reverse (fun l hl => takeWhile_sat l (List.mem_reverse.1 hl))
  rw [nSubs_reverse] at ha
  have hmem : ∀ e, e ∈ revEnt env ((post.takeWhile plain).reverse ++ .command (.subtask sc d) ::
      pre.reverse) → e ∈ revEnt env lines.reverse := by
    intro y hy
    rw [hr]
    cases hd : post.dropWhile plain with
    | nil => exact hy
    | cons z r =>
      have hz : plain z = false := by
        have := List.head_dropWhile_not (p := plain) (l := post) (by rw [hd]; simp)
        simpa [hd] using this
      obtain ⟨newer, e', h1, _⟩ := revEnt_suffix (env := env) r.reverse hz
        ((post.takeWhile plain).reverse ++ .command (.subtask sc d) :: pre.reverse)
      rw [List.reverse_cons, List.append_assoc, List.singleton_append, h1]
      simp [hy]
  apply hmem
  rw [ha]
  simp

theorem test_entry {env : CasesEnv} {lines pre post : List CLine} {x : CLine}
    (e : lines = pre ++ x :: post) (hx : isTest x = true) :
    ∃ y, y ∈ casesEntries env lines ∧ revEnt env (x :: pre.reverse) = y :: revEnt env pre.reverse := by
  have hp : plain x = false := by simp [plain, hx]
  obtain ⟨newer, y, h1, h2⟩ := revEnt_suffix (env := env) post.reverse hp pre.reverse
  have hr : lines.reverse = post.reverse ++ x :: pre.reverse := by rw [e]; simp
  obtain ⟨y', he, _, ht, _⟩ := revEnt_entry (env := env) hp pre.reverse
  obtain ⟨t, rfl, _⟩ := ht hx
  have := h2 hx
  rw [he] at this
  simp only [List.cons.injEq, and_true] at this
  refine ⟨_, ?_, he⟩
  unfold casesEntries
  refine List.mem_map.2 ⟨.testcase t, ?_, rfl⟩
  rw [List.mem_reverse, hr, h1, ← this]
  simp

end TM.Format
