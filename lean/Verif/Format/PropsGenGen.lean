import Verif.Format.GenConv
import Verif.Format.PropsLoad

/-!
# C37: `gen/GEN`

The meaning of the lines of a `gen/GEN` file is given by `Accepted` and `genEntries`
(`Verif.Format.GenSpec`), which do not refer to the reader.
-/
namespace TM.Format
open TM AMap

/-- **C37, meaning.**  The reader accepts exactly the files of the specification and reads them as the
specification says. -/
theorem gen_iff {env : GenEnv} {lines : List GenLine} {es : List Entry} :
    interpGen env lines = .ok es ↔
      ∃ gen, env.generators = [gen] ∧ Accepted env lines ∧ es = genEntries env gen lines := by
  constructor
  · exact interpGen_ok
  · rintro ⟨gen, hg, ha, rfl⟩
    obtain ⟨es', h'⟩ := interpGen_complete hg ha
    obtain ⟨gen', hg', _, rfl⟩ := interpGen_ok h'
    rw [hg] at hg'
    cases hg'
    exact h'

/-! ## Consequences -/

theorem spec_stIds (env : GenEnv) (gen : Source) (dep : List Text → List Nat) (ls : List GenLine) :
    ∀ k t, stIds (spec env gen dep k t ls) = List.range' k (nSub ls) := by
  induction ls with
  | nil => intro k t; rfl
  | cons l ls ih =>
    intro k t
    cases l with
    | subtask sc =>
      have e : nSub (.subtask sc :: ls) = nSub ls + 1 := rfl
      rw [e, List.range'_succ, ← ih (k + 1) t]
      simp [spec, stIds]
    | copy p =>
      have e : nSub (.copy p :: ls) = nSub ls := by simp [nSub, isStLine]
      rw [e, ← ih k (t + 1)]; simp [spec, stIds]
    | command p =>
      have e : nSub (.command p :: ls) = nSub ls := by simp [nSub, isStLine]
      rw [e, ← ih k (t + 1)]; simp [spec, stIds]
    | _ => rw [spec, ih k t]; simp [nSub, isStLine]

theorem spec_tcIds (env : GenEnv) (gen : Source) (dep : List Text → List Nat) (ls : List GenLine) :
    ∀ k t, tcIds (spec env gen dep k t ls) = List.range' t (nTc ls) := by
  induction ls with
  | nil => intro k t; rfl
  | cons l ls ih =>
    intro k t
    cases l with
    | subtask sc =>
      have e : nTc (.subtask sc :: ls) = nTc ls := by simp [nTc, isTcLine]
      rw [e, ← ih (k + 1) t]; simp [spec, tcIds]
    | copy p =>
      have e : nTc (.copy p :: ls) = nTc ls + 1 := rfl
      rw [e, List.range'_succ, ← ih k (t + 1)]; simp [spec, tcIds]
    | command p =>
      have e : nTc (.command p :: ls) = nTc ls + 1 := rfl
      rw [e, List.range'_succ, ← ih k (t + 1)]; simp [spec, tcIds]
    | _ => rw [spec, ih k t]; simp [nTc, isTcLine]

theorem genEntries_stIds (env : GenEnv) (gen : Source) (ls : List GenLine) :
    stIds (genEntries env gen ls) = List.range (firstId ls + nSub ls) := by
  unfold genEntries firstId
  rw [stIds_append, spec_stIds]
  cases startsWithTestcase ls with
  | false => simp [stIds, List.range_eq_range']
  | true =>
    simp only [if_true, stIds, List.filterMap_cons, List.filterMap_nil]
    rw [List.range_eq_range', Nat.add_comm 1, List.range'_succ]
    rfl

theorem genEntries_tcIds (env : GenEnv) (gen : Source) (ls : List GenLine) :
    tcIds (genEntries env gen ls) = List.range (nTc ls) := by
  unfold genEntries
  rw [tcIds_append, spec_tcIds]
  cases startsWithTestcase ls <;> simp [tcIds, List.range_eq_range']

/-- Each subtask of the specification, with its line. -/
theorem spec_subtask {env : GenEnv} {gen : Source} {dep : List Text → List Nat} {ls : List GenLine} :
    ∀ {k t s}, Entry.subtask s ∈ spec env gen dep k t ls → ∃ pre sc post,
      ls = pre ++ .subtask sc :: post ∧
      s = { id := k + nSub pre, maxScore := (digitsVal sc : Rat), validator := env.validator (k + nSub pre)
            name := (namesIn (annots post)).head?.bind (cleanupName env)
            dependencies := dep (depsIn (annots post)) } := by
  induction ls with
  | nil => intro k t s h; cases h
  | cons l ls ih =>
    intro k t s h
    have lift : ∀ {k' t'}, Entry.subtask s ∈ spec env gen dep k' t' ls →
        (k' = k + nSub [l]) → ∃ pre sc post,
        l :: ls = pre ++ .subtask sc :: post ∧
        s = { id := k + nSub pre, maxScore := (digitsVal sc : Rat), validator := env.validator (k + nSub pre)
              name := (namesIn (annots post)).head?.bind (cleanupName env)
              dependencies := dep (depsIn (annots post)) } := by
      intro k' t' h hk
      obtain ⟨pre, sc, post, e1, e2⟩ := ih h
      refine ⟨l :: pre, sc, post, by rw [e1]; rfl, ?_⟩
      have e3 : k' + nSub pre = k + nSub (l :: pre) := by
        rw [hk]
        simp only [nSub, List.filter_cons, List.filter_nil]
        split <;> simp <;> omega
      rw [e3] at e2
      exact e2
    cases l with
    | subtask sc =>
      rcases List.mem_cons.1 h with h | h
      · cases h
        exact ⟨[], sc, ls, rfl, rfl⟩
      · exact lift h (rfl)
    | copy p =>
      rcases List.mem_cons.1 h with h | h
      · cases h
      · exact lift h (by simp [nSub, isStLine])
    | command p =>
      rcases List.mem_cons.1 h with h | h
      · cases h
      · exact lift h (by simp [nSub, isStLine])
    | _ => exact lift h (by simp [nSub, isStLine])

/-- Where the entries of the specification are. -/
theorem spec_split {env : GenEnv} {gen : Source} {dep : List Text → List Nat} (pre : List GenLine)
    {sc : Text} {post : List GenLine} : ∀ k t, Entry.subtask
      { id := k + nSub pre, maxScore := (digitsVal sc : Rat), validator := env.validator (k + nSub pre)
        name := (namesIn (annots post)).head?.bind (cleanupName env)
        dependencies := dep (depsIn (annots post)) } ∈
      spec env gen dep k t (pre ++ .subtask sc :: post) := by
  induction pre with
  | nil => intro k t; simp [spec, nSub]
  | cons l pre ih =>
    intro k t
    have e : ∀ d, k + nSub (l :: pre) = k + d + nSub pre ↔ nSub [l] = d := by
      intro d
      simp only [nSub, List.filter_cons, List.filter_nil]
      split <;> simp <;> omega
    cases l with
    | subtask sc' =>
      have := ih (k + 1) t
      rw [← (e 1).2 (rfl)] at this
      exact List.mem_cons_of_mem _ this
    | copy p =>
      have := ih k (t + 1)
      rw [show k + nSub pre = k + 0 + nSub pre from rfl, ← (e 0).2 (by simp [nSub, isStLine])] at this
      exact List.mem_cons_of_mem _ this
    | command p =>
      have := ih k (t + 1)
      rw [show k + nSub pre = k + 0 + nSub pre from rfl, ← (e 0).2 (by simp [nSub, isStLine])] at this
      exact List.mem_cons_of_mem _ this
    | _ =>
      have := ih k t
      rw [show k + nSub pre = k + 0 + nSub pre from rfl, ← (e 0).2 (by simp [nSub, isStLine])] at this
      exact this

theorem nameTable_mem {env : GenEnv} {pre post : List GenLine} {sc n c : Text}
    (h : namesIn (annots post) = [n]) (hc : cleanupName env n = some c) : ∀ k,
    (c, k + nSub pre) ∈ nameTable env k (pre ++ .subtask sc :: post) := by
  induction pre with
  | nil => intro k; simp [nameTable, h, hc, nSub]
  | cons l pre ih =>
    intro k
    have e : ∀ d, nSub [l] = d → k + nSub (l :: pre) = k + d + nSub pre := by
      intro d
      simp only [nSub, List.filter_cons, List.filter_nil]
      split <;> simp <;> omega
    cases l with
    | subtask sc' =>
      rw [e 1 (rfl)]
      exact List.mem_append_right _ (ih (k + 1))
    | _ =>
      rw [e 0 (by simp [nSub, isStLine])]
      exact ih k

theorem nameTable_split {env : GenEnv} {ls : List GenLine}
    (hf : ∀ pre l post, ls = pre ++ l :: post → FollowOk env l (annots post)) : ∀ {k c i},
    (c, i) ∈ nameTable env k ls → ∃ pre sc post n, ls = pre ++ .subtask sc :: post ∧
      i = k + nSub pre ∧ namesIn (annots post) = [n] ∧ cleanupName env n = some c := by
  induction ls with
  | nil => intro k c i h; simp [nameTable] at h
  | cons l ls ih =>
    intro k c i h
    have hf' : ∀ pre l post, ls = pre ++ l :: post → FollowOk env l (annots post) := by
      intro pre l' post e; exact hf (l :: pre) l' post (by rw [e]; rfl)
    have e : ∀ pre d, nSub [l] = d → k + nSub (l :: pre) = k + d + nSub pre := by
      intro pre d
      simp only [nSub, List.filter_cons, List.filter_nil]
      split <;> simp <;> omega
    cases l with
    | subtask sc =>
      simp only [nameTable, List.mem_append, List.mem_map, List.mem_filterMap] at h
      rcases h with ⟨c', ⟨n, hn, hc⟩, heq⟩ | h
      · cases heq
        rcases (hf [] _ ls rfl).2 rfl with h0 | ⟨n', c', h1, h2⟩
        · rw [h0] at hn; cases hn
        · rw [h1, List.mem_singleton] at hn
          subst hn
          exact ⟨[], sc, ls, n, rfl, by simp [nSub], h1, hc⟩
      · obtain ⟨pre, sc', post, n, e1, e2, e3, e4⟩ := ih hf' h
        exact ⟨.subtask sc :: pre, sc', post, n, by rw [e1]; rfl, by
          rw [e pre 1 (rfl)]; exact e2, e3, e4⟩
    | _ =>
      obtain ⟨pre, sc', post, n, e1, e2, e3, e4⟩ := ih hf' h
      exact ⟨_ :: pre, sc', post, n, by rw [e1]; rfl, by
        rw [e pre 0 (by simp [nSub, isStLine])]; exact e2, e3, e4⟩

/-- **C37.**  A file that is accepted gives: subtasks numbered `0, 1, 2, …` and testcases numbered
`0, 1, 2, …` in the order of the entries, no testcase before the first subtask; a default subtask,
worth 100 points, exactly when a testcase comes before any subtask, and it is subtask 0; at most one
subtask for each name; and dependencies that are subtasks of the file, in increasing order and without
repetitions. -/
theorem gen_numbered {env : GenEnv} {content : Text} {es : List Entry}
    (h : parseGenGen env content = .ok es) : ∃ lines, parseGen content = some lines ∧
      stIds es = List.range (stIds es).length ∧
      tcIds es = List.range (tcIds es).length ∧
      (∀ t rest, es ≠ .testcase t :: rest) ∧
      (∀ s, .subtask s ∈ es → s.isDefault = true →
        startsWithTestcase lines = true ∧ s.id = 0 ∧ s.maxScore = 100) ∧
      (startsWithTestcase lines = true → ∃ s, .subtask s ∈ es ∧ s.isDefault = true) ∧
      (∀ s s', .subtask s ∈ es → .subtask s' ∈ es → s.name.isSome = true → s.name = s'.name → s = s') ∧
      (∀ s, .subtask s ∈ es → s.dependencies.Pairwise (· < ·) ∧ ∀ d ∈ s.dependencies, d ∈ stIds es) ∧
      (∀ s, .subtask s ∈ es → s.testcases = [] ∧ s.owned = [] ∧ s.validator = env.validator s.id) := by
  unfold parseGenGen at h
  cases hp : parseGen content with
  | none => rw [hp] at h; cases h
  | some lines =>
    rw [hp] at h
    simp only at h
    obtain ⟨gen, hg, hacc, rfl⟩ := gen_iff.1 h
    have hst := genEntries_stIds env gen lines
    have htc := genEntries_tcIds env gen lines
    have hmem : ∀ s, Entry.subtask s ∈ genEntries env gen lines →
        (startsWithTestcase lines = true ∧ s = defaultSubtask env) ∨
        ∃ pre sc post, lines = pre ++ .subtask sc :: post ∧
          s = { id := firstId lines + nSub pre, maxScore := (digitsVal sc : Rat)
                validator := env.validator (firstId lines + nSub pre)
                name := (namesIn (annots post)).head?.bind (cleanupName env)
                dependencies := depIds (nameTable env (firstId lines) lines)
                  (firstId lines + nSub lines) (depsIn (annots post)) } := by
      intro s hs
      unfold genEntries at hs
      rcases List.mem_append.1 hs with hs | hs
      · left
        split at hs
        · rename_i hsw
          simp only [List.mem_singleton, Entry.subtask.injEq] at hs
          exact ⟨hsw, hs⟩
        · cases hs
      · right; exact spec_subtask hs
    refine ⟨lines, rfl, ?_, ?_, ?_, ?_, ?_, ?_, ?_, ?_⟩
    · rw [hst, List.length_range]
    · rw [htc, List.length_range]
    · intro t rest e
      unfold genEntries at e
      cases hsw : startsWithTestcase lines with
      | true => rw [hsw] at e; simp at e
      | false =>
        rw [hsw] at e
        simp only [Bool.false_eq_true, if_false, List.nil_append] at e
        -- the first line that makes an entry is not a testcase
        have key : ∀ (ls : List GenLine) (dep : List Text → List Nat) (k t' : Nat),
            startsWithTestcase ls = false → spec env gen dep k t' ls ≠ .testcase t :: rest := by
          intro ls dep
          induction ls with
          | nil => intro k t' _ h; cases h
          | cons l ls ih =>
            intro k t' hs
            cases l with
            | subtask sc => simp [spec]
            | copy p => rw [startsWith_not rfl] at hs; cases hs
            | command p => rw [startsWith_not rfl] at hs; cases hs
            | _ => rw [startsWith_annot rfl] at hs; exact ih k t' hs
        exact key lines _ _ _ hsw e
    · intro s hs hd
      rcases hmem s hs with ⟨hsw, rfl⟩ | ⟨pre, sc, post, _, rfl⟩
      · exact ⟨hsw, rfl, rfl⟩
      · cases hd
    · intro hsw
      refine ⟨defaultSubtask env, ?_, rfl⟩
      unfold genEntries
      rw [hsw]
      exact List.mem_append_left _ (by simp [defaultSubtask])
    · intro s s' hs hs' hsome heq
      have hd := hacc.distinct
      rw [nameTable_fst env lines 0 (firstId lines)] at hd
      have nt : ∀ s, Entry.subtask s ∈ genEntries env gen lines → ∀ c, s.name = some c →
          (c, s.id) ∈ nameTable env (firstId lines) lines ∧ ∃ pre sc post,
            lines = pre ++ .subtask sc :: post ∧
            s = { id := firstId lines + nSub pre, maxScore := (digitsVal sc : Rat)
                  validator := env.validator (firstId lines + nSub pre)
                  name := (namesIn (annots post)).head?.bind (cleanupName env)
                  dependencies := depIds (nameTable env (firstId lines) lines)
                    (firstId lines + nSub lines) (depsIn (annots post)) } := by
        intro s hs c hc
        rcases hmem s hs with ⟨_, rfl⟩ | ⟨pre, sc, post, e, rfl⟩
        · cases hc
        · refine ⟨?_, pre, sc, post, e, rfl⟩
          simp only at hc ⊢
          rcases (hacc.follow _ _ _ e).2 rfl with h0 | ⟨n, c', h1, h2⟩
          · rw [h0] at hc; cases hc
          · rw [h1] at hc
            simp only [List.head?_cons, Option.bind_some, h2, Option.some.injEq] at hc
            subst hc
            have := nameTable_mem (env := env) (pre := pre) (sc := sc) h1 h2 (firstId lines)
            rw [← e] at this
            exact this
      obtain ⟨c, hc⟩ := Option.isSome_iff_exists.1 hsome
      obtain ⟨m1, pre, sc, post, e, hs1⟩ := nt s hs c hc
      obtain ⟨m2, pre', sc', post', e', hs2⟩ := nt s' hs' c (heq ▸ hc)
      have hid : s.id = s'.id := by
        have h1 := (look_mem_iff hd).2 m1
        have h2 := (look_mem_iff hd).2 m2
        rw [h1] at h2
        exact Option.some.inj h2
      -- the same line
      have hn : nSub pre = nSub pre' := by rw [hs1, hs2] at hid; simp only at hid; omega
      have key : ∀ (pre pre' post post' : List GenLine), nSub pre = nSub pre' →
          pre ++ .subtask sc :: post = pre' ++ .subtask sc' :: post' → pre = pre' ∧ sc = sc' ∧ post = post' := by
        intro pre
        induction pre with
        | nil =>
          intro pre' post post' hn he
          cases pre' with
          | nil => simp at he; exact ⟨rfl, he.1, he.2⟩
          | cons x pre' =>
            simp only [List.nil_append, List.cons_append, List.cons.injEq] at he
            rw [← he.1] at hn
            exact absurd hn (by simp only [nSub, List.filter_cons, isStLine, if_true, List.length_cons, List.filter_nil, List.length_nil]; omega)
        | cons x pre ih =>
          intro pre' post post' hn he
          cases pre' with
          | nil =>
            simp only [List.nil_append, List.cons_append, List.cons.injEq] at he
            rw [he.1] at hn
            simp [nSub, isStLine] at hn
          | cons y pre' =>
            simp only [List.cons_append, List.cons.injEq] at he
            obtain ⟨rfl, he⟩ := he
            have : nSub pre = nSub pre' := by
              simp only [nSub, List.filter_cons] at hn ⊢
              split at hn <;> first | exact hn | (simp at hn; exact hn)
            obtain ⟨h1, h2, h3⟩ := ih pre' post post' this he
            exact ⟨by rw [h1], h2, h3⟩
      obtain ⟨rfl, rfl, rfl⟩ := key pre pre' post post' hn (e ▸ e')
      rw [hs1, hs2]
    · intro s hs
      rw [hst]
      rcases hmem s hs with ⟨_, rfl⟩ | ⟨pre, sc, post, _, rfl⟩
      · exact ⟨List.Pairwise.nil, by intro d hd; cases hd⟩
      · refine ⟨depIds_sorted _ _ _, ?_⟩
        intro d hd
        rw [List.mem_range]
        exact (mem_depIds.1 hd).1
    · intro s hs
      rcases hmem s hs with ⟨_, rfl⟩ | ⟨pre, sc, post, _, rfl⟩
      · exact ⟨rfl, rfl, rfl⟩
      · exact ⟨rfl, rfl, rfl⟩

/-- **C37, names and dependencies.**  A `#ST:` line makes a subtask with the score it says, named by
the `#STNAME:` line that follows it, if any, and that depends on the subtasks named by the words of the
`#STDEP:` lines that follow it, on all the subtasks if one of the words is `*`. -/
theorem gen_subtask {env : GenEnv} {lines : List GenLine} {es : List Entry}
    (h : interpGen env lines = .ok es) {pre post : List GenLine} {score : Text}
    (e : lines = pre ++ .subtask score :: post) : ∃ s, .subtask s ∈ es ∧
      s.id = (if startsWithTestcase lines then 1 else 0) + (pre.filter isStLine).length ∧
      s.maxScore = (digitsVal score : Rat) ∧ s.isDefault = false ∧
      (namesIn (annots post) = [] → s.name = none) ∧
      (∀ n, GenLine.subtaskName n ∈ annots post → s.name = cleanupName env n ∧ s.name.isSome = true) ∧
      (∀ d, d ∈ s.dependencies ↔ ∃ ws w, GenLine.subtaskDep ws ∈ annots post ∧ w ∈ ws ∧
        ∃ s', .subtask s' ∈ es ∧ s'.id = d ∧ (w = ['*'] ∨ s'.name = some w)) := by
  obtain ⟨gen, hg, hacc, rfl⟩ := gen_iff.1 h
  have hin : Entry.subtask { id := firstId lines + nSub pre, maxScore := (digitsVal score : Rat)
                             validator := env.validator (firstId lines + nSub pre)
                             name := (namesIn (annots post)).head?.bind (cleanupName env)
                             dependencies := depIds (nameTable env (firstId lines) lines)
                               (firstId lines + nSub lines) (depsIn (annots post)) } ∈
      genEntries env gen lines := by
    unfold genEntries
    refine List.mem_append_right _ ?_
    have := spec_split (env := env) (gen := gen)
      (dep := depIds (nameTable env (firstId lines) lines) (firstId lines + nSub lines)) pre
      (sc := score) (post := post) (firstId lines) 0
    rw [← e] at this
    exact this
  refine ⟨_, hin, rfl, rfl, rfl, ?_, ?_, ?_⟩
  · intro h0; simp only [h0]; rfl
  · intro n hn
    have hm : n ∈ namesIn (annots post) := List.mem_filterMap.2 ⟨_, hn, rfl⟩
    rcases (hacc.follow _ _ _ e).2 rfl with h0 | ⟨n', c, h1, h2⟩
    · rw [h0] at hm; cases hm
    · rw [h1, List.mem_singleton] at hm
      subst hm
      simp [h1, h2]
  · intro d
    simp only
    rw [mem_depIds]
    have hw : ∀ w, w ∈ depsIn (annots post) ↔ ∃ ws, GenLine.subtaskDep ws ∈ annots post ∧ w ∈ ws := by
      intro w
      simp only [depsIn, List.mem_flatMap]
      constructor
      · rintro ⟨l, hl, hw⟩
        cases l with
        | subtaskDep ws => exact ⟨ws, hl, hw⟩
        | _ => simp at hw
      · rintro ⟨ws, h1, h2⟩; exact ⟨_, h1, h2⟩
    have hst := genEntries_stIds env gen lines
    have hd := hacc.distinct
    rw [nameTable_fst env lines 0 (firstId lines)] at hd
    constructor
    · rintro ⟨hlt, hstar | ⟨w, hw', ht⟩⟩
      · obtain ⟨ws, h1, h2⟩ := (hw _).1 hstar
        have : d ∈ stIds (genEntries env gen lines) := by rw [hst, List.mem_range]; exact hlt
        obtain ⟨s', hs', hid⟩ := mem_stIds.1 this
        exact ⟨ws, _, h1, h2, s', hs', hid, .inl rfl⟩
      · obtain ⟨ws, h1, h2⟩ := (hw _).1 hw'
        obtain ⟨pre', sc', post', n, e1, e2, e3, e4⟩ := nameTable_split hacc.follow ht
        refine ⟨ws, w, h1, h2,
          { id := firstId lines + nSub pre', maxScore := (digitsVal sc' : Rat)
            validator := env.validator (firstId lines + nSub pre')
            name := (namesIn (annots post')).head?.bind (cleanupName env)
            dependencies := depIds (nameTable env (firstId lines) lines)
              (firstId lines + nSub lines) (depsIn (annots post')) }, ?_, e2.symm, .inr ?_⟩
        · unfold genEntries
          refine List.mem_append_right _ ?_
          have := spec_split (env := env) (gen := gen)
            (dep := depIds (nameTable env (firstId lines) lines) (firstId lines + nSub lines)) pre'
            (sc := sc') (post := post') (firstId lines) 0
          rw [← e1] at this
          exact this
        · simp [e3, e4]
    · rintro ⟨ws, w, h1, h2, s', hs', hid, hor⟩
      have hlt : d < firstId lines + nSub lines := by
        have := mem_stIds.2 ⟨s', hs', hid⟩
        rwa [hst, List.mem_range] at this
      refine ⟨hlt, ?_⟩
      rcases hor with rfl | hname
      · exact .inl ((hw _).2 ⟨ws, h1, h2⟩)
      · right
        refine ⟨w, (hw _).2 ⟨ws, h1, h2⟩, ?_⟩
        unfold genEntries at hs'
        rcases List.mem_append.1 hs' with hs' | hs'
        · split at hs'
          · simp only [List.mem_singleton, Entry.subtask.injEq] at hs'
            subst hs'; cases hname
          · cases hs'
        · obtain ⟨pre', sc', post', e1, e2⟩ := spec_subtask hs'
          subst e2
          simp only at hname hid
          rcases (hacc.follow _ _ _ e1).2 rfl with h0 | ⟨n, c', g1, g2⟩
          · rw [h0] at hname; cases hname
          · rw [g1] at hname
            simp only [List.head?_cons, Option.bind_some, g2, Option.some.injEq] at hname
            subst hname
            have := nameTable_mem (env := env) (pre := pre') (sc := sc') g1 g2 (firstId lines)
            rw [← e1, hid] at this
            exact this

/-- **C37, testcases.**  The testcases are those of the copy and command lines, in the order of the
file and numbered from zero. -/
theorem gen_testcases {env : GenEnv} {lines : List GenLine} {es : List Entry}
    (h : interpGen env lines = .ok es) : ∃ gen, env.generators = [gen] ∧
      (es.filterMap fun e => match e with | .testcase t => some t | .subtask _ => none) =
        (lines.filterMap fun l => match l with
          | .copy path => some (InputGen.staticFile (env.join path))
          | .command args => some (InputGen.custom gen args)
          | _ => none).zipIdx.map fun p => ⟨p.2, p.1, env.outputGen p.2⟩ := by
  obtain ⟨gen, hg, _, rfl⟩ := gen_iff.1 h
  refine ⟨gen, hg, ?_⟩
  have key : ∀ (ls : List GenLine) (dep : List Text → List Nat) (k t : Nat),
      ((spec env gen dep k t ls).filterMap fun e => match e with
        | .testcase t => some t | .subtask _ => none) =
      ((ls.filterMap fun l => match l with
          | .copy path => some (InputGen.staticFile (env.join path))
          | .command args => some (InputGen.custom gen args)
          | _ => none).zipIdx t).map fun p => (⟨p.2, p.1, env.outputGen p.2⟩ : Testcase) := by
    intro ls dep
    induction ls with
    | nil => intro k t; rfl
    | cons l ls ih =>
      intro k t
      cases l <;> simp [spec, ih]
  unfold genEntries
  rw [List.filterMap_append, key]
  cases startsWithTestcase lines <;> rfl

/-- The subtask or the testcase that a line makes. -/
def lineKind : GenLine → Option Bool
  | .subtask _ => some false
  | .copy _ | .command _ => some true
  | _ => none

/-- **C37, order.**  Subtasks and testcases alternate as their lines do: a testcase belongs to the
`#ST:` line above it. -/
theorem gen_order {env : GenEnv} {lines : List GenLine} {es : List Entry}
    (h : interpGen env lines = .ok es) : es.map isTestcase =
      (if startsWithTestcase lines then [false] else []) ++ lines.filterMap lineKind := by
  obtain ⟨gen, hg, _, rfl⟩ := gen_iff.1 h
  have key : ∀ (ls : List GenLine) (dep : List Text → List Nat) (k t : Nat),
      (spec env gen dep k t ls).map isTestcase = ls.filterMap lineKind := by
    intro ls dep
    induction ls with
    | nil => intro k t; rfl
    | cons l ls ih =>
      intro k t
      cases l <;> simp only [spec, List.map_cons, ih, List.filterMap_cons, lineKind, isTestcase]
  unfold genEntries
  rw [List.map_append, key]
  cases startsWithTestcase lines <;> rfl

/-- **C37 and C36.**  The entries of an accepted file are well numbered, so that loading them ends and
never panics, whatever the iteration order. -/
theorem gen_wellNumbered {env : GenEnv} {content : Text} {es : List Entry}
    (h : parseGenGen env content = .ok es) : WellNumbered es := by
  obtain ⟨lines, _, h1, h2, h3, _, _, _, h7, h8⟩ := gen_numbered h
  refine ⟨h3, ?_, fun s hs => ⟨(h8 s hs).1, (h8 s hs).2.1⟩, fun s hs => (h7 s hs).2, ?_⟩
  · rw [h1]; exact List.nodup_range
  · rw [h2]; exact List.pairwise_lt_range

/-! ## A concrete file -/

def exampleEnv : GenEnv where
  validator := fun i => .custom "val.py".toList [[Char.ofNat (48 + i)]]
  outputGen := fun _ => .custom "sol.py".toList
  generators := ["gen/generator.py".toList]
  join := fun p => "/task/".toList ++ p
  nfkc := id
  okCategory := fun c => c.isAlphanum || c == '_'
  isSpace := fun c => c == ' '

def exampleGen : Text :=
  "# header\n#ST: 30\n#STNAME: small\n#STDEP: *\n1 2  # tiny\n\t3 4\n\n#ST: 70\n#STDEP: small\r\n#COPY: input/big.txt\n".toList

/-- The file of the example is accepted, with two subtasks and three testcases. -/
example : (match parseGenGen exampleEnv exampleGen with
    | .ok es => decide (es = [
        .subtask { id := 0, maxScore := 30, name := some "small".toList, dependencies := [0, 1],
                   validator := .custom "val.py".toList ["0".toList] },
        .testcase ⟨0, .custom "gen/generator.py".toList ["1".toList, "2".toList], .custom "sol.py".toList⟩,
        .testcase ⟨1, .custom "gen/generator.py".toList ["3".toList, "4".toList], .custom "sol.py".toList⟩,
        .subtask { id := 1, maxScore := 70, dependencies := [0],
                   validator := .custom "val.py".toList ["1".toList] },
        .testcase ⟨2, .staticFile "/task/input/big.txt".toList, .custom "sol.py".toList⟩])
    | .error _ => false) = true := by decide +kernel

/-- A file with no subtask. -/
example : (match parseGenGen exampleEnv "1\n2\n".toList with
    | .ok es => decide (stIds es = [0] ∧ tcIds es = [0, 1])
    | .error _ => false) = true := by decide +kernel

/-- Rejected files: a name used twice, a name that is not after a subtask, an unknown dependency, a
subtask with two names. -/
example : (["#ST: 1\n#STNAME: a\n#ST: 2\n#STNAME: a", "#ST: 1\n10\n#STNAME: a", "#STNAME: a",
    "#ST: 1\n#STDEP: b", "#ST: 1\n#STNAME: a\n#STNAME: b", "#ST: x"].map fun s =>
      match parseGenGen exampleEnv s.toList with | .ok _ => none | .error e => some e) =
    [some .duplicateName, some .nameNotAfterSubtask, some .nameNotAfterSubtask, some .unknownName,
     some .nameTwice, some .syntax] := by decide +kernel

end TM.Format
