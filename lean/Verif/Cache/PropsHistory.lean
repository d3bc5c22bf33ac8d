import Verif.Cache.HistLemmas
import Verif.Cache.PropsLimits
/-!
# C19, C20: what is inserted is found again, and a hit delivers every output
-/

namespace TM.Cache

open TM

/-! ## C20 -/

/-- C20 (partial).  When a lookup is a hit, every output declared by the group (stdout, stderr,
files) gets a key that is present in the store, nothing else is returned, and the key of each
output is the one recorded, for the same stream or path, by the earlier run the results come from.
Missing: captured streams, see `capture_missing`. -/
theorem hit_outputs_partial {ops : List Op} {s : State} (hr : Reach ops s)
    {g : ExecutionGroup} {fk : FileKeys} {present : FileStoreKey → Bool}
    {rs : List ExecutionResult} {outs : AMap FileUuid FileStoreKey}
    (hops : ∀ op ∈ ops, op.results.length = op.group.executions.length)
    (h : get s g fk present = some (.hit rs outs)) :
    (∀ f ∈ g.outs, ∃ k, outs.get? f = some k ∧ present k = true) ∧
    (∀ f k, outs.get? f = some k → f ∈ g.outs) ∧
    rs.length = g.executions.length ∧
    ∃ op ∈ ops, SameKey op g fk ∧ ServedFrom op g rs ∧
      (g.outs.Nodup → (∀ e ∈ g.executions, AMap.Wf e.outputs) →
        ∀ (i : Nat) e e₀, g.executions[i]? = some e → op.group.executions[i]? = some e₀ →
        (∀ f, e.stdout = some f → outs.get? f = e₀.stdout.bind op.fileKeys.get?) ∧
        (∀ f, e.stderr = some f → outs.get? f = e₀.stderr.bind op.fileKeys.get?) ∧
        (∀ path f, e.outputs.get? path = some f →
          outs.get? f = (e₀.outputs.get? path).bind op.fileKeys.get?)) := by
  obtain ⟨op, hop, en, hk, hce, hc, ho, hrs⟩ := hit_origin hr h
  have hlen : g.executions.length = en.items.length := by
    obtain ⟨k, hk1, hk2⟩ := hk
    rw [cacheEntry_length hce, hops op hop, Nat.min_self, ← cacheKey_length hk1, cacheKey_length hk2]
  rw [outputs_eq] at ho
  obtain ⟨f1, f2, f3⟩ := fold_step ho
  have hf : ∀ f, f ∈ ((g.executions.zip en.items).flatMap decl).map (·.1) ↔ f ∈ g.outs := by
    intro f; rw [decls_files hlen]; rfl
  refine ⟨?_, ?_, ?_, op, hop, hk, servedFrom hce hrs, ?_⟩
  · intro f hfo
    obtain ⟨q, hq, _, e⟩ := f3 f ((hf f).2 hfo)
    obtain ⟨k, hk, hp⟩ := f1 q hq
    exact ⟨k, by rw [e, hk], hp⟩
  · intro f k hk
    apply Decidable.byContradiction
    intro hn
    rw [f2 f (fun hm => hn ((hf f).1 hm))] at hk
    simp at hk
  · subst hrs; simp [hlen]
  · intro hnd hwf i e e₀ he he₀
    have hres : ∃ r₀, op.results[i]? = some r₀ := by
      have : i < op.results.length := by
        rw [hops op hop]; exact (List.getElem?_eq_some_iff.1 he₀).1
      exact ⟨_, List.getElem?_eq_getElem this⟩
    obtain ⟨r₀, hr₀⟩ := hres
    obtain ⟨it, hi, hit⟩ := item_of hce he₀ hr₀
    obtain ⟨_, _, _, _, h5, h6, h7⟩ := entryItem_some hit
    have hz : (g.executions.zip en.items)[i]? = some (e, it) :=
      List.getElem?_zip_eq_some.2 ⟨he, hi⟩
    have hmem : ∀ q ∈ decl (e, it), q ∈ (g.executions.zip en.items).flatMap decl := fun q hq =>
      List.mem_flatMap.2 ⟨_, List.mem_iff_getElem?.2 ⟨i, hz⟩, hq⟩
    have hnd' : (((g.executions.zip en.items).flatMap decl).map (·.1)).Nodup := by
      rw [decls_files hlen]; exact hnd
    have look : ∀ q ∈ decl (e, it), outs.get? q.1 = q.2 := by
      intro q hq
      obtain ⟨q', hq', e1, e2⟩ := f3 q.1 (List.mem_map.2 ⟨q, hmem q hq, rfl⟩)
      rw [e2, mem_unique_fst hnd' hq' (hmem q hq) e1]
    refine ⟨?_, ?_, ?_⟩
    · intro f hfs
      rw [← h5]
      exact look (f, it.stdout) (by simp [decl, hfs])
    · intro f hfs
      rw [← h6]
      exact look (f, it.stderr) (by simp [decl, hfs])
    · intro path f hpf
      rw [← (outputs_recorded h7 path).1]
      refine look (f, it.outputs.get? path) ?_
      simp only [decl, List.mem_append, List.mem_map]
      exact Or.inr (Or.inr ⟨(path, f), AMap.mem_of_get? hpf, rfl⟩)

/-- C20 fails for captured streams: a run that did not capture its output is served to a request
that asks for it; the hit has no captured output. -/
theorem capture_missing :
    ∃ s, Reach [⟨{ uuid := 0, executions := [{ uuid := 1 }] }, [], [resultOf .success {}]⟩] s ∧
      get s { uuid := 0, executions := [{ uuid := 1, captureStdout := some 10 }] } []
        (fun _ => true) = some (.hit [{ status := .success, wasCached := true, stdout := none }] []) :=
  ⟨_, .insert (s := {}) (ops := []) _ (.empty false) rfl, rfl⟩

/-- An execution with all the kinds of outputs. -/
def outExec (base : Nat) : Execution :=
  { uuid := 1, stdout := some base, stderr := some (base + 1), outputs := [("out", base + 2)] }
/-- The keys of its outputs. -/
def outKeys : FileKeys := [(10, ⟨"so"⟩), (11, ⟨"se"⟩), (12, ⟨"f"⟩)]

/-- A hit with outputs: the file uuids of the new DAG get the recorded keys. -/
example : ∃ s, Reach [⟨{ uuid := 0, executions := [outExec 10] }, outKeys,
      [resultOf .success {}]⟩] s ∧
    get s { uuid := 0, executions := [outExec 20] } [] (fun _ => true)
      = some (.hit [{ status := .success, wasCached := true }]
          [(22, ⟨"f"⟩), (21, ⟨"se"⟩), (20, ⟨"so"⟩)]) ∧
    get s { uuid := 0, executions := [outExec 20] } [] (fun k => k.hash ≠ "se") = some .miss ∧
    ({ uuid := 0, executions := [outExec 20] } : ExecutionGroup).outs = [20, 21, 22] :=
  ⟨_, .insert (s := {}) (ops := []) _ (.empty false) rfl, rfl, rfl, rfl⟩

/-! ## C19 -/

/-- C19: the entries kept for a key are, for each set of limits, the one of the last insertion with
that key and those limits; there is at most one per set of limits. -/
theorem entries_are_latest {ops : List Op} {s : State} (hr : Reach ops s) (key : Key) (en : Entry) :
    Stored s key en ↔ ∃ pre op post, ops = pre ++ op :: post ∧
      cacheKey op.group op.fileKeys = some key ∧
      cacheEntry op.group op.fileKeys op.results = some en ∧
      ∀ op' ∈ post, cacheKey op'.group op'.fileKeys = some key → op'.limits ≠ op.limits := by
  induction hr with
  | empty d => simp [Stored]
  | @insert ops s s' op hr hi ih =>
    rw [stored_insert hr hi, ih]
    constructor
    · rintro (⟨h1, h2⟩ | ⟨⟨pre, op', post, rfl, h1, h2, h3⟩, hn⟩)
      · exact ⟨ops, op, [], rfl, h1, h2, by simp⟩
      · refine ⟨pre, op', post ++ [op], by simp, h1, h2, ?_⟩
        intro o ho hk
        rcases List.mem_append.1 ho with ho | ho
        · exact h3 o ho hk
        · simp only [List.mem_singleton] at ho
          subst ho
          intro hl
          exact hn ⟨hk, by rw [cacheEntry_limits h2, hl]⟩
    · rintro ⟨pre, op', post, he, h1, h2, h3⟩
      rcases List.eq_nil_or_concat post with rfl | ⟨post', x, rfl⟩
      · have := List.append_inj' he rfl
        simp at this
        obtain ⟨rfl, rfl⟩ := this
        exact Or.inl ⟨h1, h2⟩
      · rw [List.concat_eq_append, ← List.cons_append, ← List.append_assoc] at he
        have := List.append_inj' he rfl
        simp only [List.cons.injEq, and_true] at this
        obtain ⟨rfl, rfl⟩ := this
        refine Or.inr ⟨⟨pre, op', post', rfl, h1, h2, fun o ho => h3 o (by simp [ho])⟩, ?_⟩
        rintro ⟨hk, hl⟩
        refine h3 op (by simp) hk ?_
        rw [← cacheEntry_limits h2, hl]

/-- C19: no two entries of a key have the same limits. -/
theorem entries_distinct {ops : List Op} {s : State} (hr : Reach ops s) {key : Key}
    {ens : List Entry} (h : s.entries.get? key = some ens) :
    ens.Pairwise (fun a b => a.items.map (·.limits) ≠ b.items.map (·.limits)) :=
  reach_distinct hr h

theorem checkLimits_self {r : Request} (hf : r.Fits) :
    checkLimits r.limits r.limits (r.extraTime - r.extraTime)
      (wsub r.extraMemory r.extraMemory) = true := by
  have e0 : wsub r.extraMemory r.extraMemory = 0 := by
    rw [wsub_eq hf.extra hf.extra]; simp
  have hu : ∀ {l : Option Nat}, (∀ m, l = some m → m < 2 ^ 64) → checkLimitU l l 0 = true := by
    intro l hl
    rw [checkLimitU_zero hl]
    cases l <;> simp [LimitLe, ofNat]
  have hx : ∀ {l : Option Int}, checkLimit l l (r.extraTime - r.extraTime) = true := by
    intro l
    rw [checkLimit_iff]
    cases l <;> simp [LimitLe, withExtra]
  have hd : checkDirs r.limits.extraReadableDirs r.limits.extraReadableDirs = true := by
    rw [checkDirs_iff]; rintro ⟨_, d, h1, h2⟩; exact h2 h1
  have hmem : ∀ m, r.limits.memory = some m → m < 2 ^ 64 := fun m hm => by
    have := hf.memory m hm; omega
  simp only [checkLimits, e0, hx, hu hmem, hu hf.nofile, hu hf.fsize, hu hf.memlock, hu hf.stack, hd,
    Bool.and_true, Bool.true_and]
  cases r.limits.allowMultiprocess <;> cases r.limits.readOnly <;> cases r.limits.mountTmpfs <;> rfl

/-- The entry of a group is compatible with the group. -/
theorem compatible_self {op : Op} (hg : GroupOk op.group) (hne : op.group.executions ≠ [])
    {en : Entry} (hce : cacheEntry op.group op.fileKeys op.results = some en) :
    isCompatible en op.group = some true := by
  obtain ⟨e₀, he₀⟩ : ∃ e₀, op.group.executions.head? = some e₀ := by
    cases h : op.group.executions with
    | nil => exact absurd h hne
    | cons a l => exact ⟨a, rfl⟩
  simp only [isCompatible, groupConfig, he₀, Option.map_some, Option.some.injEq]
  rw [List.all_eq_true]
  intro p hp
  obtain ⟨i, hi⟩ := List.mem_iff_getElem?.1 hp
  obtain ⟨h1, h2⟩ := List.getElem?_zip_eq_some.1 hi
  obtain ⟨e, r, h3, h4, h5⟩ := cacheEntry_item hce h2
  rw [h1] at h3
  cases h3
  obtain ⟨a1, a2, a3, a4, _⟩ := entryItem_some h5
  have me := List.mem_iff_getElem?.2 ⟨i, h1⟩
  have := checkLimits_self (hg.fits _ me)
  rw [head_config hg me he₀]
  unfold itemCompatible
  rw [a2, a3, a4]
  split <;> exact this

theorem scan_finds {present : FileStoreKey → Bool} {g : ExecutionGroup} {ens : List Entry}
    (hne : g.executions ≠ []) {en : Entry} (hm : en ∈ ens)
    {o : AMap FileUuid FileStoreKey} (ho : outputs en present g = some o)
    (hc : isCompatible en g = some true) :
    ∃ rs outs, scan present g ens = some (.hit rs outs) := by
  induction ens with
  | nil => cases hm
  | cons a ens ih =>
    unfold scan
    rcases List.mem_cons.1 hm with rfl | hm'
    · simp [ho, hc]
    · cases h1 : outputs a present g with
      | none => exact ih hm'
      | some o' =>
        cases h2 : isCompatible a g with
        | none =>
          cases hx : g.executions with
          | nil => exact absurd hx hne
          | cons => simp [isCompatible, groupConfig, hx] at h2
        | some b => cases b <;> simp; exact ih hm'

/-- The outputs of a group are known and present in the store. -/
def OutputsPresent (op : Op) (present : FileStoreKey → Bool) : Prop :=
  ∀ f ∈ op.group.outs, ∃ k, op.fileKeys.get? f = some k ∧ present k = true

theorem outputs_self {op : Op} {present : FileStoreKey → Bool} {en : Entry}
    (hwf : ∀ e ∈ op.group.executions, AMap.Wf e.outputs)
    (hce : cacheEntry op.group op.fileKeys op.results = some en)
    (hp : OutputsPresent op present) : ∃ o, outputs en present op.group = some o := by
  rw [outputs_eq]
  apply fold_step_some
  intro q hq
  obtain ⟨p, hp', hq⟩ := List.mem_flatMap.1 hq
  obtain ⟨i, hi⟩ := List.mem_iff_getElem?.1 hp'
  obtain ⟨h1, h2⟩ := List.getElem?_zip_eq_some.1 hi
  obtain ⟨e, r, h3, h4, h5⟩ := cacheEntry_item hce h2
  rw [h1] at h3
  cases h3
  obtain ⟨_, _, _, _, a5, a6, a7⟩ := entryItem_some h5
  have me := List.mem_iff_getElem?.2 ⟨i, h1⟩
  have out : ∀ f ∈ p.1.outputFiles, ∃ k, op.fileKeys.get? f = some k ∧ present k = true :=
    fun f hf => hp f (List.mem_flatMap.2 ⟨_, me, hf⟩)
  simp only [decl, List.mem_append, Option.mem_toList, List.mem_map, Option.map_eq_some_iff] at hq
  rcases hq with ⟨f, hf, rfl⟩ | ⟨f, hf, rfl⟩ | ⟨⟨path, f⟩, hf, rfl⟩
  · obtain ⟨k, hk, hpk⟩ := out f (by simp [Execution.outputFiles, hf])
    exact ⟨k, by simp [a5, hf, hk], hpk⟩
  · obtain ⟨k, hk, hpk⟩ := out f (by simp [Execution.outputFiles, hf])
    exact ⟨k, by simp [a6, hf, hk], hpk⟩
  · obtain ⟨k, hk, hpk⟩ := out f (by
      simp only [Execution.outputFiles, List.mem_append, List.mem_map]
      exact Or.inr (Or.inr ⟨(path, f), hf, rfl⟩))
    refine ⟨k, ?_, hpk⟩
    rw [(outputs_recorded a7 path).1, AMap.get?_of_mem (hwf _ me) hf]
    exact hk

/-- C19: after `op` has been inserted, and whatever was inserted before, or after with another key
or other limits, a lookup of the same group is a hit as long as its outputs are in the store. -/
theorem inserted_found {pre post : List Op} {op : Op} {s : State}
    (hr : Reach (pre ++ op :: post) s) {present : FileStoreKey → Bool}
    (hg : GroupOk op.group) (hne : op.group.executions ≠ [])
    (hwf : ∀ e ∈ op.group.executions, AMap.Wf e.outputs)
    (hpost : ∀ op' ∈ post,
      cacheKey op'.group op'.fileKeys = cacheKey op.group op.fileKeys → op'.limits ≠ op.limits)
    (hp : OutputsPresent op present) :
    ∃ rs outs, get s op.group op.fileKeys present = some (.hit rs outs) := by
  have hdef : ∃ key en, cacheKey op.group op.fileKeys = some key ∧
      cacheEntry op.group op.fileKeys op.results = some en := by
    clear hpost hp
    generalize ho : pre ++ op :: post = ops at hr
    have hm : op ∈ ops := ho ▸ (by simp)
    clear ho
    induction hr with
    | empty => cases hm
    | insert op' _ hi ih =>
      rcases List.mem_append.1 hm with hm | hm
      · exact ih hm
      · simp only [List.mem_singleton] at hm
        subst hm
        obtain ⟨k, e, h1, h2, _⟩ := insert_some hi
        exact ⟨k, e, h1, h2⟩
  obtain ⟨key, en, hk, hce⟩ := hdef
  obtain ⟨ens, he, hm⟩ := (entries_are_latest hr key en).2
    ⟨pre, op, post, rfl, hk, hce, fun o ho h => hpost o ho (h.trans hk.symm)⟩
  obtain ⟨o, ho⟩ := outputs_self hwf hce hp
  simp only [get, hk, Option.bind_eq_bind, Option.bind_some, he]
  exact scan_finds hne hm ho (compatible_self hg hne hce)

theorem served_self {op : Op} {en : Entry}
    (hlen : op.results.length = op.group.executions.length)
    (hce : cacheEntry op.group op.fileKeys op.results = some en)
    (htr : ∀ (i : Nat) e r, op.group.executions[i]? = some e → op.results[i]? = some r →
      Truthful e r) :
    (op.group.executions.zip en.items).map servedResult
      = op.results.map (fun r => { r with wasCached := true }) := by
  apply List.ext_getElem?
  intro i
  have hl2 := cacheEntry_length hce
  cases hi : (op.group.executions.zip en.items)[i]? with
  | none =>
    have h1 : (op.group.executions.zip en.items).length ≤ i := List.getElem?_eq_none_iff.1 hi
    have h2 : op.results.length ≤ i := by simp [hl2, hlen] at h1; omega
    simp [List.getElem?_map, hi, List.getElem?_eq_none_iff.2 h2]
  | some p =>
    obtain ⟨h1, h2⟩ := List.getElem?_zip_eq_some.1 hi
    obtain ⟨e, r, h3, h4, h5⟩ := cacheEntry_item hce h2
    rw [h1] at h3
    cases h3
    obtain ⟨a1, a2, _⟩ := entryItem_some h5
    obtain ⟨c, sg, hst⟩ := htr i _ r h1 h4
    simp only [List.getElem?_map, hi, h4, Option.map_some, Option.some.injEq, servedResult, a1]
    have : p.1.status (recovered r.status).1 (recovered r.status).2 r.resources = r.status := by
      rw [hst]
      by_cases hl : LimitStatus (p.1.status c sg r.resources)
      · exact status_over _ _ _ _ _ _ (status_limit hl)
      · exact recovered_status hl
    rw [this]

/-- C19 (partial): if moreover no other set of limits was ever inserted for that key, the lookup
returns exactly the results inserted, marked as cached, with the recorded output keys.  Missing:
with several sets of limits an older compatible entry may be served instead
(`older_entry_served`). -/
theorem inserted_returned_partial {pre post : List Op} {op : Op} {s : State}
    (hr : Reach (pre ++ op :: post) s) {present : FileStoreKey → Bool}
    (hg : GroupOk op.group) (hne : op.group.executions ≠ [])
    (hwf : ∀ e ∈ op.group.executions, AMap.Wf e.outputs)
    (hlen : op.results.length = op.group.executions.length)
    (htr : ∀ (i : Nat) e r, op.group.executions[i]? = some e → op.results[i]? = some r →
      Truthful e r)
    (hpost : ∀ op' ∈ post, cacheKey op'.group op'.fileKeys ≠ cacheKey op.group op.fileKeys)
    (hpre : ∀ op' ∈ pre,
      cacheKey op'.group op'.fileKeys = cacheKey op.group op.fileKeys → op'.limits = op.limits)
    (hp : OutputsPresent op present) :
    ∃ outs, get s op.group op.fileKeys present
      = some (.hit (op.results.map (fun r => { r with wasCached := true })) outs) ∧
      (op.group.outs.Nodup → ∀ f ∈ op.group.outs, outs.get? f = op.fileKeys.get? f) := by
  obtain ⟨rs, outs, hget⟩ := inserted_found hr hg hne hwf
    (fun o ho h => absurd h (hpost o ho)) hp
  obtain ⟨key, ens, p', en, q', hk, he, rfl, ho, hc, hrs, _⟩ := get_hit hget
  obtain ⟨pr, op', po, hops, hk', hce, hlast⟩ := (entries_are_latest hr key en).1
    ⟨_, he, by simp⟩
  have hsame : op' = op := by
    rcases List.append_eq_append_iff.1 hops with ⟨a, h1, h2⟩ | ⟨a, h1, h2⟩
    · cases a with
      | nil => simp at h2; exact h2.1.symm
      | cons x a =>
        simp only [List.cons_append, List.cons.injEq] at h2
        have : op' ∈ post := by rw [h2.2]; simp
        exact absurd (hk'.trans hk.symm) (hpost _ this)
    · cases a with
      | nil => simp at h2; exact h2.1
      | cons x a =>
        simp only [List.cons_append, List.cons.injEq] at h2
        have hmem : op' ∈ pre := by rw [h1, ← h2.1]; simp
        have : op ∈ po := by rw [h2.2]; simp
        exact absurd (hpre _ hmem (hk'.trans hk.symm)).symm (hlast op this hk)
  subst hsame
  refine ⟨outs, ?_, ?_⟩
  · rw [hget, hrs, served_self hlen hce htr]
  · intro hnd f hf
    rw [outputs_eq] at ho
    obtain ⟨_, _, f3⟩ := fold_step ho
    have hl : op'.group.executions.length = en.items.length := by
      rw [cacheEntry_length hce, hlen, Nat.min_self]
    obtain ⟨q, hq, e1, e2⟩ := f3 f (by rw [decls_files hl]; exact hf)
    obtain ⟨p, hp', hq⟩ := List.mem_flatMap.1 hq
    obtain ⟨i, hi⟩ := List.mem_iff_getElem?.1 hp'
    obtain ⟨h1, h2⟩ := List.getElem?_zip_eq_some.1 hi
    obtain ⟨e, r, h3, h4, h5⟩ := cacheEntry_item hce h2
    rw [h1] at h3
    cases h3
    obtain ⟨_, _, _, _, a5, a6, a7⟩ := entryItem_some h5
    have me := List.mem_iff_getElem?.2 ⟨i, h1⟩
    rw [e2]
    simp only [decl, List.mem_append, Option.mem_toList, List.mem_map, Option.map_eq_some_iff] at hq
    rcases hq with ⟨f', hf', rfl⟩ | ⟨f', hf', rfl⟩ | ⟨⟨path, f'⟩, hf', rfl⟩
    · simp at e1; subst e1; simp [a5, hf']
    · simp at e1; subst e1; simp [a6, hf']
    · simp at e1; subst e1
      simp only
      rw [(outputs_recorded a7 path).1, AMap.get?_of_mem (hwf _ me) hf']
      rfl

/-- C19 fails in general: after inserting a success with limit 2 and output `1`, and then one
with limit 3 and output `2`, looking up the second request returns the first result. -/
theorem older_entry_served :
    ∃ s, Reach [⟨single { cpuTime := some 2 }, [], [{ status := .success, stdout := some [1] }]⟩,
        ⟨single { cpuTime := some 3 }, [], [{ status := .success, stdout := some [2] }]⟩] s ∧
      get s (single { cpuTime := some 3 }) [] (fun _ => true)
        = some (.hit [{ status := .success, stdout := some [1], wasCached := true }] []) :=
  ⟨_, .insert (ops := [_]) _ (.insert (s := {}) (ops := []) _ (.empty false) rfl) rfl, rfl⟩

/-- The hypotheses of `inserted_returned_partial` are met by a history in which the result of the
same request is replaced. -/
example : ∃ s, Reach ([⟨{ uuid := 0, executions := [outExec 10] }, outKeys,
        [resultOf (.returnCode 1) {}]⟩] ++
      ⟨{ uuid := 0, executions := [outExec 10] }, outKeys, [resultOf .success {}]⟩ :: []) s ∧
    get s { uuid := 0, executions := [outExec 10] } outKeys (fun _ => true)
      = some (.hit [{ status := .success, wasCached := true }]
          [(12, ⟨"f"⟩), (11, ⟨"se"⟩), (10, ⟨"so"⟩)]) ∧
    OutputsPresent ⟨{ uuid := 0, executions := [outExec 10] }, outKeys, [resultOf .success {}]⟩
      (fun _ => true) ∧
    Truthful (outExec 10) (resultOf .success {}) := by
  refine ⟨_, .insert (ops := [_]) _ (.insert (s := {}) (ops := []) _ (.empty false) rfl) rfl, rfl,
    ?_, ⟨0, none, rfl⟩⟩
  intro f hf
  simp [ExecutionGroup.outs, Execution.outputFiles, outExec] at hf
  rcases hf with rfl | rfl | rfl
  · exact ⟨_, rfl, rfl⟩
  · exact ⟨_, rfl, rfl⟩
  · exact ⟨_, rfl, rfl⟩

end TM.Cache
