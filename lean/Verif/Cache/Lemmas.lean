import Verif.Cache.Spec
import Verif.Cache.KeyLemmas
/-!
Helper lemmas for the cache properties C17-C20.
-/

namespace TM.Cache

open TM

theorem scan_hit {present : FileStoreKey → Bool} {g : ExecutionGroup} {ens : List Entry}
    {rs : List ExecutionResult} {outs : AMap FileUuid FileStoreKey}
    (h : scan present g ens = some (.hit rs outs)) :
    ∃ pre en post, ens = pre ++ en :: post ∧ outputs en present g = some outs ∧
      isCompatible en g = some true ∧ rs = (g.executions.zip en.items).map servedResult ∧
      ∀ e ∈ pre, outputs e present g = none ∨ isCompatible e g = some false := by
  induction ens with
  | nil => simp [scan] at h
  | cons en rest ih =>
    unfold scan at h
    split at h
    · next ho =>
      obtain ⟨pre, en', post, rfl, h1, h2, h3, h4⟩ := ih h
      exact ⟨en :: pre, en', post, rfl, h1, h2, h3, fun e he => by
        rcases List.mem_cons.1 he with rfl | he
        · exact Or.inl ho
        · exact h4 e he⟩
    · next o ho =>
      split at h
      · cases h
      · next hc =>
        simp only [Option.some.injEq, Res.hit.injEq] at h
        obtain ⟨rfl, rfl⟩ := h
        exact ⟨[], en, rest, rfl, ho, hc, rfl, by simp⟩
      · next hc =>
        obtain ⟨pre, en', post, rfl, h1, h2, h3, h4⟩ := ih h
        exact ⟨en :: pre, en', post, rfl, h1, h2, h3, fun e he => by
          rcases List.mem_cons.1 he with rfl | he
          · exact Or.inr hc
          · exact h4 e he⟩

theorem get_hit {s : State} {g : ExecutionGroup} {fk : FileKeys} {present : FileStoreKey → Bool}
    {rs : List ExecutionResult} {outs : AMap FileUuid FileStoreKey}
    (h : get s g fk present = some (.hit rs outs)) :
    ∃ key ens pre en post, cacheKey g fk = some key ∧ s.entries.get? key = some ens ∧
      ens = pre ++ en :: post ∧ outputs en present g = some outs ∧
      isCompatible en g = some true ∧ rs = (g.executions.zip en.items).map servedResult ∧
      ∀ e ∈ pre, outputs e present g = none ∨ isCompatible e g = some false := by
  simp only [get, Option.bind_eq_bind, Option.bind_eq_some_iff] at h
  obtain ⟨key, hk, h⟩ := h
  split at h
  · simp at h
  · next ens he =>
    obtain ⟨pre, en, post, h1, h2⟩ := scan_hit h
    exact ⟨key, ens, pre, en, post, hk, he, h1, h2⟩

theorem mem_upsert {en e : Entry} {l : List Entry} (h : e ∈ upsert en l) : e = en ∨ e ∈ l := by
  induction l with
  | nil => simpa [upsert] using h
  | cons a l ih =>
    unfold upsert at h
    split at h
    · rcases List.mem_cons.1 h with h | h
      · exact Or.inl h
      · exact Or.inr (List.mem_cons_of_mem _ h)
    · rcases List.mem_cons.1 h with h | h
      · exact Or.inr (h ▸ List.mem_cons_self ..)
      · exact (ih h).imp id (List.mem_cons_of_mem _)

theorem insert_some {s s' : State} {g : ExecutionGroup} {fk : FileKeys} {rs : List ExecutionResult}
    (h : insert s g fk rs = some s') :
    ∃ key en, cacheKey g fk = some key ∧ cacheEntry g fk rs = some en ∧
      s' = { entries := s.entries.insert key (upsert en ((s.entries.get? key).getD [])),
             dirty := true } := by
  simp only [insert, Option.bind_eq_bind, Option.bind_eq_some_iff, Option.pure_def,
    Option.some.injEq] at h
  obtain ⟨key, hk, en, he, rfl⟩ := h
  exact ⟨key, en, hk, he, rfl⟩

/-- Every entry comes from an insertion with that key. -/
theorem entry_origin {ops : List Op} {s : State} (hr : Reach ops s) {key : Key} {ens : List Entry}
    (he : s.entries.get? key = some ens) {en : Entry} (hm : en ∈ ens) :
    ∃ op ∈ ops, cacheKey op.group op.fileKeys = some key ∧
      cacheEntry op.group op.fileKeys op.results = some en := by
  induction hr generalizing ens with
  | empty d => simp at he
  | @insert ops s s' op _ hi ih =>
    obtain ⟨k, e, hk, hce, rfl⟩ := insert_some hi
    simp only [AMap.get?_insert] at he
    have up : ∀ {ens}, s.entries.get? key = some ens → en ∈ ens →
        ∃ op' ∈ ops ++ [op], cacheKey op'.group op'.fileKeys = some key ∧
      cacheEntry op'.group op'.fileKeys op'.results = some en := by
      intro ens h1 h2
      obtain ⟨o, ho, h⟩ := ih h1 h2
      exact ⟨o, List.mem_append_left _ ho, h⟩
    split at he
    · next hke =>
      subst hke
      cases he
      rcases mem_upsert hm with rfl | h
      · exact ⟨op, by simp, hk, hce⟩
      · cases hg : s.entries.get? key with
        | none => simp [hg] at h
        | some l => simp [hg] at h; exact up hg h
    · exact up he hm

theorem cacheEntry_items {g : ExecutionGroup} {fk : FileKeys} {rs : List ExecutionResult} {en : Entry}
    (h : cacheEntry g fk rs = some en) :
    (g.executions.zip rs).map (fun p => entryItem fk p.1 p.2) = en.items.map some := by
  simp only [cacheEntry, Option.bind_eq_bind, Option.bind_eq_some_iff, Option.pure_def,
    Option.some.injEq] at h
  obtain ⟨items, hi, rfl⟩ := h
  exact mapM_eq_some_iff.1 hi

theorem cacheEntry_length {g : ExecutionGroup} {fk : FileKeys} {rs : List ExecutionResult}
    {en : Entry} (h : cacheEntry g fk rs = some en) :
    en.items.length = min g.executions.length rs.length := by
  have := congrArg List.length (cacheEntry_items h)
  simpa using this.symm

/-- The `i`-th item describes the `i`-th execution and result. -/
theorem cacheEntry_item {g : ExecutionGroup} {fk : FileKeys} {rs : List ExecutionResult}
    {en : Entry} (h : cacheEntry g fk rs = some en) {i : Nat} {it : EntryItem}
    (hi : en.items[i]? = some it) :
    ∃ e r, g.executions[i]? = some e ∧ rs[i]? = some r ∧ entryItem fk e r = some it := by
  have h' := congrArg (fun l => l[i]?) (cacheEntry_items h)
  simp only [List.getElem?_map, hi, Option.map_some] at h'
  cases hz : (g.executions.zip rs)[i]? with
  | none => simp [hz] at h'
  | some p =>
    simp only [hz, Option.map_some, Option.some.injEq] at h'
    obtain ⟨a, b⟩ := List.getElem?_zip_eq_some.1 hz
    exact ⟨p.1, p.2, a, b, h'⟩

theorem entryItem_some {fk : FileKeys} {e : Execution} {r : ExecutionResult} {it : EntryItem}
    (h : entryItem fk e r = some it) :
    it.result = r ∧ it.limits = e.limits ∧ it.extraTime = e.config.extraTime ∧
      it.extraMemory = e.config.extraMemory ∧ it.stdout = e.stdout.bind fk.get? ∧
      it.stderr = e.stderr.bind fk.get? ∧ e.outputs.mapM (outputKey fk) = some it.outputs := by
  simp only [entryItem, Option.bind_eq_bind, Option.bind_eq_some_iff, Option.pure_def,
    Option.some.injEq] at h
  obtain ⟨o, ho, rfl⟩ := h
  exact ⟨rfl, rfl, rfl, rfl, rfl, rfl, ho⟩

theorem cacheKey_length {g : ExecutionGroup} {fk : FileKeys} {k : Key}
    (h : cacheKey g fk = some k) : k.items.length = g.executions.length := by
  have := congrArg List.length (cacheKey_some_iff.1 h)
  simpa using this.symm

theorem compatible_item {en : Entry} {g : ExecutionGroup} (h : isCompatible en g = some true)
    {i : Nat} {e : Execution} {it : EntryItem} (hi : g.executions[i]? = some e)
    (hit : en.items[i]? = some it) :
    ∃ e₀, g.executions.head? = some e₀ ∧
      itemCompatible e₀.config.extraTime e₀.config.extraMemory (e, it) = true := by
  simp only [isCompatible, groupConfig, Option.map_eq_some_iff] at h
  obtain ⟨cfg, ⟨e₀, h0, rfl⟩, h⟩ := h
  refine ⟨e₀, h0, ?_⟩
  rw [List.all_eq_true] at h
  exact h _ (List.mem_iff_getElem?.2 ⟨i, List.getElem?_zip_eq_some.2 ⟨hi, hit⟩⟩)

theorem wsub_eq {a b : Nat} (ha : a < 2 ^ 64) (hb : b < 2 ^ 64) :
    wsub a b = if b ≤ a then a - b else 2 ^ 64 + a - b := by
  unfold wsub two64
  split <;> omega

theorem checkLimit_iff {l r : Option Int} {x y : Int} :
    checkLimit l r (x - y) = true ↔ LimitLe (withExtra l x) (withExtra r y) := by
  cases l <;> cases r <;> simp [checkLimit, LimitLe, withExtra] <;> omega

theorem checkLimitU_sound {l r : Option Nat} {x y : Nat} (hx : x < 2 ^ 64) (hy : y < 2 ^ 64)
    (hl : ∀ m, l = some m → m + x < 2 ^ 64) (h : checkLimitU l r (wsub x y) = true) :
    LimitLe (withExtra (ofNat l) x) (withExtra (ofNat r) y) := by
  cases l with
  | none => cases r <;> simp [checkLimitU, LimitLe, withExtra, ofNat] at *
  | some l =>
    cases r with
    | none => simp [LimitLe, withExtra, ofNat]
    | some r =>
      have := hl l rfl
      simp only [checkLimitU, decide_eq_true_eq] at h
      rw [wsub_eq hx hy] at h
      simp only [LimitLe, withExtra, ofNat, Option.map_some]
      unfold wadd two64 at h
      split at h <;> simp only [Int.ofNat_eq_natCast] <;> omega

theorem checkLimitU_zero {l r : Option Nat} (hl : ∀ m, l = some m → m < 2 ^ 64) :
    checkLimitU l r 0 = true ↔ LimitLe (ofNat l) (ofNat r) := by
  cases l with
  | none => cases r <;> simp [checkLimitU, LimitLe, ofNat]
  | some l =>
    cases r with
    | none => simp [checkLimitU, LimitLe, ofNat]
    | some r =>
      have := hl l rfl
      have e : wadd l 0 = l := by unfold wadd two64; omega
      simp [checkLimitU, LimitLe, ofNat, e]

theorem checkDirs_iff {l r : List String} :
    checkDirs l r = true ↔ ¬ ((∀ d ∈ r, d ∈ l) ∧ ∃ d ∈ l, d ∉ r) := by
  by_cases h1 : ∀ d ∈ r, d ∈ l
  · have e1 : r.all (fun d => decide (d ∈ l)) = true := by simpa using h1
    by_cases h2 : ∀ d ∈ l, d ∈ r
    · have e2 : l.all (fun d => decide (d ∈ r)) = true := by simpa using h2
      simp only [checkDirs, e1, e2]
      simp only [Bool.and_self, Bool.not_true, Bool.false_and, Bool.not_false, true_iff]
      rintro ⟨_, d, hd, hn⟩; exact hn (h2 d hd)
    · have e2 : l.all (fun d => decide (d ∈ r)) = false := by
        rw [List.all_eq_false]; simpa using h2
      simp only [checkDirs, e1, e2]
      simp only [Bool.false_and, Bool.not_false, Bool.and_self, Bool.not_true, Bool.false_eq_true,
        false_iff]
      simp at h2
      exact fun hn => hn ⟨h1, h2⟩
  · have e1 : r.all (fun d => decide (d ∈ l)) = false := by
      rw [List.all_eq_false]; simpa using h1
    simp only [checkDirs, e1, Bool.and_false, Bool.not_false, true_iff]
    exact fun hn => h1 hn.1

theorem checkLimits_sound {a b : Request} (fa : a.Fits) (fb : b.Fits)
    (h : checkLimits a.limits b.limits (a.extraTime - b.extraTime)
      (wsub a.extraMemory b.extraMemory) = true) :
    TighterNumeric a b ∧ ¬ StrictlyMoreDirs a b := by
  simp only [checkLimits, Bool.and_eq_true] at h
  obtain ⟨⟨⟨⟨⟨⟨⟨⟨⟨⟨⟨h1, h2⟩, h3⟩, h4⟩, h5⟩, h6⟩, h7⟩, h8⟩, h9⟩, h10⟩, h11⟩, h12⟩ := h
  refine ⟨⟨checkLimit_iff.1 h1, checkLimit_iff.1 h2, checkLimit_iff.1 h3,
    checkLimitU_sound fa.extra fb.extra fa.memory h4, (checkLimitU_zero fa.nofile).1 h5,
    (checkLimitU_zero fa.fsize).1 h6, (checkLimitU_zero fa.memlock).1 h7,
    (checkLimitU_zero fa.stack).1 h8, ?_, ?_, ?_⟩, checkDirs_iff.1 h12⟩
  · intro h; simpa [h] using h9
  · intro h; simpa [h] using h10
  · intro h; simpa [h] using h11

end TM.Cache
