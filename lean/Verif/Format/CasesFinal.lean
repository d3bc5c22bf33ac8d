import Verif.Format.CasesMain
import Verif.Format.GenMain
import Verif.Format.GenConv
import Verif.Format.GroupLemmas

/-!
# The entries of `gen/cases.gen`: dependencies and position
-/
namespace TM.Format
open TM AMap

/-! ## Resolution of the dependencies -/

/-- An entry with its dependencies. -/
def fill (names : AMap Text Nat) (deps : AMap Nat (List Text)) (n : Nat) : Entry → Entry
  | .testcase t => .testcase t
  | .subtask s =>
    match deps.get? s.id with
    | none => .subtask s
    | some ds =>
      match resolveDeps names n s.dependencies ds with
      | .ok l => .subtask { s with dependencies := dedup (sortNat l) }
      | .error _ => .subtask s

theorem resolveDeps_iff {names : AMap Text Nat} {n : Nat} (ds : List Text) : ∀ acc,
    (∃ l, resolveDeps names n acc ds = .ok l) ↔ ∀ d ∈ ds, d = ['*'] ∨ (names.get? d).isSome = true := by
  induction ds with
  | nil => intro acc; simp [resolveDeps]
  | cons d ds ih =>
    intro acc
    simp only [resolveDeps, List.mem_cons, forall_eq_or_imp]
    by_cases e : d = ['*']
    · rw [if_pos e, ih]; simp [e]
    · rw [if_neg e]
      cases hn : names.get? d with
      | none => simp [e]
      | some i => simp only [ih]; simp

theorem resolveAll_iff (names : AMap Text Nat) (deps : AMap Nat (List Text)) (n : Nat) (es : List Entry) :
    ((∀ s, .subtask s ∈ es → ∀ ds, deps.get? s.id = some ds →
        ∀ d ∈ ds, d = ['*'] ∨ (names.get? d).isSome = true) →
      resolveAll names deps n es = .ok (es.map (fill names deps n))) ∧
    (¬ (∀ s, .subtask s ∈ es → ∀ ds, deps.get? s.id = some ds →
        ∀ d ∈ ds, d = ['*'] ∨ (names.get? d).isSome = true) →
      ∃ e, resolveAll names deps n es = .error e) := by
  induction es with
  | nil => exact ⟨fun _ => rfl, fun h => absurd (by intro s hs; simp at hs) h⟩
  | cons e es ih =>
    obtain ⟨h1, h2⟩ := ih
    cases e with
    | testcase t =>
      simp only [resolveAll]
      constructor
      · intro h
        rw [h1 (fun s hs => h s (by simp [hs]))]
        rfl
      · intro h
        obtain ⟨e, he⟩ := h2 (fun hc => h (by
          intro s hs
          rcases List.mem_cons.1 hs with hs | hs
          · cases hs
          · exact hc s hs))
        rw [he]; exact ⟨e, rfl⟩
    | subtask s =>
      simp only [resolveAll, List.map_cons, fill]
      cases hd : deps.get? s.id with
      | none =>
        simp only
        constructor
        · intro h
          rw [h1 (fun s hs => h s (by simp [hs]))]
        · intro h
          obtain ⟨e, he⟩ := h2 (fun hc => h (by
            intro s' hs
            rcases List.mem_cons.1 hs with hs | hs
            · cases hs; intro ds hds; rw [hd] at hds; cases hds
            · exact hc s' hs))
          rw [he]; exact ⟨e, rfl⟩
      | some ds =>
        simp only
        cases hr : resolveDeps names n s.dependencies ds with
        | error e =>
          refine ⟨fun h => ?_, fun _ => ⟨e, rfl⟩⟩
          obtain ⟨l, hl⟩ := (resolveDeps_iff (n := n) ds s.dependencies).2 (h s (by simp) ds hd)
          rw [hl] at hr; cases hr
        | ok l =>
          simp only
          constructor
          · intro h
            rw [h1 (fun s hs => h s (by simp [hs]))]
          · intro h
            obtain ⟨e, he⟩ := h2 (fun hc => h (by
              intro s' hs
              rcases List.mem_cons.1 hs with hs | hs
              · cases hs
                intro ds' hds'
                rw [hd] at hds'; cases hds'
                exact (resolveDeps_iff (n := n) ds s.dependencies).1 ⟨l, hr⟩
              · exact hc s' hs))
            rw [he]; exact ⟨e, rfl⟩

theorem fill_subtask (names : AMap Text Nat) (deps : AMap Nat (List Text)) (n : Nat) (s : Subtask) :
    ∃ l, fill names deps n (.subtask s) = .subtask { s with dependencies := l } := by
  simp only [fill]
  split
  · exact ⟨s.dependencies, rfl⟩
  · split
    · exact ⟨_, rfl⟩
    · exact ⟨s.dependencies, rfl⟩

theorem isTestcase_fill (names : AMap Text Nat) (deps : AMap Nat (List Text)) (n : Nat) (e : Entry) :
    isTestcase (fill names deps n e) = isTestcase e := by
  cases e with
  | testcase t => rfl
  | subtask s => obtain ⟨l, h⟩ := fill_subtask names deps n s; rw [h]; rfl

theorem stIds_fill (names : AMap Text Nat) (deps : AMap Nat (List Text)) (n : Nat) (es : List Entry) :
    stIds (es.map (fill names deps n)) = stIds es := by
  induction es with
  | nil => rfl
  | cons e es ih =>
    cases e with
    | testcase t => simpa [stIds, fill] using ih
    | subtask s =>
      obtain ⟨l, h⟩ := fill_subtask names deps n s
      rw [List.map_cons, h]
      simpa [stIds] using ih

theorem tcIds_fill (names : AMap Text Nat) (deps : AMap Nat (List Text)) (n : Nat) (es : List Entry) :
    tcIds (es.map (fill names deps n)) = tcIds es := by
  induction es with
  | nil => rfl
  | cons e es ih =>
    cases e with
    | testcase t => simpa [tcIds, fill] using ih
    | subtask s =>
      obtain ⟨l, h⟩ := fill_subtask names deps n s
      rw [List.map_cons, h]
      simpa [tcIds] using ih

/-! ## The entries of the lines -/

/-- Lines that make no entry. -/
def plain (l : CLine) : Bool := !(isSub l || isTest l)

/-- The subtask or the testcase that a line makes. -/
def cKind (l : CLine) : Option Bool :=
  if isSub l then some false else if isTest l then some true else none

theorem revEnt_plain {env : CasesEnv} {l : CLine} (h : plain l = true)
    (hv : ∀ n, l ≠ .command (.valSelect n)) (a : List CLine) : revEnt env (l :: a) = revEnt env a := by
  cases l with
  | command c => cases c <;> first | rfl | exact absurd rfl (hv _) | cases h
  | testcase t => cases h
  | _ => rfl

theorem revEnt_val {env : CasesEnv} (n : Text) (a : List CLine) :
    revEnt env (.command (.valSelect n) :: a) = revEnt env a ∨
    ∃ s r v, revEnt env a = .subtask s :: r ∧
      revEnt env (.command (.valSelect n) :: a) = .subtask { s with validator := v } :: r := by
  simp only [revEnt]
  split
  · rename_i s r h; exact .inr ⟨s, r, _, h, rfl⟩
  · exact .inl rfl

/-- A line that makes an entry. -/
theorem revEnt_entry {env : CasesEnv} {l : CLine} (h : plain l = false) (a : List CLine) :
    ∃ e, revEnt env (l :: a) = e :: revEnt env a ∧ isTestcase e = isTest l ∧
      (isTest l = true → ∃ t, e = .testcase t ∧ t.id = nTests a) ∧
      (isSub l = true → ∃ s, e = .subtask s ∧ s.id = nSubs a ∧ s.name = subName l ∧
        s.dependencies = [] ∧ s.testcases = [] ∧ s.owned = [] ∧ s.isDefault = false) := by
  cases l with
  | command c =>
    cases c <;> first | (exfalso; simp [plain, isSub, isTest] at h; done) | refine ⟨_, rfl, rfl, ?_, ?_⟩
    all_goals first
      | (intro _; exact ⟨_, rfl, rfl⟩)
      | (intro _; exact ⟨_, rfl, rfl, rfl, rfl, rfl, rfl, rfl⟩)
      | (intro hc; cases hc)
  | testcase t => exact ⟨_, rfl, rfl, fun _ => ⟨_, rfl, rfl⟩, fun hc => by cases hc⟩
  | comment => cases h
  | empty => cases h

theorem revEnt_kinds (env : CasesEnv) (a : List CLine) :
    (revEnt env a).map isTestcase = a.filterMap cKind := by
  induction a with
  | nil => rfl
  | cons l a ih =>
    rw [List.filterMap_cons]
    cases hp : plain l with
    | false =>
      obtain ⟨e, he, hk, _, _⟩ := revEnt_entry (env := env) hp a
      rw [he, List.map_cons, ih, hk]
      cases hs : isSub l with
      | true =>
        have : isTest l = false := by
          cases l with
          | command c => cases c <;> first | rfl | cases hs
          | _ => cases hs
        simp [cKind, hs, this]
      | false =>
        have : isTest l = true := by simp [plain, hs] at hp; exact hp
        simp [cKind, hs, this]
    | true =>
      have hk : cKind l = none := by simp [plain] at hp; simp [cKind, hp]
      rw [hk]
      by_cases hv : ∀ n, l ≠ .command (.valSelect n)
      · rw [revEnt_plain hp hv, ih]
      · simp only [ne_eq, Classical.not_forall, Classical.not_not] at hv
        obtain ⟨n, rfl⟩ := hv
        rcases revEnt_val (env := env) n a with h | ⟨s, r, v, h1, h2⟩
        · rw [h, ih]
        · rw [h2, ← ih, h1]; rfl

theorem revEnt_stIds (env : CasesEnv) (a : List CLine) :
    stIds (revEnt env a) = (List.range (nSubs a)).reverse := by
  induction a with
  | nil => rfl
  | cons l a ih =>
    rw [nSubs_cons]
    cases hp : plain l with
    | false =>
      obtain ⟨e, he, hk, ht, hs'⟩ := revEnt_entry (env := env) hp a
      rw [he]
      cases hs : isSub l with
      | true =>
        obtain ⟨s, rfl, hid, _⟩ := hs' hs
        simp only [if_true, Nat.add_comm 1, List.range_succ, List.reverse_append, List.reverse_cons,
          List.reverse_nil, List.nil_append, List.singleton_append, ← ih]
        simp [stIds, hid]
      | false =>
        have : isTest l = true := by simp [plain, hs] at hp; exact hp
        obtain ⟨t, rfl, _⟩ := ht this
        simpa [stIds] using ih
    | true =>
      have hs : isSub l = false := by simp [plain] at hp; exact hp.1
      rw [hs]
      by_cases hv : ∀ n, l ≠ .command (.valSelect n)
      · rw [revEnt_plain hp hv, ih]; simp
      · simp only [ne_eq, Classical.not_forall, Classical.not_not] at hv
        obtain ⟨n, rfl⟩ := hv
        rcases revEnt_val (env := env) n a with h | ⟨s, r, v, h1, h2⟩
        · rw [h, ih]; simp
        · rw [h2]
          simp only [Bool.false_eq_true, if_false, Nat.zero_add]
          rw [← ih, h1]; simp [stIds]

theorem revEnt_tcIds (env : CasesEnv) (a : List CLine) :
    tcIds (revEnt env a) = (List.range (nTests a)).reverse := by
  induction a with
  | nil => rfl
  | cons l a ih =>
    rw [nTests_cons]
    cases hp : plain l with
    | false =>
      obtain ⟨e, he, hk, ht, hs'⟩ := revEnt_entry (env := env) hp a
      rw [he]
      cases hs : isTest l with
      | true =>
        obtain ⟨s, rfl, hid⟩ := ht hs
        simp only [if_true, Nat.add_comm 1, List.range_succ, List.reverse_append, List.reverse_cons,
          List.reverse_nil, List.nil_append, List.singleton_append, ← ih]
        simp [tcIds, hid]
      | false =>
        have : isSub l = true := by simp [plain, hs] at hp; exact hp
        obtain ⟨t, rfl, _⟩ := hs' this
        simpa [tcIds] using ih
    | true =>
      have hs : isTest l = false := by simp [plain] at hp; exact hp.2
      rw [hs]
      by_cases hv : ∀ n, l ≠ .command (.valSelect n)
      · rw [revEnt_plain hp hv, ih]; simp
      · simp only [ne_eq, Classical.not_forall, Classical.not_not] at hv
        obtain ⟨n, rfl⟩ := hv
        rcases revEnt_val (env := env) n a with h | ⟨s, r, v, h1, h2⟩
        · rw [h, ih]; simp
        · rw [h2]
          simp only [Bool.false_eq_true, if_false, Nat.zero_add]
          rw [← ih, h1]; simp [tcIds]

/-- What the entries of subtasks have in common. -/
theorem revEnt_fresh {env : CasesEnv} {a : List CLine} : ∀ s, .subtask s ∈ revEnt env a →
    s.dependencies = [] ∧ s.testcases = [] ∧ s.owned = [] ∧ s.isDefault = false := by
  induction a with
  | nil => intro s hs; simp [revEnt] at hs
  | cons l a ih =>
    intro s hs
    cases hp : plain l with
    | false =>
      obtain ⟨e, he, hk, ht, hs'⟩ := revEnt_entry (env := env) hp a
      rw [he] at hs
      rcases List.mem_cons.1 hs with hs | hs
      · subst hs
        cases hl : isSub l with
        | true =>
          obtain ⟨s', he', _, _, h⟩ := hs' hl
          cases he'; exact h
        | false =>
          have : isTest l = true := by simp [plain, hl] at hp; exact hp
          obtain ⟨t, ht, _⟩ := ht this
          cases ht
      · exact ih s hs
    | true =>
      by_cases hv : ∀ n, l ≠ .command (.valSelect n)
      · rw [revEnt_plain hp hv] at hs; exact ih s hs
      · simp only [ne_eq, Classical.not_forall, Classical.not_not] at hv
        obtain ⟨n, rfl⟩ := hv
        rcases revEnt_val (env := env) n a with h | ⟨s', r, v, h1, h2⟩
        · rw [h] at hs; exact ih s hs
        · rw [h2] at hs
          rcases List.mem_cons.1 hs with hs | hs
          · cases hs
            exact ih s' (by rw [h1]; simp)
          · exact ih s (by rw [h1]; simp [hs])

/-- The names are those of the subtasks. -/
theorem names_iff {env : CasesEnv} {a : List CLine} (ha : AllOk env a) {n : Text} {i : Nat} :
    (namesOf a).get? n = some i ↔ ∃ s, .subtask s ∈ revEnt env a ∧ s.name = some n ∧ s.id = i := by
  induction a with
  | nil => simp [namesOf, AMap.get?, revEnt]
  | cons l a ih =>
    have ih' := ih ha.2
    cases hp : plain l with
    | false =>
      obtain ⟨e, he, hk, ht, hs'⟩ := revEnt_entry (env := env) hp a
      rw [he]
      cases hl : isSub l with
      | true =>
        obtain ⟨s, rfl, hid, hnm, _⟩ := hs' hl
        simp only [namesOf]
        cases hn : subName l with
        | none =>
          simp only [ih', List.mem_cons]
          constructor
          · rintro ⟨s', h1, h2⟩; exact ⟨s', .inr h1, h2⟩
          · rintro ⟨s', h1 | h1, h2⟩
            · cases h1; rw [hnm, hn] at h2; cases h2.1
            · exact ⟨s', h1, h2⟩
        | some m =>
          simp only [AMap.get?_cons, List.mem_cons]
          have hnew : m ∉ a.filterMap subName := by
            have := ha.1
            cases l with
            | command c =>
              cases c with
              | subtask sc d => exact this.1 m hn
              | _ => cases hl
            | _ => cases hl
          by_cases h : m = n
          · subst h
            simp only [if_true, Option.some.injEq]
            constructor
            · rintro rfl; exact ⟨s, .inl rfl, by rw [hnm, hn], hid⟩
            · rintro ⟨s', h1 | h1, h2, h3⟩
              · cases h1; rw [← hid, h3]
              · exfalso
                apply hnew
                rw [← names_mem]
                rw [ih'.2 ⟨s', h1, h2, h3⟩]; rfl
          · rw [if_neg h, ih']
            constructor
            · rintro ⟨s', h1, h2⟩; exact ⟨s', .inr h1, h2⟩
            · rintro ⟨s', h1 | h1, h2⟩
              · cases h1; rw [hnm, hn] at h2; exact absurd (Option.some.inj h2.1) h
              · exact ⟨s', h1, h2⟩
      | false =>
        have htt : isTest l = true := by simp [plain, hl] at hp; exact hp
        obtain ⟨t, rfl, _⟩ := ht htt
        have hnn : subName l = none := by
          cases l with
          | command c => cases c <;> first | rfl | cases hl
          | _ => rfl
        rw [namesOf_cons_none hnn, ih']
        simp
    | true =>
      have hnn : subName l = none := by
        cases l with
        | command c => cases c <;> first | rfl | cases hp
        | _ => rfl
      rw [namesOf_cons_none hnn]
      by_cases hv : ∀ n, l ≠ .command (.valSelect n)
      · rw [revEnt_plain hp hv]; exact ih'
      · simp only [ne_eq, Classical.not_forall, Classical.not_not] at hv
        obtain ⟨n', rfl⟩ := hv
        rcases revEnt_val (env := env) n' a with h | ⟨s', r, v, h1, h2⟩
        · rw [h]; exact ih'
        · rw [ih', h1, h2]
          simp only [List.mem_cons]
          constructor
          · rintro ⟨s, hs | hs, hr⟩
            · cases hs; exact ⟨_, .inl rfl, hr⟩
            · exact ⟨s, .inr hs, hr⟩
          · rintro ⟨s, hs | hs, hr⟩
            · cases hs; exact ⟨_, .inl rfl, hr⟩
            · exact ⟨s, .inr hs, hr⟩

/-- The words of the dependencies of a subtask. -/
theorem depsOf_iff (a : List CLine) (i : Nat) (w : Text) :
    w ∈ ((depsOf a).get? i).getD [] ↔
      ∃ post ws rest, a = post ++ .command (.stDep ws) :: rest ∧ w ∈ ws ∧ nSubs rest - 1 = i := by
  induction a with
  | nil => simp [depsOf, AMap.get?]
  | cons l a ih =>
    have skip : (∀ ws, l ≠ .command (.stDep ws)) → 
        ((∃ post ws rest, l :: a = post ++ .command (.stDep ws) :: rest ∧ w ∈ ws ∧ nSubs rest - 1 = i) ↔
        (∃ post ws rest, a = post ++ .command (.stDep ws) :: rest ∧ w ∈ ws ∧ nSubs rest - 1 = i)) := by
      intro hl
      constructor
      · rintro ⟨post, ws, rest, he, h⟩
        cases post with
        | nil => cases he; exact absurd rfl (hl ws)
        | cons x post => cases he; exact ⟨post, ws, rest, rfl, h⟩
      · rintro ⟨post, ws, rest, he, h⟩
        exact ⟨l :: post, ws, rest, by rw [he]; rfl, h⟩
    by_cases hl : ∀ ws, l ≠ .command (.stDep ws)
    · have : depsOf (l :: a) = depsOf a := by
        cases l with
        | command c => cases c <;> first | rfl | exact absurd rfl (hl _)
        | _ => rfl
      rw [this, skip hl, ih]
    · simp only [ne_eq, Classical.not_forall, Classical.not_not] at hl
      obtain ⟨ws, rfl⟩ := hl
      have split : (∃ post ws' rest, CLine.command (.stDep ws) :: a = post ++ .command (.stDep ws') :: rest ∧
            w ∈ ws' ∧ nSubs rest - 1 = i) ↔ (w ∈ ws ∧ nSubs a - 1 = i) ∨
          (∃ post ws rest, a = post ++ .command (.stDep ws) :: rest ∧ w ∈ ws ∧ nSubs rest - 1 = i) := by
        constructor
        · rintro ⟨post, ws', rest, he, h⟩
          cases post with
          | nil => cases he; exact .inl h
          | cons x post => cases he; exact .inr ⟨post, ws', rest, rfl, h⟩
        · rintro (h | ⟨post, ws', rest, he, h⟩)
          · exact ⟨[], ws, a, rfl, h⟩
          · exact ⟨_ :: post, ws', rest, by rw [he]; rfl, h⟩
      rw [split, ← ih]
      simp only [depsOf]
      by_cases he : ws.isEmpty = true
      · rw [if_pos he]
        have : ws = [] := List.isEmpty_iff.1 he
        subst this
        simp
      · rw [if_neg he, AMap.get?_insert]
        by_cases hi : i = nSubs a - 1
        · subst hi
          simp only [if_true, Option.getD_some, List.mem_append, and_true]
          exact Or.comm
        · rw [if_neg hi]
          constructor
          · exact .inr
          · rintro (h | h)
            · exact absurd h.2.symm hi
            · exact h

/-- The entries above a line that makes an entry are not touched any more. -/
theorem revEnt_suffix {env : CasesEnv} (b : List CLine) {x : CLine} (hx : plain x = false) (c : List CLine) :
    ∃ newer e, revEnt env (b ++ x :: c) = newer ++ e :: revEnt env c ∧
      (isTest x = true → revEnt env (x :: c) = e :: revEnt env c) := by
  induction b with
  | nil =>
    obtain ⟨e, he, _⟩ := revEnt_entry (env := env) hx c
    exact ⟨[], e, he, fun _ => he⟩
  | cons l b ih =>
    obtain ⟨newer, e, h1, h2⟩ := ih
    cases hp : plain l with
    | false =>
      obtain ⟨e', he', _⟩ := revEnt_entry (env := env) hp (b ++ x :: c)
      exact ⟨e' :: newer, e, by rw [List.cons_append, he', h1]; rfl, h2⟩
    | true =>
      by_cases hv : ∀ n, l ≠ .command (.valSelect n)
      · exact ⟨newer, e, by rw [List.cons_append, revEnt_plain hp hv, h1], h2⟩
      · simp only [ne_eq, Classical.not_forall, Classical.not_not] at hv
        obtain ⟨n, rfl⟩ := hv
        rcases revEnt_val (env := env) n (b ++ x :: c) with h | ⟨s, r, v, g1, g2⟩
        · exact ⟨newer, e, by rw [List.cons_append, h, h1], h2⟩
        · rw [List.cons_append, g2]
          rw [h1] at g1
          cases newer with
          | nil =>
            simp only [List.nil_append, List.cons.injEq] at g1
            refine ⟨[], .subtask { s with validator := v }, by rw [← g1.2]; rfl, ?_⟩
            intro ht
            have := h2 ht
            obtain ⟨e', he', _, ht', _⟩ := revEnt_entry (env := env) hx c
            obtain ⟨t, rfl, _⟩ := ht' ht
            rw [he'] at this
            simp only [List.cons.injEq, and_true] at this
            rw [← this] at g1
            cases g1.1
          | cons y newer =>
            simp only [List.cons_append, List.cons.injEq] at g1
            exact ⟨.subtask { s with validator := v } :: newer, e, by rw [← g1.2]; rfl, h2⟩

/-- The validator chosen by some lines that make no entry. -/
def valAt (env : CasesEnv) (a : List CLine) (v0 : Validator) : List CLine → Validator
  | [] => v0
  | .command (.valSelect n) :: b =>
    (validatorOf env (b ++ a) (nSubs (b ++ a) - 1) (currentName (b ++ a)) n).getD .assumeValid
  | _ :: b => valAt env a v0 b

theorem revEnt_annots {env : CasesEnv} {sc : Text} {d : Option Text} {a : List CLine} (b : List CLine)
    (hb : ∀ l ∈ b, plain l = true) :
    revEnt env (b ++ .command (.subtask sc d) :: a) =
      .subtask { id := nSubs a, name := d.map nameOf, description := d, maxScore := floatVal sc
                 validator := valAt env (.command (.subtask sc d) :: a)
                   ((startValidator env a (d.map nameOf)).getD .assumeValid) b } :: revEnt env a := by
  induction b with
  | nil => rfl
  | cons l b ih =>
    have ih' := ih (fun l hl => hb l (by simp [hl]))
    have hp := hb l (by simp)
    by_cases hv : ∀ n, l ≠ .command (.valSelect n)
    · rw [List.cons_append, revEnt_plain hp hv, ih']
      have : valAt env (.command (.subtask sc d) :: a)
          ((startValidator env a (d.map nameOf)).getD .assumeValid) (l :: b) =
          valAt env (.command (.subtask sc d) :: a)
          ((startValidator env a (d.map nameOf)).getD .assumeValid) b := by
        cases l with
        | command c => cases c <;> first | rfl | exact absurd rfl (hv _)
        | _ => rfl
      rw [this]
    · simp only [ne_eq, Classical.not_forall, Classical.not_not] at hv
      obtain ⟨n, rfl⟩ := hv
      rw [List.cons_append]
      simp only [revEnt, ih', valAt]

/-- Two positions with the same number of subtasks before them are the same. -/
theorem sub_unique {x x' : CLine} (hx : isSub x = true) (hx' : isSub x' = true) :
    ∀ (pre pre' post post' : List CLine), nSubs pre = nSubs pre' →
      pre ++ x :: post = pre' ++ x' :: post' → pre = pre' ∧ x = x' ∧ post = post' := by
  intro pre
  induction pre with
  | nil =>
    intro pre' post post' hn he
    cases pre' with
    | nil => simp at he; exact ⟨rfl, he.1, he.2⟩
    | cons y pre' =>
      simp only [List.nil_append, List.cons_append, List.cons.injEq] at he
      rw [nSubs_cons, ← he.1, hx] at hn
      simp [nSubs] at hn
      omega
  | cons y pre ih =>
    intro pre' post post' hn he
    cases pre' with
    | nil =>
      simp only [List.nil_append, List.cons_append, List.cons.injEq] at he
      rw [nSubs_cons, he.1, hx'] at hn
      simp [nSubs] at hn
    | cons z pre' =>
      simp only [List.cons_append, List.cons.injEq] at he
      obtain ⟨rfl, he⟩ := he
      rw [nSubs_cons, nSubs_cons] at hn
      obtain ⟨h1, h2, h3⟩ := ih pre' post post' (by omega) he
      exact ⟨by rw [h1], h2, h3⟩

end TM.Format
