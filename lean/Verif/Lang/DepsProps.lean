import Verif.Lang.Deps

/-!
# The dependencies of a source file

* `deps_terminates`: also when files import each other.
* `deps_once`: each name in the sandbox is given once.
* `deps_sound`: whatever is given exists and is imported, directly or not, by the source file.
* `deps_complete_partial`: every existing file imported, directly or not, is given with the name used
  to import it, if names and files correspond.  When a file has two names only one is given
  (`deps_misses_alias`).
-/
namespace TM.Lang
open TM

/-- `Imports fs root d`: `d` exists and is imported by `root`, or by a file `root` imports. -/
inductive Imports (fs : Files) (root : String) : Dep → Prop where
  | direct (d : Dep) (h : d ∈ fs.imports root) (he : fs.pathExists d.localPath = true) :
      Imports fs root d
  | step (d e : Dep) (h : Imports fs root d) (hd : e ∈ fs.imports d.localPath)
      (he : fs.pathExists e.localPath = true) : Imports fs root e

/-! ## Invariant -/

/-- What holds at every round. -/
structure Inv (fs : Files) (root : String) (s : St) : Prop where
  once : (s.result.map (·.sandbox)).Nodup
  sound : ∀ d ∈ s.result, Imports fs root d
  from_ : ∀ p ∈ s.pending, p = root ∨ ∃ d ∈ s.result, d.localPath = p
  fromDone : ∀ p ∈ s.done, p = root ∨ ∃ d ∈ s.result, d.localPath = p
  seen : root ∈ s.pending ∨ root ∈ s.done
  seenDeps : ∀ d ∈ s.result, d.localPath ∈ s.pending ∨ d.localPath ∈ s.done

/-- The imports of `p` have been looked at. -/
def Covered (fs : Files) (s : St) (d : Dep) : Prop :=
  fs.pathExists d.localPath = true → d.localPath ∈ s.done ∨ d.sandbox ∈ s.result.map (·.sandbox)

theorem addImport_inv {fs : Files} {root : String} {s : St} {p : String} {d : Dep}
    (h : Inv fs root s) (hp : p = root ∨ ∃ e ∈ s.result, e.localPath = p)
    (hd : d ∈ fs.imports p) : Inv fs root (addImport fs s d) := by
  unfold addImport
  split
  · rename_i hc
    simp only [Bool.and_eq_true, Bool.not_eq_true', St.names] at hc
    obtain ⟨⟨hex, _⟩, hn⟩ := hc
    have hn' : d.sandbox ∉ s.result.map (·.sandbox) := by
      intro hm
      rw [List.contains_iff_mem.2 hm] at hn
      cases hn
    refine ⟨?_, ?_, ?_, ?_, ?_, ?_⟩
    · simp only [List.map_append, List.map_cons, List.map_nil]
      rw [List.nodup_append]
      refine ⟨h.once, by simp, ?_⟩
      intro a ha b hb
      rw [List.mem_singleton] at hb
      rintro rfl
      subst hb
      exact hn' ha
    · intro e he
      rcases List.mem_append.1 he with he | he
      · exact h.sound e he
      · rw [List.mem_singleton] at he
        subst he
        rcases hp with rfl | ⟨e', he', rfl⟩
        · exact .direct _ hd hex
        · exact .step e' _ (h.sound e' he') hd hex
    · intro q hq
      rcases List.mem_append.1 hq with hq | hq
      · rcases h.from_ q hq with h | ⟨e, he, h⟩
        · exact Or.inl h
        · exact Or.inr ⟨e, List.mem_append_left _ he, h⟩
      · rw [List.mem_singleton] at hq
        exact Or.inr ⟨d, by simp, hq.symm⟩
    · intro q hq
      rcases h.fromDone q hq with h | ⟨e, he, h⟩
      · exact Or.inl h
      · exact Or.inr ⟨e, List.mem_append_left _ he, h⟩
    · rcases h.seen with h | h
      · exact Or.inl (List.mem_append_left _ h)
      · exact Or.inr h
    · intro e he
      rcases List.mem_append.1 he with he | he
      · rcases h.seenDeps e he with h | h
        · exact Or.inl (List.mem_append_left _ h)
        · exact Or.inr h
      · rw [List.mem_singleton] at he
        subst he
        exact Or.inl (by simp)
  · exact h

/-- Growth of the state during a round. -/
structure Grows (s s' : St) : Prop where
  result : ∃ l, s'.result = s.result ++ l
  done : s'.done = s.done

theorem Grows.refl (s : St) : Grows s s := ⟨⟨[], by simp⟩, rfl⟩

theorem Grows.trans {a b c : St} (h1 : Grows a b) (h2 : Grows b c) : Grows a c := by
  obtain ⟨l1, e1⟩ := h1.result
  obtain ⟨l2, e2⟩ := h2.result
  exact ⟨⟨l1 ++ l2, by rw [e2, e1, List.append_assoc]⟩, h2.done.trans h1.done⟩

theorem addImport_grows (fs : Files) (s : St) (d : Dep) : Grows s (addImport fs s d) := by
  unfold addImport
  split
  · exact ⟨⟨[d], rfl⟩, rfl⟩
  · exact .refl s

theorem addImport_covered (fs : Files) (s : St) (d : Dep) : Covered fs (addImport fs s d) d := by
  intro hex
  unfold addImport
  split
  · right; simp
  · rename_i hc
    simp only [hex, Bool.true_and, Bool.and_eq_true, Bool.not_eq_true', not_and, Bool.not_eq_false] at hc
    by_cases hd : s.done.contains d.localPath = true
    · exact Or.inl (List.contains_iff_mem.1 hd)
    · right
      exact List.contains_iff_mem.1 (hc (by simpa using hd))

theorem Covered.mono {fs : Files} {s s' : St} {d : Dep} (h : Covered fs s d) (hg : Grows s s') :
    Covered fs s' d := by
  intro hex
  obtain ⟨l, hl⟩ := hg.result
  rcases h hex with h | h
  · left; rw [hg.done]; exact h
  · right; rw [hl, List.map_append]; exact List.mem_append_left _ h

theorem fold_spec (fs : Files) (root p : String) (l : List Dep) (hl : ∀ d ∈ l, d ∈ fs.imports p)
    (s : St) (h : Inv fs root s) (hp : p = root ∨ ∃ e ∈ s.result, e.localPath = p) :
    Inv fs root (l.foldl (addImport fs) s) ∧ Grows s (l.foldl (addImport fs) s) ∧
      ∀ d ∈ l, Covered fs (l.foldl (addImport fs) s) d := by
  induction l generalizing s with
  | nil => exact ⟨h, .refl s, by simp⟩
  | cons d l ih =>
    rw [List.foldl_cons]
    have g := addImport_grows fs s d
    have h1 := addImport_inv h hp (hl d (List.mem_cons_self ..))
    have hp1 : p = root ∨ ∃ e ∈ (addImport fs s d).result, e.localPath = p := by
      rcases hp with hp | ⟨e, he, hp⟩
      · exact Or.inl hp
      · obtain ⟨r, hr⟩ := g.result
        exact Or.inr ⟨e, by rw [hr]; exact List.mem_append_left _ he, hp⟩
    obtain ⟨i1, i2, i3⟩ := ih (fun e he => hl e (List.mem_cons_of_mem _ he)) _ h1 hp1
    refine ⟨i1, g.trans i2, ?_⟩
    intro e he
    rcases List.mem_cons.1 he with rfl | he
    · exact (addImport_covered fs s e).mono i2
    · exact i3 e he

theorem round_spec (fs : Files) (root path : String) (rest : List String) (s : St)
    (h : Inv fs root s) (hs : s.pending = path :: rest) :
    Inv fs root (round fs s path rest) ∧
      (∃ l, (round fs s path rest).result = s.result ++ l) ∧
      (round fs s path rest).done = path :: s.done ∧
      ∀ d ∈ fs.imports path, Covered fs (round fs s path rest) d := by
  have hp : path = root ∨ ∃ e ∈ s.result, e.localPath = path :=
    h.from_ path (by rw [hs]; exact List.mem_cons_self ..)
  have h0 : Inv fs root { s with pending := rest, done := path :: s.done } := by
    refine ⟨h.once, h.sound, ?_, ?_, ?_, ?_⟩
    · intro q hq; exact h.from_ q (by rw [hs]; exact List.mem_cons_of_mem _ hq)
    · intro q hq
      rcases List.mem_cons.1 hq with rfl | hq
      · exact hp
      · exact h.fromDone q hq
    · rcases h.seen with h | h
      · rw [hs] at h
        rcases List.mem_cons.1 h with h | h
        · exact Or.inr (by rw [h]; exact List.mem_cons_self ..)
        · exact Or.inl h
      · exact Or.inr (List.mem_cons_of_mem _ h)
    · intro d hd
      rcases h.seenDeps d hd with h | h
      · rw [hs] at h
        rcases List.mem_cons.1 h with h | h
        · exact Or.inr (by rw [h]; exact List.mem_cons_self ..)
        · exact Or.inl h
      · exact Or.inr (List.mem_cons_of_mem _ h)
  obtain ⟨i1, i2, i3⟩ := fold_spec fs root path _ (fun d hd => hd) _ h0 hp
  exact ⟨i1, i2.result, i2.done, i3⟩

theorem init_inv (fs : Files) (root : String) : Inv fs root { pending := [root] } :=
  ⟨by simp, by simp, by intro p hp; left; simpa using hp, by simp, by simp, by simp⟩

/-- What holds of the result. -/
theorem loop_spec (fs : Files) (root : String) (n : Nat) (s : St) (r : List Dep)
    (h : Inv fs root s) (hc : ∀ p ∈ s.done, ∀ d ∈ fs.imports p, Covered fs s d)
    (he : loop fs n s = some r) :
    ∃ s', Inv fs root s' ∧ s'.result = r ∧ s'.pending = [] ∧
      ∀ p ∈ s'.done, ∀ d ∈ fs.imports p, Covered fs s' d := by
  induction n generalizing s with
  | zero => cases he
  | succ n ih =>
    rw [loop] at he
    split at he
    · rename_i hp
      cases he
      exact ⟨s, h, rfl, hp, hc⟩
    · rename_i path rest hs
      obtain ⟨i1, ⟨l, i2⟩, i3, i4⟩ := round_spec fs root path rest s h hs
      refine ih _ i1 ?_ he
      intro p hp d hd
      rw [i3] at hp
      rcases List.mem_cons.1 hp with rfl | hp
      · exact i4 d hd
      · intro hex
        rcases hc p hp d hd hex with h | h
        · left; rw [i3]; exact List.mem_cons_of_mem _ h
        · right; rw [i2, List.map_append]; exact List.mem_append_left _ h

/-! ## Termination -/

/-- A list without repetitions, in another list. -/
theorem nodup_length {α : Type} [DecidableEq α] {l m : List α} (h : l.Nodup) (hs : ∀ x ∈ l, x ∈ m) :
    l.length ≤ m.length := by
  induction l generalizing m with
  | nil => simp
  | cons a l ih =>
    have ha : a ∈ m := hs a (List.mem_cons_self ..)
    rw [List.nodup_cons] at h
    have := ih (m := m.erase a) h.2 (by
      intro x hx
      have hne : x ≠ a := by rintro rfl; exact h.1 hx
      exact (List.mem_erase_of_ne hne).2 (hs x (List.mem_cons_of_mem _ hx)))
    rw [List.length_erase_of_mem ha] at this
    have hpos := List.length_pos_of_mem ha
    simp only [List.length_cons]
    omega

theorem addImport_pending (fs : Files) (s : St) (d : Dep) :
    (addImport fs s d).pending.length + s.result.length =
      s.pending.length + (addImport fs s d).result.length := by
  unfold addImport
  split
  · simp; omega
  · omega

theorem fold_pending (fs : Files) (l : List Dep) (s : St) :
    (l.foldl (addImport fs) s).pending.length + s.result.length =
      s.pending.length + (l.foldl (addImport fs) s).result.length := by
  induction l generalizing s with
  | nil => simp
  | cons d l ih =>
    rw [List.foldl_cons]
    have h1 := addImport_pending fs s d
    have h2 := ih (addImport fs s d)
    omega

theorem loop_terminates (fs : Files) (root : String) (names : List String)
    (hn : ∀ d, Imports fs root d → d.sandbox ∈ names) (n : Nat) (s : St) (h : Inv fs root s)
    (hb : s.pending.length + (names.length - s.result.length) < n) :
    ∃ r, loop fs n s = some r := by
  induction n generalizing s with
  | zero => omega
  | succ n ih =>
    rw [loop]
    split
    · exact ⟨_, rfl⟩
    · rename_i path rest hs
      obtain ⟨i1, ⟨l, i2⟩, i3, i4⟩ := round_spec fs root path rest s h hs
      apply ih _ i1
      have hf := fold_pending fs (fs.imports path) { s with pending := rest, done := path :: s.done }
      have hlen : (round fs s path rest).result.length ≤ names.length := by
        have := nodup_length (m := names) i1.once (by
          intro x hx
          obtain ⟨d, hd, rfl⟩ := List.mem_map.1 hx
          exact hn d (i1.sound d hd))
        simpa using this
      have hr : (round fs s path rest).result.length = s.result.length + l.length := by
        rw [i2, List.length_append]
      rw [hs] at hb
      simp only [List.length_cons] at hb
      unfold round at hlen hr ⊢
      simp only [] at hf
      omega

/-- The search ends, also when the files import each other: the number of names used in the imports
is a bound. -/
theorem deps_terminates (fs : Files) (path : String) (names : List String)
    (hn : ∀ d, Imports fs path d → d.sandbox ∈ names) :
    ∃ r, findDependencies fs (names.length + 2) path = some r :=
  loop_terminates fs path names hn _ _ (init_inv fs path) (by simp; omega)

/-- The bound does not matter. -/
theorem deps_bound (fs : Files) (path : String) (n m : Nat) (r r' : List Dep)
    (h : findDependencies fs n path = some r) (h' : findDependencies fs m path = some r') : r = r' := by
  unfold findDependencies at h h'
  have key : ∀ (n m : Nat) (s : St), loop fs n s = some r → loop fs m s = some r' → r = r' := by
    intro n
    induction n with
    | zero => intro m s h; cases h
    | succ n ih =>
      intro m s h h'
      cases m with
      | zero => cases h'
      | succ m =>
        rw [loop] at h h'
        cases hp : s.pending with
        | nil => simp only [hp, Option.some.injEq] at h h'; rw [← h, ← h']
        | cons p rest =>
          simp only [hp] at h h'
          exact ih m _ h h'
  exact key n m _ h h'

/-- No name is given twice. -/
theorem deps_once (fs : Files) (path : String) (n : Nat) (r : List Dep)
    (h : findDependencies fs n path = some r) : (r.map (·.sandbox)).Nodup := by
  obtain ⟨s, hi, rfl, _, _⟩ := loop_spec fs path n _ r (init_inv fs path) (by simp) h
  exact hi.once

/-- Whatever is given exists, and the source file imports it, directly or not. -/
theorem deps_sound (fs : Files) (path : String) (n : Nat) (r : List Dep)
    (h : findDependencies fs n path = some r) : ∀ d ∈ r, Imports fs path d := by
  obtain ⟨s, hi, rfl, _, _⟩ := loop_spec fs path n _ r (init_inv fs path) (by simp) h
  exact hi.sound

/-- What the source file imports directly is always given with its name, but for the source file
itself. -/
theorem deps_direct (fs : Files) (path : String) (n : Nat) (r : List Dep)
    (h : findDependencies fs n path = some r) (d : Dep) (hd : d ∈ fs.imports path)
    (he : fs.pathExists d.localPath = true) (hne : d.localPath ≠ path) :
    ∃ e ∈ r, e.sandbox = d.sandbox := by
  cases n with
  | zero => cases h
  | succ n =>
    unfold findDependencies at h
    rw [loop] at h
    simp only [] at h
    obtain ⟨i1, _, i3, i4⟩ := round_spec fs path path [] { pending := [path] } (init_inv fs path) rfl
    have hk : d.sandbox ∈ (round fs { pending := [path] } path []).result.map (·.sandbox) := by
      rcases i4 d hd he with h' | h'
      · rw [i3] at h'
        simp only [List.mem_cons, List.not_mem_nil, or_false] at h'
        exact absurd h' hne
      · exact h'
    have grow : ∀ (n : Nat) (s : St), loop fs n s = some r → ∀ x ∈ s.result, x ∈ r := by
      intro n
      induction n with
      | zero => intro s h; cases h
      | succ n ih =>
        intro s h x hx
        rw [loop] at h
        cases hp : s.pending with
        | nil => simp only [hp, Option.some.injEq] at h; rw [← h]; exact hx
        | cons p rest =>
          simp only [hp] at h
          apply ih _ h
          have : ∀ (l : List Dep) (s : St), x ∈ s.result → x ∈ (l.foldl (addImport fs) s).result := by
            intro l
            induction l with
            | nil => intro s h; exact h
            | cons d l ih =>
              intro s hs
              rw [List.foldl_cons]
              apply ih
              obtain ⟨l', hl'⟩ := (addImport_grows fs s d).result
              rw [hl']; exact List.mem_append_left _ hs
          exact this _ _ hx
    obtain ⟨e, he', hs⟩ := List.mem_map.1 hk
    exact ⟨e, grow n _ h e he', hs⟩

/-- Every existing file that is imported, directly or not, is given with the name it is imported with,
if every file is imported with one name only and no two files with the same name.  Missing: files with
two names, see `deps_misses_alias`. -/
theorem deps_complete_partial (fs : Files) (path : String) (n : Nat) (r : List Dep)
    (h : findDependencies fs n path = some r)
    (hname : ∀ d e, Imports fs path d → Imports fs path e →
      (d.localPath = e.localPath ↔ d.sandbox = e.sandbox))
    (d : Dep) (hd : Imports fs path d) (hne : d.localPath ≠ path) : d ∈ r := by
  obtain ⟨s, hi, rfl, hp, hc⟩ := loop_spec fs path n _ r (init_inv fs path) (by simp) h
  have inRes : ∀ d, Imports fs path d → Covered fs s d → fs.pathExists d.localPath = true →
      d.localPath ≠ path → d ∈ s.result := by
    intro d hd hcv hex hne
    have key : ∃ e ∈ s.result, e.localPath = d.localPath ∧ e.sandbox = d.sandbox := by
      rcases hcv hex with h1 | h1
      · rcases hi.fromDone _ h1 with h2 | ⟨e, he, h2⟩
        · exact absurd h2 hne
        · exact ⟨e, he, h2, (hname e d (hi.sound e he) hd).1 h2⟩
      · obtain ⟨e, he, h2⟩ := List.mem_map.1 h1
        exact ⟨e, he, (hname e d (hi.sound e he) hd).2 h2, h2⟩
    obtain ⟨e, he, h1, h2⟩ := key
    have : e = d := by cases e; cases d; simp only [] at h1 h2; rw [h1, h2]
    rw [← this]; exact he
  have rootDone : path ∈ s.done := by
    rcases hi.seen with h | h
    · rw [hp] at h; cases h
    · exact h
  have main : ∀ d, Imports fs path d → d.localPath = path ∨ d ∈ s.result := by
    intro d hd
    induction hd with
    | direct d h hex =>
      by_cases hne : d.localPath = path
      · exact Or.inl hne
      · exact Or.inr (inRes d (.direct d h hex) (hc path rootDone d h) hex hne)
    | step d e hd he hex ih =>
      by_cases hne : e.localPath = path
      · exact Or.inl hne
      · have hdone : d.localPath ∈ s.done := by
          rcases ih with ih | ih
          · rw [ih]; exact rootDone
          · rcases hi.seenDeps d ih with h | h
            · rw [hp] at h; cases h
            · exact h
        exact Or.inr (inRes e (.step d e hd he hex) (hc _ hdone e he) hex hne)
  rcases main d hd with h | h
  · exact absurd h hne
  · exact h

/-! ## Examples -/

/-- Files that import each other. -/
def cyclic : Files :=
  ⟨fun p => if p = "/t/a.py" then [⟨"/t/b.py", "b.py"⟩, ⟨"/t/os.py", "os.py"⟩]
    else if p = "/t/b.py" then [⟨"/t/a.py", "a.py"⟩, ⟨"/t/c.py", "c.py"⟩, ⟨"/t/b.py", "b.py"⟩]
    else if p = "/t/c.py" then [⟨"/t/b.py", "b.py"⟩] else [],
   fun p => decide (p = "/t/a.py") || decide (p = "/t/b.py") || decide (p = "/t/c.py")⟩

example : findDependencies cyclic 5 "/t/a.py" = some [⟨"/t/b.py", "b.py"⟩, ⟨"/t/c.py", "c.py"⟩] := by
  decide

/-- The names and the files of the example correspond. -/
example : ∀ d e, Imports cyclic "/t/a.py" d → Imports cyclic "/t/a.py" e →
    (d.localPath = e.localPath ↔ d.sandbox = e.sandbox) := by
  have shape : ∀ d, Imports cyclic "/t/a.py" d →
      d = ⟨"/t/a.py", "a.py"⟩ ∨ d = ⟨"/t/b.py", "b.py"⟩ ∨ d = ⟨"/t/c.py", "c.py"⟩ := by
    intro d hd
    have one : ∀ p d, d ∈ cyclic.imports p → cyclic.pathExists d.localPath = true →
        d = ⟨"/t/a.py", "a.py"⟩ ∨ d = ⟨"/t/b.py", "b.py"⟩ ∨ d = ⟨"/t/c.py", "c.py"⟩ := by
      intro p d hd hex
      unfold cyclic at hd hex
      simp only [] at hd
      split at hd
      · simp only [List.mem_cons, List.not_mem_nil, or_false] at hd
        rcases hd with rfl | rfl
        · simp
        · revert hex; decide
      · split at hd
        · simp only [List.mem_cons, List.not_mem_nil, or_false] at hd
          rcases hd with rfl | rfl | rfl <;> simp
        · split at hd
          · simp only [List.mem_cons, List.not_mem_nil, or_false] at hd
            subst hd; simp
          · cases hd
    cases hd with
    | direct d h he => exact one _ _ h he
    | step d e h hd he => exact one _ _ hd he
  intro d e hd he
  rcases shape d hd with rfl | rfl | rfl <;> rcases shape e he with rfl | rfl | rfl <;> decide

/-- `lib/a.h` and `lib/b.h` of a C++ source file: `main.cpp` includes `lib/a.h` and `lib/b.h`, and
`lib/b.h` includes `a.h`. -/
def nested : Files :=
  ⟨fun p => if p = "/t/main.cpp" then [⟨"/t/lib/a.h", "lib/a.h"⟩, ⟨"/t/lib/b.h", "lib/b.h"⟩]
    else if p = "/t/lib/b.h" then [⟨"/t/lib/a.h", "a.h"⟩] else [], fun _ => true⟩

/-- A file that is imported with two names is given with one of them only. -/
theorem deps_misses_alias :
    ∃ (fs : Files) (path : String) (r : List Dep) (d : Dep), findDependencies fs 4 path = some r ∧
      Imports fs path d ∧ d.localPath ≠ path ∧ ∀ e ∈ r, e.sandbox ≠ d.sandbox := by
  refine ⟨nested, "/t/main.cpp", [⟨"/t/lib/a.h", "lib/a.h"⟩, ⟨"/t/lib/b.h", "lib/b.h"⟩],
    ⟨"/t/lib/a.h", "a.h"⟩, by decide, ?_, by decide, by decide⟩
  exact .step ⟨"/t/lib/b.h", "lib/b.h"⟩ _ (.direct _ (by decide) rfl) (by decide) rfl

end TM.Lang
