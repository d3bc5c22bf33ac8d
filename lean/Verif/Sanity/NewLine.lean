import Verif.Sanity.Chunks
/-!
# C76: the files that do not end with a new line
-/
namespace TM.Sanity
open TM

/-! ## Specification -/

/-- A text file whose last line is not ended: it is not empty, it has no NUL byte and its last byte is
not a new line. -/
def Unended (content : Bytes) : Prop := 0 ∉ content ∧ ∃ init b, content = init ++ [b] ∧ b ≠ 10

/-- The content of the file. -/
def Delivery.content (d : Delivery) : Bytes := d.chunks.flatten

/-- Files are split in chunks that are not empty. -/
def Delivery.Ok (d : Delivery) : Prop := ∀ c ∈ d.chunks, c ≠ []

/-- A file of the testcases is given to the client, and its last line is not ended. -/
def Bad (task : Task) (ds : List Delivery) (k : Kind) (path : String) : Prop :=
  ∃ id tc d, task.testcases.get? id = some tc ∧ d ∈ ds ∧
    (match k with | .input => tc.input | .output => tc.output) = some d.file ∧
    path = Kind.path id k ∧ Unended d.content

/-- The warning lists exactly these paths, once each and in alphabetical order; there is none if there
is nothing to list. -/
def Lists (w : Option (List String)) (p : String → Prop) : Prop :=
  match w with
  | none => ∀ x, ¬ p x
  | some l => l ≠ [] ∧ l.Nodup ∧ l.Pairwise (fun a b => strLe a b = true) ∧ ∀ x, x ∈ l ↔ p x

/-! ## Lemmas -/

theorem mem_dedup {l : List String} {a : String} : a ∈ dedup l ↔ a ∈ l := by
  induction l with
  | nil => rfl
  | cons b l ih => rw [dedup, mem_setInsert, ih, List.mem_cons]

theorem nodup_dedup (l : List String) : (dedup l).Nodup := by
  induction l with
  | nil => exact List.nodup_nil
  | cons b l ih => exact nodup_setInsert ih b

theorem emitWarning_lists (l : List String) : Lists (emitWarning l) (· ∈ l) := by
  unfold emitWarning
  cases l with
  | nil => intro x h; cases h
  | cons a l =>
    have hp := isort_perm strLe (dedup (a :: l))
    refine ⟨?_, ?_, isort_sorted strLe_total _, ?_⟩
    · intro h
      have := hp.length_eq
      rw [h] at this
      have hm : a ∈ dedup (a :: l) := mem_dedup.2 List.mem_cons_self
      rw [List.length_eq_zero_iff.1 this.symm] at hm
      cases hm
    · exact hp.nodup_iff.2 (nodup_dedup _)
    · intro x
      rw [hp.mem_iff, mem_dedup]

theorem lists_unique {w w' : Option (List String)} {p : String → Prop} (h : Lists w p) (h' : Lists w' p) : w = w' := by
  cases w with
  | none =>
    cases w' with
    | none => rfl
    | some l' =>
      obtain ⟨hne, -, -, hm⟩ := h'
      cases l' with
      | nil => exact absurd rfl hne
      | cons a l => exact absurd ((hm a).1 List.mem_cons_self) (h a)
  | some l =>
    cases w' with
    | none =>
      obtain ⟨hne, -, -, hm⟩ := h
      cases l with
      | nil => exact absurd rfl hne
      | cons a l => exact absurd ((hm a).1 List.mem_cons_self) (h' a)
    | some l' =>
      obtain ⟨-, n1, s1, m1⟩ := h
      obtain ⟨-, n2, s2, m2⟩ := h'
      congr 1
      have hp : l.Perm l' := (List.perm_ext_iff_of_nodup n1 n2).2 (fun a => (m1 a).trans (m2 a).symm)
      exact hp.eq_of_pairwise (le := fun a b => strLe a b = true)
        (fun a b _ _ h1 h2 => strLe_total.antisymm a b h1 h2) s1 s2

/-- The state of a callback after some chunks. -/
theorem add_all (e : Ender) (cs : List Bytes) (hne : ∀ c ∈ cs, c ≠ []) :
    (cs.foldl Ender.add e).file = e.file ∧ (cs.foldl Ender.add e).kind = e.kind ∧
    (cs.foldl Ender.add e).path = e.path ∧
    (cs.foldl Ender.add e).binary = (e.binary || cs.flatten.contains 0) ∧
    (cs.foldl Ender.add e).ends = (match cs.flatten.getLast? with | none => e.ends | some b => b == 10) := by
  induction cs generalizing e with
  | nil => simp
  | cons c cs ih =>
    have hc := hne c List.mem_cons_self
    obtain ⟨h1, h2, h3, h4, h5⟩ := ih (e.add c) (fun c hc => hne c (List.mem_cons_of_mem _ hc))
    have hemp : c.isEmpty = false := by cases c with | nil => exact absurd rfl hc | cons => rfl
    have hadd : e.add c = { e with binary := e.binary || c.contains 0, ends := c.getLast? == some 10 } := by
      unfold Ender.add; simp [hemp]
    rw [List.foldl_cons]
    refine ⟨by rw [h1, hadd], by rw [h2, hadd], by rw [h3, hadd], ?_, ?_⟩
    · rw [h4, hadd]
      simp only [List.flatten_cons, List.contains_eq_mem, List.mem_append, Bool.decide_or]
      rw [Bool.or_assoc]
    · rw [h5, hadd, List.flatten_cons, List.getLast?_append]
      cases hl : cs.flatten.getLast? with
      | some b => rfl
      | none =>
        cases hcl : c.getLast? with
        | none => exact absurd (List.getLast?_eq_none_iff.1 hcl) hc
        | some b => simp

theorem chunk_enders (f : FileUuid) (s : NewLine) (cs : List Bytes) :
    (cs.foldl (NewLine.chunk f) s).enders = s.enders.map (fun e => if e.file = f then cs.foldl Ender.add e else e) := by
  induction cs generalizing s with
  | nil => simp
  | cons c cs ih =>
    rw [List.foldl_cons, ih]
    simp only [NewLine.chunk, List.map_map]
    apply List.map_congr_left
    intro e _
    simp only [Function.comp_apply]
    by_cases h : e.file = f
    · have : (e.add c).file = f := by
        unfold Ender.add
        simp only
        split <;> exact h
      simp [h, this]
    · simp [h]

theorem pushed_nonempty (s : NewLine) (k : Kind) (f : FileUuid) {c : Bytes} (h : c ≠ []) : s.pushed k f c = [] := by
  unfold NewLine.pushed
  have : ∀ e : Ender, e.pushes c = false := by
    intro e
    unfold Ender.pushes
    cases c with
    | nil => exact absurd rfl h
    | cons => rfl
  simp [this]

theorem chunk_lists (f : FileUuid) (s : NewLine) (cs : List Bytes) (h : ∀ c ∈ cs, c ≠ []) :
    (cs.foldl (NewLine.chunk f) s).inputs = s.inputs ∧ (cs.foldl (NewLine.chunk f) s).outputs = s.outputs := by
  induction cs generalizing s with
  | nil => exact ⟨rfl, rfl⟩
  | cons c cs ih =>
    rw [List.foldl_cons]
    obtain ⟨h1, h2⟩ := ih (s.chunk f c) (fun c hc => h c (List.mem_cons_of_mem _ hc))
    rw [h1, h2]
    simp [NewLine.chunk, pushed_nonempty _ _ _ (h c List.mem_cons_self)]

theorem unended_iff (content : Bytes) :
    (!(match content.getLast? with | none => true | some b => b == 10) && !content.contains 0) = true ↔
      Unended content := by
  unfold Unended
  rw [Bool.and_eq_true]
  cases h : content.getLast? with
  | none =>
    rw [List.getLast?_eq_none_iff.1 h]
    simp
  | some b =>
    obtain ⟨init, rfl⟩ := List.getLast?_eq_some_iff.1 h
    constructor
    · rintro ⟨h1, h2⟩
      refine ⟨?_, init, b, rfl, ?_⟩
      · intro hm; simp [List.contains_eq_mem, hm] at h2
      · intro hb; simp [hb] at h1
    · rintro ⟨h1, init', b', heq, hb⟩
      obtain ⟨-, h3⟩ := List.append_inj' heq rfl
      cases h3
      exact ⟨by simp [hb], by simp [List.contains_eq_mem, h1]⟩

/-- The paths listed, of one kind. -/
def NewLine.listed (s : NewLine) : Kind → List String
  | .input => s.inputs
  | .output => s.outputs

theorem pushes_nil (e : Ender) : e.pushes [] = (!e.ends && !e.binary) := by
  simp [Ender.pushes, Ender.add]

theorem deliver_listed (s : NewLine) (d : Delivery) (hd : d.Ok)
    (hf : ∀ e ∈ s.enders, e.file = d.file → e.ends = true ∧ e.binary = false) (k : Kind) (x : String) :
    x ∈ (s.deliver d).listed k ↔ x ∈ s.listed k ∨
      ∃ e ∈ s.enders, e.file = d.file ∧ e.kind = k ∧ e.path = x ∧ Unended d.content := by
  have hl := chunk_lists d.file s d.chunks hd
  have he := chunk_enders d.file s d.chunks
  unfold NewLine.deliver
  rw [List.foldl_append]
  generalize d.chunks.foldl (NewLine.chunk d.file) s = s' at *
  have hlk : s'.listed k = s.listed k := by cases k; exact hl.1; exact hl.2
  have : ([[]].foldl (NewLine.chunk d.file) s').listed k = s.listed k ++ s'.pushed k d.file [] := by
    rw [← hlk]; cases k <;> rfl
  rw [this, List.mem_append]
  apply or_congr Iff.rfl
  unfold NewLine.pushed
  rw [he]
  simp only [List.mem_map, List.mem_filter, decide_eq_true_eq]
  constructor
  · rintro ⟨e', ⟨⟨⟨e, hm, rfl⟩, h1, h2⟩, h3⟩, rfl⟩
    by_cases hfe : e.file = d.file
    · rw [if_pos hfe] at h2 h3 ⊢
      obtain ⟨-, a2, a3, a4, a5⟩ := add_all e d.chunks hd
      obtain ⟨b1, b2⟩ := hf e hm hfe
      refine ⟨e, hm, hfe, by rw [← h2, a2], by rw [a3], ?_⟩
      rw [← unended_iff]
      rw [pushes_nil, a4, a5, b1, b2, Bool.false_or] at h3
      exact h3
    · rw [if_neg hfe] at h1; exact absurd h1 hfe
  · rintro ⟨e, hm, hfe, h2, rfl, h4⟩
    obtain ⟨a1, a2, a3, a4, a5⟩ := add_all e d.chunks hd
    obtain ⟨b1, b2⟩ := hf e hm hfe
    refine ⟨_, ⟨⟨⟨e, hm, rfl⟩, ?_, ?_⟩, ?_⟩, ?_⟩
    · rw [if_pos hfe, a1]; exact hfe
    · rw [if_pos hfe, a2]; exact h2
    · rw [if_pos hfe]
      rw [pushes_nil, a4, a5, b1, b2, Bool.false_or]
      exact (unended_iff _).2 h4
    · rw [if_pos hfe, a3]

theorem deliver_enders (s : NewLine) (d : Delivery) :
    (s.deliver d).enders = s.enders.map (fun e => if e.file = d.file then (d.chunks ++ [[]]).foldl Ender.add e else e) :=
  chunk_enders d.file s _

theorem add_fold_same (e : Ender) (cs : List Bytes) : (cs.foldl Ender.add e).file = e.file ∧
    (cs.foldl Ender.add e).kind = e.kind ∧ (cs.foldl Ender.add e).path = e.path := by
  induction cs generalizing e with
  | nil => exact ⟨rfl, rfl, rfl⟩
  | cons c cs ih =>
    rw [List.foldl_cons]
    obtain ⟨h1, h2, h3⟩ := ih (e.add c)
    rw [h1, h2, h3]
    unfold Ender.add
    simp only
    split <;> exact ⟨rfl, rfl, rfl⟩

theorem run_listed (ds : List Delivery) (hds : ∀ d ∈ ds, d.Ok) (hnd : (ds.map (·.file)).Nodup) (s : NewLine)
    (hf : ∀ e ∈ s.enders, ∀ d ∈ ds, e.file = d.file → e.ends = true ∧ e.binary = false) (k : Kind) (x : String) :
    x ∈ (ds.foldl NewLine.deliver s).listed k ↔ x ∈ s.listed k ∨
      ∃ e ∈ s.enders, ∃ d ∈ ds, e.file = d.file ∧ e.kind = k ∧ e.path = x ∧ Unended d.content := by
  induction ds generalizing s with
  | nil => simp
  | cons d ds ih =>
    rw [List.map_cons, List.nodup_cons] at hnd
    rw [List.foldl_cons, ih (fun d hd => hds d (List.mem_cons_of_mem _ hd)) hnd.2,
      deliver_listed s d (hds d List.mem_cons_self) (fun e he h => hf e he d List.mem_cons_self h), deliver_enders]
    · rw [or_assoc]
      apply or_congr Iff.rfl
      constructor
      · rintro (⟨e, he, h⟩ | ⟨e', he', d', hd', h1, h2, h3, h4⟩)
        · exact ⟨e, he, d, List.mem_cons_self, h⟩
        · obtain ⟨e, he, rfl⟩ := List.mem_map.1 he'
          obtain ⟨g1, g2, g3⟩ := add_fold_same e (d.chunks ++ [[]])
          refine ⟨e, he, d', List.mem_cons_of_mem _ hd', ?_, ?_, ?_, h4⟩
          · split at h1
            · rw [← h1, g1]
            · exact h1
          · split at h2
            · rw [← h2, g2]
            · exact h2
          · split at h3
            · rw [← h3, g3]
            · exact h3
      · rintro ⟨e, he, d', hd', h1, h2, h3, h4⟩
        rcases List.mem_cons.1 hd' with rfl | hd'
        · exact .inl ⟨e, he, h1, h2, h3, h4⟩
        · obtain ⟨g1, g2, g3⟩ := add_fold_same e (d.chunks ++ [[]])
          refine .inr ⟨_, List.mem_map.2 ⟨e, he, rfl⟩, d', hd', ?_, ?_, ?_, h4⟩ <;> split <;> simp_all
    · intro e' he' d' hd' h
      rw [deliver_enders] at he'
      obtain ⟨e, he, rfl⟩ := List.mem_map.1 he'
      have hne : e.file ≠ d.file := by
        intro heq
        rw [if_pos heq, (add_fold_same e _).1, heq] at h
        exact hnd.1 (List.mem_map.2 ⟨d', hd', h.symm⟩)
      rw [if_neg hne] at h ⊢
      exact hf e he d' (List.mem_cons_of_mem _ hd') h

theorem mem_pre {task : Task} {e : Ender} : e ∈ (NewLine.pre task).enders ↔ ∃ id tc, (id, tc) ∈ task.testcases ∧
    (match e.kind with | .input => tc.input | .output => tc.output) = some e.file ∧
    e.path = Kind.path id e.kind ∧ e.ends = true ∧ e.binary = false := by
  obtain ⟨f, k, p, a, b⟩ := e
  simp only [NewLine.pre, List.mem_flatMap]
  constructor
  · rintro ⟨⟨id, tc⟩, hm, he⟩
    refine ⟨id, tc, hm, ?_⟩
    simp only [Tc.enders, List.mem_append, List.mem_map, Option.mem_toList, Ender.mk.injEq] at he
    rcases he with ⟨g, hg, rfl, rfl, rfl, rfl, rfl⟩ | ⟨g, hg, rfl, rfl, rfl, rfl, rfl⟩ <;> simp [hg]
  · rintro ⟨id, tc, hm, h1, rfl, rfl, rfl⟩
    refine ⟨(id, tc), hm, ?_⟩
    simp only [Tc.enders, List.mem_append, List.mem_map, Option.mem_toList, Ender.mk.injEq]
    cases k with
    | input => exact .inl ⟨f, h1, by simp⟩
    | output => exact .inr ⟨f, h1, by simp⟩

/-! ## The properties -/

/-- **C76** Whatever the order in which the files arrive and the way they are split, the two warnings
list exactly the input files and the official outputs whose last line is not ended. -/
theorem new_line_warnings_exact {task : Task} (hw : task.testcases.Wf) {ds : List Delivery} (hok : ∀ d ∈ ds, d.Ok)
    (hnd : (ds.map (·.file)).Nodup) :
    Lists (newLineCheck task ds).1 (Bad task ds .input) ∧ Lists (newLineCheck task ds).2 (Bad task ds .output) := by
  have key : ∀ k x, x ∈ (ds.foldl NewLine.deliver (NewLine.pre task)).listed k ↔ Bad task ds k x := by
    intro k x
    rw [run_listed ds hok hnd]
    · have hnil : (NewLine.pre task).listed k = [] := by cases k <;> rfl
      rw [hnil]
      constructor
      · rintro (h | ⟨e, he, d, hd, h1, rfl, rfl, h4⟩)
        · cases h
        · obtain ⟨id, tc, hm, h5, h6, -⟩ := mem_pre.1 he
          exact ⟨id, tc, d, AMap.get?_of_mem hw hm, hd, by rw [← h1]; exact h5, h6, h4⟩
      · rintro ⟨id, tc, d, hm, hd, h1, rfl, h4⟩
        exact .inr ⟨⟨d.file, k, _, true, false⟩, mem_pre.2 ⟨id, tc, AMap.mem_of_get? hm, h1, rfl, rfl, rfl⟩, d, hd,
          rfl, rfl, rfl, h4⟩
    · intro e he d _ _
      obtain ⟨id, tc, -, -, -, h⟩ := mem_pre.1 he
      exact h
  have aux : ∀ l (p : String → Prop), (∀ x, x ∈ l ↔ p x) → Lists (emitWarning l) p := by
    intro l p h
    have : p = (· ∈ l) := funext fun x => propext (h x).symm
    rw [this]
    exact emitWarning_lists l
  exact ⟨aux _ _ (key .input), aux _ _ (key .output)⟩

/-- **C76** Hence the warnings do not depend on the order of the files nor on the chunks. -/
theorem new_line_warnings_same {task : Task} (hw : task.testcases.Wf) {ds ds' : List Delivery}
    (hok : ∀ d ∈ ds, d.Ok) (hok' : ∀ d ∈ ds', d.Ok) (hnd : (ds.map (·.file)).Nodup)
    (hnd' : (ds'.map (·.file)).Nodup)
    (hsame : ∀ f c, (∃ d ∈ ds, d.file = f ∧ d.content = c) ↔ (∃ d ∈ ds', d.file = f ∧ d.content = c)) :
    newLineCheck task ds = newLineCheck task ds' := by
  obtain ⟨h1, h2⟩ := new_line_warnings_exact hw hok hnd
  obtain ⟨h1', h2'⟩ := new_line_warnings_exact hw hok' hnd'
  have hb : ∀ k, Bad task ds k = Bad task ds' k := by
    intro k
    funext x
    apply propext
    constructor
    · rintro ⟨id, tc, d, a, b, c, e, g⟩
      obtain ⟨d', b', c', e'⟩ := (hsame d.file d.content).1 ⟨d, b, rfl, rfl⟩
      exact ⟨id, tc, d', a, b', by rw [c']; exact c, e, by rw [e']; exact g⟩
    · rintro ⟨id, tc, d, a, b, c, e, g⟩
      obtain ⟨d', b', c', e'⟩ := (hsame d.file d.content).2 ⟨d, b, rfl, rfl⟩
      exact ⟨id, tc, d', a, b', by rw [c']; exact c, e, by rw [e']; exact g⟩
  rw [← hb] at h1' h2'
  exact Prod.ext (lists_unique h1 h1') (lists_unique h2 h2')

/-- A task with three testcases: the input of the first one has no final new line, its official output
is binary; the input of the third one comes in two chunks. -/
def demoTask : Task where
  testcases := [(0, ⟨0, some 10, some 20⟩), (1, ⟨1, some 11, some 21⟩), (2, ⟨2, some 12, none⟩)]
  subtasks := [(0, ⟨0, [0]⟩), (1, ⟨1, [0, 1, 2]⟩)]

def demoFiles : List Delivery :=
  [⟨12, [[49, 10], [50]]⟩, ⟨20, [[0, 50]]⟩, ⟨10, [[49, 32, 50]]⟩, ⟨11, [[49], [10]]⟩, ⟨21, []⟩]

example : newLineCheck demoTask demoFiles = (some ["input/input0.txt", "input/input2.txt"], none) := by
  decide +kernel

example : demoTask.testcases.Wf ∧ (∀ d ∈ demoFiles, d.Ok) ∧ (demoFiles.map (·.file)).Nodup := by
  refine ⟨by unfold AMap.Wf; decide, ?_, by decide⟩
  unfold Delivery.Ok; decide

/-! ## The attachments -/

theorem attOne_iff (path : String) (content : Bytes) (x : String) :
    x ∈ attOne path content ↔ x = path ∧ ∃ init b, content = init ++ [b] ∧ b ≠ 10 ∧ b ≠ 0 := by
  unfold attOne
  cases h : content.getLast? with
  | none =>
    rw [List.getLast?_eq_none_iff.1 h]
    simp [Ender.pushes, Ender.add]
  | some b =>
    obtain ⟨init, rfl⟩ := List.getLast?_eq_some_iff.1 h
    have : (∃ init' b', init ++ [b] = init' ++ [b'] ∧ b' ≠ 10 ∧ b' ≠ 0) ↔ (b ≠ 10 ∧ b ≠ 0) := by
      constructor
      · rintro ⟨i, b', heq, hb⟩
        obtain ⟨-, h3⟩ := List.append_inj' heq rfl
        cases h3
        exact hb
      · intro hb; exact ⟨init, b, rfl, hb⟩
    rw [this]
    simp only [Ender.pushes, Ender.add, Option.toList_some, List.isEmpty_cons, List.isEmpty_nil]
    by_cases h1 : b = 10
    · simp [h1]
    · by_cases h2 : b = 0
      · simp [h2]
      · have h3 : ¬ (0 = b) := fun h => h2 h.symm
        simp [h1, h2, h3]

theorem attLoop_mem {atts : List Att} {l r : List String} (h : attLoop l atts = some r) :
    (∀ a ∈ atts, ∃ c, a.content = some c) ∧ ∀ x, x ∈ r ↔ x ∈ l ∨ ∃ a ∈ atts, ∃ c, a.content = some c ∧ x ∈ attOne a.path c := by
  induction atts generalizing l with
  | nil => cases h; exact ⟨(fun _ h => nomatch h), fun x => by simp⟩
  | cons a atts ih =>
    unfold attLoop at h
    split at h
    · cases h
    · next c hc =>
      obtain ⟨h1, h2⟩ := ih h
      refine ⟨fun b hb => ?_, fun x => ?_⟩
      · rcases List.mem_cons.1 hb with rfl | hb
        · exact ⟨c, hc⟩
        · exact h1 b hb
      · rw [h2, List.mem_append, or_assoc]
        apply or_congr Iff.rfl
        constructor
        · rintro (h | ⟨b, hb, h⟩)
          · exact ⟨a, List.mem_cons_self, c, hc, h⟩
          · exact ⟨b, List.mem_cons_of_mem _ hb, h⟩
        · rintro ⟨b, hb, c', hc', h⟩
          rcases List.mem_cons.1 hb with rfl | hb
          · rw [hc] at hc'; cases hc'; exact .inl h
          · exact .inr ⟨b, hb, c', hc', h⟩

/-- **C76** For the attachments this holds of text files only: when all of them can be read and have no
NUL byte, the warning lists exactly those whose last line is not ended.  Missing: binary files
(`att_binary_listed`). -/
theorem att_new_line_partial {atts : List Att} (hread : ∀ a ∈ atts, ∃ c, a.content = some c ∧ 0 ∉ c) :
    ∃ w, attNewLine atts = some w ∧ Lists w (fun x => ∃ a ∈ atts, a.path = x ∧ ∃ c, a.content = some c ∧ Unended c) := by
  have htot : ∀ l, ∃ r, attLoop l atts = some r := by
    induction atts with
    | nil => intro l; exact ⟨l, rfl⟩
    | cons a atts ih =>
      intro l
      obtain ⟨c, hc, -⟩ := hread a List.mem_cons_self
      unfold attLoop
      rw [hc]
      exact ih (fun a ha => hread a (List.mem_cons_of_mem _ ha)) _
  obtain ⟨r, hr⟩ := htot []
  refine ⟨emitWarning r, by rw [attNewLine, hr]; rfl, ?_⟩
  have heq : (fun x => ∃ a ∈ atts, a.path = x ∧ ∃ c, a.content = some c ∧ Unended c) = (· ∈ r) := by
    funext x
    apply propext
    rw [(attLoop_mem hr).2]
    constructor
    · rintro ⟨a, ha, rfl, c, hc, h0, i, b, rfl, hb⟩
      refine .inr ⟨a, ha, _, hc, (attOne_iff _ _ _).2 ⟨rfl, i, b, rfl, hb, ?_⟩⟩
      intro h; exact h0 (by simp [h])
    · rintro (h | ⟨a, ha, c, hc, h⟩)
      · cases h
      · obtain ⟨rfl, i, b, rfl, hb, -⟩ := (attOne_iff _ _ _).1 h
        obtain ⟨c', hc', h0⟩ := hread a ha
        rw [hc] at hc'; cases hc'
        exact ⟨a, ha, rfl, _, hc, h0, i, b, rfl, hb⟩
  rw [heq]
  exact emitWarning_lists r

example : attNewLine [⟨"att/a.txt", some [49]⟩, ⟨"att/b.txt", some [49, 10]⟩, ⟨"att/c.txt", some []⟩] =
    some (some ["att/a.txt"]) := by decide +kernel

/-- The check of the attachments reads only the last byte of a file: a binary file is listed although
binary files are meant to be ignored. -/
theorem att_binary_listed : ∃ atts w, attNewLine atts = some w ∧
    ¬ Lists w (fun x => ∃ a ∈ atts, a.path = x ∧ ∃ c, a.content = some c ∧ Unended c) := by
  refine ⟨[⟨"att/sol.zip", some [80, 75, 0, 1]⟩], some ["att/sol.zip"], by decide +kernel, ?_⟩
  intro h
  obtain ⟨a, ha, -, c, hc, h0, -⟩ := (h.2.2.2 "att/sol.zip").1 List.mem_cons_self
  cases List.mem_singleton.1 ha
  cases hc
  exact h0 (by decide)

/-- A directory among the attachments stops the check: the files are not listed. -/
theorem att_directory_stops {atts : List Att} {a : Att} (ha : a ∈ atts) (hd : a.content = none) :
    attNewLine atts = none := by
  unfold attNewLine
  cases h : attLoop [] atts with
  | none => rfl
  | some r =>
    obtain ⟨c, hc⟩ := (attLoop_mem h).1 a ha
    rw [hd] at hc; cases hc

end TM.Sanity
