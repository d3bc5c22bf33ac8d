import Verif.Sanity.Samples
/-!
# The sample files among the attachments (C79)
-/
namespace TM.Sanity
open TM TM.Ui

/-- The files taken as inputs (outputs) with a number, in order. -/
theorem first_iff {files : List Name} {pat : Name} {n : Nat} {f : Name} :
    (∃ l, ((files.filter (wildMatch pat)).filter (fun f => sampleNumber f = some n)) = f :: l) ↔
      IsFirst (fun x => Glob pat x ∧ Numbered x n) files f := by
  rw [List.filter_filter]
  have hiff : ∀ x, ((decide (sampleNumber x = some n)) && wildMatch pat x) = true ↔ Glob pat x ∧ Numbered x n := by
    intro x
    rw [Bool.and_eq_true, decide_eq_true_eq, sampleNumber_iff, wildMatch_iff, and_comm]
  constructor
  · rintro ⟨l, hl⟩
    obtain ⟨a, b, h1, h2, h3, -⟩ := List.filter_eq_cons_iff.1 hl
    exact ⟨a, b, h1, (hiff f).1 h3, fun x hx h => h2 x hx ((hiff x).2 h)⟩
  · rintro ⟨a, b, h1, h2, h3⟩
    exact ⟨_, List.filter_eq_cons_iff.2 ⟨a, b, h1, fun x hx h => h3 x hx ((hiff x).1 h), (hiff f).2 h2, rfl⟩⟩

theorem group_mem {files : List Name} {pat : Name} {n : Nat} {l : List Name} :
    (n, l) ∈ byNumber (files.filter (wildMatch pat)) ↔
      l ≠ [] ∧ l = (files.filter (wildMatch pat)).filter (fun f => sampleNumber f = some n) := by
  constructor
  · intro h
    have := AMap.get?_of_mem (byNumber_wf _) h
    rw [byNumber_get] at this
    split at this
    · cases this
    · next hne => cases this; exact ⟨hne, rfl⟩
  · rintro ⟨h1, h2⟩
    apply AMap.mem_of_get?
    rw [byNumber_get, ← h2, if_neg h1]

theorem group_first {files : List Name} {pat : Name} {n : Nat} {f : Name} :
    (∃ l, (byNumber (files.filter (wildMatch pat))).get? n = some l ∧ l.headD [] = f) ↔
      IsFirst (fun x => Glob pat x ∧ Numbered x n) files f := by
  rw [← first_iff]
  rw [byNumber_get]
  cases hl : (files.filter (wildMatch pat)).filter (fun f => sampleNumber f = some n) with
  | nil => simp
  | cons a r =>
    rw [if_neg (List.cons_ne_nil _ _)]
    constructor
    · rintro ⟨l, h1, h2⟩
      cases h1
      simp only [List.headD_cons] at h2
      subst h2
      exact ⟨r, rfl⟩
    · rintro ⟨l, h1⟩
      cases h1
      exact ⟨_, rfl, rfl⟩

/-- **C79** The pairs of samples that are checked: for each number that both an input and an output have,
the first input and the first output with that number. -/
theorem samples_exact (files : List Name) (a b : Name) :
    (a, b) ∈ (getSampleFiles files).pairs ↔
      ∃ n, IsFirst (TakenIn · n) files a ∧ IsFirst (TakenOut · n) files b := by
  unfold getSampleFiles
  simp only
  rw [pairLoop_eq _ _ _ _ (byNumber_wf _) (byNumber_wf _)]
  simp only [List.nil_append, List.mem_filterMap, Option.map_eq_some_iff, Prod.mk.injEq]
  constructor
  · rintro ⟨⟨n, l⟩, h1, o, h2, rfl, rfl⟩
    refine ⟨n, group_first.1 ⟨l, AMap.get?_of_mem (byNumber_wf _) h1, rfl⟩, group_first.1 ⟨o, h2, rfl⟩⟩
  · rintro ⟨n, h1, h2⟩
    obtain ⟨l, h3, h4⟩ := group_first.2 h1
    obtain ⟨o, h5, h6⟩ := group_first.2 h2
    exact ⟨(n, l), AMap.mem_of_get? h3, o, h5, h4, h6⟩

/-- **C79** No input file with a number is ignored: it is in a pair, or there is an error about it. -/
theorem input_accounted (files : List Name) {f : Name} {n : Nat} (hf : f ∈ files) (ht : TakenIn f n) :
    (∃ b, (f, b) ∈ (getSampleFiles files).pairs) ∨ f ∈ (getSampleFiles files).noOutput ∨
      ∃ l, (n, l) ∈ (getSampleFiles files).twiceIn ∧ f ∈ l := by
  have hmem : f ∈ (files.filter (wildMatch "*input*.txt".toList)).filter (fun f => sampleNumber f = some n) := by
    rw [List.mem_filter, List.mem_filter]
    exact ⟨⟨hf, (wildMatch_iff _ _).2 ht.1⟩, by simpa using (sampleNumber_iff f n).2 ht.2⟩
  have hg : (byNumber (files.filter (wildMatch "*input*.txt".toList))).get? n =
      some ((files.filter (wildMatch "*input*.txt".toList)).filter (fun f => sampleNumber f = some n)) := by
    rw [byNumber_get, if_neg (List.ne_nil_of_mem hmem)]
  unfold getSampleFiles
  simp only
  rw [pairLoop_eq _ _ _ _ (byNumber_wf _) (byNumber_wf _)]
  simp only [List.nil_append, List.mem_filterMap, Option.map_eq_some_iff, Prod.mk.injEq, List.mem_filter]
  generalize (files.filter (wildMatch "*input*.txt".toList)).filter (fun f => sampleNumber f = some n) = l at *
  by_cases hlen : l.length = 1
  · obtain ⟨x, rfl⟩ := List.length_eq_one_iff.1 hlen
    rw [List.mem_singleton] at hmem
    subst hmem
    cases ho : (byNumber (files.filter (wildMatch "*output*.txt".toList))).get? n with
    | some o => exact .inl ⟨o.headD [], (n, [f]), AMap.mem_of_get? hg, o, ho, rfl, rfl⟩
    | none =>
      refine .inr (.inl ⟨(n, [f]), AMap.mem_of_get? hg, ?_⟩)
      simp only [ho, Option.isSome_none, Bool.false_eq_true, if_false, List.headD_cons]
  · exact .inr (.inr ⟨l, ⟨AMap.mem_of_get? hg, by simpa using hlen⟩, hmem⟩)

/-- **C79** ... nor is an output file. -/
theorem output_accounted (files : List Name) {f : Name} {n : Nat} (hf : f ∈ files) (ht : TakenOut f n) :
    (∃ a, (a, f) ∈ (getSampleFiles files).pairs) ∨ f ∈ (getSampleFiles files).noInput ∨
      ∃ l, (n, l) ∈ (getSampleFiles files).twiceOut ∧ f ∈ l := by
  have hmem : f ∈ (files.filter (wildMatch "*output*.txt".toList)).filter (fun f => sampleNumber f = some n) := by
    rw [List.mem_filter, List.mem_filter]
    exact ⟨⟨hf, (wildMatch_iff _ _).2 ht.1⟩, by simpa using (sampleNumber_iff f n).2 ht.2⟩
  have hg : (byNumber (files.filter (wildMatch "*output*.txt".toList))).get? n =
      some ((files.filter (wildMatch "*output*.txt".toList)).filter (fun f => sampleNumber f = some n)) := by
    rw [byNumber_get, if_neg (List.ne_nil_of_mem hmem)]
  unfold getSampleFiles
  simp only
  rw [pairLoop_eq _ _ _ _ (byNumber_wf _) (byNumber_wf _)]
  simp only [List.nil_append, List.mem_filterMap, Option.map_eq_some_iff, Prod.mk.injEq, List.mem_filter,
    List.mem_map]
  generalize (files.filter (wildMatch "*output*.txt".toList)).filter (fun f => sampleNumber f = some n) = l at *
  by_cases hlen : l.length = 1
  · obtain ⟨x, rfl⟩ := List.length_eq_one_iff.1 hlen
    rw [List.mem_singleton] at hmem
    subst hmem
    cases hi : (byNumber (files.filter (wildMatch "*input*.txt".toList))).get? n with
    | some i => exact .inl ⟨i.headD [], (n, i), AMap.mem_of_get? hi, [f], hg, rfl, rfl⟩
    | none =>
      refine .inr (.inl ⟨(n, [f]), ⟨AMap.mem_of_get? hg, ?_⟩, rfl⟩)
      rw [decide_eq_true_eq, ← AMap.get?_eq_none_iff]
      exact hi
  · exact .inr (.inr ⟨l, ⟨AMap.mem_of_get? hg, by simpa using hlen⟩, hmem⟩)

theorem glob_of_ends {kind : String} {pat name : Name} {n : Nat} (hp : pat = '*' :: kind.toList ++ "*.txt".toList)
    (hk : ∀ c ∈ kind.toList, c ≠ '*') (h : Ends kind name n) : Glob pat name := by
  obtain ⟨pre, ds, h1, -⟩ := h
  have lit : ∀ (k p cs : Name), (∀ c ∈ k, c ≠ '*') → Glob p cs → Glob (k ++ p) (k ++ cs) := by
    intro k
    induction k with
    | nil => intro p cs _ h; exact h
    | cons c k ih =>
      intro p cs hc h
      exact .same _ _ c (hc c (by simp)) (ih p cs (fun d hd => hc d (by simp [hd])) h)
  rw [h1, hp]
  have e : pre ++ kind.toList ++ ds ++ ".txt".toList = pre ++ (kind.toList ++ (ds ++ ".txt".toList)) := by simp
  rw [e]
  refine .many _ pre _ (lit _ _ _ hk ?_)
  refine .many ".txt".toList ds _ ?_
  have := lit ".txt".toList [] [] (by decide) .nil
  simpa using this

/-- No name may be taken both as an input and as an output. -/
def Plain (files : List Name) : Prop :=
  ∀ f ∈ files, ¬ (Glob "*input*.txt".toList f ∧ Glob "*output*.txt".toList f)

/-- **C79** A pair of samples that is checked is an input and an output with the same number.  Missing: the
names with both `input` and `output` in them, see `sample_pair_mixed`. -/
theorem sample_pair_partial {files : List Name} (hp : Plain files) {a b : Name}
    (h : (a, b) ∈ (getSampleFiles files).pairs) :
    ∃ n, Ends "input" a n ∧ Ends "output" b n ∧ a ∈ files ∧ b ∈ files := by
  obtain ⟨n, ⟨l, r, h1, ⟨h2, h3⟩, -⟩, l', r', h4, ⟨h5, h6⟩, -⟩ := (samples_exact files a b).1 h
  have ha : a ∈ files := by rw [h1]; simp
  have hb : b ∈ files := by rw [h4]; simp
  refine ⟨n, ?_, ?_, ha, hb⟩
  · rcases h3 with h3 | h3
    · exact h3
    · exact absurd ⟨h2, glob_of_ends rfl (by decide) h3⟩ (hp a ha)
  · rcases h6 with h6 | h6
    · exact absurd ⟨glob_of_ends rfl (by decide) h6, h5⟩ (hp b hb)
    · exact h6

/-- **C79** ... with such names an input may be taken as its own output: the attachments of a task that is
called `output`. -/
theorem sample_pair_mixed : ∃ (files : List Name) (a : Name), Ends "input" a 0 ∧
    (a, a) ∈ (getSampleFiles files).pairs ∧ ∃ b ∈ files, Ends "output" b 0 ∧
      ∀ x, (x, b) ∉ (getSampleFiles files).pairs := by
  refine ⟨["output.input0.txt".toList, "output.output0.txt".toList], "output.input0.txt".toList,
    ⟨"output.".toList, "0".toList, rfl, by decide, by decide, by decide, by decide⟩, by decide +kernel,
    "output.output0.txt".toList, by simp,
    ⟨"output.".toList, "0".toList, rfl, by decide, by decide, by decide, by decide⟩, ?_⟩
  intro x hx
  have : (getSampleFiles ["output.input0.txt".toList, "output.output0.txt".toList]).pairs =
      [("output.input0.txt".toList, "output.input0.txt".toList)] := by decide +kernel
  rw [this] at hx
  simp at hx

/-- The attachments of a task: a pair, an input without output and an output twice. -/
example : getSampleFiles (["t.cpp", "t.input0.txt", "t.input1.txt", "t.input2.txt", "t.output0.txt",
    "t.output01.txt", "t.output1.txt", "t.output.txt"].map String.toList) =
    { pairs := [("t.input1.txt".toList, "t.output01.txt".toList), ("t.input0.txt".toList, "t.output0.txt".toList)]
      twiceOut := [(1, ["t.output01.txt".toList, "t.output1.txt".toList])]
      noOutput := ["t.input2.txt".toList] } := by decide +kernel

/-- The hypothesis of `sample_pair_partial` is met by the usual names. -/
example : Plain (["t.cpp", "t.input0.txt", "t.output0.txt"].map String.toList) := by
  intro f hf
  rw [← wildMatch_iff, ← wildMatch_iff]
  have : ∀ f ∈ ["t.cpp", "t.input0.txt", "t.output0.txt"].map String.toList,
    ¬ (wildMatch "*input*.txt".toList f = true ∧ wildMatch "*output*.txt".toList f = true) := by decide +kernel
  exact this f hf

end TM.Sanity
