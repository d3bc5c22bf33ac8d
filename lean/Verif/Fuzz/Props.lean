import Verif.Fuzz.Model
/-!
# What the tool shows is what the checker was given (C97)
-/
namespace TM.Fuzz
open TM TM.Build

variable {dir : String} {num : Nat} {task : Task} {read : String → Option Bytes} {old : Option (List Failure)}

/-! ## Helpers -/

theorem fromLe_toLe {i : Nat} (h : i < 2 ^ 32) : fromLe (toLe i) = i := by
  simp only [toLe, fromLe]
  omega

theorem corpus_some {l : List Nat} {cs : List Bytes} (h : corpus read dir l = some cs) {i : Nat} {c : Bytes}
    (hc : cs[i]? = some c) : ∃ k out, l[i]? = some k ∧ read (outputPath dir k) = some out ∧ c = toLe k ++ out := by
  induction l generalizing cs i with
  | nil =>
    cases h
    simp at hc
  | cons k l ih =>
    unfold corpus at h
    split at h
    · next out cs' h1 h2 =>
      cases h
      cases i with
      | zero =>
        simp only [List.getElem?_cons_zero, Option.some.injEq] at hc
        exact ⟨k, out, rfl, h1, hc.symm⟩
      | succ i =>
        simp only [List.getElem?_cons_succ] at hc ⊢
        exact ih h2 hc
    · cases h

theorem corpus_exists {l : List Nat} : (∃ cs, corpus read dir l = some cs ∧ cs.length = l.length) ↔
    ∀ k ∈ l, (read (outputPath dir k)).isSome = true := by
  induction l with
  | nil => simp [corpus]
  | cons k l ih =>
    constructor
    · rintro ⟨cs, h, hl⟩
      unfold corpus at h
      split at h
      · next out cs' h1 h2 =>
        cases h
        intro x hx
        rcases List.mem_cons.1 hx with rfl | hx
        · rw [h1]; rfl
        · exact ih.1 ⟨cs', h2, by simpa using hl⟩ x hx
      · cases h
    · intro h
      obtain ⟨cs, h1, h2⟩ := ih.2 (fun x hx => h x (List.mem_cons_of_mem _ hx))
      obtain ⟨out, h3⟩ := Option.isSome_iff_exists.1 (h k (List.mem_cons_self ..))
      exact ⟨(toLe k ++ out) :: cs, by unfold corpus; rw [h3, h1], by simp [h2]⟩

theorem failures_get {l : List Artifact} {i : Nat} {f : Failure} (h : (failuresOf dir num l).1[i]? = some f) :
    ∃ a, l[i]? = some a ∧ failureOf dir num a = some f := by
  induction l generalizing i with
  | nil => simp [failuresOf] at h
  | cons a l ih =>
    unfold failuresOf at h
    split at h
    · simp at h
    · next g hg =>
      cases i with
      | zero =>
        simp only [List.getElem?_cons_zero, Option.some.injEq] at h
        subst h
        exact ⟨a, rfl, hg⟩
      | succ i =>
        simp only [List.getElem?_cons_succ] at h ⊢
        exact ih h

theorem failures_all {l : List Artifact} (h : ∀ a ∈ l, (failureOf dir num a).isSome = true) :
    (failuresOf dir num l).1.length = l.length ∧ (failuresOf dir num l).2 = true := by
  induction l with
  | nil => exact ⟨rfl, rfl⟩
  | cons a l ih =>
    obtain ⟨f, hf⟩ := Option.isSome_iff_exists.1 (h a (List.mem_cons_self ..))
    obtain ⟨h1, h2⟩ := ih (fun x hx => h x (List.mem_cons_of_mem _ hx))
    unfold failuresOf
    rw [hf]
    exact ⟨by simp [h1], h2⟩

/-! ## The failures -/

/-- **C97** If the fuzzer found failures each directory made is about one of them, in order, and has what the checker was
given: the input and the official output of that testcase, and the output of the contestant. -/
theorem failure_exact {artifacts : List Artifact} (hne : artifacts ≠ []) {shown : List Failure}
    (h : (organize dir num old artifacts).1 = some shown) {i : Nat} {f : Failure} (hf : shown[i]? = some f) :
    ∃ a, artifacts[i]? = some a ∧ f.artifact = a.path ∧
      ∀ c, call dir num a.bytes = some c → f.input = c.input ∧ f.correct = c.correct ∧ f.output = c.output := by
  unfold organize at h
  rw [if_neg hne] at h
  cases h
  obtain ⟨a, h1, h2⟩ := failures_get hf
  unfold failureOf at h2
  split at h2
  · cases h2
  · cases h2
    refine ⟨a, h1, rfl, fun c hc => ?_⟩
    unfold call at hc
    split at hc
    · cases hc
    · cases hc
      exact ⟨rfl, rfl, rfl⟩

/-- **C97** All the failures are shown, if in each of them the checker was called. -/
theorem failures_complete (hn : num ≠ 0) {artifacts : List Artifact} (hne : artifacts ≠ [])
    (h : ∀ a ∈ artifacts, (call dir num a.bytes).isSome = true) :
    ∃ shown, organize dir num old artifacts = (some shown, true) ∧ shown.length = artifacts.length := by
  have := failures_all (dir := dir) (num := num) (l := artifacts) (fun a ha => by
    have h1 := h a ha
    unfold call at h1
    unfold failureOf
    split at h1
    · cases h1
    · rw [if_neg (by omega)]; rfl)
  refine ⟨(failuresOf dir num artifacts).1, ?_, this.1⟩
  unfold organize
  rw [if_neg hne, ← this.2]

/-- **C97** ... but if there are none those of the last time stay there. -/
theorem failures_stale (old : Option (List Failure)) : organize dir num old [] = (old, true) := rfl

/-- The output has the type of the failure in its name. -/
theorem output_name {artifacts : List Artifact} (hne : artifacts ≠ []) {shown : List Failure}
    (h : (organize dir num old artifacts).1 = some shown) {i : Nat} {f : Failure} (hf : shown[i]? = some f)
    {a : Artifact} (ha : artifacts[i]? = some a) {kind rest : List Char} (hk : '-' ∉ kind)
    (hname : a.name = kind ++ '-' :: rest) : f.outputName = "output-".toList ++ kind ++ ".txt".toList := by
  unfold organize at h
  rw [if_neg hne] at h
  cases h
  obtain ⟨a', h1, h2⟩ := failures_get hf
  rw [ha] at h1
  cases h1
  unfold failureOf at h2
  split at h2
  · cases h2
  · cases h2
    show "output-".toList ++ failType a.name ++ ".txt".toList = _
    rw [hname]
    have : failType (kind ++ '-' :: rest) = kind := by
      unfold failType
      rw [List.takeWhile_append_of_pos]
      · simp
      · intro c hc
        simp only [decide_eq_true_eq]
        rintro rfl
        exact hk hc
    rw [this]

/-- **C97** The command in the README names the file that is there if the checker crashed. -/
theorem readme_partial {artifacts : List Artifact} (hne : artifacts ≠ []) {shown : List Failure}
    (h : (organize dir num old artifacts).1 = some shown) {i : Nat} {f : Failure} (hf : shown[i]? = some f)
    {a : Artifact} (ha : artifacts[i]? = some a) {rest : List Char} (hname : a.name = "crash-".toList ++ rest) :
    f.outputName = readmeOutput := by
  rw [output_name hne h hf ha (kind := "crash".toList) (rest := rest) (by decide) (by rw [hname]; rfl)]
  rfl

/-! ## The corpus -/

/-- **C97** The fuzzer starts from the official outputs: on the `i`-th file of the corpus it gives to the checker testcase `i`
with its official output (if that is not empty). -/
theorem corpus_exact (hnum : numTestcases task ≤ 2 ^ 32) {files : List Bytes}
    (h : initialCorpus read dir task = some files) {i : Nat} {data : Bytes} (hd : files[i]? = some data) :
    ∃ out, read (outputPath dir i) = some out ∧
      (out ≠ [] → call dir (numTestcases task) data = some ⟨inputPath dir i, outputPath dir i, out⟩) := by
  obtain ⟨k, out, h1, h2, h3⟩ := corpus_some h hd
  have hk : k = i ∧ i < numTestcases task := by
    rw [List.getElem?_eq_some_iff] at h1
    obtain ⟨hlt, h1⟩ := h1
    simp only [List.getElem_range] at h1
    simp only [List.length_range] at hlt
    exact ⟨h1.symm, hlt⟩
  obtain ⟨rfl, hlt⟩ := hk
  refine ⟨out, h2, fun hne => ?_⟩
  unfold call
  have hlen : ¬ data.length ≤ 4 := by
    rw [h3]
    have : out.length ≠ 0 := fun e => hne (List.length_eq_zero_iff.1 e)
    simp only [List.length_append, toLe, List.length_cons, List.length_nil]
    omega
  have h4 : data.take 4 = toLe k := by rw [h3]; rfl
  have h5 : data.drop 4 = out := by rw [h3]; rfl
  rw [if_neg hlen]
  simp only [h4, h5, fromLe_toLe (by omega : k < 2 ^ 32), Nat.mod_eq_of_lt hlt]

/-- **C97** If each testcase is in one subtask only, and they are numbered from 0, the corpus has one file for each
testcase. -/
theorem corpus_complete_partial {m : Nat} (hm : (task.subtasks.values.flatMap (·.testcases)).Perm (List.range m))
    (h : ∀ k < m, (read (outputPath dir k)).isSome = true) :
    ∃ files, initialCorpus read dir task = some files ∧ files.length = m := by
  have hn : numTestcases task = m := by
    have := hm.length_eq
    rw [List.length_flatMap, List.length_range] at this
    exact this
  obtain ⟨files, h1, h2⟩ := (corpus_exists (l := List.range m)).2 (fun k hk => h k (List.mem_range.1 hk))
  refine ⟨files, ?_, by simpa using h2⟩
  unfold initialCorpus
  rw [hn]
  exact h1

end TM.Fuzz
