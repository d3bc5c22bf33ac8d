import Verif.BadCase.Patch
import Verif.BadCase.Lemmas
import Verif.Build.Props
import Verif.Format.PropsNumbers
/-!
# Lemmas about the task and the DAG of a batch
-/
namespace TM.BadCase
open TM TM.Build BadCase.Spec

/-! ## Text -/

theorem rfind_skip {p : Text} : ∀ {a b : Text} {i : Nat}, rfind p b = some i → rfind p (a ++ b) = some (a.length + i) := by
  intro a
  induction a with
  | nil => intro b i h; simpa using h
  | cons c a ih =>
    intro b i h
    show rfind p (c :: (a ++ b)) = _
    unfold rfind
    rw [ih h]
    simp; omega

/-- The last occurrence, when there is no other after its beginning. -/
theorem rfind_last {c : Char} {p a b : Text} (h : rfind (c :: p) (p ++ b) = none) :
    rfind (c :: p) (a ++ (c :: p ++ b)) = some a.length := by
  have : rfind (c :: p) (c :: p ++ b) = some 0 := by
    show rfind (c :: p) (c :: (p ++ b)) = _
    unfold rfind
    rw [h]
    have : (c :: p).isPrefixOf (c :: (p ++ b)) = true := List.isPrefixOf_iff_prefix.2 ⟨b, by simp⟩
    simp only [this, if_true]
  rw [rfind_skip this, Nat.add_zero]

theorem rfind_cons_none {c d : Char} {p s : Text} (hcd : c ≠ d) (h : rfind (c :: p) s = none) :
    rfind (c :: p) (d :: s) = none := by
  unfold rfind
  rw [h]
  have : (c :: p).isPrefixOf (d :: s) = false := by simp [List.isPrefixOf, hcd]
  simp only [this]
  rfl

theorem rfind_append_none {c : Char} {p r : Text} (h : rfind (c :: p) r = none) : ∀ {ds : Text}, (∀ d ∈ ds, c ≠ d) →
    rfind (c :: p) (ds ++ r) = none := by
  intro ds
  induction ds with
  | nil => intro _; exact h
  | cons d ds ih =>
    intro hd
    exact rfind_cons_none (hd d (by simp)) (ih (fun x hx => hd x (by simp [hx])))

theorem decimal_ne {c : Char} (h : Format.isDigit c = false) (n : Nat) : ∀ d ∈ (toString n).toList, c ≠ d := by
  rintro d hd rfl
  rw [Format.decimal_digits (n := n) hd] at h
  cases h

theorem parseSlice_decimal (a b : Text) (n : Nat) :
    parseSlice (a ++ ((toString n).toList ++ b)) a.length (a.length + (toString n).toList.length) = some n := by
  have : ((a ++ ((toString n).toList ++ b)).take (a.length + (toString n).toList.length)).drop a.length =
      (toString n).toList := by
    rw [← List.append_assoc, List.take_left' (by simp), List.drop_left' rfl]
  unfold parseSlice
  simp only [this]
  rw [if_pos ⟨Format.decimal_ne_nil n, List.all_eq_true.2 (fun c hc => Format.decimal_digits (n := n) hc)⟩]
  exact congrArg some (Format.digitsVal_decimal n)

/-- The name of an input or of an output. -/
def ioName (pre : Text) (n : Nat) : Text := pre ++ ("put".toList ++ ((toString n).toList ++ ".txt".toList))

theorem fileName_io {dir pre : Text} {n : Nat} (hp : ∀ d ∈ pre, '/' ≠ d) :
    fileName (dir ++ ('/' :: ioName pre n)) = ioName pre n := by
  have h0 : rfind ['/'] (ioName pre n) = none := by
    unfold ioName
    have := rfind_append_none (c := '/') (p := []) (r := []) rfl (ds := ioName pre n) (by
      intro d hd
      simp only [ioName, List.mem_append] at hd
      rcases hd with hd | hd | hd | hd
      · exact hp d hd
      · revert d; decide
      · exact decimal_ne (by decide) n d hd
      · revert d; decide)
    simpa [ioName] using this
  unfold fileName
  rw [show dir ++ '/' :: ioName pre n = dir ++ (['/'] ++ ioName pre n) by simp, rfind_last (by simpa using h0)]
  simp only
  rw [← List.append_assoc, List.drop_left' (by simp)]

theorem id_io {dir pre : Text} {n : Nat} (hp : ∀ d ∈ pre, '/' ≠ d) :
    idOfFile (dir ++ ('/' :: ioName pre n)) = some n := by
  unfold idOfFile
  rw [fileName_io hp]
  have h1 : rfind "put".toList (ioName pre n) = some pre.length := by
    unfold ioName
    refine rfind_last (c := 'p') (p := ['u', 't']) ?_
    refine rfind_append_none (ds := ['u', 't']) ?_ (by decide)
    exact rfind_append_none (by decide) (decimal_ne (by decide) n)
  have h2 : rfind ".".toList (ioName pre n) = some (pre.length + 3 + (toString n).toList.length) := by
    have : ioName pre n = (pre ++ "put".toList ++ (toString n).toList) ++ ('.' :: [] ++ "txt".toList) := by
      simp [ioName]
    rw [this]
    refine (rfind_last (c := '.') (p := []) (by decide)).trans ?_
    simp; omega
  simp only [h1, h2]
  have := parseSlice_decimal (pre ++ "put".toList) ".txt".toList n
  rw [List.length_append, List.append_assoc] at this
  exact this

/-- The testcase in the description of an execution. -/
theorem id_description (pre : Text) (tc st : Nat) :
    idOfDescription (pre ++ (" on testcase ".toList ++ ((toString tc).toList ++ (", subtask ".toList ++
      (toString st).toList)))) = some tc := by
  have hst : ∀ c : Char, ∀ p, Format.isDigit c = false → rfind (c :: p) ((toString st).toList) = none := by
    intro c p hc
    have := rfind_append_none (c := c) (p := p) (r := []) rfl (decimal_ne hc st)
    simpa using this
  have h1 : rfind "testcase ".toList (pre ++ (" on testcase ".toList ++ ((toString tc).toList ++ (", subtask ".toList ++
      (toString st).toList)))) = some (pre ++ " on ".toList).length := by
    rw [show pre ++ (" on testcase ".toList ++ ((toString tc).toList ++ (", subtask ".toList ++ (toString st).toList))) =
      (pre ++ " on ".toList) ++ ('t' :: "estcase ".toList ++ ((toString tc).toList ++ (", subtask ".toList ++
        (toString st).toList))) by simp]
    refine rfind_last (c := 't') (p := "estcase ".toList) ?_
    have h2 : rfind ('t' :: "estcase ".toList) (", subtask ".toList ++ (toString st).toList) = none := by
      have h3 : rfind ('t' :: "estcase ".toList) ("ask ".toList ++ (toString st).toList) = none :=
        rfind_append_none (hst _ _ (by decide)) (by decide)
      have h4 : rfind ('t' :: "estcase ".toList) ("task ".toList ++ (toString st).toList) = none := by
        show rfind _ ('t' :: ("ask ".toList ++ (toString st).toList)) = none
        unfold rfind
        rw [h3]
        simp [List.isPrefixOf]
      exact rfind_append_none (ds := ", sub".toList) h4 (by decide)
    have h5 : rfind ('t' :: "estcase ".toList) ((toString tc).toList ++ (", subtask ".toList ++ (toString st).toList)) =
        none := rfind_append_none h2 (decimal_ne (by decide) tc)
    have h6 : rfind ('t' :: "estcase ".toList) ("case ".toList ++ ((toString tc).toList ++ (", subtask ".toList ++
        (toString st).toList))) = none := rfind_append_none h5 (by decide)
    have h7 : rfind ('t' :: "estcase ".toList) ('t' :: ("case ".toList ++ ((toString tc).toList ++ (", subtask ".toList ++
        (toString st).toList)))) = none := by
      unfold rfind
      rw [h6]
      simp [List.isPrefixOf]
    exact rfind_append_none (ds := "es".toList) h7 (by decide)
  have h2 : rfind ", ".toList (pre ++ (" on testcase ".toList ++ ((toString tc).toList ++ (", subtask ".toList ++
      (toString st).toList)))) = some ((pre ++ " on testcase ".toList).length + (toString tc).toList.length) := by
    rw [show pre ++ (" on testcase ".toList ++ ((toString tc).toList ++ (", subtask ".toList ++ (toString st).toList))) =
      (pre ++ " on testcase ".toList ++ (toString tc).toList) ++ (',' :: [' '] ++ ("subtask ".toList ++
        (toString st).toList)) by simp]
    refine (rfind_last (c := ',') (p := [' ']) ?_).trans (by simp; omega)
    exact rfind_append_none (ds := [' ']) (rfind_append_none (hst _ _ (by decide)) (by decide)) (by decide)
  unfold idOfDescription
  rw [h1, h2]
  simp only
  have := parseSlice_decimal (pre ++ " on testcase ".toList) (", subtask ".toList ++ (toString st).toList) tc
  rw [List.append_assoc] at this
  rw [show (pre ++ " on ".toList).length + 9 = (pre ++ " on testcase ".toList).length by simp]
  exact this

/-! ## The task of a batch -/

variable {task task' : Task} {v : InputValidator} {args : List String} {size index : Nat} {seed : Nat → Nat} {batch : Batch}

/-- The arguments with the seed in the place of the placeholder. -/
def argsOf (args : List String) (seed : Nat) : List String := args.map (fun a => if a = "{}" then toString seed else a)

/-- The subtask of a batch. -/
def batchSubtask (v : InputValidator) (index : Nat) (keys : List Nat) : Subtask :=
  { id := 0
    name := some ("batch-" ++ toString index)
    testcases := keys
    owned := keys
    validator := v }

theorem patchTask_some (h : patchTask task v args size index seed = some (task', batch)) :
    ∃ t src a, t ∈ task.testcases.values ∧ t.input = .custom src a ∧ batch = makeBatch args size index seed ∧
      task' = { task with
        testcases := batch.map (testcaseOf t)
        subtasks := [(0, batchSubtask v index (AMap.keys (batch.map (testcaseOf t))))] } := by
  unfold patchTask at h
  split at h
  · cases h
  · next t ht =>
    cases h
    have h1 := List.find?_some ht
    have h2 := List.mem_of_find?_eq_some ht
    unfold hasGenerator at h1
    split at h1
    · next src a he => exact ⟨t, src, a, h2, he, rfl, rfl⟩
    · cases h1

theorem keys_map_testcase (t : Testcase) (b : Batch) : AMap.keys (b.map (testcaseOf t)) = b.keys := by
  simp only [AMap.keys, List.map_map]
  rfl

theorem get_map_testcase (t : Testcase) (k : Nat) : ∀ b : Batch,
    AMap.get? (b.map (testcaseOf t)) k = (b.get? k).map (fun c => (testcaseOf t (k, c)).2) := by
  intro b
  induction b with
  | nil => rfl
  | cons p b ih =>
    obtain ⟨k', c⟩ := p
    show AMap.get? ((k', (testcaseOf t (k', c)).2) :: b.map (testcaseOf t)) k = _
    rw [AMap.get?_cons, AMap.get?_cons, ih]
    split
    · next h => have h : k' = k := by simpa using h
                subst h; rfl
    · rfl

theorem batch_keys (args : List String) (size index : Nat) (seed : Nat → Nat) :
    (makeBatch args size index seed).keys = (List.range size).map (fun j => index * size + j) := by
  simp only [makeBatch, AMap.keys, List.map_map]
  rfl

theorem batch_keys_nodup (args : List String) (size index : Nat) (seed : Nat → Nat) :
    (makeBatch args size index seed).keys.Nodup := by
  rw [batch_keys]
  exact List.Pairwise.map (fun j => index * size + j) (R := fun a b => a ≠ b) (S := fun a b => a ≠ b) (fun a b h e => h (by omega)) List.nodup_range

end TM.BadCase
