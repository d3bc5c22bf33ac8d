import Verif.Format.PropsLoad
import Verif.Format.Cases

/-!
# C53: the inputs of a task without `gen/GEN` and `gen/cases.gen`

Model of `task-maker-format/src/ioi/format/italian_yaml/static_inputs.rs`.
-/
namespace TM.Format

/-- What the iterator takes from outside: the path of a file of `input/`, whether a file exists,
`get_validator(Some(id))` and `get_output_gen(id)` (static_inputs.rs:12-25). -/
structure StaticEnv where
  inputPath : Text → Text
  pathExists : Text → Bool
  validator : Nat → Validator
  outputGen : Nat → OutputGen

/-- `format!("input{}.txt", id)` (static_inputs.rs:48). -/
def inputName (id : Nat) : Text := "input".toList ++ natText id ++ ".txt".toList

/-- `next` of `StaticInputIter` (static_inputs.rs:34-60): the entry and the new index.  The index is a
`u32` there. -/
def staticNext (env : StaticEnv) (index : Nat) : Option (Entry × Nat) :=
  if index = 0 then
    some (.subtask { id := 0, name := some "static-testcases".toList, maxScore := 100, isDefault := true
                     validator := env.validator 0 }, 1)
  else
    let id := index - 1
    let path := env.inputPath (inputName id)
    if env.pathExists path then some (.testcase ⟨id, .staticFile path, env.outputGen id⟩, index + 1)
    else none

/-- The first entries that come out of the iterator, at most `n` of them, with whether it has ended. -/
def staticTake (env : StaticEnv) : Nat → Nat → List Entry × Bool
  | 0, _ => ([], false)
  | n + 1, index =>
    match staticNext env index with
    | none => ([], true)
    | some (e, index') => let (es, b) := staticTake env n index'; (e :: es, b)

/-! ## Specification -/

/-- The entries of a task with the inputs `input0.txt`, ..., `input{k-1}.txt`. -/
def staticEntries (env : StaticEnv) (k : Nat) : List Entry :=
  .subtask { id := 0, name := some "static-testcases".toList, maxScore := 100, isDefault := true
             validator := env.validator 0 } ::
  (List.range k).map fun i =>
    .testcase ⟨i, .staticFile (env.inputPath (inputName i)), env.outputGen i⟩

/-! ## Properties -/

theorem staticTake_from (env : StaticEnv) {k : Nat}
    (hin : ∀ i < k, env.pathExists (env.inputPath (inputName i)) = true)
    (hout : env.pathExists (env.inputPath (inputName k)) = false) (m : Nat) :
    ∀ i n, i + m = k → m + 1 ≤ n → staticTake env n (i + 1) =
      ((List.range' i m).map fun i =>
        .testcase ⟨i, .staticFile (env.inputPath (inputName i)), env.outputGen i⟩, true) := by
  induction m with
  | zero =>
    intro i n hi hn
    obtain ⟨n, rfl⟩ : ∃ n', n = n' + 1 := ⟨n - 1, by omega⟩
    have : i = k := by omega
    subst this
    simp [staticTake, staticNext, hout]
  | succ m ih =>
    intro i n hi hn
    obtain ⟨n, rfl⟩ : ∃ n', n = n' + 1 := ⟨n - 1, by omega⟩
    have := ih (i + 1) n (by omega) (by omega)
    simp [staticTake, staticNext, hin i (by omega), this, List.range'_succ]

/-- **C53.**  When `input/input{k}.txt` is the first file that is missing, the iterator ends after a
default subtask worth 100 points and exactly the testcases `0, …, k - 1`, in this order and each with its
own file. -/
theorem static_inputs (env : StaticEnv) {k : Nat}
    (hin : ∀ i < k, env.pathExists (env.inputPath (inputName i)) = true)
    (hout : env.pathExists (env.inputPath (inputName k)) = false) :
    ∀ n, k + 2 ≤ n → staticTake env n 0 = (staticEntries env k, true) := by
  intro n hn
  obtain ⟨n, rfl⟩ : ∃ n', n = n' + 1 := ⟨n - 1, by omega⟩
  have := staticTake_from env hin hout k 0 n (by omega) (by omega)
  simp only [staticTake, staticNext, if_true, this, staticEntries, List.range_eq_range']

/-- A file after the first one that is missing is not used: the tasks with `input0.txt` and `input2.txt`
have one testcase. -/
theorem static_gap (env : StaticEnv) (h0 : env.pathExists (env.inputPath (inputName 0)) = true)
    (h1 : env.pathExists (env.inputPath (inputName 1)) = false) :
    ∀ n, 3 ≤ n → tcIds (staticTake env n 0).1 = [0] := by
  intro n hn
  rw [static_inputs env (k := 1) (by intro i hi; have : i = 0 := by omega
                                     subst this; exact h0) h1 n (by omega)]
  rfl

/-- The files of different testcases have different names. -/
theorem inputName_injective {i j : Nat} (h : inputName i = inputName j) : i = j := by
  unfold inputName at h
  rw [List.append_assoc, List.append_assoc] at h
  have := List.append_cancel_right (List.append_cancel_left h)
  unfold natText at this
  have h2 := congrArg (fun l => Nat.ofDigitChars 10 l 0) this
  simpa [Nat.ofDigitChars_toDigits] using h2

/-- **C53 and C36.**  The entries are well numbered, so that loading them ends and never panics. -/
theorem static_wellNumbered (env : StaticEnv) (k : Nat) : WellNumbered (staticEntries env k) := by
  have hst : stIds (staticEntries env k) = [0] := by
    simp only [staticEntries, stIds, List.filterMap_cons, List.filterMap_map]
    congr 1
    rw [List.filterMap_eq_nil_iff]
    intro i _; rfl
  have htc : tcIds (staticEntries env k) = List.range k := by
    simp only [staticEntries, tcIds, List.filterMap_cons, List.filterMap_map]
    exact List.filterMap_some
  have honly : ∀ s, Entry.subtask s ∈ staticEntries env k →
      s.testcases = [] ∧ s.owned = [] ∧ s.dependencies = [] := by
    intro s hs
    rcases List.mem_cons.1 hs with h | h
    · cases h; exact ⟨rfl, rfl, rfl⟩
    · obtain ⟨i, _, h⟩ := List.mem_map.1 h; cases h
  refine ⟨?_, ?_, fun s hs => ⟨(honly s hs).1, (honly s hs).2.1⟩, ?_, ?_⟩
  · intro t rest h; cases h
  · rw [hst]; simp
  · intro s hs d hd
    rw [(honly s hs).2.2] at hd; cases hd
  · rw [htc]; exact List.pairwise_lt_range

/-- A directory with two inputs. -/
def staticEnv0 : StaticEnv where
  inputPath := fun n => "/t/input/".toList ++ n
  pathExists := fun p => ["/t/input/input0.txt".toList, "/t/input/input1.txt".toList].contains p
  validator := fun _ => .assumeValid
  outputGen := fun _ => .notAvailable

example : staticTake staticEnv0 4 0 = (staticEntries staticEnv0 2, true) :=
  static_inputs staticEnv0 (k := 2) (by decide +kernel) (by decide +kernel) 4 (by omega)

end TM.Format
