import Verif.Report.PropsLive
import Verif.Ui.Examples
/-!
# What the report says of the cache (C117), and the theorems about the report on a sample
-/
namespace TM.Report
open TM TM.Build TM.Ui Report.Spec

variable {v : View} {j k : Nat} {x : TcEval} {row : Line}

/-- **C117** The line of a testcase ends with `(from cache)` only if all the executions of the solution on it come from
the cache, provided that one of them ended.  Missing: the testcases without results, see `cache_claimed`. -/
theorem from_cache_partial (h : TcRow v j k x row) (hend : SomePart x (fun _ => True)) :
    ∃ front tail, row = front ++ tail ∧ (tail = [⟨.plain, " (from cache)".toList⟩] ∨ tail = []) ∧
      (tail ≠ [] ↔ SomePart x (fun i => (v.part j k i).cached = true) ∧
        ¬ SomePart x (fun i => (v.part j k i).cached = false)) := by
  obtain ⟨usage, details, killed, cached, h1, -, -, -, -, h6⟩ := h
  refine ⟨_, _, h1, ?_, ?_⟩
  · cases cached
    · exact .inr rfl
    · exact .inl rfl
  · cases hc : cached with
    | false =>
      simp only [Bool.false_eq_true, if_false, ne_eq, not_true_eq_false, false_iff, not_and, Classical.not_not]
      exact fun _ => h6.1 hc
    | true =>
      simp only [if_true, ne_eq, List.cons_ne_self, not_false_eq_true, true_iff]
      have hn : ¬ SomePart x (fun i => (v.part j k i).cached = false) := fun hp => by
        rw [h6.2 hp] at hc; cases hc
      refine ⟨?_, hn⟩
      obtain ⟨i, r, hi, -⟩ := hend
      refine ⟨i, r, hi, ?_⟩
      cases hcc : (v.part j k i).cached with
      | true => exact hcc
      | false => exact absurd ⟨i, r, hi, hcc⟩ hn

/-- **C117** ... a testcase that has no result is always reported as coming from the cache. -/
theorem cache_claimed_always (h : TcRow v j k x row) (hnone : ∀ r ∈ x.results, r = none) :
    ∃ front, row = front ++ [⟨.plain, [' '] ++ messageOf x.status⟩, ⟨.plain, " (from cache)".toList⟩] := by
  obtain ⟨usage, details, killed, cached, h1, -, -, h4, h5, h6⟩ := h
  have hno : ∀ p, ¬ SomePart x p := by
    rintro p ⟨i, r, hi, -⟩
    have := hnone _ (List.mem_of_getElem? hi)
    cases this
  have hk : killed = false := by
    cases hk : killed with
    | false => rfl
    | true => exact absurd (h5.1 hk) (hno _)
  have hc : cached = true := by
    cases hc : cached with
    | true => rfl
    | false => exact absurd (h6.1 hc) (hno _)
  have hd : details = [] := by
    have : x.results.filterMap id = [] := by
      rw [List.filterMap_eq_nil_iff]
      intro r hr
      rw [hnone r hr]; rfl
    rw [this] at h4
    exact List.map_eq_nil_iff.1 h4
  subst hk hc hd
  refine ⟨[⟨.plain, padLeft 3 (digits k) ++ [')', ' ']⟩, testcaseScore v x.score] ++ usage, h1.trans ?_⟩
  simp only [Bool.false_eq_true, if_false, if_true, List.append_nil, List.append_assoc]
  rfl

namespace Sample
open TM.Build.Sample

/-- The evaluation of the first testcase is skipped, for example because the solution does not compile. -/
def skipped : List Message := [.progress (.evaluation 0 0 0 0 1) (.told .skipped)]

end Sample

open Sample in
/-- **C117** ... and this happens: an evaluation that was skipped is shown as skipped and as coming from the cache. -/
theorem cache_claimed : ∃ s, Reached Build.Sample.batch s ∧ statusOf s 0 0 = .skipped ∧
    ∀ (v : View) (row : Line), TcRow v 0 0 (tcOf s 0 0) row →
      ∃ front, row = front ++ [⟨.plain, [' '] ++ "Execution skipped".toList⟩, ⟨.plain, " (from cache)".toList⟩] := by
  have hs : ((State.new Build.Sample.batch).applyAll Build.Sample.batch skipped).isSome = true := by decide +kernel
  obtain ⟨s, hs⟩ := Option.isSome_iff_exists.1 hs
  have hstat : ((State.new Build.Sample.batch).applyAll Build.Sample.batch skipped).map (fun s => statusOf s 0 0) =
      some .skipped := by decide +kernel
  have hres : ((State.new Build.Sample.batch).applyAll Build.Sample.batch skipped).map (fun s => (tcOf s 0 0).results) =
      some [none] := by decide +kernel
  have hst2 : ((State.new Build.Sample.batch).applyAll Build.Sample.batch skipped).map (fun s => (tcOf s 0 0).status) =
      some .skipped := by decide +kernel
  rw [hs] at hstat hres hst2
  refine ⟨s, ⟨skipped, ?_, hs⟩, by simpa using hstat, fun v row hrow => ?_⟩
  · intro m hm
    rw [skipped, List.mem_singleton] at hm
    subst hm
    refine ⟨?_, by decide⟩
    decide +kernel
  · have h1 : (tcOf s 0 0).results = [none] := by simpa using hres
    have h2 : (tcOf s 0 0).status = .skipped := by simpa using hst2
    have := cache_claimed_always hrow (by rw [h1]; intro r hr; simpa using hr)
    rw [h2] at this
    exact this

/-! ## The sample -/

namespace Sample
open TM.Build.Sample

theorem batch_sound : Sound Build.Sample.batch := by
  refine ⟨Ui.Sample.batch_keyed, ?_, ?_, ?_⟩
  · simp [batch, subtasks, AMap.values]
  · simp [batch, subtasks, AMap.values]
  · intro st info h
    have h1 : st ∈ batch.subtasks.keys := AMap.mem_keys_iff.2 ⟨info, h⟩
    simp only [batch, subtasks, AMap.keys, List.map_cons, List.map_nil, List.mem_cons, List.not_mem_nil, or_false] at h1
    simp only [batch, subtasks, List.length_cons, List.length_nil]
    omega

/-- The same task, with a name for both the subtasks. -/
def named : Task :=
  { batch with
    subtasks := batch.subtasks.map (fun p => (p.1, { p.2 with name := some (if p.1 = 0 then "easy" else "è dura") })) }

theorem named_sound : Sound named := by
  refine ⟨⟨by unfold AMap.Wf; decide +kernel, ?_⟩, ?_, ?_, ?_⟩
  · intro st info h
    simp only [named, batch, subtasks, AMap.get?, List.map_cons, List.map_nil] at h
    grind
  · simp [named, batch, subtasks, AMap.values]
  · simp [named, batch, subtasks, AMap.values]
  · intro st info h
    have h1 : st ∈ named.subtasks.keys := AMap.mem_keys_iff.2 ⟨info, h⟩
    simp only [named, batch, subtasks, AMap.keys, List.map_cons, List.map_nil, List.mem_cons, List.not_mem_nil, or_false] at h1
    simp only [named, batch, subtasks, List.map_cons, List.map_nil, List.length_cons, List.length_nil]
    omega

/-- Numbers without a fractional part, two solutions. -/
def view : View where
  fixed := fun _ x => match x with
    | .num q => digits q.num.toNat
    | .nan => "NaN".toList
  debug := fun _ => "?".toList
  detail := fun _ => []
  name := fun j => if j = 0 then "sol.cpp".toList else "naïve.py".toList
  le := fun a b => decide (b ≤ a)
  symlink := fun _ => false
  close := fun j k => decide (j = 1 ∧ k = 1)
  points := Ui.Sample.maxScore
  total := 100
  precision := 0
  tcPrecision := 0
  part := fun _ _ _ => ⟨"0s".toList, false, true⟩
  nfkc := id

theorem view_total : TotalLe view.le := by
  have h : ∀ a b, view.le a b = true ↔ b ≤ a := fun a b => decide_eq_true_iff
  refine ⟨fun a b => ?_, fun a b c h1 h2 => ?_, fun a b h1 h2 => ?_⟩ <;> simp only [h] at * <;> omega

/-- The messages of an evaluation: the first solution exceeds the time limit on the second testcase, the second one is
right on the first testcase and half right on the second one. -/
def messages : List Message :=
  [.solutions [(0, [⟨.timeLimit, "*".toList⟩, ⟨.accepted, "easy".toList⟩]), (1, [⟨.accepted, "*".toList⟩])],
   .progress (.generation 0 0) (.told (.done .success)),
   .progress (.validation 0 0) (.told (.done (.returnCode 1))),
   .progress (.evaluation 0 0 0 0 1) (.told (.done .success)),
   .testcaseScore 0 0 0 (.num 1) "",
   .progress (.evaluation 1 1 0 0 1) (.told (.done .timeLimitExceeded)),
   .testcaseScore 1 1 0 (.num 0) "too slow",
   .subtaskScore 0 0 (.num 40) (.num 1),
   .subtaskScore 1 0 (.num 0) (.num 0),
   .taskScore 0 (.num 40),
   .progress (.evaluation 0 0 1 0 1) (.told (.done .success)),
   .testcaseScore 0 0 1 (.num 1) "ok",
   .progress (.evaluation 1 1 1 0 1) (.told (.done .success)),
   .testcaseScore 1 1 1 (.num (1/2)) "half"]

/-- What is read. -/
def page (f : State → Option (List Line)) : Option (List String) :=
  (((State.new named).applyAll named messages).bind f).map (·.map (fun l => String.ofList (lineText l)))

theorem messages_known' : ∀ m ∈ messages, m.Known named := by
  unfold messages
  simp only [List.forall_mem_cons]
  refine ⟨trivial, ⟨_, rfl, by decide⟩, ⟨_, rfl⟩, ⟨by decide +kernel, by decide⟩, ?_, ⟨by decide +kernel, by decide⟩, ?_, ?_, ?_, trivial,
    ⟨by decide +kernel, by decide⟩, ?_, ⟨by decide +kernel, by decide⟩, ?_, fun _ h => nomatch h⟩ <;>
    (simp only [Message.Known]; decide +kernel)

end Sample

open Sample in
/-- The hypotheses of the theorems are met. -/
example : Sound named ∧ TotalLe view.le ∧ (∀ st ∈ named.subtasks.values, st.name.isSome) ∧
    ∃ s, Reached named s ∧ s.evaluations ≠ [] := by
  have hs : ((State.new named).applyAll named messages).any (fun s => decide (s.evaluations ≠ [])) = true := by decide +kernel
  cases h : (State.new named).applyAll named messages with
  | none => rw [h] at hs; cases hs
  | some s =>
    rw [h] at hs
    refine ⟨named_sound, view_total, ?_, s, ⟨messages, messages_known', h⟩, by simpa using hs⟩
    simp [named, Build.Sample.batch, Build.Sample.subtasks, AMap.values]

open Sample in
/-- The summary of the sample. -/
example : page (summary named view) = some
    ["Summary", "           100 |  40   60  ", " naïve.py    X |   X    X    [A][P]", "  sol.cpp   40 |  40    0    [A][T]", ""] := by
  decide +kernel

open Sample in
/-- The table of the checks of the sample: the columns are aligned though `ï` and `è` take two bytes. -/
example : page (table named view) = some
    ["Subtask results", "          | easy   | è dura ", " naïve.py | AC     | AC     ", "  sol.cpp | TLE AC | TLE    ", ""] := by
  decide +kernel

open Sample in
/-- The generations of the sample. -/
example : page (generations named view) = some
    ["Generations", "Subtask 0 [easy]: 40 points", "#0   Generated | Validation failed: ?",
     "Subtask 1 [è dura]: 60 points", "#1   "] := by
  decide +kernel

open Sample in
/-- The evaluations of the sample. -/
example : page (evaluations named view) = some
    ["Evaluations", "naïve.py: X / 100", "Subtask #0 [easy]: X / 40", "  0) [1] [0s] ok (from cache)",
     "Subtask #1 [è dura]: X / 60", "  1) [1] [0s] half (from cache)", "",
     "sol.cpp: 40 / 100", "Subtask #0 [easy]: 40 / 40", "  0) [1] [0s] Output is correct (from cache)",
     "Subtask #1 [è dura]: 0 / 60", "  1) [0] [0s] Time limit exceeded (from cache)", ""] := by
  decide +kernel

end TM.Report
