import Verif.Terry.ReportLemmas
import Verif.Terry.UiSample
/-!
# C132: the final report of a Terry task
-/
namespace TM.Terry.Report
open TM TM.Terry
open TM.Report (Text Color Seg Line byteLen)
open TM.Build (FS Eval Outcome Notice)
open TM.Build.Spec (start Ordered outcomeOf)
open Terry.Spec DagSpec

section
variable {v : View} {u : Ui Said} {j : Nat} {s : SolState Said}

/-- The summary has a row for each solution, in the order of their paths: the name, aligned to the right to the longest one,
and what `SummaryTells` says of it. -/
theorem summary_exact (hwf : u.solutions.Wf) (total : ∀ a b, v.le a b = true ∨ v.le b a = true)
    (trans : ∀ a b c, v.le a b = true → v.le b c = true → v.le a c = true) :
    ∃ order width rows, InOrder v u order ∧ summary v u = [⟨.blue, "Summary".toList⟩] :: rows ∧
      rows.length = order.length ∧
      (∀ j ∈ order, byteLen (v.name j) ≤ width) ∧ (order ≠ [] → width ≠ 0 → ∃ j ∈ order, byteLen (v.name j) = width) ∧
      ∀ (i j : Nat), order[i]? = some j → ∃ s rest, u.solutions.get? j = some s ∧
        rows[i]? = some (⟨.plain, List.replicate (width - (v.name j).length) ' ' ++ v.name j ++ [' ']⟩ :: rest) ∧
        SummaryTells v s rest := by
  refine ⟨_, maxLen v u, _, sorted_order total trans, rfl, by simp, fun j hj => ?_, fun _ hw => ?_, fun i j hij => ?_⟩
  · have h1 := (sorted_order (u := u) total trans).1.mem_iff.1 hj
    simp only [AMap.keys, List.mem_map] at h1
    obtain ⟨e, h2, rfl⟩ := h1
    exact TM.Report.foldl_max_mem (fun e : Nat × SolState Said => byteLen (v.name e.1)) u.solutions 0 e h2
  · rcases foldl_max_attained (fun e : Nat × SolState Said => byteLen (v.name e.1)) u.solutions 0 with h | ⟨e, h1, h2⟩
    · exact absurd h hw
    · exact ⟨e.1, (sorted_order (u := u) total trans).1.mem_iff.2 (List.mem_map_of_mem h1), h2.symm⟩
  · obtain ⟨s, h1, h2⟩ := sorted_state hwf hij
    obtain ⟨rest, h3, h4⟩ := summaryLine_tells (v := v) (j := j) (s := s) (maxLen v u)
    refine ⟨s, rest, h1, ?_, h4⟩
    rw [List.getElem?_map, h2]
    exact congrArg some h3

/-- The evaluations have a block for each solution, in the order of their paths, with what `BlockTells` says of it. -/
theorem evaluations_exact (hwf : u.solutions.Wf) (total : ∀ a b, v.le a b = true ∨ v.le b a = true)
    (trans : ∀ a b c, v.le a b = true → v.le b c = true → v.le a c = true) :
    ∃ order blocks, InOrder v u order ∧ evaluations v u = [⟨.blue, "Evaluations".toList⟩] :: List.flatten blocks ∧
      blocks.length = order.length ∧
      ∀ (i j : Nat), order[i]? = some j → ∃ s block, u.solutions.get? j = some s ∧ blocks[i]? = some block ∧ BlockTells v j s block := by
  refine ⟨_, (sorted v u).map (fun e => evaluation v e.1 e.2), sorted_order total trans, ?_, by simp, fun i j hij => ?_⟩
  · rw [← List.flatMap_def]; rfl
  · obtain ⟨s, h1, h2⟩ := sorted_state hwf hij
    refine ⟨s, _, h1, ?_, evaluation_tells⟩
    rw [List.getElem?_map, h2]
    rfl

/-- The specification of a row leaves no choice. -/
theorem summary_unique {l l' : Line} (h : SummaryTells v s l) (h' : SummaryTells v s l') : l = l' := by
  have color : ∀ {x : Rat} {c c' : Color}, ScoreColor x c → ScoreColor x c' → c = c' := by
    intro x c c' h1 h2
    cases h1 <;> cases h2 <;> first | rfl | (exfalso; grind)
  have shownOnce : ∀ {st b ch col t col' ch' col₁ t' col₁'}, CaseShown st b ch col t col' → CaseShown st b ch' col₁ t' col₁' →
      ch = ch' ∧ col = col₁ := by
    intro st b ch col t col' ch' col₁ t' col₁' h1 h2
    cases h1 <;> cases h2 <;> exact ⟨rfl, rfl⟩
  cases h with
  | scored ho hw hc hl hs =>
    rename_i o n c letters
    cases h' with
    | scored ho' hw' hc' hl' hs' =>
      rename_i o' n' c' letters'
      rw [ho] at ho'
      cases ho'
      cases whole_unique hw hw'
      cases color hc hc'
      congr 1
      refine List.ext_getElem? fun i => ?_
      by_cases hi : i < letters.length
      · have h1 : i < o.validation.length := by omega
        have h2 : i < o.feedback.length := by omega
        obtain ⟨ch, col, t, col', h3, h4⟩ := hs i _ _ (List.getElem?_eq_getElem h1) (List.getElem?_eq_getElem h2)
        obtain ⟨ch', col₁, t', col₁', h5, h6⟩ := hs' i _ _ (List.getElem?_eq_getElem h1) (List.getElem?_eq_getElem h2)
        obtain ⟨rfl, rfl⟩ := shownOnce h3 h5
        rw [h4, h6]
      · rw [List.getElem?_eq_none (by omega), List.getElem?_eq_none (by omega)]
    | refused ho' => rw [ho] at ho'; cases ho'
    | failed ho' => rw [ho] at ho'; cases ho'
    | unknown ho' => rw [ho] at ho'; cases ho'
  | refused ho =>
    cases h' with
    | scored ho' => rw [ho] at ho'; cases ho'
    | refused ho' => rw [ho] at ho'; cases ho'; rfl
    | failed ho' => rw [ho] at ho'; cases ho'
    | unknown ho' => rw [ho] at ho'; cases ho'
  | failed ho hs =>
    cases h' with
    | scored ho' => rw [ho] at ho'; cases ho'
    | refused ho' => rw [ho] at ho'; cases ho'
    | failed ho' hs' => rw [hs] at hs'; cases hs'; rfl
    | unknown ho' hs' => exact absurd hs (hs' _)
  | unknown ho hs =>
    cases h' with
    | scored ho' => rw [ho] at ho'; cases ho'
    | refused ho' => rw [ho] at ho'; cases ho'
    | failed ho' hs' => exact absurd hs' (hs _)
    | unknown ho' hs' => rfl

/-- If the checker says of as many cases whether they are valid and whether they are correct, there is a letter for each of
them in the summary. -/
theorem cases_all_shown_partial {o : SolOutcome} (ho : s.outcome = some (.ok o))
    (hlen : o.validation.length = o.feedback.length) {l : Line} (h : SummaryTells v s l) :
    l.length = o.validation.length + 1 ∧
    ∀ (i : Nat) (val : CaseStatus × Option Text), o.validation[i]? = some val → ∃ feed, o.feedback[i]? = some feed ∧
      ∃ ch col t col', CaseShown val.1 feed.1 ch col t col' ∧ l[i + 1]? = some ⟨col, [' ', ch]⟩ := by
  cases h with
  | scored ho' hw hc hl hs =>
    rw [ho] at ho'
    cases ho'
    refine ⟨by rw [List.length_cons, hl]; omega, fun i val hv => ?_⟩
    have hi : i < o.feedback.length := by
      have := (List.getElem?_eq_some_iff.1 hv).1
      omega
    exact ⟨_, List.getElem?_eq_getElem hi, hs i val _ hv (List.getElem?_eq_getElem hi)⟩
  | refused ho' => rw [ho] at ho'; cases ho'
  | failed ho' => rw [ho] at ho'; cases ho'
  | unknown ho' => rw [ho] at ho'; cases ho'
end

section
variable {n : Uuid} {cfg : DagConfig} {fs : FS} {task : Task} {seed : Nat → Nat} {sols : List Build.Src} {ev : Eval} {a : Unit}

/-- At the end of an evaluation the summary has a row for each solution of the task, and the row says what the checker said
of it; if the checker was not run, it names the step that failed. -/
theorem final_summary (h : Fits n task sols) (hr : buildDag fs task seed sols (start n cfg) = .ok (a, ev))
    (parse : Outcome → Said) {ns : List Notice} (ho : Ordered ev.dag ns) (hc : Captured ev ns) (v : View)
    (total : ∀ a b, v.le a b = true ∨ v.le b a = true)
    (trans : ∀ a b c, v.le a b = true → v.le b c = true → v.le a c = true) :
    ∃ (ui : Ui Said) (order : List Nat) (width : Nat) (rows : List Line), shown parse ev sols.length ns = some ui ∧ order.Perm (List.range sols.length) ∧
      order.Pairwise (fun a b => v.le a b = true) ∧
      summary v ui = [⟨.blue, "Summary".toList⟩] :: rows ∧ rows.length = sols.length ∧
      ∀ (p i : Nat), order[p]? = some i → ∀ {g : ExecutionUuid} {w : Option ExecutionUuid} {s c : ExecutionUuid},
        Executions ev i (seed i) g w s c → ∃ x rest,
          rows[p]? = some (⟨.plain, List.replicate (width - (v.name i).length) ' ' ++ v.name i ++ [' ']⟩ :: rest) ∧
          x.outcome = (outcomeOf ns c).map parse ∧ SummaryTells v x rest ∧
          (∀ o e, outcomeOf ns c = some o → parse o = .error e → rest = [⟨.plain, "    ".toList ++ e⟩]) ∧
          (outcomeOf ns c = none →
            (∀ o, outcomeOf ns g = some o → o.status ≠ .success → rest = [⟨.plain, "    ".toList ++ "Generator failed".toList⟩]) ∧
            (∀ k o, w = some k → outcomeOf ns k = some o → o.status ≠ .success →
              rest = [⟨.plain, "    ".toList ++ "Validator failed".toList⟩]) ∧
            (∀ o, outcomeOf ns s = some o → o.status ≠ .success →
              rest = [⟨.plain, "    ".toList ++ "Solution failed".toList⟩])) := by
  obtain ⟨ui, hui, -⟩ := ui_never_panics h hr parse ns
  obtain ⟨order, width, rows, h1, h2, h3, -, -, h4⟩ := summary_exact (v := v) (shown_wf hui) total trans
  have hp := h1.1.trans (shown_keys hui)
  refine ⟨ui, order, width, rows, hui, hp, h1.2, h2, ?_, fun p i hpi g w s c hx => ?_⟩
  · rw [h3, hp.length_eq, List.length_range]
  · have hi : i < sols.length := List.mem_range.1 (hp.mem_iff.1 (List.mem_of_getElem? hpi))
    obtain ⟨x, rest, h5, h6, h7⟩ := h4 p i hpi
    obtain ⟨ui', x', k1, k2, -, -, -, -, -, k3⟩ := results_shown h hr parse ho hc hi hx
    rw [hui] at k1; cases k1
    rw [h5] at k2; cases k2
    obtain ⟨ui', x', k1, k2, -, k4⟩ := ending_shown h hr parse ho hc hi hx
    rw [hui] at k1; cases k1
    rw [h5] at k2; cases k2
    have out : outcomeOf ns c = none → x.outcome = none := fun e => by rw [k3, e]; rfl
    refine ⟨x, rest, h6, k3, h7, fun o e e1 e2 => ?_, fun e => ⟨fun o e1 e2 => ?_, fun k o e0 e1 e2 => ?_, fun o e1 e2 => ?_⟩⟩
    · exact summary_unique h7 (.refused (by rw [k3, e1, ← e2]; rfl))
    · exact summary_unique h7 (.failed (out e) ((k4 _).2 (.inl ⟨o, e1, e2, rfl⟩)))
    · exact summary_unique h7 (.failed (out e) ((k4 _).2 (.inr (.inl ⟨k, o, e0, e1, e2, rfl⟩))))
    · exact summary_unique h7 (.failed (out e) ((k4 _).2 (.inr (.inr (.inl ⟨o, e1, e2, rfl⟩)))))
end

/-! ## Examples -/

namespace Sample

/-- Two decimals, for the numbers that are not negative. -/
def twoDecimals (x : Rat) : Text :=
  let n := (x * 100 + 1 / 2).floor.toNat
  Nat.toDigits 10 (n / 100) ++ ['.'] ++ Nat.toDigits 10 (n / 10 % 10) ++ Nat.toDigits 10 (n % 10)

def view : View where
  fixed := twoDecimals
  name := fun i => match i with | 0 => "zero.cpp".toList | _ => "a.py".toList
  le := fun i j => decide (j ≤ i)
  usage := fun _ _ => "0.100s".toList
  fail := fun _ => "Exited with 1".toList
  cached := fun i _ => i == 0
  killed := fun _ _ => false
  stderr := fun i step => if i = 1 ∧ step = .solution then "oops".toList else []
  maxScore := 100

/-- A solution with all the points in a case and none in another one, and one that failed. -/
def ui : Ui Said where
  solutions := [(0, { status := .done, seed := some 42
                      outcome := some (.ok ⟨1 / 2, [(.parsed, none), (.missing, some "no".toList), (.parsed, none), (.invalid, none)],
                        [(true, none), (false, none), (false, some "hm".toList), (false, none)]⟩)
                      generator := some { status := .success } }),
                (1, { status := .failed "Solution failed", seed := some 7, generator := some { status := .success }
                      solution := some { status := .returnCode 1 } })]

def text (l : List Line) : List String := l.map (fun r => String.ofList (r.flatMap (·.text)))

/-- The summary. -/
example : text (summary view ui) =
    ["Summary", "    a.py     Solution failed", "zero.cpp  50 c m w i"] := by decide +kernel

/-- The block of the second solution. -/
example : (text (evaluations view ui)).take 9 =
    ["Evaluations", "a.py ", "      Seed: 7", "Generation: 0.100s", "Validation: unknown", "Evaluation: 0.100s | Exited with 1",
     "Stderr:", "oops", "   Checker: unknown"] := by decide +kernel

/-- ... and of the first one. -/
example : (text (evaluations view ui)).drop 10 =
    ["zero.cpp 50.00 / 100.00", "      Seed: 42", "Generation: 0.100s (cached)", "Validation: unknown", "Evaluation: unknown",
     "   Checker: unknown", "#0     Valid  | Correct", "#1    Missing | Wrong   | no", "#2     Valid  | Wrong   | hm",
     "#3    Invalid | Wrong  ", ""] := by decide +kernel

/-- The theorems apply. -/
example : ui.solutions.Wf ∧ (∀ a b, view.le a b = true ∨ view.le b a = true) ∧
    (∀ a b c, view.le a b = true → view.le b c = true → view.le a c = true) := by
  refine ⟨(by decide +kernel : ui.solutions.keys.Nodup), fun a b => ?_, fun a b c => ?_⟩
  · simp only [view, decide_eq_true_eq]; omega
  · simp only [view, decide_eq_true_eq]; omega

end Sample

/-- The points in the summary are cut and not rounded, so they may differ from those of the evaluation: with a score of
0.29 (the nearest number of the machine) out of 100 the evaluation says 29.00 and the summary 28. -/
theorem scores_differ : ∃ (s : SolState Said) (o : SolOutcome), s.outcome = some (.ok o) ∧
    o.score = 5224175567749775 / 2 ^ 54 ∧
    Sample.text (title Sample.view 0 s) = ["zero.cpp 29.00 / 100.00"] ∧
    Sample.text [summaryLine Sample.view 8 0 s] = ["zero.cpp  28"] :=
  ⟨{ outcome := some (.ok ⟨5224175567749775 / 2 ^ 54, [], []⟩) }, _, rfl, rfl, by decide +kernel, by decide +kernel⟩

/-- If the checker says of more cases whether they are valid than whether they are correct, the others are not shown. -/
theorem cases_lost : ∃ (s : SolState Said) (o : SolOutcome), s.outcome = some (.ok o) ∧ o.validation.length = 2 ∧
    (∃ m, o.validation[1]? = some (.invalid, some m)) ∧
    Sample.text [summaryLine Sample.view 8 0 s] = ["zero.cpp   0 c"] ∧
    Sample.text (feedback s) = ["#0     Valid  | Correct"] :=
  ⟨{ outcome := some (.ok ⟨0, [(.parsed, none), (.invalid, some "too long".toList)], [(true, none)]⟩) }, _, rfl, rfl,
    ⟨_, rfl⟩, by decide +kernel, by decide +kernel⟩

end TM.Terry.Report
