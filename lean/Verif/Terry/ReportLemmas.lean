import Verif.Terry.Report
import Verif.Terry.PropsUi
import Verif.Report.Table
/-!
# Lemmas about the final report of a Terry task
-/
namespace TM.Terry.Report
open TM TM.Terry
open TM.Report (Text Color Seg Line say byteLen padLeft padRight digits)

section
variable {v : View} {u : Ui Said} {j : Nat} {s : SolState Said}



theorem absDiffEq_iff {x y : Rat} : absDiffEq x y = true ↔ x - y ≤ 1 / 2 ^ 52 ∧ y - x ≤ 1 / 2 ^ 52 := by
  simp [absDiffEq]

theorem whole_floor (x : Rat) : Whole x x.floor := ⟨Rat.floor_le x, by have h := Rat.lt_floor_add_one x; rwa [Rat.intCast_add] at h⟩

theorem whole_unique {x : Rat} {m n : Int} (h : Whole x m) (h' : Whole x n) : m = n := by
  have h1 : m < n + 1 := by
    have : (m : Rat) < ((n + 1 : Int) : Rat) := by
      rw [Rat.intCast_add]; exact Std.lt_of_le_of_lt h.1 h'.2
    exact Rat.intCast_lt_intCast.1 this
  have h2 : n < m + 1 := by
    have : (n : Rat) < ((m + 1 : Int) : Rat) := by
      rw [Rat.intCast_add]; exact Std.lt_of_le_of_lt h'.1 h.2
    exact Rat.intCast_lt_intCast.1 this
  omega

/-- The colour of the points. -/
theorem color_cases (x : Rat) :
    (absDiffEq x 1 = true ∧ absDiffEq x 0 = false ∧ ScoreColor x .green) ∨
    (absDiffEq x 1 = false ∧ absDiffEq x 0 = true ∧ ScoreColor x .red) ∨
    (absDiffEq x 1 = false ∧ absDiffEq x 0 = false ∧ ScoreColor x .yellow) := by
  have h0 := absDiffEq_iff (x := x) (y := 0)
  have h1 := absDiffEq_iff (x := x) (y := 1)
  cases e0 : absDiffEq x 0 <;> cases e1 : absDiffEq x 1 <;> simp only [e0, e1, true_iff, iff_true] at h0 h1
  · refine .inr (.inr ⟨rfl, rfl, .some ?_ ?_⟩) <;> grind
  · refine .inl ⟨rfl, rfl, .full ?_ ?_⟩ <;> grind
  · refine .inr (.inl ⟨rfl, rfl, .none ?_ ?_⟩) <;> grind
  · exfalso; grind

theorem letter_shown (val : CaseStatus × Option Text) (feed : Bool × Option Text) :
    ∃ ch col t col', CaseShown val.1 feed.1 ch col t col' ∧ letter val feed = ⟨col, [' ', ch]⟩ := by
  obtain ⟨a, b⟩ := val
  obtain ⟨c, d⟩ := feed
  cases a
  · exact ⟨_, _, _, _, .missing c, rfl⟩
  · cases c
    · exact ⟨_, _, _, _, .wrong, rfl⟩
    · exact ⟨_, _, _, _, .correct, rfl⟩
  · exact ⟨_, _, _, _, .invalid c, rfl⟩

theorem caseLine_tells (i : Nat) (val : CaseStatus × Option Text) (feed : Bool × Option Text) :
    CaseTells i val feed (caseLine i val feed) := by
  obtain ⟨a, b⟩ := val
  obtain ⟨c, d⟩ := feed
  cases a
  · refine ⟨_, _, _, _, _, _, .missing c, ?_, rfl, rfl⟩
    cases b <;> cases d <;> rfl
  · cases c
    · refine ⟨_, _, _, _, _, _, .wrong, ?_, rfl, rfl⟩
      cases b <;> cases d <;> rfl
    · refine ⟨_, _, _, _, _, _, .correct, ?_, rfl, rfl⟩
      cases b <;> cases d <;> rfl
  · refine ⟨_, _, _, _, _, _, .invalid c, ?_, rfl, rfl⟩
    cases b <;> cases d <;> rfl

theorem caseLines_spec : ∀ (vals : List (CaseStatus × Option Text)) (feeds : List (Bool × Option Text)) (k : Nat),
    (caseLines k vals feeds).length = min vals.length feeds.length ∧
    ∀ (i : Nat) val feed, vals[i]? = some val → feeds[i]? = some feed →
      (caseLines k vals feeds)[i]? = some (caseLine (k + i) val feed)
  | [], _, k => by simp [caseLines]
  | _ :: _, [], k => by simp [caseLines]
  | val :: vals, feed :: feeds, k => by
    obtain ⟨h1, h2⟩ := caseLines_spec vals feeds (k + 1)
    refine ⟨by simp only [caseLines, List.length_cons, h1]; omega, fun i a b ha hb => ?_⟩
    cases i with
    | zero => simp only [List.getElem?_cons_zero, Option.some.injEq] at ha hb; subst ha hb; rfl
    | succ i =>
      simp only [List.getElem?_cons_succ] at ha hb
      simp only [caseLines, List.getElem?_cons_succ]
      rw [h2 i a b ha hb]
      congr 2
      omega

theorem summaryLine_tells (width : Nat) : ∃ rest, summaryLine v width j s = ⟨.plain, padLeft width (v.name j) ++ [' ']⟩ :: rest ∧
    SummaryTells v s rest := by
  refine ⟨_, rfl, ?_⟩
  cases ho : s.outcome with
  | none =>
    dsimp only
    cases hs : s.status with
    | failed w => exact .failed ho hs
    | _ => exact .unknown ho (fun w h => by rw [hs] at h; cases h)
  | some r =>
    cases r with
    | error e => exact .refused ho
    | ok o =>
      dsimp only
      have len : (List.zipWith letter o.validation o.feedback).length = min o.validation.length o.feedback.length := by simp
      have cs : ∀ (i : Nat) val feed, o.validation[i]? = some val → o.feedback[i]? = some feed →
          ∃ ch col t col', CaseShown val.1 feed.1 ch col t col' ∧
            (List.zipWith letter o.validation o.feedback)[i]? = some ⟨col, [' ', ch]⟩ := by
        intro i val feed h1 h2
        obtain ⟨ch, col, t, col', h3, h4⟩ := letter_shown val feed
        refine ⟨ch, col, t, col', h3, ?_⟩
        rw [List.getElem?_zipWith, h1, h2]
        exact congrArg some h4
      rcases color_cases o.score with ⟨h1, h2, h3⟩ | ⟨h1, h2, h3⟩ | ⟨h1, h2, h3⟩ <;> simp only [h1, h2, if_true, if_false, Bool.false_eq_true] <;>
        exact .scored ho (whole_floor _) h3 len cs

theorem title_tells : TitleTells v j s (title v j s) := by
  unfold title
  cases ho : s.outcome with
  | none => exact .unknown ho
  | some r =>
    cases r with
    | error e => exact .refused ho
    | ok o =>
      dsimp only
      rcases color_cases o.score with ⟨h1, h2, h3⟩ | ⟨h1, h2, h3⟩ | ⟨h1, h2, h3⟩ <;> simp only [h1, h2, if_true, if_false, Bool.false_eq_true] <;>
        exact .scored ho h3

theorem stepLines_tells (label : String) (step : Step) (r : Option Build.Outcome) :
    StepTells v j label step r (stepLines v j label step r) := by
  cases r with
  | none => exact .unknown
  | some r =>
    unfold stepLines
    have hmap : (label.toList :: v.usage j step :: ((if r.status = .success then [] else [" | ".toList, v.fail r.status]) ++
        (if v.cached j step then [" (cached)".toList] else []) ++
        (if v.killed j step then [" (killed)".toList] else []))).map say =
        [say label.toList, say (v.usage j step)] ++
          (if r.status = .success then [] else [say " | ".toList, say (v.fail r.status)]) ++
          (if v.cached j step then [say " (cached)".toList] else []) ++
          (if v.killed j step then [say " (killed)".toList] else []) := by
      generalize " | ".toList = a
      generalize " (cached)".toList = b
      generalize " (killed)".toList = c
      split <;> split <;> split <;> rfl
    refine Eq.mp (congrArg (fun l => StepTells v j label step (some r) (l :: _)) hmap)
      (StepTells.run ?_ ?_ ?_ ?_)
    · by_cases h : r.status = .success
      · exact .inl ⟨h, if_pos h⟩
      · exact .inr ⟨h, if_neg h⟩
    · cases h : v.cached j step
      · exact .inr ⟨rfl, if_neg (by decide)⟩
      · exact .inl ⟨rfl, if_pos rfl⟩
    · cases h : v.killed j step
      · exact .inr ⟨rfl, if_neg (by decide)⟩
      · exact .inl ⟨rfl, if_pos rfl⟩
    · by_cases h : v.stderr j step = []
      · exact .inl ⟨h, if_pos h⟩
      · exact .inr ⟨h, if_neg h⟩

theorem evaluation_tells : BlockTells v j s (evaluation v j s) := by
  refine ⟨_, _, _, _, _, feedback s, ?_, title_tells, stepLines_tells _ _ _, stepLines_tells _ _ _, stepLines_tells _ _ _,
    stepLines_tells _ _ _, ?_⟩
  · unfold evaluation seedLine
    cases s.seed <;> rfl
  · unfold feedback
    cases ho : s.outcome with
    | none => rfl
    | some r =>
      cases r with
      | error e => rfl
      | ok o =>
        obtain ⟨h1, h2⟩ := caseLines_spec o.validation o.feedback 0
        refine ⟨h1, fun i val feed h3 h4 => ⟨_, h2 i val feed h3 h4, ?_⟩⟩
        rw [Nat.zero_add]
        exact caseLine_tells i val feed

theorem sorted_perm : (sorted v u).Perm u.solutions := isort_perm _ _

theorem sorted_order (total : ∀ a b, v.le a b = true ∨ v.le b a = true)
    (trans : ∀ a b c, v.le a b = true → v.le b c = true → v.le a c = true) :
    InOrder v u ((sorted v u).map (·.1)) :=
  ⟨sorted_perm.map _, List.pairwise_map.2
    (isort_sorted' (fun a b => total a.1 b.1) (fun a b c => trans a.1 b.1 c.1) u.solutions)⟩

/-- The state of a solution of the sorted list. -/
theorem sorted_state (hwf : u.solutions.Wf) {i : Nat} (h : ((sorted v u).map (·.1))[i]? = some j) :
    ∃ s, u.solutions.get? j = some s ∧ (sorted v u)[i]? = some (j, s) := by
  rw [List.getElem?_map, Option.map_eq_some_iff] at h
  obtain ⟨⟨k, s⟩, h1, rfl⟩ := h
  exact ⟨s, AMap.get?_of_mem hwf (sorted_perm.mem_iff.1 (List.mem_of_getElem? h1)), h1⟩

theorem foldl_max_attained {α : Type} (f : α → Nat) : ∀ (l : List α) (w : Nat),
    l.foldl (fun w a => max w (f a)) w = w ∨ ∃ a ∈ l, l.foldl (fun w a => max w (f a)) w = f a
  | [], w => .inl rfl
  | a :: l, w => by
    simp only [List.foldl_cons]
    rcases foldl_max_attained f l (max w (f a)) with h | ⟨b, hb, h⟩
    · rw [h]
      rcases Nat.le_total w (f a) with h1 | h1
      · exact .inr ⟨a, by simp, Nat.max_eq_right h1⟩
      · exact .inl (Nat.max_eq_left h1)
    · exact .inr ⟨b, by simp [hb], h⟩

theorem onSol_wf {u u' : Ui Said} (h : u.solutions.Wf) {f : SolState Said → SolState Said} (e : u.onSol j f = some u') :
    u'.solutions.Wf := by
  unfold Ui.onSol at e
  split at e
  · cases e
  · cases e; exact AMap.wf_insert h _ _

theorem apply_wf {u u' : Ui Said} (h : u.solutions.Wf) {m : Msg Said} (e : u.apply m = some u') : u'.solutions.Wf := by
  cases m with
  | solutions n =>
    cases e
    simp only [AMap.Wf, AMap.keys, List.map_map]
    have : ((fun x : Nat × SolState Said => x.1) ∘ fun i => (i, ({} : SolState Said))) = id := rfl
    rw [this, List.map_id]
    exact List.nodup_range
  | progress t p =>
    simp only [Ui.apply, Ui.progress] at e
    split at e
    · cases e; exact h
    · exact onSol_wf h e
    · exact onSol_wf h e
    · exact onSol_wf h e
    · exact onSol_wf h e
    · cases e
  | outcome sol r => exact onSol_wf h e
  | diagnostic t => cases e; exact h
  | other => cases e; exact h

theorem applyAll_wf : ∀ (ms : List (Msg Said)) {u u' : Ui Said}, u.solutions.Wf → u.applyAll ms = some u' → u'.solutions.Wf
  | [], u, u', h, e => by cases e; exact h
  | m :: ms, u, u', h, e => by
    simp only [Ui.applyAll] at e
    split at e
    · cases e
    · exact applyAll_wf ms (apply_wf h ‹_›) e

/-- What the UI knows has one state for each solution. -/
theorem shown_wf {parse : Build.Outcome → Said} {ev : Build.Eval} {n : Nat} {ns : List Build.Notice} (h : shown parse ev n ns = some u) :
    u.solutions.Wf := applyAll_wf _ AMap.wf_nil h

/-- The messages that are not about the list of the solutions. -/
def Plain : Msg Said → Prop
  | .solutions _ => False
  | _ => True

theorem says_plain {parse : Build.Outcome → Said} {n : Build.Notice} {h : Build.Handler} {ms : List (Msg Said)}
    (e : says parse n h = some ms) : ∀ m ∈ ms, Plain m := by
  unfold says at e
  repeat' split at e
  all_goals first
    | (cases e; done)
    | (cases e; intro m hm; cases hm; done)
    | (cases e; intro m hm; cases hm with
       | head => trivial
       | tail _ h => cases h)

theorem saysAll_plain {parse : Build.Outcome → Said} {n : Build.Notice} : ∀ (hs : List Build.Handler),
    ∀ m ∈ (saysAll parse n hs).1, Plain m
  | [], m, hm => by simp [saysAll] at hm
  | h :: hs, m, hm => by
    simp only [saysAll] at hm
    split at hm
    · simp at hm
    · rcases List.mem_append.1 hm with h1 | h1
      · exact says_plain ‹_› m h1
      · exact saysAll_plain hs m h1

theorem followFrom_plain {parse : Build.Outcome → Said} {handlers} : ∀ (ns : List Build.Notice) (drained),
    ∀ m ∈ (followFrom parse handlers drained ns).1, Plain m
  | [], _, m, hm => by simp [followFrom] at hm
  | n :: ns, d, m, hm => by
    simp only [followFrom] at hm
    split at hm
    · exact followFrom_plain ns _ m hm
    · split at hm
      · rename_i ms heq
        exact saysAll_plain _ m (by rw [heq]; exact hm)
      · rename_i ms heq
        rcases List.mem_append.1 hm with h1 | h1
        · exact saysAll_plain _ m (by rw [heq]; exact h1)
        · exact followFrom_plain ns _ m h1

theorem apply_keys {u u' : Ui Said} {m : Msg Said} (hm : Plain m) (e : u.apply m = some u') (k : Nat) :
    k ∈ u'.solutions.keys ↔ k ∈ u.solutions.keys := by
  have on : ∀ {j f}, u.onSol j f = some u' → (k ∈ u'.solutions.keys ↔ k ∈ u.solutions.keys) := by
    intro j f e
    unfold Ui.onSol at e
    split at e
    · cases e
    · rename_i s hs
      cases e
      simp only [AMap.mem_keys_iff, AMap.get?_insert]
      by_cases h : k = j
      · subst h
        simp [hs]
      · simp [h]
  cases m with
  | solutions n => exact hm.elim
  | progress t p =>
    simp only [Ui.apply, Ui.progress] at e
    split at e
    · cases e; exact Iff.rfl
    · exact on e
    · exact on e
    · exact on e
    · exact on e
    · cases e
  | outcome sol r => exact on e
  | diagnostic t => cases e; exact Iff.rfl
  | other => cases e; exact Iff.rfl

theorem applyAll_keys : ∀ (ms : List (Msg Said)) {u u' : Ui Said}, (∀ m ∈ ms, Plain m) → u.applyAll ms = some u' → ∀ k : Nat,
    k ∈ u'.solutions.keys ↔ k ∈ u.solutions.keys
  | [], u, u', _, e, k => by cases e; exact Iff.rfl
  | m :: ms, u, u', h, e, k => by
    simp only [Ui.applyAll] at e
    split at e
    · cases e
    · rw [applyAll_keys ms (fun m hm => h m (by simp [hm])) e k, apply_keys (h m (by simp)) ‹_› k]

/-- The UI has the state of the solutions, and of nothing else. -/
theorem shown_keys {parse : Build.Outcome → Said} {ev : Build.Eval} {n : Nat} {ns : List Build.Notice}
    (h : shown parse ev n ns = some u) : u.solutions.keys.Perm (List.range n) := by
  refine (List.perm_ext_iff_of_nodup (shown_wf h) List.nodup_range).2 fun k => ?_
  have e : Ui.applyAll ({ solutions := (List.range n).map (fun i => (i, {})) } : Ui Said)
      (ev.pending.map (fun t => Msg.progress t .pending) ++ (followFrom parse ev.handlers [] ns).1) = some u := h
  rw [applyAll_keys _ ?_ e k]
  · simp [AMap.keys]
  · intro m hm
    rcases List.mem_append.1 hm with h1 | h1
    · obtain ⟨t, -, rfl⟩ := List.mem_map.1 h1
      trivial
    · exact followFrom_plain _ _ m h1
end
end TM.Terry.Report
