import Verif.Terry.UiSpec
import Verif.Terry.Props
import Verif.Ui.GenChain
/-!
# Lemmas about the UI of a Terry task
-/
namespace TM.Terry
open TM TM.Build DagSpec Terry.Spec
open TM.Build.Spec (start callbacks Reports reportsOn Ordered Fed outcomeOf firsts firstsFrom)
open TM.Ui (ordered_prefix ordered_outcome ordered_last ordered_firsts outcome_snoc_other outcomeOf_one outcomeOf_snoc)

variable {R : Type}

/-! ## One solution -/

/-- The step a topic is about, of solution `i`. -/
def stepOf (i : Nat) : Topic → Option Step
  | .generation j _ => if j = i then some .generator else none
  | .validation j _ => if j = i then some .validator else none
  | .evaluation _ _ j _ _ => if j = i then some .solution else none
  | .checker _ _ j => if j = i then some .checker else none
  | _ => none

/-- The seed a topic tells. -/
def seedOf (i : Nat) : Topic → Option Nat
  | .generation j seed => if j = i then some seed else none
  | _ => none

/-- The effect of a progress on solution `i`. -/
def onProgress (i : Nat) (s : SolState R) (p : Topic × Phase) : SolState R :=
  match stepOf i p.1 with
  | none => s
  | some step => match seedOf i p.1 with
    | none => s.process step p.2
    | some seed => { s.process step p.2 with seed := some seed }

/-- The effect of a message on solution `i`. -/
def effect (i : Nat) (s : SolState R) : Msg R → SolState R
  | .progress t p => onProgress i s (t, p)
  | .outcome j r => if j = i then { s with outcome := some r } else s
  | _ => s

/-- The message does not replace the solutions. -/
def Msg.keeps : Msg R → Bool
  | .solutions _ => false
  | _ => true

theorem onSol_get {u u' : Ui R} {j i : Nat} {f : SolState R → SolState R} {s : SolState R}
    (h : u.onSol j f = some u') (hs : u.solutions.get? i = some s) :
    u'.solutions.get? i = some (if j = i then f s else s) := by
  unfold Ui.onSol at h
  split at h
  · cases h
  · next s' hs' =>
    cases h
    simp only
    by_cases hij : j = i
    · subst hij
      rw [AMap.get?_insert_self, if_pos rfl]
      rw [hs] at hs'; cases hs'; rfl
    · rw [AMap.get?_insert_ne _ _ (fun e => hij e.symm), if_neg hij, hs]

theorem apply_get {u u' : Ui R} {m : Msg R} (h : u.apply m = some u') (hk : m.keeps = true) {i : Nat} {s : SolState R}
    (hs : u.solutions.get? i = some s) : u'.solutions.get? i = some (effect i s m) := by
  cases m with
  | solutions n => cases hk
  | other => cases h; exact hs
  | diagnostic t => cases h; exact hs
  | outcome j r =>
    rw [onSol_get h hs]; simp only [effect]
  | progress t p =>
    simp only [Ui.apply, Ui.progress] at h
    cases t <;> simp only at h
    case compilation => cases h; exact hs
    case generation =>
      rw [onSol_get h hs]; simp only [effect, onProgress, stepOf, seedOf]; split <;> rfl
    case validation =>
      rw [onSol_get h hs]; simp only [effect, onProgress, stepOf, seedOf]; split <;> rfl
    case evaluation =>
      rw [onSol_get h hs]; simp only [effect, onProgress, stepOf, seedOf]; split <;> rfl
    case checker =>
      rw [onSol_get h hs]; simp only [effect, onProgress, stepOf, seedOf]; split <;> rfl
    all_goals cases h

/-- The message is one a Terry task with `n` solutions sends while it is evaluated. -/
def Msg.Ok (n : Nat) : Msg R → Prop
  | .solutions _ => False
  | .progress (.compilation _) _ => True
  | .progress t _ => ∃ i, i < n ∧ (stepOf i t).isSome
  | .outcome j _ => j < n
  | _ => True

/-- All the solutions are there. -/
def Full (n : Nat) (u : Ui R) : Prop := ∀ i, i < n → ∃ s, u.solutions.get? i = some s

theorem onSol_some {u : Ui R} {n j : Nat} (hf : Full n u) (hj : j < n) (f : SolState R → SolState R) :
    ∃ u', u.onSol j f = some u' := by
  obtain ⟨s, hs⟩ := hf j hj
  exact ⟨_, by unfold Ui.onSol; rw [hs]⟩

theorem apply_ok {u : Ui R} {n : Nat} {m : Msg R} (hf : Full n u) (hm : m.Ok n) :
    ∃ u', u.apply m = some u' ∧ Full n u' := by
  have hk : m.keeps = true := by cases m <;> first | rfl | cases hm
  have key : ∃ u', u.apply m = some u' := by
    cases m with
    | solutions n => cases hm
    | other => exact ⟨_, rfl⟩
    | diagnostic t => exact ⟨_, rfl⟩
    | outcome j r => exact onSol_some hf hm _
    | progress t p =>
      cases t <;> simp only [Msg.Ok, stepOf] at hm <;> simp only [Ui.apply, Ui.progress]
      case compilation => exact ⟨_, rfl⟩
      all_goals
        obtain ⟨i, hi, h⟩ := hm
        first
        | (split at h
           · next e => subst e; exact onSol_some hf hi _
           · cases h)
        | cases h
  obtain ⟨u', h⟩ := key
  refine ⟨u', h, fun i hi => ?_⟩
  obtain ⟨s, hs⟩ := hf i hi
  exact ⟨_, apply_get h hk hs⟩

theorem applyAll_ok {n : Nat} : ∀ {ms : List (Msg R)} {u : Ui R}, Full n u → (∀ m ∈ ms, m.Ok n) →
    ∃ u', u.applyAll ms = some u' ∧
      ∀ i s, u.solutions.get? i = some s → u'.solutions.get? i = some (ms.foldl (effect i) s) := by
  intro ms
  induction ms with
  | nil => intro u _ _; exact ⟨u, rfl, fun i s h => h⟩
  | cons m ms ih =>
    intro u hf hm
    have hm1 := hm m (by simp)
    have hk : m.keeps = true := by cases m <;> first | rfl | cases hm1
    obtain ⟨u1, h1, h2⟩ := apply_ok hf hm1
    obtain ⟨u2, h3, h4⟩ := ih h2 (fun m h => hm m (by simp [h]))
    refine ⟨u2, ?_, fun i s hs => ?_⟩
    · unfold Ui.applyAll; rw [h1]; exact h3
    · exact h4 i _ (apply_get h1 hk hs)

theorem applyAll_append : ∀ {a b : List (Msg R)} {u : Ui R}, u.applyAll (a ++ b) = (u.applyAll a).bind (·.applyAll b) := by
  intro a
  induction a with
  | nil => intro b u; rfl
  | cons m a ih =>
    intro b u
    simp only [List.cons_append, Ui.applyAll]
    cases u.apply m with
    | none => rfl
    | some u => exact ih

/-- The UI after all the messages of an evaluation. -/
theorem opened {ev : Eval} {n : Nat} {ms : List (Msg R)} (hp : ∀ t ∈ ev.pending, Msg.Ok (R := R) n (.progress t .pending))
    (hm : ∀ m ∈ ms, m.Ok n) :
    ∃ u, Ui.applyAll {} (opening ev n ++ ms) = some u ∧ ∀ i, i < n → u.solutions.get? i =
      some (ms.foldl (effect i) ((ev.pending.map (fun t => (t, Phase.pending))).foldl (onProgress i) {})) := by
  let u0 : Ui R := { solutions := (List.range n).map (fun i => (i, {})) }
  have h0 : Ui.applyAll {} (opening ev n ++ ms) =
      u0.applyAll (ev.pending.map (fun t => .progress t .pending) ++ ms) := rfl
  have hget : ∀ i, i < n → u0.solutions.get? i = some {} := by
    intro i hi
    obtain ⟨x, hx⟩ := TM.Ui.get?_map_keys (List.range n) id ({} : SolState R) i (by simpa using hi)
    have := AMap.mem_of_get? hx
    obtain ⟨a, -, ha⟩ := List.mem_map.1 this
    cases ha
    exact hx
  obtain ⟨u, h1, h2⟩ := applyAll_ok (n := n) (u := u0)
    (ms := ev.pending.map (fun t => .progress t .pending) ++ ms) (fun i hi => ⟨_, hget i hi⟩) (by
      intro m h
      rcases List.mem_append.1 h with h | h
      · obtain ⟨t, ht, rfl⟩ := List.mem_map.1 h; exact hp t ht
      · exact hm m h)
  refine ⟨u, by rw [h0, h1], fun i hi => ?_⟩
  rw [h2 i _ (hget i hi), List.foldl_append, List.foldl_map, List.foldl_map]
  rfl

/-! ## What is sent -/

/-- The closures on an execution. -/
def closures (ev : Eval) (u : ExecutionUuid) : List Handler := (ev.handlers.filter (fun p => p.1 = u)).map (·.2)

theorem mem_closures {ev : Eval} {u : ExecutionUuid} {h : Handler} : h ∈ closures ev u ↔ (u, h) ∈ ev.handlers := by
  unfold closures
  rw [List.mem_map]
  constructor
  · rintro ⟨⟨v, h'⟩, h1, rfl⟩
    obtain ⟨h2, h3⟩ := List.mem_filter.1 h1
    have : v = u := by simpa using h3
    subst this; exact h2
  · intro h1
    exact ⟨(u, h), List.mem_filter.2 ⟨h1, by simp⟩, rfl⟩

theorem saysAll_mem {parse : Outcome → R} {x : Notice} {m : Msg R} : ∀ {hs : List Handler},
    m ∈ (saysAll parse x hs).1 → ∃ h ∈ hs, ∃ ms, says parse x h = some ms ∧ m ∈ ms := by
  intro hs
  induction hs with
  | nil => intro h; cases h
  | cons h hs ih =>
    intro hm
    unfold saysAll at hm
    split at hm
    · cases hm
    · next ms hms =>
      rcases List.mem_append.1 hm with hm | hm
      · exact ⟨h, by simp, ms, hms, hm⟩
      · obtain ⟨h', a, b⟩ := ih hm; exact ⟨h', by simp [a], b⟩

theorem followFrom_mem {parse : Outcome → R} {hs : List (ExecutionUuid × Handler)} {m : Msg R} :
    ∀ {ns : List Notice} {dr : List (Kind × ExecutionUuid)}, m ∈ (followFrom parse hs dr ns).1 →
    ∃ x ∈ ns, ∃ h, (x.exec, h) ∈ hs ∧ ∃ ms, says parse x h = some ms ∧ m ∈ ms := by
  intro ns
  induction ns with
  | nil => intro dr h; cases h
  | cons x ns ih =>
    intro dr hm
    have fin : m ∈ (saysAll parse x ((hs.filter (fun p => p.1 = x.exec)).map (·.2))).1 →
        ∃ y ∈ x :: ns, ∃ h, (y.exec, h) ∈ hs ∧ ∃ ms, says parse y h = some ms ∧ m ∈ ms := by
      intro h
      obtain ⟨hd, h1, h2⟩ := saysAll_mem h
      obtain ⟨⟨v, hd'⟩, h3, rfl⟩ := List.mem_map.1 h1
      obtain ⟨h4, h5⟩ := List.mem_filter.1 h3
      have : v = x.exec := by simpa using h5
      subst this
      exact ⟨x, by simp, _, h4, h2⟩
    have again : m ∈ (followFrom parse hs ((x.kind, x.exec) :: dr) ns).1 →
        ∃ y ∈ x :: ns, ∃ h, (y.exec, h) ∈ hs ∧ ∃ ms, says parse y h = some ms ∧ m ∈ ms := by
      intro h
      obtain ⟨y, hy, r⟩ := ih h; exact ⟨y, by simp [hy], r⟩
    unfold followFrom at hm
    split at hm
    · exact again hm
    · split at hm
      · next ms e => exact fin (by rw [e]; exact hm)
      · next ms e =>
        rcases List.mem_append.1 hm with hm | hm
        · exact fin (by rw [e]; exact hm)
        · exact again hm

/-- What a notice sends. -/
def sentBy (parse : Outcome → R) (ev : Eval) (x : Notice) : List (Msg R) :=
  (closures ev x.exec).flatMap (fun h => (says parse x h).getD [])

theorem saysAll_eq {parse : Outcome → R} {x : Notice} : ∀ {hs : List Handler},
    ((saysAll parse x hs).2 = true ↔ ∀ h ∈ hs, says parse x h ≠ none) ∧
    ((saysAll parse x hs).2 = true → (saysAll parse x hs).1 = hs.flatMap (fun h => (says parse x h).getD [])) := by
  intro hs
  induction hs with
  | nil => simp [saysAll]
  | cons h hs ih =>
    unfold saysAll
    cases hx : says parse x h with
    | none => simp [hx]
    | some ms =>
      simp only [List.mem_cons, forall_eq_or_imp, hx, ne_eq, List.flatMap_cons, Option.getD_some]
      refine ⟨?_, fun h => by rw [ih.2 h]⟩
      rw [ih.1]; simp

theorem followFrom_eq {parse : Outcome → R} {ev : Eval} : ∀ {ns : List Notice} {dr : List (Kind × ExecutionUuid)},
    ((followFrom parse ev.handlers dr ns).2 = true ↔
      ∀ x ∈ firstsFrom dr ns, ∀ h ∈ closures ev x.exec, says parse x h ≠ none) ∧
    ((followFrom parse ev.handlers dr ns).2 = true →
      (followFrom parse ev.handlers dr ns).1 = (firstsFrom dr ns).flatMap (sentBy parse ev)) := by
  intro ns
  induction ns with
  | nil => intro dr; simp [followFrom, firstsFrom]
  | cons x ns ih =>
    intro dr
    unfold followFrom firstsFrom
    by_cases hx : (x.kind, x.exec) ∈ dr
    · rw [if_pos hx, if_pos hx]
      have hdr : firstsFrom ((x.kind, x.exec) :: dr) ns = firstsFrom dr ns := by
        have : ∀ (ns : List Notice) (d d' : List (Kind × ExecutionUuid)), (∀ k, k ∈ d ↔ k ∈ d') →
            firstsFrom d ns = firstsFrom d' ns := by
          intro ns
          induction ns with
          | nil => intros; rfl
          | cons y ns ih =>
            intro d d' h
            unfold firstsFrom
            have e := ih _ ((y.kind, y.exec) :: d') (fun k => by simp [h k] : ∀ k, k ∈ (y.kind, y.exec) :: d ↔ _)
            by_cases hy : (y.kind, y.exec) ∈ d
            · rw [if_pos hy, if_pos ((h _).1 hy), ih d d' h]
            · rw [if_neg hy, if_neg (fun hh => hy ((h _).2 hh)), e]
        apply this
        intro k
        simp only [List.mem_cons]
        exact ⟨fun h => h.elim (fun e => by rw [e]; exact hx) id, .inr⟩
      rw [← hdr]
      exact ih
    · rw [if_neg hx, if_neg hx]
      have e := saysAll_eq (parse := parse) (x := x) (hs := closures ev x.exec)
      show ((match saysAll parse x (closures ev x.exec) with
        | (ms, false) => (ms, false)
        | (ms, true) => _ : List (Msg R) × Bool).2 = true ↔ _) ∧ _
      simp only [List.mem_cons, forall_eq_or_imp, List.flatMap_cons]
      obtain ⟨ih1, ih2⟩ := ih (dr := (x.kind, x.exec) :: dr)
      unfold closures at e ⊢
      cases hs : saysAll parse x ((ev.handlers.filter (fun p => p.1 = x.exec)).map (·.2)) with
      | mk ms b =>
        rw [hs] at e
        cases b with
        | false =>
          simp only [Bool.false_eq_true, false_iff, not_and, false_implies, and_true] at e ⊢
          exact fun h _ => e h
        | true =>
          simp only [forall_const, true_iff] at e ⊢
          refine ⟨?_, fun h => ?_⟩
          · rw [ih1]
            unfold closures
            exact ⟨fun h => ⟨e.1, h⟩, fun h => h.2⟩
          · rw [ih2 h, e.2]
            rfl

/-! ## The progress and the outcome -/

/-- The progress in a message. -/
def Msg.progress? : Msg R → Option (Topic × Phase)
  | .progress t p => some (t, p)
  | _ => none

/-- The outcome of solution `i` in a message. -/
def Msg.outcome? (i : Nat) : Msg R → Option R
  | .outcome j r => if j = i then some r else none
  | _ => none

theorem process_outcome (s : SolState R) (r : Option R) (step : Step) (p : Phase) :
    ({ s with outcome := r }).process step p = { s.process step p with outcome := r } := by
  cases p with
  | pending => rfl
  | started => rfl
  | done o => cases step <;> rfl
  | skipped =>
    obtain ⟨st, a, b, c, d, e, f⟩ := s
    cases st <;> rfl

theorem onProgress_outcome (i : Nat) (s : SolState R) (r : Option R) (p : Topic × Phase) :
    onProgress i { s with outcome := r } p = { onProgress i s p with outcome := r } := by
  unfold onProgress
  split
  · rfl
  · split <;> rw [process_outcome]

theorem fold_split (i : Nat) : ∀ (ms : List (Msg R)) (s : SolState R) (r : Option R),
    ms.foldl (effect i) { s with outcome := r } =
      { (ms.filterMap Msg.progress?).foldl (onProgress i) s with
        outcome := (ms.filterMap (Msg.outcome? i)).foldl (fun _ r => some r) r } := by
  intro ms
  induction ms with
  | nil => intro s r; rfl
  | cons m ms ih =>
    intro s r
    rw [List.foldl_cons]
    cases m with
    | progress t p =>
      simp only [effect, Msg.progress?, Msg.outcome?, List.filterMap_cons]
      rw [onProgress_outcome, ih]
      rfl
    | outcome j r' =>
      simp only [effect, Msg.progress?, Msg.outcome?, List.filterMap_cons]
      by_cases h : j = i
      · simp only [if_pos h]
        exact ih s (some r')
      · simp only [if_neg h]
        exact ih s r
    | solutions _ => exact ih s r
    | diagnostic _ => exact ih s r
    | other => exact ih s r

theorem sentBy_progress (parse : Outcome → R) (ev : Eval) (x : Notice) :
    (sentBy parse ev x).filterMap Msg.progress? = (reportsOn ev x.exec).map (fun t => (t, phaseOf x)) := by
  unfold sentBy closures reportsOn
  induction ev.handlers with
  | nil => rfl
  | cons p hs ih =>
    obtain ⟨v, h⟩ := p
    by_cases hv : v = x.exec
    · subst hv
      simp only [List.filter_cons, decide_true, if_true, List.map_cons, List.flatMap_cons, List.filterMap_append, ih]
      rw [List.filterMap_cons]
      cases h <;> simp only [says, Build.Spec.topicOn, if_true] <;> (try rfl)
      all_goals
        cases x <;> simp only <;> (try split) <;> simp [Msg.progress?]
    · simp only [List.filter_cons, hv, decide_false, if_neg, Bool.false_eq_true, not_false_eq_true, ih]
      rw [List.filterMap_cons]
      cases h <;> simp [Build.Spec.topicOn, hv]

theorem sentBy_outcome {parse : Outcome → R} {ev : Eval} {x : Notice} {i : Nat} {r : R}
    (h : r ∈ (sentBy parse ev x).filterMap (Msg.outcome? i)) :
    ∃ u o a b, x = .done u o ∧ r = parse o ∧ (u, Handler.customChecker a b i) ∈ ev.handlers := by
  obtain ⟨m, h1, h2⟩ := List.mem_filterMap.1 h
  obtain ⟨hd, h3, h4⟩ := List.mem_flatMap.1 h1
  have h5 := mem_closures.1 h3
  cases m <;> simp only [Msg.outcome?] at h2 <;> (try cases h2)
  next j r' =>
  split at h2 <;> cases h2
  next hji =>
  subst hji
  have key : ∀ (l : Option (List (Msg R))), says parse x hd = l → Msg.outcome j r ∈ l.getD [] →
      ∃ u o a b, x = .done u o ∧ r = parse o ∧ hd = .customChecker a b j := by
    intro l hl hm
    cases hd with
    | report t =>
      cases hl
      rw [says, Option.getD_some, List.mem_singleton] at hm
      cases hm
    | failureDiagnostic t =>
      cases x with
      | started u => cases hl; cases hm
      | skipped u => cases hl; cases hm
      | done u o =>
        simp only [says] at hl
        split at hl <;> (cases hl; simp at hm)
    | customChecker a b sol =>
      cases x with
      | started u => cases hl; cases hm
      | skipped u => cases hl; cases hm
      | done u o =>
        simp only [says] at hl
        split at hl
        · cases hl; cases hm
        · cases hl
          simp at hm
          exact ⟨u, o, a, b, rfl, hm.2, by rw [hm.1]⟩
    | _ => cases hl; cases hm
  obtain ⟨u, o, a, b, rfl, h6, rfl⟩ := key _ rfl h4
  exact ⟨u, o, a, b, rfl, h6, h5⟩

theorem outcome_sent {parse : Outcome → R} {ev : Eval} {u : ExecutionUuid} {o : Outcome} {i a b : Nat}
    (h : (u, Handler.customChecker a b i) ∈ ev.handlers) (hc : o.captured = true) :
    parse o ∈ (sentBy parse ev (.done u o)).filterMap (Msg.outcome? i) := by
  refine List.mem_filterMap.2 ⟨.outcome i (parse o), List.mem_flatMap.2 ⟨_, mem_closures.2 h, ?_⟩, by simp [Msg.outcome?]⟩
  simp [says, hc]

theorem foldl_same {α : Type} {r : α} : ∀ {l : List α} {x : Option α}, (∀ a ∈ l, a = r) →
    l.foldl (fun _ r => some r) x = if l = [] then x else some r := by
  intro l
  induction l with
  | nil => intros; rfl
  | cons a l ih =>
    intro x h
    rw [List.foldl_cons, ih (fun b hb => h b (by simp [hb])), h a (by simp)]
    split <;> simp

end TM.Terry
