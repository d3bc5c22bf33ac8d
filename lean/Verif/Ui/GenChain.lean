import Verif.Ui.Gen
/-!
# The steps of the generation of a testcase (C75)
-/
namespace TM.Ui
open TM TM.Build DagSpec Build.Spec Ui.Spec

/-! ## The steps -/

/-- The first step has to be over before the second. -/
inductive Earlier (st k : Nat) : Topic → Topic → Prop
  | gv : Earlier st k (.generation st k) (.validation st k)
  | go : Earlier st k (.generation st k) (.officialOutput st k)
  | vo : Earlier st k (.validation st k) (.officialOutput st k)

/-- What the steps need of each other. -/
structure Chain (ev : Eval) (st k : Nat) : Prop where
  single : ∀ u, reportsOn ev u = [] ∨ ∃ t, reportsOn ev u = [t]
  unique : ∀ t, Stage st k t → ∀ u v, Reports ev u t → Reports ev v t → u = v
  before : ∀ t t', Earlier st k t t' → ∀ pre u v, Reports ev u t → Reports ev v t' →
    Fed ev.dag pre v → ∃ o, .done u o ∈ pre ∧ o.status = .success

section
variable {ev : Eval} {st k : Nat}

theorem Chain.one (hc : Chain ev st k) {u : ExecutionUuid} {t t' : Topic} (h : Reports ev u t)
    (h' : Reports ev u t') : t = t' := by
  have a := mem_reportsOn.2 h
  have b := mem_reportsOn.2 h'
  rcases hc.single u with h0 | ⟨t0, h0⟩
  · rw [h0] at a; cases a
  · rw [h0, List.mem_singleton] at a b
    rw [a, b]

/-- An execution that is done had its inputs. -/
theorem done_fed {d : DagData} {a : List Notice} (ho : Ordered d a) {v : ExecutionUuid} {o : Outcome}
    (h : outcomeOf a v = some o) : ∃ pre, (∀ y ∈ pre, y ∈ a) ∧ Fed d pre v := by
  obtain ⟨pre, post, rfl⟩ := List.append_of_mem (outcome_mem h)
  exact ⟨pre, fun y hy => by simp [hy], (ho.done pre v o post rfl).2.2⟩

/-- A later step is done only if the earlier ones are, with success. -/
theorem Chain.after (hc : Chain ev st k) {a : List Notice} (ho : Ordered ev.dag a) {t t' : Topic}
    (he : Earlier st k t t') {u v : ExecutionUuid} (hu : Reports ev u t) (hv : Reports ev v t') {o : Outcome}
    (h : outcomeOf a v = some o) : ∃ o', outcomeOf a u = some o' ∧ o'.status = .success := by
  obtain ⟨pre, h1, h2⟩ := done_fed ho h
  obtain ⟨o', h3, h4⟩ := hc.before t t' he pre u v hu hv h2
  exact ⟨o', ordered_outcome ho (h1 _ h3), h4⟩

/-- What the UI knows after some notices. -/
structure Known (ev : Eval) (st k : Nat) (a : List Notice) (g : GenState) : Prop where
  generation : ∀ u, Reports ev u (.generation st k) → g.generation = endOf a u
  validation : ∀ u, Reports ev u (.validation st k) → g.validation = endOf a u
  solution : ∀ u, Reports ev u (.officialOutput st k) → g.solution = endOf a u
  failed : g.status = .failed ↔ Broken ev a st k
  solved : g.status = .solved ↔ Ready ev a st k

theorem endOf_snoc_other {a : List Notice} {x : Notice} {u : ExecutionUuid} (h : x.exec ≠ u) :
    endOf (a ++ [x]) u = endOf a u := by
  unfold endOf; rw [outcome_snoc_other h]

theorem broken_snoc_other {a : List Notice} {x : Notice}
    (h : ∀ t, Stage st k t → ¬ Reports ev x.exec t) : Broken ev (a ++ [x]) st k ↔ Broken ev a st k := by
  unfold Broken
  constructor
  · rintro ⟨e, t, o, h1, h2, h3, h4⟩
    refine ⟨e, t, o, h1, h2, ?_, h4⟩
    rw [← h3, outcome_snoc_other]
    rintro rfl; exact h t h1 h2
  · rintro ⟨e, t, o, h1, h2, h3, h4⟩
    refine ⟨e, t, o, h1, h2, ?_, h4⟩
    rw [← h3, outcome_snoc_other]
    rintro rfl; exact h t h1 h2

theorem ready_snoc_other {a : List Notice} {x : Notice}
    (h : ¬ Reports ev x.exec (.officialOutput st k)) : Ready ev (a ++ [x]) st k ↔ Ready ev a st k := by
  unfold Ready
  constructor
  · rintro ⟨e, o, h2, h3, h4⟩
    refine ⟨e, o, h2, ?_, h4⟩
    rw [← h3, outcome_snoc_other]
    rintro rfl; exact h h2
  · rintro ⟨e, o, h2, h3, h4⟩
    refine ⟨e, o, h2, ?_, h4⟩
    rw [← h3, outcome_snoc_other]
    rintro rfl; exact h h2

/-- Nothing changes with an execution that is not a step. -/
theorem known_other {a : List Notice} {x : Notice} {g : GenState} (hk : Known ev st k a g)
    (h : ∀ t, Stage st k t → ¬ Reports ev x.exec t) : Known ev st k (a ++ [x]) g where
  generation := fun u hu => by
    rw [endOf_snoc_other]; exact hk.generation u hu
    rintro rfl; exact h _ .generation hu
  validation := fun u hu => by
    rw [endOf_snoc_other]; exact hk.validation u hu
    rintro rfl; exact h _ .validation hu
  solution := fun u hu => by
    rw [endOf_snoc_other]; exact hk.solution u hu
    rintro rfl; exact h _ .officialOutput hu
  failed := by rw [broken_snoc_other h]; exact hk.failed
  solved := by rw [ready_snoc_other (h _ .officialOutput)]; exact hk.solved

/-- Before a step is done nothing after it is done. -/
theorem Chain.not_after (hc : Chain ev st k) {a : List Notice} (ho : Ordered ev.dag a) {t t' : Topic}
    (he : Earlier st k t t') {u v : ExecutionUuid} (hu : Reports ev u t) (hv : Reports ev v t')
    (hn : outcomeOf a u = none) : outcomeOf a v = none := by
  cases h : outcomeOf a v with
  | none => rfl
  | some o => obtain ⟨o', h1, -⟩ := hc.after ho he hu hv h; rw [hn] at h1; cases h1

/-- The notice is about the step `t`, which is not over, and the earlier ones went well: how the generation
goes depends on the notice only. -/
theorem Chain.current (hc : Chain ev st k) {a : List Notice} {x : Notice} (ho : Ordered ev.dag (a ++ [x]))
    {t : Topic} (ht : Stage st k t) (hx : Reports ev x.exec t) (hn : outcomeOf a x.exec = none)
    (hgood : ∀ t', Earlier st k t' t → ∀ u, Reports ev u t' → ∃ o, outcomeOf a u = some o ∧ o.status = .success) :
    (Broken ev (a ++ [x]) st k ↔ ∃ o, outcomeOf [x] x.exec = some o ∧ o.status ≠ .success) ∧
    (Ready ev (a ++ [x]) st k ↔ t = .officialOutput st k ∧
      ∃ o, outcomeOf [x] x.exec = some o ∧ o.status = .success) := by
  have hoa := ordered_prefix ho
  have hself : outcomeOf (a ++ [x]) x.exec = outcomeOf [x] x.exec := by rw [outcomeOf_snoc, hn]; rfl
  have hother : ∀ t' u, Stage st k t' → Reports ev u t' → t' ≠ t → ∀ o, outcomeOf (a ++ [x]) u = some o →
      o.status = .success ∧ t' ≠ .officialOutput st k := by
    intro t' u ht' hu hne o ho'
    have hne2 : x.exec ≠ u := by rintro rfl; exact hne (hc.one hu hx)
    rw [outcome_snoc_other hne2] at ho'
    have early : Earlier st k t' t → o.status = .success := by
      intro he
      obtain ⟨o', h1, h2⟩ := hgood t' he u hu
      rw [ho'] at h1; cases h1; exact h2
    have late : Earlier st k t t' → False := by
      intro he
      rw [hc.not_after hoa he hx hu hn] at ho'; cases ho'
    cases ht with
    | generation => cases ht' with
      | generation => exact absurd rfl hne
      | validation => exact (late .gv).elim
      | officialOutput => exact (late .go).elim
    | validation => cases ht' with
      | generation => exact ⟨early .gv, by simp⟩
      | validation => exact absurd rfl hne
      | officialOutput => exact (late .vo).elim
    | officialOutput => cases ht' with
      | generation => exact ⟨early .go, by simp⟩
      | validation => exact ⟨early .vo, by simp⟩
      | officialOutput => exact absurd rfl hne
  constructor
  · constructor
    · rintro ⟨u, t', o, h1, h2, h3, h4⟩
      by_cases htt : t' = t
      · subst htt
        rw [hc.unique _ h1 u _ h2 hx, hself] at h3
        exact ⟨o, h3, h4⟩
      · exact absurd (hother t' u h1 h2 htt o h3).1 h4
    · rintro ⟨o, h1, h2⟩
      exact ⟨x.exec, t, o, ht, hx, by rw [hself]; exact h1, h2⟩
  · constructor
    · rintro ⟨u, o, h2, h3, h4⟩
      by_cases htt : Topic.officialOutput st k = t
      · subst htt
        rw [hc.unique _ ht u _ h2 hx, hself] at h3
        exact ⟨rfl, o, h3, h4⟩
      · exact absurd rfl (hother _ u .officialOutput h2 htt o h3).2
    · rintro ⟨rfl, o, h1, h2⟩
      exact ⟨x.exec, o, hx, by rw [hself]; exact h1, h2⟩

/-- A notice is about an execution that is not over. -/
theorem ordered_last {d : DagData} {a : List Notice} {x : Notice} (ho : Ordered d (a ++ [x])) :
    outcomeOf a x.exec = none := by
  apply no_done_outcome
  cases x with
  | started u => exact (ho.start a u [] rfl).1
  | done u o => exact (ho.done a u o [] rfl).1
  | skipped u => exact (ho.skip a u [] rfl).1

theorem endOf_self {a : List Notice} {x : Notice} (hn : outcomeOf a x.exec = none) :
    endOf (a ++ [x]) x.exec = (match x with | .done _ o => some o.status | _ => none) := by
  unfold endOf
  rw [outcomeOf_snoc, hn]
  cases x <;> simp [outcomeOf, Notice.exec]

/-- A step is skipped: nothing new. -/
theorem known_skip (hc : Chain ev st k) {a : List Notice} {v : ExecutionUuid}
    (ho : Ordered ev.dag (a ++ [.skipped v])) {t : Topic} (ht : Stage st k t) (hx : Reports ev v t)
    {g : GenState} (hk : Known ev st k a g) :
    (∀ u, Reports ev u (.generation st k) → g.generation = endOf (a ++ [.skipped v]) u) ∧
    (∀ u, Reports ev u (.validation st k) → g.validation = endOf (a ++ [.skipped v]) u) ∧
    (∀ u, Reports ev u (.officialOutput st k) → g.solution = endOf (a ++ [.skipped v]) u) ∧
    (Broken ev (a ++ [.skipped v]) st k ↔ g.status = .failed) ∧
    ¬ Ready ev (a ++ [.skipped v]) st k := by
  have hn : outcomeOf a v = none := ordered_last ho
  have hsame : ∀ u, outcomeOf (a ++ [.skipped v]) u = outcomeOf a u := by
    intro u; rw [outcomeOf_snoc]; cases outcomeOf a u <;> rfl
  have hend : ∀ u, endOf (a ++ [.skipped v]) u = endOf a u := by intro u; unfold endOf; rw [hsame]
  refine ⟨fun u hu => by rw [hend]; exact hk.generation u hu, fun u hu => by rw [hend]; exact hk.validation u hu,
    fun u hu => by rw [hend]; exact hk.solution u hu, ?_, ?_⟩
  · rw [hk.failed]; unfold Broken; simp only [hsame]
  · rintro ⟨u, o, h1, h2, -⟩
    rw [hsame] at h2
    cases ht with
    | generation => rw [hc.not_after (ordered_prefix ho) .go hx h1 hn] at h2; cases h2
    | validation => rw [hc.not_after (ordered_prefix ho) .vo hx h1 hn] at h2; cases h2
    | officialOutput => rw [hc.unique _ .officialOutput u v h1 hx, hn] at h2; cases h2

/-- One more notice. -/
theorem known_step (hc : Chain ev st k) {a : List Notice} {x : Notice} (ho : Ordered ev.dag (a ++ [x]))
    {g : GenState} (hk : Known ev st k a g) :
    Known ev st k (a ++ [x])
      (((reportsOn ev x.exec).map (fun t => (t, Phase.told (progressOf x)))).foldl (genStep st k) g) := by
  rcases hc.single x.exec with h0 | ⟨t, h0⟩
  · rw [h0]
    exact known_other hk (fun t _ hr => by have := mem_reportsOn.2 hr; rw [h0] at this; cases this)
  have hrt : Reports ev x.exec t := mem_reportsOn.1 (by rw [h0]; simp)
  rw [h0]
  simp only [List.map_cons, List.map_nil, List.foldl_cons, List.foldl_nil]
  by_cases hst : Stage st k t
  · have hn := ordered_last ho
    have honly : ∀ t' u, Stage st k t' → Reports ev u t' → t' ≠ t → x.exec ≠ u := by
      intro t' u _ hu hne he; subst he; exact hne (hc.one hu hrt)
    have hsame : ∀ u, Reports ev u t → u = x.exec := fun u hu => hc.unique t hst u _ hu hrt
    -- the step goes on: its inputs are there
    have hfed : ∀ (_ : Fed ev.dag a x.exec) t', Earlier st k t' t → ∀ u, Reports ev u t' →
        ∃ o, outcomeOf a u = some o ∧ o.status = .success := by
      intro hf t' he u hu
      obtain ⟨o, h1, h2⟩ := hc.before t' t he a u x.exec hu hrt hf
      exact ⟨o, ordered_outcome (ordered_prefix ho) h1, h2⟩
    have hgen : ∀ t', Earlier st k t' (.generation st k) → ∀ u, Reports ev u t' →
        ∃ o, outcomeOf a u = some o ∧ o.status = .success := fun t' he => nomatch he
    cases x with
    | started v =>
      have hcur := hc.current ho hst hrt hn (hfed (ho.start a v [] rfl).2.2)
      have e1 : ∀ o, outcomeOf [.started v] v ≠ some o := by intro o h; cases h
      have nb : ¬ Broken ev (a ++ [.started v]) st k := by
        rw [hcur.1]; rintro ⟨o, h1, -⟩; exact e1 o h1
      have nr : ¬ Ready ev (a ++ [.started v]) st k := by
        rw [hcur.2]; rintro ⟨-, o, h1, -⟩; exact e1 o h1
      have hend : ∀ u, endOf (a ++ [.started v]) u = endOf a u := by
        intro u; unfold endOf; rw [outcomeOf_snoc]; cases outcomeOf a u <;> rfl
      cases hst <;> simp only [genStep, and_self, if_true, progressOf, GenState.onGeneration, GenState.onValidation,
        GenState.onSolution]
      all_goals exact ⟨fun u hu => by rw [hend]; exact hk.generation u hu,
        fun u hu => by rw [hend]; exact hk.validation u hu, fun u hu => by rw [hend]; exact hk.solution u hu,
        by simp [nb], by simp [nr]⟩
    | done v o =>
      have hcur := hc.current ho hst hrt hn (hfed (ho.done a v o [] rfl).2.2)
      have e1 : outcomeOf [.done v o] v = some o := outcomeOf_one v o
      have hb : Broken ev (a ++ [.done v o]) st k ↔ o.status ≠ .success := by
        rw [hcur.1]
        constructor
        · rintro ⟨o', h1, h2⟩
          have h1 : outcomeOf [.done v o] v = some o' := h1
          rw [e1] at h1; cases h1; exact h2
        · intro h; exact ⟨o, e1, h⟩
      have hrd : Ready ev (a ++ [.done v o]) st k ↔ t = .officialOutput st k ∧ o.status = .success := by
        rw [hcur.2]
        constructor
        · rintro ⟨h0, o', h1, h2⟩
          have h1 : outcomeOf [.done v o] v = some o' := h1
          rw [e1] at h1; cases h1; exact ⟨h0, h2⟩
        · rintro ⟨h0, h⟩; exact ⟨h0, o, e1, h⟩
      have hself := endOf_self (x := .done v o) hn
      simp only [Notice.exec] at hself hsame
      cases hst with
      | generation =>
        simp only [genStep, and_self, if_true, progressOf, GenState.onGeneration]
        refine ⟨fun u hu => ?_, fun u hu => ?_, fun u hu => ?_, ?_, ?_⟩
        · rw [hsame u hu, hself]
        · rw [endOf_snoc_other (honly _ u .validation hu (by simp))]; exact hk.validation u hu
        · rw [endOf_snoc_other (honly _ u .officialOutput hu (by simp))]; exact hk.solution u hu
        · rw [hb]; by_cases hs : o.status = .success <;> simp [hs]
        · rw [hrd]; by_cases hs : o.status = .success <;> simp [hs]
      | validation =>
        simp only [genStep, and_self, if_true, progressOf, GenState.onValidation]
        refine ⟨fun u hu => ?_, fun u hu => ?_, fun u hu => ?_, ?_, ?_⟩
        · rw [endOf_snoc_other (honly _ u .generation hu (by simp))]; exact hk.generation u hu
        · rw [hsame u hu, hself]
        · rw [endOf_snoc_other (honly _ u .officialOutput hu (by simp))]; exact hk.solution u hu
        · rw [hb]; by_cases hs : o.status = .success <;> simp [hs]
        · rw [hrd]; by_cases hs : o.status = .success <;> simp [hs]
      | officialOutput =>
        simp only [genStep, and_self, if_true, progressOf, GenState.onSolution]
        refine ⟨fun u hu => ?_, fun u hu => ?_, fun u hu => ?_, ?_, ?_⟩
        · rw [endOf_snoc_other (honly _ u .generation hu (by simp))]; exact hk.generation u hu
        · rw [endOf_snoc_other (honly _ u .validation hu (by simp))]; exact hk.validation u hu
        · rw [hsame u hu, hself]
        · rw [hb]; by_cases hs : o.status = .success <;> simp [hs]
        · rw [hrd]; by_cases hs : o.status = .success <;> simp [hs]
    | skipped v =>
      obtain ⟨p1, p2, p3, p4, p5⟩ := known_skip hc ho hst hrt hk
      cases hst with
      | generation =>
        simp only [genStep, and_self, if_true, progressOf, GenState.onGeneration]
        have hnb : g.status ≠ .failed := by
          intro hf
          obtain ⟨u, t, o, h1, h2, h3, h4⟩ := hk.failed.1 hf
          cases h1 with
          | generation => rw [hsame u h2] at h3; rw [hn] at h3; cases h3
          | validation => rw [hc.not_after (ordered_prefix ho) .gv hrt h2 hn] at h3; cases h3
          | officialOutput => rw [hc.not_after (ordered_prefix ho) .go hrt h2 hn] at h3; cases h3
        exact ⟨p1, p2, p3, by rw [p4]; simp [hnb], by simp [p5]⟩
      | validation =>
        simp only [genStep, and_self, if_true, progressOf, GenState.onValidation]
        split
        · next hf => exact ⟨p1, p2, p3, by rw [p4], by simp [hf, p5]⟩
        · next hf => exact ⟨p1, p2, p3, by rw [p4]; simp [hf], by simp [p5]⟩
      | officialOutput =>
        simp only [genStep, and_self, if_true, progressOf, GenState.onSolution]
        split
        · next hf => exact ⟨p1, p2, p3, by rw [p4], by simp [hf, p5]⟩
        · next hf => exact ⟨p1, p2, p3, by rw [p4]; simp [hf], by simp [p5]⟩
  · have hg : genStep st k g (t, .told (progressOf x)) = g := by
      unfold genStep
      cases t <;> simp only <;> (try split) <;> (try rfl)
      all_goals next h => obtain ⟨rfl, rfl⟩ := h; exact absurd (by constructor) hst
    rw [hg]
    exact known_other hk (fun t' ht' hr => hst (by rw [hc.one hrt hr]; exact ht'))

theorem known_all (hc : Chain ev st k) : ∀ {r a : List Notice} {g' : GenState},
    Known ev st k a g' → Ordered ev.dag (a ++ r) →
    Known ev st k (a ++ r) ((r.flatMap (fun x => (reportsOn ev x.exec).map
      (fun t => (t, Phase.told (progressOf x))))).foldl (genStep st k) g') := by
  intro r
  induction r with
  | nil => intro a g' hk _; simpa using hk
  | cons x r ih =>
    intro a g' hk ho
    have ho' : Ordered ev.dag ((a ++ [x]) ++ r) := by simpa using ho
    have := ih (known_step hc (ordered_prefix ho') hk) ho'
    rw [List.flatMap_cons, List.foldl_append]
    simpa using this

end
end TM.Ui
