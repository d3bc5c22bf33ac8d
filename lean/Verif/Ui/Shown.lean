import Verif.Ui.Fold
/-!
# The status shown for a testcase of a batch task
-/
namespace TM.Ui
open TM TM.Build DagSpec Build.Spec Ui.Spec

/-- What is said about an evaluation: exactly the messages of `Says` (the score of the checker may be
missing). -/
structure Talk (checker : Checker) (st k j : Nat) (e q : ExecutionUuid) (msgs : Notice → List Message) : Prop where
  says : ∀ x, ∀ m ∈ msgs x, Says checker st k j e q x m
  run : ∀ x, x.exec = e → .progress (.evaluation st k j 0 1) (.told (progressOf x)) ∈ msgs x
  check : ∀ x, x.exec = q → .progress (.checker st k j) (.told (progressOf x)) ∈ msgs x
  zero : ∀ o, o.status ≠ .success → .testcaseScore st k j (.num 0) o.shown ∈ msgs (.done e o)
  verdict : ∀ o s msg, (s, msg) ∈ verdict checker o → .testcaseScore st k j s msg ∈ msgs (.done q o)

variable {checker : Checker} {st k j : Nat} {e q : ExecutionUuid} {msgs : Notice → List Message}

theorem verdict_short (checker : Checker) (o : Outcome) :
    verdict checker o = [] ∨ ∃ p, verdict checker o = [p] := by
  cases checker with
  | whiteDiff =>
    simp only [verdict]
    split
    · exact .inr ⟨_, rfl⟩
    · exact .inr ⟨_, rfl⟩
  | custom src =>
    simp only [verdict]
    split
    · cases o.score with
      | none => exact .inl rfl
      | some x => exact .inr ⟨_, rfl⟩
    · exact .inl rfl

theorem mem_snoc_ne {a : List Notice} {x y : Notice} (h : y ≠ x) : y ∈ a ++ [x] ↔ y ∈ a := by
  simp [h]

theorem outcome_snoc_other {a : List Notice} {x : Notice} {u : ExecutionUuid} (h : x.exec ≠ u) :
    outcomeOf (a ++ [x]) u = outcomeOf a u := by
  rw [outcomeOf_snoc, outcomeOf_other h, Option.or_none]

/-- One more notice. -/
theorem step_status (ht : Talk checker st k j e q msgs) (hne : e ≠ q) {d : DagData}
    (hfed : ∀ pre, Fed d pre q → ∃ o, .done e o ∈ pre ∧ o.status = .success) {a : List Notice} {x : Notice}
    (ho : Ordered d (a ++ [x])) {t : TcEval} (h1 : t.status = batchStatus checker e q a)
    (h2 : t.score = batchScore checker e q a) :
    ∃ t', effects (msgs x) t = some t' ∧ t'.status = batchStatus checker e q (a ++ [x]) ∧
      t'.score = batchScore checker e q (a ++ [x]) := by
  have hoa := ordered_prefix ho
  by_cases hxe : x.exec = e
  · have hxq : x.exec ≠ q := fun h => hne (hxe.symm.trans h)
    have oq : outcomeOf (a ++ [x]) q = outcomeOf a q := outcome_snoc_other hxq
    have sq : Notice.started q ∈ a ++ [x] ↔ Notice.started q ∈ a :=
      mem_snoc_ne (fun h => hxq (by rw [← h]; rfl))
    have hr := ht.run x hxe
    cases x with
    | started u =>
      simp only [Notice.exec] at hxe
      subst hxe
      obtain ⟨p1, p2, -⟩ := ho.start a u [] rfl
      have oe : outcomeOf (a ++ [.started u]) u = none := by
        rw [outcomeOf_snoc, no_done_outcome p1]; rfl
      obtain ⟨t', g1, g2, g3⟩ := fold_reach (P := fun y => y.score = t.score) (Q := fun y => y.status = .solving)
        (l := msgs (.started u)) (fun m hm y hy => by
          cases ht.says _ m hm with
          | run _ =>
            obtain ⟨y', b1, b2, b3⟩ := effect_run st k j .started y
            exact ⟨y', b1, b2.trans hy, fun _ => b3⟩
          | check hq => exact absurd hq hxq
          | zero o hq => cases hq
          | verdict o s msg hq => cases hq) hr (fun y y' hy hef => by
            obtain ⟨y2, b1, b2, b3⟩ := effect_run st k j .started y
            rw [show progressOf (.started u) = .started from rfl, b1] at hef
            cases hef; exact b3) rfl
      refine ⟨t', g1, ?_, ?_⟩
      · rw [g3]; unfold batchStatus
        rw [oe]
        simp [p2]
      · rw [g2, h2]; unfold batchScore
        rw [oe, no_done_outcome p1]; rfl
    | skipped u =>
      simp only [Notice.exec] at hxe
      subst hxe
      obtain ⟨p1, p2, -⟩ := ho.skip a u [] rfl
      have oe : outcomeOf (a ++ [.skipped u]) u = none := by
        rw [outcomeOf_snoc, no_done_outcome p1]; rfl
      obtain ⟨t', g1, g2, g3⟩ := fold_reach (P := fun y => y.score = t.score) (Q := fun y => y.status = .skipped)
        (l := msgs (.skipped u)) (fun m hm y hy => by
          cases ht.says _ m hm with
          | run _ =>
            obtain ⟨y', b1, b2, b3⟩ := effect_run st k j .skipped y
            exact ⟨y', b1, b2.trans hy, fun _ => b3⟩
          | check hq => exact absurd hq hxq
          | zero o hq => cases hq
          | verdict o s msg hq => cases hq) hr (fun y y' hy hef => by
            obtain ⟨y2, b1, b2, b3⟩ := effect_run st k j .skipped y
            rw [show progressOf (.skipped u) = .skipped from rfl, b1] at hef
            cases hef; exact b3) rfl
      refine ⟨t', g1, ?_, ?_⟩
      · rw [g3]; unfold batchStatus
        rw [oe]
        simp
      · rw [g2, h2]; unfold batchScore
        rw [oe, no_done_outcome p1]; rfl
    | done u o =>
      simp only [Notice.exec] at hxe
      subst hxe
      obtain ⟨p1, p2, -⟩ := ho.done a u o [] rfl
      have oe : outcomeOf (a ++ [.done u o]) u = some o := by
        rw [outcomeOf_snoc, no_done_outcome p1, outcomeOf_one]; rfl
      have nq : ∀ o', Notice.done q o' ∉ a := by
        intro o' hm
        obtain ⟨c, b, rfl⟩ := List.append_of_mem hm
        obtain ⟨-, -, hf⟩ := hoa.done c q o' b rfl
        obtain ⟨o2, h3, -⟩ := hfed c hf
        exact p1 o2 (by simp [h3])
      have nsq : Notice.started q ∉ a := by
        intro hm
        obtain ⟨c, b, rfl⟩ := List.append_of_mem hm
        obtain ⟨-, -, hf⟩ := hoa.start c q b rfl
        obtain ⟨o2, h3, -⟩ := hfed c hf
        exact p1 o2 (by simp [h3])
      have hsc : t.score = none := by
        rw [h2]; unfold batchScore; rw [no_done_outcome p1]; rfl
      by_cases hs : o.status = .success
      · obtain ⟨t', g1, g2, g3⟩ := fold_reach (P := fun y => y.score = none) (Q := fun y => y.status = .solved)
          (l := msgs (.done u o)) (fun m hm y hy => by
            cases ht.says _ m hm with
            | run _ =>
              obtain ⟨y', b1, b2, b3⟩ := effect_run st k j (.done o.status) y
              exact ⟨y', b1, b2.trans hy, fun _ => by rw [b3, hs]; rfl⟩
            | check hq => exact absurd hq hxq
            | zero o' hq hf => cases hq; exact absurd hs hf
            | verdict o' s msg hq => cases hq; exact absurd rfl hne) hr (fun y y' hy hef => by
              obtain ⟨y2, b1, b2, b3⟩ := effect_run st k j (.done o.status) y
              rw [show progressOf (.done u o) = .done o.status from rfl, b1] at hef
              cases hef; rw [b3, hs]; rfl) hsc
        refine ⟨t', g1, ?_, ?_⟩
        · rw [g3]; unfold batchStatus
          rw [oe, oq, no_done_outcome nq]
          simp [hs, sq, nsq]
        · rw [g2]; unfold batchScore
          rw [oe, oq, no_done_outcome nq]
          simp [batchScores, hs]
      · have hz := ht.zero o hs
        obtain ⟨t', g1, -, g3⟩ := fold_reach (P := fun _ => True) (Q := fun y => y.status = failedAs o.status)
          (l := msgs (.done u o)) (fun m hm y hy => by
            cases ht.says _ m hm with
            | run _ =>
              obtain ⟨y', b1, b2, b3⟩ := effect_run st k j (.done o.status) y
              exact ⟨y', b1, trivial, fun _ => b3⟩
            | check hq => exact absurd hq hxq
            | zero o' hq hf =>
              cases hq
              obtain ⟨y', b1, b2, b3⟩ := effect_score st k j (.num 0) o.shown y
              exact ⟨y', b1, trivial, fun hy => by rw [b3, hy, failed_completed hs]; rfl⟩
            | verdict o' s msg hq => cases hq; exact absurd rfl hne) hr (fun y y' hy hef => by
              obtain ⟨y2, b1, b2, b3⟩ := effect_run st k j (.done o.status) y
              rw [show progressOf (.done u o) = .done o.status from rfl, b1] at hef
              cases hef; exact b3) trivial (t := t)
        obtain ⟨t2, e1, -, e3⟩ := fold_reach (P := fun _ => True) (Q := fun y => y.score = some (.num 0))
          (l := msgs (.done u o)) (fun m hm y hy => by
            cases ht.says _ m hm with
            | run _ =>
              obtain ⟨y', b1, b2, b3⟩ := effect_run st k j (.done o.status) y
              exact ⟨y', b1, trivial, fun h => b2.trans h⟩
            | check hq => exact absurd hq hxq
            | zero o' hq hf =>
              cases hq
              obtain ⟨y', b1, b2, b3⟩ := effect_score st k j (.num 0) o.shown y
              exact ⟨y', b1, trivial, fun _ => b2⟩
            | verdict o' s msg hq => cases hq; exact absurd rfl hne) hz (fun y y' hy hef => by
              obtain ⟨y2, b1, b2, b3⟩ := effect_score st k j (.num 0) o.shown y
              rw [b1] at hef
              cases hef; exact b2) trivial (t := t)
        rw [g1] at e1; cases e1
        refine ⟨t', g1, ?_, ?_⟩
        · rw [g3]; unfold batchStatus
          rw [oe]
          simp [hs]
        · rw [e3]; unfold batchScore
          rw [oe]
          simp [batchScores, hs]
  · have oe : outcomeOf (a ++ [x]) e = outcomeOf a e := outcome_snoc_other hxe
    have se : Notice.started e ∈ a ++ [x] ↔ Notice.started e ∈ a :=
      mem_snoc_ne (fun h => hxe (by rw [← h]; rfl))
    have ke : Notice.skipped e ∈ a ++ [x] ↔ Notice.skipped e ∈ a :=
      mem_snoc_ne (fun h => hxe (by rw [← h]; rfl))
    by_cases hxq : x.exec = q
    · have hc := ht.check x hxq
      cases x with
      | started u =>
        simp only [Notice.exec] at hxq hxe
        subst hxq
        obtain ⟨p1, p2, p3⟩ := ho.start a u [] rfl
        obtain ⟨o, p4, p5⟩ := hfed a p3
        have p6 := ordered_outcome hoa p4
        have oq : outcomeOf (a ++ [.started u]) u = none := by
          rw [outcomeOf_snoc, no_done_outcome p1]; rfl
        obtain ⟨t', g1, g2, g3⟩ := fold_reach (P := fun y => y.score = t.score) (Q := fun y => y.status = .checking)
          (l := msgs (.started u)) (fun m hm y hy => by
            cases ht.says _ m hm with
            | run hq => exact absurd hq hxe
            | check _ =>
              obtain ⟨y', b1, b2, b3⟩ := effect_check st k j .started y
              exact ⟨y', b1, b2.trans hy, fun _ => b3⟩
            | zero o hq => cases hq
            | verdict o s msg hq => cases hq) hc (fun y y' hy hef => by
              obtain ⟨y2, b1, b2, b3⟩ := effect_check st k j .started y
              rw [show progressOf (.started u) = .started from rfl, b1] at hef
              cases hef; exact b3) rfl
        refine ⟨t', g1, ?_, ?_⟩
        · rw [g3]; unfold batchStatus
          rw [oe, oq, p6]
          simp [p5]
        · rw [g2, h2]; unfold batchScore
          rw [oe, oq, no_done_outcome p1]
      | skipped u =>
        simp only [Notice.exec] at hxq hxe
        subst hxq
        have oq : outcomeOf (a ++ [.skipped u]) u = outcomeOf a u := by
          rw [outcomeOf_snoc]; simp [outcomeOf]
        have su : Notice.started u ∈ a ++ [.skipped u] ↔ Notice.started u ∈ a := mem_snoc_ne (by simp)
        obtain ⟨t', g1, g2, g3⟩ := fold_inv (P := fun y => y.score = t.score ∧ y.status = t.status)
          (l := msgs (.skipped u)) (fun m hm y hy => by
            cases ht.says _ m hm with
            | run hq => exact absurd hq hxe
            | check _ =>
              obtain ⟨y', b1, b2, b3⟩ := effect_check st k j .skipped y
              exact ⟨y', b1, b2.trans hy.1, b3.trans hy.2⟩
            | zero o hq => cases hq
            | verdict o s msg hq => cases hq) ⟨rfl, rfl⟩
        refine ⟨t', g1, ?_, ?_⟩
        · rw [g3, h1]; unfold batchStatus
          rw [oe, oq]
          simp only [se, ke, su]
        · rw [g2, h2]; unfold batchScore
          rw [oe, oq]
      | done u o' =>
        simp only [Notice.exec] at hxq hxe
        subst hxq
        obtain ⟨p1, p2, p3⟩ := ho.done a u o' [] rfl
        obtain ⟨o, p4, p5⟩ := hfed a p3
        have p6 := ordered_outcome hoa p4
        have oq : outcomeOf (a ++ [.done u o']) u = some o' := by
          rw [outcomeOf_snoc, no_done_outcome p1, outcomeOf_one]; rfl
        have su : Notice.started u ∈ a ++ [.done u o'] ↔ Notice.started u ∈ a := mem_snoc_ne (by simp)
        have hst : t.status = if Notice.started u ∈ a then .checking else .solved := by
          rw [h1]; unfold batchStatus
          rw [p6, no_done_outcome p1]
          simp [p5]
        have hsc : t.score = none := by
          rw [h2]; unfold batchScore
          rw [p6, no_done_outcome p1]
          simp [batchScores, p5]
        have hnc : t.status.hasCompleted = false := by rw [hst]; split <;> rfl
        rcases verdict_short checker o' with hv | ⟨p, hv⟩
        · obtain ⟨t', g1, g2, g3⟩ := fold_inv (P := fun y => y.score = t.score ∧ y.status = t.status)
            (l := msgs (.done u o')) (fun m hm y hy => by
              cases ht.says _ m hm with
              | run hq => exact absurd hq hxe
              | check _ =>
                obtain ⟨y', b1, b2, b3⟩ := effect_check st k j (.done o'.status) y
                exact ⟨y', b1, b2.trans hy.1, b3.trans hy.2⟩
              | zero o hq => cases hq; exact absurd rfl hne
              | verdict o s msg hq hvv => cases hq; rw [hv] at hvv; cases hvv) ⟨rfl, rfl⟩
          refine ⟨t', g1, ?_, ?_⟩
          · rw [g3, hst]; unfold batchStatus
            rw [oe, oq, p6]
            simp [p5, hv, su]
          · rw [g2, hsc]; unfold batchScore
            rw [oe, oq, p6]
            simp [batchScores, p5, hv]
        · have hz := ht.verdict o' p.1 p.2 (by rw [hv]; simp)
          have hstep : ∀ m ∈ msgs (.done u o'), ∀ y : TcEval,
              (y.status.hasCompleted = false ∨ y.status = scoredAs p) → ∃ y', m.effect y = some y' ∧
                (y'.status.hasCompleted = false ∨ y'.status = scoredAs p) ∧
                ((y.status = scoredAs p ∧ y.score = some p.1) →
                  (y'.status = scoredAs p ∧ y'.score = some p.1)) := by
            intro m hm y hy
            cases ht.says _ m hm with
            | run hq => exact absurd hq hxe
            | check _ =>
              obtain ⟨y', b1, b2, b3⟩ := effect_check st k j (.done o'.status) y
              simp only at b3
              exact ⟨y', b1, by rw [b3]; exact hy, fun h => by rw [b2, b3]; exact h⟩
            | zero o hq => cases hq; exact absurd rfl hne
            | verdict o s msg hq hvv =>
              cases hq
              rw [hv, List.mem_singleton] at hvv
              obtain ⟨y', b1, b2, b3⟩ := effect_score st k j s msg y
              have hp1 : s = p.1 := by rw [← hvv]
              have hfin : y'.status = scoredAs p := by
                rw [b3, hvv]
                rcases hy with hy | hy
                · rw [hy]; rfl
                · rw [hy, scored_completed]; rfl
              exact ⟨y', b1, .inr hfin, fun _ => ⟨hfin, by rw [b2, hp1]⟩⟩
          obtain ⟨t', g1, -, g3⟩ := fold_reach hstep hz (fun y y' hy hef => by
            obtain ⟨y2, b1, b2, b3⟩ := effect_score st k j p.1 p.2 y
            rw [b1] at hef
            cases hef
            refine ⟨?_, b2⟩
            rw [b3]
            rcases hy with hy | hy
            · rw [hy]; rfl
            · rw [hy, scored_completed]; rfl) (.inl hnc)
          refine ⟨t', g1, ?_, ?_⟩
          · rw [g3.1]; unfold batchStatus
            rw [oe, oq, p6]
            simp [p5, hv]
          · rw [g3.2]; unfold batchScore
            rw [oe, oq, p6]
            simp [batchScores, p5, hv]
    · have hnil : msgs x = [] := by
        rw [List.eq_nil_iff_forall_not_mem]
        intro m hm
        cases ht.says _ m hm with
        | run hq => exact hxe hq
        | check hq => exact hxq hq
        | zero o hq => exact hxe (by rw [hq]; rfl)
        | verdict o s msg hq => exact hxq (by rw [hq]; rfl)
      have oq : outcomeOf (a ++ [x]) q = outcomeOf a q := outcome_snoc_other hxq
      have sq : Notice.started q ∈ a ++ [x] ↔ Notice.started q ∈ a :=
        mem_snoc_ne (fun h => hxq (by rw [← h]; rfl))
      refine ⟨t, by rw [hnil]; rfl, ?_, ?_⟩
      · rw [h1]; unfold batchStatus
        rw [oe, oq]
        simp only [se, ke, sq]
      · rw [h2]; unfold batchScore
        rw [oe, oq]

/-- All the notices. -/
theorem status_shown (ht : Talk checker st k j e q msgs) (hne : e ≠ q) {d : DagData}
    (hfed : ∀ pre, Fed d pre q → ∃ o, .done e o ∈ pre ∧ o.status = .success) {t : TcEval}
    (h1 : t.status = .pending) (h2 : t.score = none) : ∀ {ns : List Notice}, Ordered d ns →
    ∃ t', effects (ns.flatMap msgs) t = some t' ∧ t'.status = batchStatus checker e q ns ∧
      t'.score = batchScore checker e q ns := by
  have key : ∀ (l : List Notice), Ordered d l.reverse →
      ∃ t', effects (l.reverse.flatMap msgs) t = some t' ∧ t'.status = batchStatus checker e q l.reverse ∧
      t'.score = batchScore checker e q l.reverse := by
    intro l
    induction l with
    | nil => intro _; exact ⟨t, rfl, h1, h2⟩
    | cons x l ih =>
      intro ho
      rw [List.reverse_cons] at ho ⊢
      obtain ⟨t1, g1, g2, g3⟩ := ih (ordered_prefix ho)
      obtain ⟨t2, g4, g5, g6⟩ := step_status ht hne hfed ho g2 g3
      refine ⟨t2, ?_, g5, g6⟩
      rw [List.flatMap_append, effects_append, g1]
      simpa using g4
  intro ns ho
  have := key ns.reverse (by rw [List.reverse_reverse]; exact ho)
  rwa [List.reverse_reverse] at this

theorem mem_firstsFrom : ∀ {ns : List Notice} {dr : List (Kind × ExecutionUuid)} {x : Notice},
    (∀ y ∈ ns, y.kind = x.kind → y.exec = x.exec → y = x) → (x.kind, x.exec) ∉ dr → x ∈ ns →
    x ∈ firstsFrom dr ns := by
  intro ns
  induction ns with
  | nil => intro dr x _ _ h; cases h
  | cons m ns ih =>
    intro dr x hu hd hm
    simp only [firstsFrom]
    by_cases hmx : (m.kind, m.exec) = (x.kind, x.exec)
    · have : m = x := hu m (by simp) (Prod.mk.inj hmx).1 (Prod.mk.inj hmx).2
      subst this
      rw [if_neg hd]; simp
    · have hx : x ∈ ns := by
        rcases List.mem_cons.1 hm with rfl | h
        · exact absurd rfl hmx
        · exact h
      have hu' : ∀ y ∈ ns, y.kind = x.kind → y.exec = x.exec → y = x := fun y hy => hu y (by simp [hy])
      split
      · exact ih hu' hd hx
      · refine List.mem_cons_of_mem _ (ih hu' ?_ hx)
        intro h
        rcases List.mem_cons.1 h with h | h
        · exact hmx h.symm
        · exact hd h

theorem started_firsts (ns : List Notice) (u : ExecutionUuid) : .started u ∈ firsts ns ↔ .started u ∈ ns :=
  ⟨mem_of_firsts, fun h => mem_firstsFrom (fun y _ h1 h2 => by
    cases y <;> first | (cases h2; rfl) | cases h1) (by simp) h⟩

theorem skipped_firsts (ns : List Notice) (u : ExecutionUuid) : .skipped u ∈ firsts ns ↔ .skipped u ∈ ns :=
  ⟨mem_of_firsts, fun h => mem_firstsFrom (fun y _ h1 h2 => by
    cases y <;> first | (cases h2; rfl) | cases h1) (by simp) h⟩

theorem batchStatus_firsts (checker : Checker) (e q : ExecutionUuid) (ns : List Notice) :
    batchStatus checker e q (firsts ns) = batchStatus checker e q ns := by
  unfold batchStatus
  simp only [outcomeOf_firsts, started_firsts, skipped_firsts]

theorem batchScore_firsts (checker : Checker) (e q : ExecutionUuid) (ns : List Notice) :
    batchScore checker e q (firsts ns) = batchScore checker e q ns := by
  unfold batchScore
  simp only [outcomeOf_firsts]

end TM.Ui
