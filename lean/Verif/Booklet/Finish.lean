import Verif.Booklet.Whole
import Verif.Build.Bridge
import Verif.Build.Fail
/-!
# All the booklets
-/
namespace TM.Booklet
open TM TM.Build TM.Text DagSpec Build.Spec Spec

/-! ## What is added -/

theorem compile_output {w : World} {root : String} {b : Booklet} {ev ev' : Eval} {out : FileUuid}
    (hr : Booklet.compile w root b ev = .ok (out, ev')) : out = ev.next + 1 := by
  simp only [Booklet.compile, bind_ok, pure_ok] at hr
  obtain ⟨exec, ev1, h1, ⟨o, e2⟩, ev2, h2, _, _, _, _, _, _, _, _, _, _, _, _, _, _, _, _, _, _, _, _, _, _, _, _, _, _, _, h3, _⟩ := hr
  simp only [newExecution, bind_ok, fresh_ok, pure_ok] at h1
  obtain ⟨_, _, ⟨rfl, rfl⟩, rfl, rfl⟩ := h1
  simp only [outputOf, bind_ok, fresh_ok] at h2
  obtain ⟨_, _, ⟨rfl, rfl⟩, h2⟩ := h2
  simp only [AMap.get?, pure_ok, List.find?, Option.map_none] at h2
  simp only [Prod.mk.injEq] at h2
  exact h3.symm.trans h2.1.1.symm

theorem build_does (w : World) (root : String) (b : Booklet) :
    Does (Booklet.build w root b) (fun _ r es => r.map (·.2) = bookletTopics w b ∧ es.map (·.uuid) = r.map (·.1)) := by
  intro ev a ev' h0 hr
  obtain ⟨out, ev1, h1, h2⟩ := bind_ok.1 hr
  obtain ⟨b1, n1, w1, r, es, p1, q1, e1, t1, c1⟩ := compile_does w root b _ _ _ h0 h1
  have ho := compile_output h1
  rw [writeAllowFail_ok] at h2
  subst h2
  refine ⟨?_, ?_, ?_, r, es, ?_, ?_, ?_, t1, c1⟩
  · split
    · exact b1
    · exact b1
  · split <;> exact n1
  · intro f hf
    split
    · exact w1 f hf
    · show (ev1.writes.insert out _).get? f = _
      rw [AMap.get?_insert, if_neg]
      · exact w1 f hf
      · rw [ho]
        exact Nat.ne_of_lt (Nat.lt_succ_of_lt hf)
  · split <;> exact p1
  · split <;> exact q1
  · split <;> exact e1

theorem buildBooklets_does (w : World) (root : String) (bs : List Booklet) :
    Does (buildBooklets w root bs) (fun _ r es => r.map (·.2) = bs.flatMap (bookletTopics w) ∧ es.map (·.uuid) = r.map (·.1)) := by
  unfold buildBooklets
  induction bs with
  | nil => exact Does.pure ⟨rfl, rfl⟩
  | cons b bs ih =>
    refine (build_does w root b).bind ?_
    rintro _ r es ⟨h1, h2⟩
    refine ih.mono ?_
    rintro _ r' es' ⟨h3, h4⟩
    simp [h1, h2, h3, h4]

theorem bookletTopics_eq (w : World) (b : Booklet) : bookletTopics w b = bookletMessages w b := by
  unfold bookletTopics bookletMessages
  congr 2
  funext s
  unfold statementTopics pictures
  congr 1
  refine List.filter_congr (fun f _ => ?_)
  have e : "asy".toList = ['a', 's', 'y'] := by decide
  rw [e]
  unfold used
  rw [Bool.eq_iff_iff]
  simp only [Bool.and_eq_true, decide_eq_true_eq, contains_iff]
  refine and_congr_right (fun _ => ?_)
  constructor
  · rintro ⟨x, y, h⟩; exact ⟨x, y, h.symm⟩
  · rintro ⟨x, y, h⟩; exact ⟨x, y, h.symm⟩

/-! ## The invariant -/

theorem buildBooklets_spec {w : World} {root : String} {bs : List Booklet} : ∀ {ev ev' : Eval} {P : List Execution} {a : Unit},
    Inv G0 ev P → buildBooklets w root bs ev = .ok (a, ev') →
    Inv G0 ev' P ∧ Ext G0 ev ev' ∧ ∀ b ∈ bs, ∃ e, Compiles w root ev' b e := by
  unfold buildBooklets
  induction bs with
  | nil =>
    intro ev ev' P a h hr
    simp only [each, pure_ok] at hr
    obtain ⟨-, rfl⟩ := hr
    exact ⟨h, .refl _ _, by simp⟩
  | cons b bs ih =>
    intro ev ev' P a h hr
    obtain ⟨_, ev1, h1, h2⟩ := bind_ok.1 hr
    obtain ⟨a1, a2, e, a3⟩ := build_spec h h1
    obtain ⟨b1, b2, b3⟩ := ih a1 h2
    refine ⟨b1, a2.trans b2, fun k hk => ?_⟩
    rcases List.mem_cons.1 hk with rfl | hk
    · exact ⟨e, a3.mono b2⟩
    · exact b3 k hk

theorem Spec.Before.inv {w : World} {root : String} {ev : Eval} (h : Before w root ev) : Inv G0 ev [] := by
  cases h with
  | empty n cfg =>
    refine ⟨⟨by simp [start, AMap.Wf, AMap.keys], by simp [start, AMap.Wf, AMap.keys], ?_⟩, ?_, ?_, ?_, ?_,
      ?_, ?_, ?_, ?_, ?_, ?_, ?_, Runnable.nil, ?_, ?_, ?_, ?_, ?_⟩
    all_goals simp [start, execUuids, allExecs, groupOuts, outsOf, AMap.keys, AMap.Wf, G0]
  | task h hr => exact Inv.noGraders (buildDag_done h hr).1.inv

/-! ## Reports -/

/-- Reports about `u`. -/
def ofUuid (u : ExecutionUuid) (r : List (ExecutionUuid × Topic)) : List Topic := (r.filter (fun p => p.1 = u)).map (·.2)

theorem reportsOn_eq (ev : Eval) (u : ExecutionUuid) : reportsOn ev u = ofUuid u (ev.handlers.filterMap reportOf) := by
  unfold reportsOn ofUuid
  induction ev.handlers with
  | nil => rfl
  | cons p l ih =>
    obtain ⟨v, k⟩ := p
    cases k
    case report t =>
      simp only [List.filterMap_cons, topicOn, reportOf]
      by_cases hv : v = u
      · simp [hv, ih]
      · simp [hv, ih]
    all_goals simpa only [List.filterMap_cons, topicOn, reportOf] using ih

theorem ofUuid_append (u : ExecutionUuid) (r r' : List (ExecutionUuid × Topic)) : ofUuid u (r ++ r') = ofUuid u r ++ ofUuid u r' := by
  simp [ofUuid]

theorem ofUuid_none {u : ExecutionUuid} {r : List (ExecutionUuid × Topic)} (h : u ∉ r.map (·.1)) : ofUuid u r = [] := by
  unfold ofUuid
  rw [List.map_eq_nil_iff, List.filter_eq_nil_iff]
  intro p hp hu
  simp only [decide_eq_true_eq] at hu
  exact h (List.mem_map.2 ⟨p, hp, hu⟩)

theorem ofUuid_one {r : List (ExecutionUuid × Topic)} (h : (r.map (·.1)).Nodup) {p : ExecutionUuid × Topic} (hp : p ∈ r) :
    ofUuid p.1 r = [p.2] := by
  induction r with
  | nil => cases hp
  | cons q r ih =>
    rw [List.map_cons, List.nodup_cons] at h
    rcases List.mem_cons.1 hp with rfl | hp'
    · have := ofUuid_none h.1
      unfold ofUuid at this ⊢
      rw [List.filter_cons]
      simp only [decide_true, if_true, List.map_cons, this]
    · have hne : q.1 ≠ p.1 := fun hc => h.1 (List.mem_map.2 ⟨p, hp', hc.symm⟩)
      have := ih h.2 hp'
      unfold ofUuid at this ⊢
      rw [List.filter_cons]
      simpa [hne] using this

theorem mem_reportOf {hs : List (ExecutionUuid × Handler)} {p : ExecutionUuid × Topic} (h : p ∈ hs.filterMap reportOf) :
    (p.1, Handler.report p.2) ∈ hs := by
  obtain ⟨⟨v, k⟩, hv, hk⟩ := List.mem_filterMap.1 h
  cases k
  case report t =>
    simp only [reportOf, Option.some.injEq] at hk
    subst hk
    exact hv
  all_goals simp [reportOf] at hk

/-! ## Errors -/

theorem writeAllowFail_safe (fs : FS) (f : FileUuid) (dest : String) : Safe fs (writeAllowFail f dest) (fun _ => True) := Safe.upd _

theorem saveLogs_safe (fs : FS) (root kind name : String) (e : Execution) :
    Safe fs (saveLogs root kind name e) (fun _ => True) := by
  unfold saveLogs
  refine (Safe.look _).bind' (fun c => Safe.ite (fun _ => ?_) (fun _ => Safe.pure trivial))
  refine (stderrOf_safe fs e).bind' (fun p => ?_)
  refine (writeAllowFail_safe fs _ _).bind' (fun _ => ?_)
  refine (stdoutOf_safe fs p.2).bind' (fun q => ?_)
  exact (writeAllowFail_safe fs _ _).bind' (fun _ => Safe.pure trivial)

theorem addDep_safe' (fs : FS) (e : Execution) (d : DepSpec) : Safe fs (addDep fs e d) (fun _ => True) :=
  Safe.fresh.bind' (fun _ => (provideFile_safe fs _ _).bind' (fun _ => Safe.pure trivial))

theorem compileAsy_safe (w : World) (root booklet src : String) :
    Safe w.toFS (compileAsy w root booklet src) (fun _ => True) := by
  unfold compileAsy
  refine Safe.bind' (Q := fun _ => True) ?_ (fun c => ?_)
  · unfold asyCompile
    refine Safe.fresh.bind' (fun f => (newExecution_safe _ _).bind' (fun e => (provideFile_safe _ _ _).bind' (fun _ => ?_)))
    refine (bindCallbacks_safe _ _ _).bind' (fun _ => ?_)
    refine (Safe.eachWith (I := fun _ => True) (fun e d _ _ => addDep_safe' _ e d) trivial).bind' (fun e => ?_)
    refine (outputOf_safe _ _ _).bind' (fun p => (saveLogs_safe _ _ _ _ _).bind' (fun e => ?_))
    refine (captureStderr_safe _ _ _).bind' (fun e => ?_)
    exact Safe.bind' (Q := fun _ => True) (Safe.upd _) (fun _ => (addExec_safe _ _).bind' (fun _ => Safe.pure trivial))
  · unfold asyCrop
    refine (newExecution_safe _ _).bind' (fun e => (bindCallbacks_safe _ _ _).bind' (fun _ => ?_))
    refine (outputOf_safe _ _ _).bind' (fun p => (captureStderr_safe _ _ _).bind' (fun e => ?_))
    exact Safe.bind' (Q := fun _ => True) (Safe.upd _) (fun _ => (addExec_safe _ _).bind' (fun _ => Safe.pure trivial))

theorem pushCopy_safe (w : World) (deps : List (String × FileUuid)) (path sandbox : String) :
    Safe w.toFS (pushCopy w deps path sandbox) (fun _ => True) :=
  Safe.fresh.bind' (fun _ => (provideFile_safe _ _ _).bind' (fun _ => Safe.pure trivial))

theorem processDep_safe (w : World) (hreal : ∀ p, w.real p = none → w.present p = false) (root booklet : String)
    (logo : Option String) (s : Statement) (deps : List (String × FileUuid)) (f : String) :
    Safe w.toFS (processDep w root booklet logo s deps f) (fun _ => True) := by
  unfold processDep
  refine Safe.ite (fun _ => Safe.ite (fun _ => ?_) (fun _ => Safe.pure trivial)) (fun _ => Safe.ite (fun _ => ?_) (fun _ => pushCopy_safe _ _ _ _))
  · exact (compileAsy_safe _ _ _ _).bind' (fun _ => Safe.pure trivial)
  · split
    · next hv =>
      refine fun ev => ⟨fun e he => ?_, fun b ev' hb => (fail_ok.1 hb).elim⟩
      cases he
      refine ⟨_, rfl, Or.inr (hreal _ ?_)⟩
      simpa [validPdf] using hv
    · exact pushCopy_safe _ _ _ _
    · exact Safe.pure trivial

theorem addStatement_safe (w : World) (hreal : ∀ p, w.real p = none → w.present p = false) (root : String) (b : Booklet)
    (e : Execution) (s : Statement) : Safe w.toFS (addStatement w root b e s) (fun _ => True) := by
  unfold addStatement
  refine Safe.fresh.bind' (fun f => Safe.bind' (Q := fun _ => True) (Safe.upd _) (fun _ => ?_))
  refine Safe.bind' (Q := fun _ => True) ?_ (fun d => Safe.pure trivial)
  unfold buildDeps
  refine (Safe.eachWith (I := fun _ => True) (fun d x _ _ => processDep_safe w hreal _ _ _ _ d x) trivial).bind' (fun d => ?_)
  refine Safe.eachWith (I := fun _ => True) (fun d x _ _ => ?_) trivial
  exact Safe.ite (fun _ => pushCopy_safe _ _ _ _) (fun _ => Safe.pure trivial)

theorem build_safe (w : World) (hreal : ∀ p, w.real p = none → w.present p = false) (root : String) (b : Booklet) :
    Safe w.toFS (Booklet.build w root b) (fun _ => True) := by
  unfold Booklet.build
  refine Safe.bind' (Q := fun _ => True) ?_ (fun _ => writeAllowFail_safe _ _ _)
  unfold Booklet.compile
  refine (newExecution_safe _ _).bind' (fun e => (outputOf_safe _ _ _).bind' (fun p => Safe.fresh.bind' (fun f => ?_)))
  refine Safe.bind' (Q := fun _ => True) (Safe.upd _) (fun _ => ?_)
  refine (Safe.eachWith (I := fun _ => True) (fun e s _ _ => addStatement_safe w hreal root b e s) trivial).bind' (fun e => ?_)
  refine (Safe.eachWith (I := fun _ => True) (fun e d _ _ => addDep_safe' _ e d) trivial).bind' (fun e => ?_)
  refine (bindCallbacks_safe _ _ _).bind' (fun _ => (saveLogs_safe _ _ _ _ _).bind' (fun e => ?_))
  refine (captureStdout_safe _ _ _).bind' (fun e => ?_)
  exact Safe.bind' (Q := fun _ => True) (Safe.upd _) (fun _ => (addExec_safe _ _).bind' (fun _ => Safe.pure trivial))

theorem buildBooklets_safe (w : World) (hreal : ∀ p, w.real p = none → w.present p = false) (root : String) (bs : List Booklet) :
    Safe w.toFS (buildBooklets w root bs) (fun _ => True) := Safe.each (fun b _ => build_safe w hreal root b)

/-! ## Paths -/

theorem fileName_slash (a b : Text) : fileName (a ++ '/' :: b) = fileName b := by
  have key : ∀ l r : Text, (l ++ '/' :: r).takeWhile (· ≠ '/') = l.takeWhile (· ≠ '/') := by
    intro l r
    induction l with
    | nil => simp
    | cons c l ih => simp only [List.cons_append, List.takeWhile_cons, ih]
  unfold fileName
  rw [List.reverse_append, List.reverse_cons, List.append_assoc]
  simp only [List.cons_append, List.nil_append]
  rw [key]

theorem fileName_join (d f : String) : fileName (joinPath d f).toList = fileName f.toList := by
  unfold joinPath
  split
  · rfl
  · have e : "/".toList = ['/'] := by decide
    rw [String.toList_append, String.toList_append, e, List.append_assoc]
    exact fileName_slash _ _

theorem extOf_join (d f : String) : extOf (joinPath d f) = extOf f := by
  unfold extOf
  rw [fileName_join]

end TM.Booklet
