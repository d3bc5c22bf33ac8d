import Verif.Terry.UiSample
import Verif.Ui.PropsGen
/-!
# The compilations the UI of a Terry task shows (C92)
-/
namespace TM.Terry
open TM TM.Build DagSpec Terry.Spec
open TM.Build.Spec (start callbacks Reports reportsOn Ordered Fed outcomeOf firsts firstsFrom)
open TM.Ui (ordered_firsts started_firsts skipped_firsts compStep compStatus)
open TM.Build.Spec (progressOf)
open TM.Ui.Spec (compiledAs)

variable {R : Type} {n : Uuid} {cfg : DagConfig} {fs : FS} {task : Task} {seed : Nat → Nat} {sols : List Src}
  {ev : Eval} {a : Unit}

/-- The effect of a message on the status of a compilation. -/
def compMsg (path : String) (c : Option TM.Ui.CompStatus) : Option (Topic × Phase) → Option TM.Ui.CompStatus
  | some (t, p) => if t = .compilation path then some (compOf p) else c
  | none => c

theorem onSol_comp {u u' : Ui R} {i : Nat} {f : SolState R → SolState R} (h : u.onSol i f = some u') :
    u'.compilations = u.compilations := by
  unfold Ui.onSol at h
  split at h
  · cases h
  · cases h; rfl

theorem apply_comp {u u' : Ui R} {m : Msg R} (path : String) (h : u.apply m = some u') :
    u'.compilations.get? path = compMsg path (u.compilations.get? path) m.progress? := by
  cases m with
  | progress t p =>
    cases t with
    | compilation q =>
      cases h
      simp only [Msg.progress?, compMsg, AMap.get?_insert, Topic.compilation.injEq]
      by_cases e : path = q
      · subst e; simp
      · rw [if_neg (fun x => e (by simpa using x)), if_neg (fun x => e x.symm)]
    | generation x y => simp [onSol_comp h, Msg.progress?, compMsg]
    | validation x y => simp [onSol_comp h, Msg.progress?, compMsg]
    | evaluation x y z v w => simp [onSol_comp h, Msg.progress?, compMsg]
    | checker x y z => simp [onSol_comp h, Msg.progress?, compMsg]
    | _ => cases h
  | outcome s r => simp [onSol_comp h, Msg.progress?, compMsg]
  | _ => cases h; rfl

theorem applyAll_comp (path : String) : ∀ {ms : List (Msg R)} {u u' : Ui R}, u.applyAll ms = some u' →
    u'.compilations.get? path =
      (ms.filterMap Msg.progress?).foldl (fun c p => compMsg path c (some p)) (u.compilations.get? path) := by
  intro ms
  induction ms with
  | nil => intro u u' h; cases h; rfl
  | cons m ms ih =>
    intro u u' h
    unfold Ui.applyAll at h
    split at h
    · cases h
    · next u₁ h1 =>
      rw [ih h, apply_comp path h1]
      cases hm : m.progress? with
      | none => simp [hm, compMsg]
      | some p => simp [hm]

theorem told_same (x : Notice) : compOf (phaseOf x) = compStatus (.told (progressOf x)) := by
  cases x <;> rfl

/-- **C92** The UI shows how the compilation of a source file goes, if it is compiled once. -/
theorem compilation_shown (h : Fits n task sols) (hr : buildDag fs task seed sols (start n cfg) = .ok (a, ev))
    (parse : Outcome → R) {ns : List Notice} (ho : Ordered ev.dag ns) (hcp : Captured ev ns) {path : String}
    {u : ExecutionUuid} (hc : Reports ev u (.compilation path))
    (hu : ∀ v, Reports ev v (.compilation path) → v = u) {ui : Ui R}
    (hs : shown parse ev sols.length ns = some ui) :
    ui.compilations.get? path = some (compiledAs ns u) := by
  have happ := applyAll_comp path hs
  have hfol : (follow parse ev sols.length ns).1 = opening ev sols.length ++ (firsts ns).flatMap (sentBy parse ev) := by
    show opening ev sols.length ++ (followFrom parse ev.handlers [] ns).1 = _
    rw [followFrom_eq.2 ((completes_iff h hr parse ns).2 hcp)]; rfl
  have hprog : ((firsts ns).flatMap (sentBy parse ev)).filterMap Msg.progress? =
      (firsts ns).flatMap (fun x => (reportsOn ev x.exec).map (fun t => (t, phaseOf x))) := by
    rw [List.filterMap_flatMap]
    congr 1
    funext x
    exact sentBy_progress parse ev x
  have hopen : ((opening ev sols.length : List (Msg R)).filterMap Msg.progress?) =
      ev.pending.map (fun t => (t, Phase.pending)) := by
    simp only [opening, Msg.progress?, List.filterMap_cons, List.filterMap_map]
    rw [← List.filterMap_eq_map]
    rfl
  rw [hfol, List.filterMap_append, hprog, hopen, List.foldl_append] at happ
  obtain ⟨e, he, heu⟩ := handler_exec h hr hc
  simp only at heu
  have hsingle : reportsOn ev u = [.compilation path] := by
    obtain ⟨t, h1, -⟩ := reported_once h hr he
    rw [heu] at h1
    have := mem_reportsOn.2 hc
    rw [h1, List.mem_singleton] at this
    rw [h1, ← this]
  have hpend : (ev.pending.map (fun t => (t, Phase.pending))).foldl (fun c p => compMsg path c (some p))
      (({} : Ui R).compilations.get? path) = some .pending := by
    have hm : Topic.compilation path ∈ ev.pending := ((announced h hr).2 _).2 ⟨e, he, by rw [heu]; exact hc⟩
    have : ∀ (l : List Topic) (c : Option TM.Ui.CompStatus), (Topic.compilation path ∈ l ∨ c = some .pending) →
        (l.map (fun t => (t, Phase.pending))).foldl (fun c p => compMsg path c (some p)) c = some .pending := by
      intro l
      induction l with
      | nil =>
        intro c hor
        rcases hor with h | h
        · cases h
        · exact h
      | cons t l ih =>
        intro c hor
        rw [List.map_cons, List.foldl_cons]
        refine ih _ ?_
        simp only [compMsg]
        by_cases ht : t = .compilation path
        · right; rw [if_pos ht]; rfl
        · rw [if_neg ht]
          rcases hor with h | h
          · rcases List.mem_cons.1 h with h | h
            · exact absurd h.symm ht
            · exact .inl h
          · exact .inr h
    exact this _ _ (.inl hm)
  have hconv : ∀ (l : List Notice) (c : Option TM.Ui.CompStatus),
      (l.flatMap (fun x => (reportsOn ev x.exec).map (fun t => (t, phaseOf x)))).foldl
        (fun c p => compMsg path c (some p)) c =
      (l.flatMap (fun x => (reportsOn ev x.exec).map (fun t => (t, TM.Ui.Phase.told (progressOf x))))).foldl
        (compStep path) c := by
    intro l
    induction l with
    | nil => intro c; rfl
    | cons x l ih =>
      intro c
      rw [List.flatMap_cons, List.flatMap_cons, List.foldl_append, List.foldl_append, ih]
      congr 1
      rw [List.foldl_map, List.foldl_map]
      congr 1
      funext c t
      simp only [compMsg, compStep, told_same]
  have hall := TM.Ui.comp_all hsingle hu (a := []) (r := firsts ns) (c := some .pending) rfl
    (by simpa using ordered_firsts ho)
  rw [hpend, hconv, hall, List.nil_append] at happ
  rw [happ]
  congr 1
  unfold compiledAs
  rw [outcomeOf_firsts]
  simp only [started_firsts, skipped_firsts]

open TM.Terry.Sample in
/-- The checker of the sample task is compiled once; here its compilation fails and the one of the generator succeeds. -/
example : ∃ a ev, buildDag Build.Sample.fs Sample.task Sample.seed Sample.sols (start 10 {}) = .ok (a, ev) ∧
    (withTopic ev (fun t => t = .compilation "/task/checker.cpp")).length = 1 ∧
    ∃ ui, shown parse ev 2 (went ev compilesOther ++ noChecker ev) = some ui ∧
      ui.compilations.get? "/task/checker.cpp" = some .failed := by
  have : TM.Terry.Sample.holds (fun ev => decide (
      (withTopic ev (fun t => t = .compilation "/task/checker.cpp")).length = 1 ∧
      (shown parse ev 2 (went ev compilesOther ++ noChecker ev)).map (·.compilations.get? "/task/checker.cpp") =
        some (some .failed)))
      (buildDag Build.Sample.fs Sample.task Sample.seed Sample.sols (start 10 {})) = true := by decide +kernel
  obtain ⟨a, ev, h1, h2⟩ := TM.Terry.Sample.of_holds this
  obtain ⟨h3, h4⟩ := of_decide_eq_true h2
  rw [Option.map_eq_some_iff] at h4
  obtain ⟨ui, h5, h6⟩ := h4
  exact ⟨a, ev, h1, h3, ui, h5, h6⟩

end TM.Terry
