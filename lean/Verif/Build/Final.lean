import Verif.Build.Bridge
import Verif.Build.Balance
/-!
# Lemmas about the finished DAG
-/
namespace TM.Build
open TM DagSpec Spec

/-! ## Reports -/

theorem gap_start (n : Uuid) (cfg : DagConfig) (u : ExecutionUuid) : gap u (start n cfg) = 0 := by
  simp [gap, start, allExecs]

theorem reports_balanced {n : Uuid} {cfg : DagConfig} {fs : FS} {root : String} {task : Task}
    {sols : List Src} {io : GeneratedIo} {ev : Eval}
    (hr : buildDag fs root task sols (start n cfg) = .ok (io, ev)) (u : ExecutionUuid) :
    (ev.handlers.filterMap reportedBy).count u = ((allExecs ev.dag).map (·.uuid)).count u := by
  obtain ⟨-, h, -⟩ := buildDag_gap u fs root task sols _ _ _ (by simp [Bounded, start, AMap.keys]) hr
  rw [gap_start] at h
  unfold gap at h
  simp only at h
  omega

theorem reportsOn_length (hs : List (ExecutionUuid × Handler)) (u : ExecutionUuid) :
    (hs.filterMap (topicOn u)).length = (hs.filterMap reportedBy).count u := by
  induction hs with
  | nil => rfl
  | cons p hs ih =>
    obtain ⟨v, hd⟩ := p
    cases hd
    case report t =>
      by_cases hv : v = u
      · subst hv; simp [reportedBy, topicOn, ih]
      · simp [reportedBy, topicOn, ih, hv]
    all_goals exact ih

/-- Every message is about exactly one execution. -/
theorem report_unique {l : List (ExecutionUuid × Handler)} {t : Topic} {u v : ExecutionUuid}
    (hc : (l.filterMap reportOf).count t = 1) (hu : (u, .report t) ∈ l) (hv : (v, .report t) ∈ l) :
    u = v := by
  induction l with
  | nil => cases hu
  | cons p l ih =>
    have pos : ∀ w, (w, Handler.report t) ∈ l → 1 ≤ (l.filterMap reportOf).count t := by
      intro w hw
      apply List.count_pos_iff.2
      exact List.mem_filterMap.2 ⟨_, hw, rfl⟩
    rcases List.mem_cons.1 hu with rfl | hu'
    · rcases List.mem_cons.1 hv with hv' | hv'
      · cases hv'; rfl
      · have := pos _ hv'
        simp [reportOf] at hc
        omega
    · rcases List.mem_cons.1 hv with rfl | hv'
      · have := pos _ hu'
        simp [reportOf] at hc
        omega
      · refine ih ?_ hu' hv'
        have h1 := pos _ hu'
        have h2 : (l.filterMap reportOf).count t ≤ ((p :: l).filterMap reportOf).count t := by
          rw [List.filterMap_cons]
          split
          · exact Nat.le_refl _
          · exact List.count_le_count_cons
        omega

theorem nodup_exec {d : DagData} (h : ((allExecs d).map (·.uuid)).Nodup) {e e' : Execution}
    (he : e ∈ allExecs d) (he' : e' ∈ allExecs d) (hu : e.uuid = e'.uuid) : e = e' := by
  generalize allExecs d = l at h he he'
  induction l with
  | nil => cases he
  | cons x l ih =>
    simp only [List.map_cons, List.nodup_cons, List.mem_map, not_exists, not_and] at h
    rcases List.mem_cons.1 he with rfl | h1e
    · rcases List.mem_cons.1 he' with rfl | h1e'
      · rfl
      · exact absurd hu.symm (h.1 _ h1e')
    · rcases List.mem_cons.1 he' with rfl | h1e'
      · exact absurd hu (h.1 _ h1e)
      · exact ih h.2 h1e h1e'

/-! ## Executables -/

/-- Two executions do not write the same file. -/
theorem nodup_outputs {l : List Execution} (h : (l.flatMap Execution.outputFiles).Nodup)
    {e e' : Execution} {f : FileUuid} (he : e ∈ l) (he' : e' ∈ l) (hf : f ∈ e.outputFiles)
    (hf' : f ∈ e'.outputFiles) : e = e' := by
  induction l with
  | nil => cases he
  | cons x l ih =>
    rw [List.flatMap_cons, List.nodup_append] at h
    obtain ⟨-, h2, h3⟩ := h
    rcases List.mem_cons.1 he with rfl | h1e
    · rcases List.mem_cons.1 he' with rfl | h1e'
      · rfl
      · exact absurd rfl (h3 f hf f (List.mem_flatMap.2 ⟨_, h1e', hf'⟩))
    · rcases List.mem_cons.1 he' with rfl | h1e'
      · exact absurd rfl (h3 f hf' f (List.mem_flatMap.2 ⟨_, h1e, hf⟩))
      · exact ih h2 h1e h1e'

theorem groupOuts_eq (d : DagData) : groupOuts d = (allExecs d).flatMap Execution.outputFiles := by
  unfold groupOuts allExecs
  rw [List.flatMap_assoc]
  rfl

theorem Done.producer {c : Ctx} {ev : Eval} (h : Done c ev) {e e' : Execution} {f : FileUuid}
    (he : e ∈ allExecs ev.dag) (he' : e' ∈ allExecs ev.dag) (hf : f ∈ e.outputFiles)
    (hf' : f ∈ e'.outputFiles) : e = e' := by
  have h1 := h.inv.files
  rw [List.nodup_append] at h1
  rw [groupOuts_eq] at h1
  exact nodup_outputs h1.1 he he' hf hf'

/-- A list that an injective relation maps into another one, no longer, is mapped onto it. -/
theorem onto {α β : Type} {R : α → β → Prop} : ∀ {l : List α} {m : List β},
    (∀ a ∈ l, ∃ b ∈ m, R a b) → l.Nodup → (∀ a ∈ l, ∀ a' ∈ l, ∀ b, R a b → R a' b → a = a') →
    m.length ≤ l.length → ∀ b ∈ m, ∃ a ∈ l, R a b := by
  intro l
  induction l with
  | nil =>
    intro m _ _ _ hlen b hb
    cases m with
    | nil => cases hb
    | cons x m => simp at hlen
  | cons a l ih =>
    intro m hm hn hinj hlen b hb
    rw [List.nodup_cons] at hn
    obtain ⟨c, hc, hac⟩ := hm a (by simp)
    obtain ⟨m1, m2, rfl⟩ := List.append_of_mem hc
    have hm' : ∀ x ∈ l, ∃ y ∈ m1 ++ m2, R x y := by
      intro x hx
      obtain ⟨y, hy, hxy⟩ := hm x (by simp [hx])
      refine ⟨y, ?_, hxy⟩
      simp only [List.mem_append, List.mem_cons] at hy ⊢
      rcases hy with hy | rfl | hy
      · exact Or.inl hy
      · have := hinj a (by simp) x (by simp [hx]) y hac hxy
        subst this
        exact absurd hx hn.1
      · exact Or.inr hy
    have ih' := ih hm' hn.2 (fun x hx y hy z => hinj x (by simp [hx]) y (by simp [hy]) z)
      (by simp only [List.length_append, List.length_cons] at hlen ⊢; omega)
    simp only [List.mem_append, List.mem_cons] at hb
    rcases hb with hb | rfl | hb
    · obtain ⟨x, hx, h⟩ := ih' b (by simp [hb]); exact ⟨x, by simp [hx], h⟩
    · exact ⟨a, by simp, hac⟩
    · obtain ⟨x, hx, h⟩ := ih' b (by simp [hb]); exact ⟨x, by simp [hx], h⟩

theorem nodup_of_map {α β : Type} {f : α → β} {l : List α} (h : (l.map f).Nodup) : l.Nodup := by
  induction l with
  | nil => simp
  | cons x l ih =>
    simp only [List.map_cons, List.nodup_cons] at h ⊢
    exact ⟨fun hx => h.1 (List.mem_map.2 ⟨x, hx, rfl⟩), ih h.2⟩

theorem map_inj_of_nodup {α β : Type} {f : α → β} {l : List α} (h : (l.map f).Nodup) {a b : α}
    (ha : a ∈ l) (hb : b ∈ l) (hab : f a = f b) : a = b := by
  induction l with
  | nil => cases ha
  | cons x l ih =>
    simp only [List.map_cons, List.nodup_cons, List.mem_map, not_exists, not_and] at h
    rcases List.mem_cons.1 ha with rfl | ha'
    · rcases List.mem_cons.1 hb with rfl | hb'
      · rfl
      · exact absurd hab.symm (h.1 _ hb')
    · rcases List.mem_cons.1 hb with rfl | hb'
      · exact absurd hab (h.1 _ ha')
      · exact ih h.2 ha' hb'

theorem used_source {n : Uuid} {fs : FS} {root : String} {task : Task} {sols : List Src}
    (h : Fits n task sols) {k : Nat} (hk : (ctxOf fs root task sols).used k) :
    ∃ s ∈ sources task sols, s.id = k ∧ (ctxOf fs root task sols).src k = s := by
  obtain ⟨s, hs, rfl⟩ := hk
  exact ⟨s, hs, rfl, (ctx_knows h hs).src⟩

/-- Every compilation is of a source that is in use. -/
theorem Done.compilations {c : Ctx} {ev : Eval} (h : Done c ev) {comp : Execution}
    (hc : comp ∈ allExecs ev.dag) (ht : comp.tag = some "compilation") :
    ∃ k f w, ev.exes.get? k = some f ∧ (c.src k).lang.compiler = some w ∧
      comp.outputs = [(w.binaryName, f)] := by
  have key := onto (R := fun (p : Nat × FileUuid) (e : Execution) =>
      ∃ w, (c.src p.1).lang.compiler = some w ∧ e.outputs = [(w.binaryName, p.2)])
    (l := ev.exes.filter (fun p => (c.src p.1).lang.compiler.isSome))
    (m := (allExecs ev.dag).filter isComp) ?_ ?_ ?_ ?_ comp (by simp [hc, isComp, ht])
  · obtain ⟨p, hp, w, h1, h2⟩ := key
    refine ⟨p.1, p.2, w, ?_, h1, h2⟩
    exact AMap.get?_of_mem h.side.keys (List.mem_filter.1 hp).1
  · intro p hp
    obtain ⟨hp, hs⟩ := List.mem_filter.1 hp
    obtain ⟨w, hw⟩ := Option.isSome_iff_exists.1 hs
    have := h.side.exes p.1 p.2 (AMap.get?_of_mem h.side.keys hp)
    unfold ExeOk at this
    simp only [hw] at this
    obtain ⟨e, h1, h2, h3, -⟩ := this
    exact ⟨e, by simp [h1, isComp, h2], w, hw, h3⟩
  · exact (nodup_of_map h.side.values).filter _
  · rintro p hp q hq e ⟨w, _, h2⟩ ⟨w', _, h4⟩
    rw [h2] at h4
    simp only [List.cons.injEq, Prod.mk.injEq, and_true] at h4
    exact map_inj_of_nodup h.side.values (List.mem_filter.1 hp).1 (List.mem_filter.1 hq).1 h4.2
  · rw [h.side.comps]; exact Nat.le_refl _

/-! ## Which execution is reported as what -/

theorem nodup_uuids {c : Ctx} {ev : Eval} (h : Done c ev) :
    ((allExecs ev.dag).map (·.uuid)).Nodup := by
  have := h.inv.execs
  simpa [execUuids] using this

/-- Every compilation is the compilation of a source. -/
theorem Done.compilation {c : Ctx} {ev : Eval} (h : Done c ev) {comp : Execution}
    (hc : comp ∈ allExecs ev.dag) (ht : comp.tag = some "compilation") :
    ∃ k f w, ev.exes.get? k = some f ∧ (c.src k).lang.compiler = some w ∧
      comp.outputs = [(w.binaryName, f)] ∧
      (comp.uuid, .report (.compilation (c.src k).path)) ∈ ev.handlers := by
  obtain ⟨k, f, w, h1, h2, h3⟩ := h.compilations hc ht
  refine ⟨k, f, w, h1, h2, h3, ?_⟩
  have := h.side.exes k f h1
  unfold ExeOk at this
  simp only [h2] at this
  obtain ⟨e, g1, g2, g3, -, -, -, -, g4⟩ := this
  have : comp = e := h.producer hc g1 (f := f) (by simp [Execution.outputFiles, h3])
    (by simp [Execution.outputFiles, g3])
  subst this
  rcases g4 with g4 | g4
  · cases g4
  · exact g4.1

theorem filterMap_compTopics (hs : List (ExecutionUuid × Handler)) :
    ((hs.filterMap reportOf).filter (fun t => !mainTopic t)).length =
    (hs.filter (fun p => ((reportOf p).map (fun t => !mainTopic t)).getD false)).length := by
  induction hs with
  | nil => rfl
  | cons p hs ih =>
    cases hr : reportOf p with
    | none => simp [hr, ih]
    | some t => by_cases ht : mainTopic t = true <;> simp [hr, ht, ih]

/-- What is reported as a compilation is a compilation. -/
theorem Done.compOnly {c : Ctx} {ev : Eval} (h : Done c ev) {u : ExecutionUuid} {path : String}
    (hr : (u, .report (.compilation path)) ∈ ev.handlers) :
    ∃ e ∈ allExecs ev.dag, e.uuid = u ∧ e.tag = some "compilation" := by
  have key := onto (R := fun (e : Execution) (p : ExecutionUuid × Handler) => e.uuid = p.1)
    (l := (allExecs ev.dag).filter isComp)
    (m := ev.handlers.filter (fun p => ((reportOf p).map (fun t => !mainTopic t)).getD false))
    ?_ ?_ ?_ ?_ (u, .report (.compilation path)) (by simp [hr, reportOf, mainTopic])
  · obtain ⟨e, he, hu⟩ := key
    obtain ⟨he, hc⟩ := List.mem_filter.1 he
    exact ⟨e, he, hu, by simpa [isComp] using hc⟩
  · intro e he
    obtain ⟨he, hc⟩ := List.mem_filter.1 he
    obtain ⟨k, f, w, -, -, -, h4⟩ := h.compilation he (by simpa [isComp] using hc)
    exact ⟨_, List.mem_filter.2 ⟨h4, by simp [reportOf, mainTopic]⟩, rfl⟩
  · exact (nodup_of_map (nodup_uuids h)).filter _
  · rintro a ha b hb p h1 h2
    exact nodup_exec (nodup_uuids h) (List.mem_filter.1 ha).1 (List.mem_filter.1 hb).1
      (h1.trans h2.symm)
  · rw [← filterMap_compTopics, h.side.reports]
    have := h.side.compTopics
    simp only [List.length_nil] at this
    omega

theorem mem_reportsOn {ev : Eval} {u : ExecutionUuid} {t : Topic} :
    t ∈ reportsOn ev u ↔ Reports ev u t := by
  unfold reportsOn Reports
  rw [List.mem_filterMap]
  constructor
  · rintro ⟨⟨v, hd⟩, h1, h2⟩
    cases hd <;> simp [topicOn] at h2
    obtain ⟨rfl, rfl⟩ := h2
    exact h1
  · intro h
    exact ⟨_, h, by simp [topicOn]⟩

theorem length_one {α : Type} {l : List α} (h : l.length = 1) : ∃ a, l = [a] := by
  match l, h with
  | [a], _ => exact ⟨a, rfl⟩

/-! ## The messages are different -/

theorem nodup_flatMap {α β : Type} {l : List α} {f : α → List β} (h1 : ∀ a ∈ l, (f a).Nodup)
    (h2 : l.Pairwise (fun a b => ∀ x ∈ f a, ∀ y ∈ f b, x ≠ y)) : (l.flatMap f).Nodup :=
  List.pairwise_flatMap.2 ⟨h1, h2⟩

/-- The testcase a message is about. -/
def topicTc : Topic → Option Nat
  | .compilation _ => none
  | .generation _ k => some k
  | .validation _ k => some k
  | .officialOutput _ k => some k
  | .evaluation _ k _ _ _ => some k
  | .checker _ k _ => some k
  | .booklet _ => none
  | .bookletDependency _ _ _ => none

/-- The solution a message is about. -/
def topicSol : Topic → Option Nat
  | .evaluation _ _ j _ _ => some j
  | .checker _ _ j => some j
  | _ => none

theorem evaluationMessages_about {t : TaskType} {st tc sol : Nat} {x : Topic}
    (h : x ∈ evaluationMessages t st tc sol) : topicTc x = some tc ∧ topicSol x = some sol := by
  cases t with
  | batch c =>
    simp only [evaluationMessages, List.mem_cons, List.not_mem_nil, or_false] at h
    rcases h with rfl | rfl <;> exact ⟨rfl, rfl⟩
  | communication m n i =>
    simp only [evaluationMessages, List.mem_append, List.mem_map, List.mem_cons, List.not_mem_nil,
      or_false] at h
    rcases h with ⟨j, -, rfl⟩ | rfl <;> exact ⟨rfl, rfl⟩
  | none => cases h

theorem testcaseMessages_about {task : Task} {n : Nat} {st : Subtask} {tc : Testcase} {x : Topic}
    (h : x ∈ testcaseMessages task n st tc) : topicTc x = some tc.id := by
  simp only [testcaseMessages, List.mem_append, List.mem_map, List.mem_flatMap] at h
  rcases h with ((⟨_, -, rfl⟩ | ⟨_, -, rfl⟩) | ⟨_, -, rfl⟩) | ⟨j, -, h⟩
  · rfl
  · rfl
  · rfl
  · exact (evaluationMessages_about h).1

theorem evaluationMessages_nodup (t : TaskType) (st tc sol : Nat) :
    (evaluationMessages t st tc sol).Nodup := by
  cases t with
  | batch c => simp [evaluationMessages]
  | communication m n i =>
    simp only [evaluationMessages]
    rw [List.nodup_append]
    refine ⟨?_, by simp, ?_⟩
    · rw [List.Nodup, List.pairwise_map]
      exact (List.nodup_range (n := n)).imp (fun h => by simpa using h)
    · simp only [List.mem_map, List.mem_cons, List.not_mem_nil, or_false]
      rintro _ ⟨j, -, rfl⟩ _ rfl
      simp
  | none => simp [evaluationMessages]

theorem testcaseMessages_nodup (task : Task) (n : Nat) (st : Subtask) (tc : Testcase) :
    (testcaseMessages task n st tc).Nodup := by
  have hi : ∀ t : Topic, ((inputSources tc.input).map (fun _ => t)).Nodup := by
    intro t; cases tc.input <;> simp [inputSources]
  have hv : ∀ t : Topic, ((validatorSources st.validator).map (fun _ => t)).Nodup := by
    intro t; cases st.validator <;> simp [validatorSources]
  have ho : ∀ t : Topic, ((outputSources tc.output).map (fun _ => t)).Nodup := by
    intro t; cases tc.output <;> simp [outputSources]
  unfold testcaseMessages
  rw [List.nodup_append, List.nodup_append, List.nodup_append]
  refine ⟨⟨⟨hi _, hv _, ?_⟩, ho _, ?_⟩, ?_, ?_⟩
  · simp only [List.mem_map]; rintro _ ⟨_, -, rfl⟩ _ ⟨_, -, rfl⟩; simp
  · simp only [List.mem_append, List.mem_map]
    rintro _ (⟨_, -, rfl⟩ | ⟨_, -, rfl⟩) _ ⟨_, -, rfl⟩ <;> simp
  · refine nodup_flatMap (fun j _ => evaluationMessages_nodup _ _ _ _) ?_
    refine (List.nodup_range (n := n)).imp ?_
    rintro a b hab x hx y hy rfl
    have h1 := (evaluationMessages_about hx).2
    have h2 := (evaluationMessages_about hy).2
    rw [h1] at h2
    exact hab (Option.some.inj h2)
  · simp only [List.mem_append, List.mem_map, List.mem_flatMap]
    rintro _ hx y ⟨j, -, hy⟩ rfl
    have h2 := (evaluationMessages_about hy).2
    rcases hx with (⟨_, -, rfl⟩ | ⟨_, -, rfl⟩) | ⟨_, -, rfl⟩ <;> cases h2

theorem messages_nodup {n : Uuid} {task : Task} {sols : List Src} (h : Fits n task sols)
    (hid : (task.subtasks.values.map (·.id)).Nodup)
    (htc : ∀ st ∈ task.subtasks.values, st.testcases.Nodup) :
    (messages task sols.length).Nodup := by
  have hown := h.owned
  rw [List.Nodup, List.pairwise_flatMap] at hown
  unfold messages
  rw [List.nodup_append]
  refine ⟨?_, ?_, ?_⟩
  · have inner : ∀ {st : Subtask} {x : Topic}, x ∈ (st.owned.filterMap task.testcases.get?).flatMap
        (testcaseMessages task sols.length st) → ∃ k ∈ st.owned, topicTc x = some k := by
      intro st x hx
      obtain ⟨tc, h1, h2⟩ := List.mem_flatMap.1 hx
      obtain ⟨k, h3, h4⟩ := List.mem_filterMap.1 h1
      exact ⟨k, h3, by rw [testcaseMessages_about h2, h.testcaseIds k tc h4]⟩
    refine nodup_flatMap (fun st hst => nodup_flatMap (fun tc _ => testcaseMessages_nodup ..) ?_) ?_
    · rw [List.pairwise_filterMap]
      refine (hown.1 st hst).imp ?_
      intro a b hab tc hta tc' htb x hx y hy hxy
      subst hxy
      have h1 := testcaseMessages_about hx
      have h2 := testcaseMessages_about hy
      rw [h1, h.testcaseIds a tc hta, h.testcaseIds b tc' htb] at h2
      exact hab (Option.some.inj h2)
    · refine hown.2.imp ?_
      rintro a b hab x hx y hy rfl
      obtain ⟨k, h1, h2⟩ := inner hx
      obtain ⟨k', h3, h4⟩ := inner hy
      rw [h2] at h4
      exact hab k h1 k' h3 (Option.some.inj h4)
  · refine nodup_flatMap (fun st hst => ?_) ?_
    · refine nodup_flatMap (fun k _ => ?_) ?_
      · cases st.validator <;> simp [validatorSources]
      · refine ((htc st hst).filter _).imp ?_
        intro a b hab x hx y hy
        obtain ⟨_, -, rfl⟩ := List.mem_map.1 hx
        obtain ⟨_, -, rfl⟩ := List.mem_map.1 hy
        simpa using hab
    · refine (List.pairwise_map.1 hid).imp ?_
      intro a b hab x hx y hy
      obtain ⟨k, -, hx⟩ := List.mem_flatMap.1 hx
      obtain ⟨k', -, hy⟩ := List.mem_flatMap.1 hy
      obtain ⟨_, -, rfl⟩ := List.mem_map.1 hx
      obtain ⟨_, -, rfl⟩ := List.mem_map.1 hy
      simp [hab]
  · intro x hx y hy hxy
    subst hxy
    obtain ⟨st, hst, hy⟩ := List.mem_flatMap.1 hy
    obtain ⟨k, hk, hy⟩ := List.mem_flatMap.1 hy
    obtain ⟨_, -, rfl⟩ := List.mem_map.1 hy
    obtain ⟨st', hst', hx⟩ := List.mem_flatMap.1 hx
    obtain ⟨tc, htc', hx⟩ := List.mem_flatMap.1 hx
    obtain ⟨k', hk', hg⟩ := List.mem_filterMap.1 htc'
    have h1 := testcaseMessages_about hx
    have h2 : k = k' := by
      simp only [topicTc, Option.some.injEq] at h1
      rw [h1, h.testcaseIds _ _ hg]
    have h3 : st'.id = st.id := by
      simp only [testcaseMessages, List.mem_append, List.mem_map, List.mem_flatMap] at hx
      rcases hx with ((⟨_, -, hx⟩ | ⟨_, -, hx⟩) | ⟨_, -, hx⟩) | ⟨j, -, hx⟩
      · cases hx
      · simp only [Topic.validation.injEq] at hx; exact hx.1
      · cases hx
      · have := (evaluationMessages_about hx).2; cases this
    have h4 : st' = st := map_inj_of_nodup hid hst' hst h3
    subst h4; subst h2
    have := (List.mem_filter.1 hk).2
    simp [hk'] at this

end TM.Build
