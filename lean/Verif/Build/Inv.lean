import Verif.Build.Model
import Verif.CheckDag.Spec
import Verif.Dag.Props
/-!
# The invariant of the DAG under construction

`P` are the executions built but not yet added to the DAG.
-/
namespace TM.Build
open TM DagSpec

/-- The identifiers in use by the executions of the DAG and by `P`. -/
def execUuids (d : DagData) (P : List Execution) : List ExecutionUuid :=
  (allExecs d).map (·.uuid) ++ P.map (·.uuid)

/-- The files written by the groups of the DAG. -/
def groupOuts (d : DagData) : List FileUuid := d.executionGroups.flatMap (fun p => p.2.outs)

/-- The files written by some executions. -/
def outsOf (P : List Execution) : List FileUuid := P.flatMap Execution.outputFiles

structure Inv (G : FileUuid → Prop) (ev : Eval) (P : List Execution) : Prop where
  wf : ev.dag.Wf
  nonempty : ∀ u g, (u, g) ∈ ev.dag.executionGroups → g.executions ≠ []
  once : ∀ u g, (u, g) ∈ ev.dag.executionGroups → g.deps ≠ [] ∨ g.executions.length = 1
  fifos : ∀ u g, (u, g) ∈ ev.dag.executionGroups → g.fifo.Nodup
  execs : (execUuids ev.dag P).Nodup
  captureOut : ∀ e ∈ allExecs ev.dag ++ P, e.captureStdout ≠ none → e.stdout ≠ none
  captureErr : ∀ e ∈ allExecs ev.dag ++ P, e.captureStderr ≠ none → e.stderr ≠ none
  files : (groupOuts ev.dag ++ (outsOf P ++ ev.dag.providedFiles.keys)).Nodup
  boundF : ∀ f ∈ groupOuts ev.dag ++ (outsOf P ++ ev.dag.providedFiles.keys), f < ev.next
  boundE : ∀ u ∈ execUuids ev.dag P, u < ev.next
  boundG : ∀ u ∈ ev.dag.executionGroups.keys, u < ev.next
  graders : ∀ f, G f → f < ev.next ∧ f ∉ groupOuts ev.dag ∧ f ∉ outsOf P
  runnable : Runnable ev.dag ev.dag.executionGroups.reverse
  pdeps : ∀ e ∈ P, ∀ f ∈ e.dependencies, f ∈ allFiles ev.dag
  exes : ∀ p ∈ ev.exes, p.2 ∈ allFiles ev.dag
  handlers : ∀ p ∈ ev.handlers, p.1 ∈ execUuids ev.dag P
  writes : ∀ p ∈ ev.writes, p.1 ∈ allFiles ev.dag ∨ p.1 ∈ outsOf P
  writesWf : ev.writes.Wf

theorem mem_allFiles {d : DagData} {f : FileUuid} :
    f ∈ allFiles d ↔ f ∈ groupOuts d ∨ f ∈ d.providedFiles.keys := by
  simp [allFiles, groupOuts]

/-! ## Permutations of `P` -/

theorem Inv.perm {G : FileUuid → Prop} {ev : Eval} {P Q : List Execution} (hp : P.Perm Q)
    (h : Inv G ev P) : Inv G ev Q := by
  have ho : (outsOf P).Perm (outsOf Q) := hp.flatMap_right _
  have hu : (execUuids ev.dag P).Perm (execUuids ev.dag Q) :=
    List.Perm.append_left _ (hp.map _)
  have hf : (groupOuts ev.dag ++ (outsOf P ++ ev.dag.providedFiles.keys)).Perm
      (groupOuts ev.dag ++ (outsOf Q ++ ev.dag.providedFiles.keys)) :=
    List.Perm.append_left _ (List.Perm.append_right _ ho)
  have ha : ∀ e, e ∈ allExecs ev.dag ++ Q → e ∈ allExecs ev.dag ++ P := by
    intro e he
    simp only [List.mem_append] at he ⊢
    exact he.imp id hp.mem_iff.2
  exact {
    wf := h.wf
    nonempty := h.nonempty
    once := h.once
    fifos := h.fifos
    execs := hu.nodup_iff.1 h.execs
    captureOut := fun e he => h.captureOut e (ha e he)
    captureErr := fun e he => h.captureErr e (ha e he)
    files := hf.nodup_iff.1 h.files
    boundF := fun f hm => h.boundF f (hf.mem_iff.2 hm)
    boundE := fun u hm => h.boundE u (hu.mem_iff.2 hm)
    boundG := h.boundG
    graders := fun f hg => ⟨(h.graders f hg).1, (h.graders f hg).2.1,
      fun hm => (h.graders f hg).2.2 (ho.mem_iff.2 hm)⟩
    runnable := h.runnable
    pdeps := fun e he => h.pdeps e (hp.mem_iff.2 he)
    exes := h.exes
    handlers := fun p hm => hu.mem_iff.1 (h.handlers p hm)
    writesWf := h.writesWf
    writes := fun p hm => (h.writes p hm).imp id ho.mem_iff.1 }

/-! ## The steps -/

/-- The fields of the state the invariant does not look at. -/
theorem Inv.congr {G : FileUuid → Prop} {ev ev' : Eval} {P : List Execution}
    (hn : ev.next ≤ ev'.next) (hd : ev'.dag = ev.dag) (he : ev'.exes = ev.exes)
    (hh : ev'.handlers = ev.handlers) (hw : ev'.writes = ev.writes) (h : Inv G ev P) :
    Inv G ev' P := by
  exact {
    wf := hd ▸ h.wf
    nonempty := hd ▸ h.nonempty
    once := hd ▸ h.once
    fifos := hd ▸ h.fifos
    execs := hd ▸ h.execs
    captureOut := hd ▸ h.captureOut
    captureErr := hd ▸ h.captureErr
    files := hd ▸ h.files
    boundF := fun f hm => Nat.lt_of_lt_of_le (h.boundF f (hd ▸ hm)) hn
    boundE := fun f hm => Nat.lt_of_lt_of_le (h.boundE f (hd ▸ hm)) hn
    boundG := fun f hm => Nat.lt_of_lt_of_le (h.boundG f (hd ▸ hm)) hn
    graders := fun f hg => ⟨Nat.lt_of_lt_of_le (h.graders f hg).1 hn, hd ▸ (h.graders f hg).2⟩
    runnable := hd ▸ h.runnable
    pdeps := hd ▸ h.pdeps
    exes := by rw [he, hd]; exact h.exes
    handlers := by rw [hh, hd]; exact h.handlers
    writesWf := by rw [hw]; exact h.writesWf
    writes := by rw [hw, hd]; exact h.writes }

/-- Taking a fresh identifier. -/
theorem Inv.fresh {G : FileUuid → Prop} {ev : Eval} {P : List Execution} (h : Inv G ev P) :
    Inv G { ev with next := ev.next + 1 } P :=
  h.congr (Nat.le_succ _) rfl rfl rfl rfl

/-- A new execution. -/
theorem Inv.newExec {G : FileUuid → Prop} {ev : Eval} {P : List Execution} (h : Inv G ev P)
    (e : Execution) (hu : e.uuid = ev.next) (ho : e.outputFiles = []) (hd : e.dependencies = [])
    (h1 : e.captureStdout = none) (h2 : e.captureStderr = none) :
    Inv G { ev with next := ev.next + 1 } (e :: P) := by
  have hout : outsOf (e :: P) = outsOf P := by simp [outsOf, ho]
  have hfresh : ev.next ∉ execUuids ev.dag P := fun hm => Nat.lt_irrefl _ (h.boundE _ hm)
  have huu : (execUuids ev.dag (e :: P)).Perm (ev.next :: execUuids ev.dag P) := by
    simp only [execUuids, List.map_cons, hu]
    exact List.perm_middle
  exact {
    wf := h.wf
    nonempty := h.nonempty
    once := h.once
    fifos := h.fifos
    execs := huu.nodup_iff.2 (List.nodup_cons.2 ⟨hfresh, h.execs⟩)
    captureOut := by
      intro x hx hc
      simp only [List.mem_append, List.mem_cons] at hx
      rcases hx with hx | rfl | hx
      · exact h.captureOut x (by simp [hx]) hc
      · exact absurd h1 hc
      · exact h.captureOut x (by simp [hx]) hc
    captureErr := by
      intro x hx hc
      simp only [List.mem_append, List.mem_cons] at hx
      rcases hx with hx | rfl | hx
      · exact h.captureErr x (by simp [hx]) hc
      · exact absurd h2 hc
      · exact h.captureErr x (by simp [hx]) hc
    files := by rw [hout]; exact h.files
    boundF := by
      rw [hout]; exact fun f hm => Nat.lt_succ_of_lt (h.boundF f hm)
    boundE := by
      intro u hm
      rcases List.mem_cons.1 (huu.mem_iff.1 hm) with rfl | hm
      · exact Nat.lt_succ_self _
      · exact Nat.lt_succ_of_lt (h.boundE u hm)
    boundG := fun f hm => Nat.lt_succ_of_lt (h.boundG f hm)
    graders := fun f hg => ⟨Nat.lt_succ_of_lt (h.graders f hg).1, (h.graders f hg).2.1,
      by rw [hout]; exact (h.graders f hg).2.2⟩
    runnable := h.runnable
    pdeps := by
      intro x hx f hf
      rcases List.mem_cons.1 hx with rfl | hx
      · rw [hd] at hf; cases hf
      · exact h.pdeps x hx f hf
    exes := h.exes
    handlers := fun p hm => huu.mem_iff.2 (List.mem_cons_of_mem _ (h.handlers p hm))
    writesWf := h.writesWf
    writes := by rw [hout]; exact h.writes }

/-- Changing the execution under construction without touching its outputs. -/
theorem Inv.modify {G : FileUuid → Prop} {ev : Eval} {P : List Execution} {e e' : Execution}
    (h : Inv G ev (e :: P)) (hu : e'.uuid = e.uuid)
    (ho : e'.outputFiles = e.outputFiles)
    (hd : ∀ f ∈ e'.dependencies, f ∈ allFiles ev.dag)
    (h1 : e'.captureStdout ≠ none → e'.stdout ≠ none)
    (h2 : e'.captureStderr ≠ none → e'.stderr ≠ none) : Inv G ev (e' :: P) := by
  have hout : outsOf (e' :: P) = outsOf (e :: P) := by simp [outsOf, ho]
  have huu : execUuids ev.dag (e' :: P) = execUuids ev.dag (e :: P) := by simp [execUuids, hu]
  exact {
    wf := h.wf
    nonempty := h.nonempty
    once := h.once
    fifos := h.fifos
    execs := huu ▸ h.execs
    captureOut := by
      intro x hx hc
      simp only [List.mem_append, List.mem_cons] at hx
      rcases hx with hx | rfl | hx
      · exact h.captureOut x (by simp [hx]) hc
      · exact h1 hc
      · exact h.captureOut x (by simp [hx]) hc
    captureErr := by
      intro x hx hc
      simp only [List.mem_append, List.mem_cons] at hx
      rcases hx with hx | rfl | hx
      · exact h.captureErr x (by simp [hx]) hc
      · exact h2 hc
      · exact h.captureErr x (by simp [hx]) hc
    files := hout ▸ h.files
    boundF := hout ▸ h.boundF
    boundE := huu ▸ h.boundE
    boundG := h.boundG
    graders := hout ▸ h.graders
    runnable := h.runnable
    pdeps := by
      intro x hx f hf
      rcases List.mem_cons.1 hx with rfl | hx
      · exact hd f hf
      · exact h.pdeps x (List.mem_cons_of_mem _ hx) f hf
    exes := h.exes
    handlers := huu ▸ h.handlers
    writesWf := h.writesWf
    writes := hout ▸ h.writes }

/-- Adding a fresh output to the execution under construction. -/
theorem Inv.addOut {G : FileUuid → Prop} {ev : Eval} {P : List Execution} {e e' : Execution}
    (h : Inv G ev (e :: P)) (hu : e'.uuid = e.uuid)
    (ho : e'.outputFiles.Perm (ev.next :: e.outputFiles))
    (hd : e'.dependencies = e.dependencies)
    (h1 : e'.captureStdout ≠ none → e'.stdout ≠ none)
    (h2 : e'.captureStderr ≠ none → e'.stderr ≠ none) :
    Inv G { ev with next := ev.next + 1 } (e' :: P) := by
  have hout : (outsOf (e' :: P)).Perm (ev.next :: outsOf (e :: P)) := by
    simp only [outsOf, List.flatMap_cons]
    exact (List.Perm.append_right _ ho)
  have hall : (groupOuts ev.dag ++ (outsOf (e' :: P) ++ ev.dag.providedFiles.keys)).Perm
      (ev.next :: (groupOuts ev.dag ++ (outsOf (e :: P) ++ ev.dag.providedFiles.keys))) :=
    (List.Perm.append_left _ (List.Perm.append_right _ hout)).trans List.perm_middle
  have huu : execUuids ev.dag (e' :: P) = execUuids ev.dag (e :: P) := by simp [execUuids, hu]
  exact {
    wf := h.wf
    nonempty := h.nonempty
    once := h.once
    fifos := h.fifos
    execs := huu ▸ h.execs
    captureOut := by
      intro x hx hc
      simp only [List.mem_append, List.mem_cons] at hx
      rcases hx with hx | rfl | hx
      · exact h.captureOut x (by simp [hx]) hc
      · exact h1 hc
      · exact h.captureOut x (by simp [hx]) hc
    captureErr := by
      intro x hx hc
      simp only [List.mem_append, List.mem_cons] at hx
      rcases hx with hx | rfl | hx
      · exact h.captureErr x (by simp [hx]) hc
      · exact h2 hc
      · exact h.captureErr x (by simp [hx]) hc
    files := hall.nodup_iff.2 (List.nodup_cons.2
      ⟨fun hm => Nat.lt_irrefl _ (h.boundF _ hm), h.files⟩)
    boundF := by
      intro f hm
      rcases List.mem_cons.1 (hall.mem_iff.1 hm) with rfl | hm
      · exact Nat.lt_succ_self _
      · exact Nat.lt_succ_of_lt (h.boundF f hm)
    boundE := fun u hm => Nat.lt_succ_of_lt (h.boundE u (huu ▸ hm))
    boundG := fun f hm => Nat.lt_succ_of_lt (h.boundG f hm)
    graders := by
      intro f hg
      refine ⟨Nat.lt_succ_of_lt (h.graders f hg).1, (h.graders f hg).2.1, ?_⟩
      intro hm
      rcases List.mem_cons.1 (hout.mem_iff.1 hm) with rfl | hm
      · exact Nat.lt_irrefl _ (h.graders _ hg).1
      · exact (h.graders f hg).2.2 hm
    runnable := h.runnable
    pdeps := by
      intro x hx f hf
      rcases List.mem_cons.1 hx with rfl | hx
      · exact h.pdeps e (by simp) f (hd ▸ hf)
      · exact h.pdeps x (List.mem_cons_of_mem _ hx) f hf
    exes := h.exes
    handlers := huu ▸ h.handlers
    writesWf := h.writesWf
    writes := fun p hm => (h.writes p hm).imp id
      (fun hx => hout.mem_iff.2 (List.mem_cons_of_mem _ hx)) }

theorem mem_keys_insert {V : Type} {m : AMap Nat V} {k f : Nat} {v : V} :
    f ∈ (m.insert k v).keys ↔ f = k ∨ f ∈ m.keys := by
  rw [AMap.mem_keys_iff, AMap.mem_keys_iff]
  constructor
  · rintro ⟨w, hw⟩
    rw [AMap.get?_insert] at hw
    split at hw
    · next he => exact Or.inl he
    · exact Or.inr ⟨w, hw⟩
  · rintro (rfl | ⟨w, hw⟩)
    · exact ⟨v, by simp⟩
    · by_cases he : f = k
      · subst he; exact ⟨v, by simp⟩
      · exact ⟨w, by rw [AMap.get?_insert_ne _ _ he]; exact hw⟩

theorem provide_allFiles {d : DagData} {f x : FileUuid} {p : ProvidedFile} :
    x ∈ allFiles (d.provide f p) ↔ x = f ∨ x ∈ allFiles d := by
  rw [mem_allFiles, mem_allFiles]
  show _ ∨ x ∈ (d.providedFiles.insert f p).keys ↔ _
  rw [mem_keys_insert]
  show x ∈ groupOuts d ∨ _ ↔ _
  grind

theorem runnable_mono {d d' : DagData} {l : List (GroupUuid × ExecutionGroup)}
    (hk : ∀ f ∈ d.providedFiles.keys, f ∈ d'.providedFiles.keys) (h : Runnable d l) :
    Runnable d' l := by
  induction h with
  | nil => exact .nil
  | snoc pre u g _ hd ih => exact .snoc pre u g ih (fun f hf => (hd f hf).imp (hk f) id)

/-- Providing a file that no execution writes. -/
theorem Inv.provide {G : FileUuid → Prop} {ev : Eval} {P : List Execution} (h : Inv G ev P)
    (f : FileUuid) (p : ProvidedFile) (hb : f < ev.next) (h1 : f ∉ groupOuts ev.dag)
    (h2 : f ∉ outsOf P) : Inv G { ev with dag := ev.dag.provide f p } P := by
  have hk : ∀ x, x ∈ (ev.dag.provide f p).providedFiles.keys ↔
      x = f ∨ x ∈ ev.dag.providedFiles.keys := fun x => mem_keys_insert
  have hall : ∀ x ∈ allFiles ev.dag, x ∈ allFiles (ev.dag.provide f p) :=
    fun x hx => provide_allFiles.2 (Or.inr hx)
  have hnd : (ev.dag.provide f p).providedFiles.keys.Nodup := ((dag_wf_preserved _ h.wf).1 f p).provided
  have hf := h.files
  rw [List.nodup_append, List.nodup_append] at hf
  obtain ⟨a1, ⟨a2, a3, a4⟩, a5⟩ := hf
  exact {
    wf := (dag_wf_preserved _ h.wf).1 f p
    nonempty := h.nonempty
    once := h.once
    fifos := h.fifos
    execs := h.execs
    captureOut := h.captureOut
    captureErr := h.captureErr
    files := by
      show (groupOuts ev.dag ++ (outsOf P ++ (ev.dag.provide f p).providedFiles.keys)).Nodup
      rw [List.nodup_append, List.nodup_append]
      refine ⟨a1, ⟨a2, hnd, ?_⟩, ?_⟩
      · intro a ha b hb hab
        subst hab
        rcases (hk a).1 hb with rfl | hb
        · exact h2 ha
        · exact a4 a ha a hb rfl
      · intro a ha b hb hab
        subst hab
        rcases List.mem_append.1 hb with hb | hb
        · exact a5 a ha a (List.mem_append.2 (Or.inl hb)) rfl
        · rcases (hk a).1 hb with rfl | hb
          · exact h1 ha
          · exact a5 a ha a (List.mem_append.2 (Or.inr hb)) rfl
    boundF := by
      intro x hx
      rcases List.mem_append.1 hx with hx | hx
      · exact h.boundF x (List.mem_append.2 (Or.inl hx))
      · rcases List.mem_append.1 hx with hx | hx
        · exact h.boundF x (by simp [hx])
        · rcases (hk x).1 hx with rfl | hx
          · exact hb
          · exact h.boundF x (by simp [hx])
    boundE := h.boundE
    boundG := h.boundG
    graders := h.graders
    runnable := runnable_mono (fun x hx => (hk x).2 (Or.inr hx)) h.runnable
    pdeps := fun e he x hx => hall x (h.pdeps e he x hx)
    exes := fun p hp => hall _ (h.exes p hp)
    handlers := h.handlers
    writesWf := h.writesWf
    writes := fun p hp => (h.writes p hp).imp (hall _) id }

/-! ## Adding a group -/

theorem erase_eq_self {V : Type} {m : AMap Nat V} {k : Nat} (h : k ∉ m.keys) : m.erase k = m := by
  unfold AMap.erase
  apply List.filter_eq_self.2
  intro p hp
  simp only [ne_eq, decide_not, Bool.not_eq_true', decide_eq_false_iff_not]
  rintro rfl
  exact h (List.mem_map.2 ⟨p, hp, rfl⟩)

/-- The executions of a group once it is in the DAG. -/
def configured (d : DagData) (es : List Execution) : List Execution :=
  es.map (fun e => { e with config := d.config })

/-- Adding a group made of the first executions under construction. -/
theorem Inv.addGroup {G : FileUuid → Prop} {ev : Eval} {P Q : List Execution}
    (h : Inv G ev (Q ++ P)) (g : ExecutionGroup) (hq : g.executions = Q) (hne : Q ≠ [])
    (honce : Q.flatMap Execution.dependencies ≠ [] ∨ Q.length = 1)
    (hfifo : g.fifo.Nodup) (hfresh : g.uuid ∉ ev.dag.executionGroups.keys)
    (hlt : g.uuid < ev.next) :
    Inv G { ev with dag := ev.dag.addExecutionGroup g } P ∧
    (ev.dag.addExecutionGroup g).executionGroups =
      (g.uuid, { g with executions := configured ev.dag Q }) :: ev.dag.executionGroups := by
  have hgs : (ev.dag.addExecutionGroup g).executionGroups =
      (g.uuid, { g with executions := configured ev.dag Q }) :: ev.dag.executionGroups := by
    simp only [DagData.addExecutionGroup, AMap.insert, erase_eq_self hfresh, hq, configured]
  refine ⟨?_, hgs⟩
  have houts : (ExecutionGroup.outs { g with executions := configured ev.dag Q }) = outsOf Q := by
    simp only [ExecutionGroup.outs, configured, outsOf, List.flatMap_map]
    rfl
  have hdeps : (ExecutionGroup.deps { g with executions := configured ev.dag Q }) =
      Q.flatMap Execution.dependencies := by
    simp only [ExecutionGroup.deps, configured, List.flatMap_map]
    rfl
  have hgo : groupOuts (ev.dag.addExecutionGroup g) = outsOf Q ++ groupOuts ev.dag := by
    simp only [groupOuts, hgs, List.flatMap_cons, houts]
  have hprov : (ev.dag.addExecutionGroup g).providedFiles = ev.dag.providedFiles := rfl
  have hae : allExecs (ev.dag.addExecutionGroup g) = configured ev.dag Q ++ allExecs ev.dag := by
    simp only [allExecs, hgs, List.flatMap_cons]
  have hcu : (configured ev.dag Q).map (·.uuid) = Q.map (·.uuid) := by
    simp [configured, List.map_map, Function.comp_def]
  have huu : (execUuids (ev.dag.addExecutionGroup g) P).Perm (execUuids ev.dag (Q ++ P)) := by
    simp only [execUuids, hae, List.map_append, hcu]
    have := List.perm_append_comm (l₁ := Q.map (·.uuid)) (l₂ := (allExecs ev.dag).map (·.uuid))
    have := this.append_right (P.map (·.uuid))
    simpa [List.append_assoc] using this
  have hoP : outsOf (Q ++ P) = outsOf Q ++ outsOf P := by simp [outsOf]
  have hfp : (groupOuts (ev.dag.addExecutionGroup g) ++ (outsOf P ++ ev.dag.providedFiles.keys)).Perm
      (groupOuts ev.dag ++ (outsOf (Q ++ P) ++ ev.dag.providedFiles.keys)) := by
    rw [hgo, hoP]
    have := List.perm_append_comm (l₁ := outsOf Q) (l₂ := groupOuts ev.dag)
    have := this.append_right (outsOf P ++ ev.dag.providedFiles.keys)
    simpa [List.append_assoc] using this
  have hall : ∀ x ∈ allFiles ev.dag, x ∈ allFiles (ev.dag.addExecutionGroup g) := by
    intro x hx
    rw [mem_allFiles] at hx ⊢
    rw [hgo, hprov]
    exact hx.imp (fun y => List.mem_append.2 (Or.inr y)) id
  have hcap : ∀ e ∈ allExecs (ev.dag.addExecutionGroup g) ++ P,
      ∃ e' ∈ allExecs ev.dag ++ (Q ++ P), e.captureStdout = e'.captureStdout ∧
        e.captureStderr = e'.captureStderr ∧ e.stdout = e'.stdout ∧ e.stderr = e'.stderr := by
    intro e he
    rw [hae] at he
    simp only [List.mem_append, configured, List.mem_map] at he
    rcases he with (⟨e', he', rfl⟩ | he) | he
    · exact ⟨e', by simp [he'], rfl, rfl, rfl, rfl⟩
    · exact ⟨e, by simp [he], rfl, rfl, rfl, rfl⟩
    · exact ⟨e, by simp [he], rfl, rfl, rfl, rfl⟩
  exact {
    wf := (dag_wf_preserved _ h.wf).2.1 g
    nonempty := by
      intro u g' hm
      rw [hgs] at hm
      rcases List.mem_cons.1 hm with hm | hm
      · cases hm
        intro hc
        exact hne (List.map_eq_nil_iff.1 hc)
      · exact h.nonempty u g' hm
    once := by
      intro u g' hm
      rw [hgs] at hm
      rcases List.mem_cons.1 hm with hm | hm
      · cases hm
        rw [hdeps]
        simpa [configured] using honce
      · exact h.once u g' hm
    fifos := by
      intro u g' hm
      rw [hgs] at hm
      rcases List.mem_cons.1 hm with hm | hm
      · cases hm; exact hfifo
      · exact h.fifos u g' hm
    execs := huu.nodup_iff.2 h.execs
    captureOut := by
      intro e he hc
      obtain ⟨e', he', q1, q2, q3, q4⟩ := hcap e he
      rw [q3]; rw [q1] at hc; exact h.captureOut e' he' hc
    captureErr := by
      intro e he hc
      obtain ⟨e', he', q1, q2, q3, q4⟩ := hcap e he
      rw [q4]; rw [q2] at hc; exact h.captureErr e' he' hc
    files := hfp.nodup_iff.2 h.files
    boundF := fun f hm => h.boundF f (hfp.mem_iff.1 hm)
    boundE := fun u hm => h.boundE u (huu.mem_iff.1 hm)
    boundG := by
      intro u hm
      rw [show (({ ev with dag := ev.dag.addExecutionGroup g } : Eval).dag.executionGroups) = _ from hgs]
        at hm
      simp only [AMap.keys, List.map_cons, List.mem_cons] at hm
      rcases hm with rfl | hm
      · exact hlt
      · exact h.boundG u hm
    graders := by
      intro f hg
      obtain ⟨b1, b2, b3⟩ := h.graders f hg
      rw [hoP] at b3
      refine ⟨b1, ?_, fun hm => b3 (List.mem_append.2 (Or.inr hm))⟩
      show f ∉ groupOuts (ev.dag.addExecutionGroup g)
      rw [hgo]
      intro hm
      rcases List.mem_append.1 hm with hm | hm
      · exact b3 (List.mem_append.2 (Or.inl hm))
      · exact b2 hm
    runnable := by
      show Runnable _ (ev.dag.addExecutionGroup g).executionGroups.reverse
      rw [hgs, List.reverse_cons]
      refine .snoc _ _ _ (runnable_mono (d := ev.dag) (d' := ev.dag.addExecutionGroup g) (fun _ hx => hx) h.runnable) ?_
      intro f hf
      rw [hdeps] at hf
      obtain ⟨e, he, hf⟩ := List.mem_flatMap.1 hf
      have := h.pdeps e (List.mem_append.2 (Or.inl he)) f hf
      rw [mem_allFiles] at this
      rcases this with this | this
      · obtain ⟨p, hp, hfp⟩ := List.mem_flatMap.1 this
        exact Or.inr ⟨p, List.mem_reverse.2 hp, hfp⟩
      · exact Or.inl this
    pdeps := fun e he f hf => hall f (h.pdeps e (List.mem_append.2 (Or.inr he)) f hf)
    exes := fun p hp => hall _ (h.exes p hp)
    handlers := fun p hp => huu.mem_iff.2 (h.handlers p hp)
    writesWf := h.writesWf
    writes := by
      intro p hp
      rcases h.writes p hp with hw | hw
      · exact Or.inl (hall _ hw)
      · rw [hoP] at hw
        rcases List.mem_append.1 hw with hw | hw
        · left
          rw [mem_allFiles]
          left
          show _ ∈ groupOuts (ev.dag.addExecutionGroup g)
          rw [hgo]; exact List.mem_append.2 (Or.inl hw)
        · exact Or.inr hw }

end TM.Build
