import Verif.BadCase.PatchCount
/-!
# The DAG of a batch (helpers of C96)
-/
namespace TM.BadCase
open TM TM.Build TM.DagSpec TM.Build.Spec

variable {task task' : Task} {v : InputValidator} {args : List String} {size index : Nat} {seed : Nat → Nat} {batch : Batch}
  {n : Uuid} {cfg : DagConfig} {fs : FS} {root : String} {sol : Src} {io : GeneratedIo} {ev ev' : Eval}
  {name : Nat → String} {work : String}

/-! ## The executions -/

theorem patchExec_eq (e : Execution) : patchExec e = { e with priority := (patchExec e).priority } := by
  unfold patchExec
  split <;> rfl

theorem patchExec_outputs (e : Execution) : (patchExec e).outputFiles = e.outputFiles := by rw [patchExec_eq]; rfl
theorem patchExec_deps (e : Execution) : (patchExec e).dependencies = e.dependencies := by rw [patchExec_eq]; rfl
theorem patchExec_uuid (e : Execution) : (patchExec e).uuid = e.uuid := by rw [patchExec_eq]

theorem patchGroup_outs (p : GroupUuid × ExecutionGroup) : (patchGroup p).2.outs = p.2.outs := by
  simp only [patchGroup, ExecutionGroup.outs, List.flatMap_map, patchExec_outputs]

theorem patchGroup_deps (p : GroupUuid × ExecutionGroup) : (patchGroup p).2.deps = p.2.deps := by
  simp only [patchGroup, ExecutionGroup.deps, List.flatMap_map, patchExec_deps]

/-- The DAG with the priorities changed. -/
def patched (d : DagData) : DagData := { d with executionGroups := d.executionGroups.map patchGroup }

theorem allExecs_patched (d : DagData) : allExecs (patched d) = (allExecs d).map patchExec := by
  simp only [allExecs, patched, List.flatMap_map, List.map_flatMap]
  rfl

theorem allFiles_patched (d : DagData) : allFiles (patched d) = allFiles d := by
  simp only [allFiles, patched, List.flatMap_map, patchGroup_outs]

theorem patched_wf {d : DagData} (h : d.Wf) : (patched d).Wf := by
  refine ⟨h.provided, ?_, ?_⟩
  · have := h.groups
    unfold AMap.Wf AMap.keys at this ⊢
    simpa only [patched, List.map_map, Function.comp_def, patchGroup] using this
  · intro k g hg
    simp only [patched, List.mem_map] at hg
    obtain ⟨p, hp, hpg⟩ := hg
    cases hpg
    exact h.keyed p.1 p.2 hp

theorem patched_ok {d : DagData} {cb cb' : WatchSet} (hw : WellFormed d cb) (hi : InputsDefined d) (ha : Acyclic d)
    (hf : ∀ f ∈ cb'.files, f ∈ allFiles d) (he : cb'.executions = cb.executions) :
    WellFormed (patched d) cb' ∧ InputsDefined (patched d) ∧ Acyclic (patched d) := by
  have hgroup : ∀ {u g}, (u, g) ∈ (patched d).executionGroups → ∃ g0, (u, g0) ∈ d.executionGroups ∧
      g = (patchGroup (u, g0)).2 := by
    intro u g hg
    simp only [patched, List.mem_map] at hg
    obtain ⟨p, hp, hpg⟩ := hg
    cases hpg
    exact ⟨p.2, hp, rfl⟩
  refine ⟨⟨?_, ?_, ?_, ?_, ?_, ?_, ?_, ?_⟩, ?_, ?_⟩
  · intro u g hg
    obtain ⟨g0, h1, rfl⟩ := hgroup hg
    have := hw.nonempty u g0 h1
    simpa [patchGroup] using this
  · intro u g hg
    obtain ⟨g0, h1, rfl⟩ := hgroup hg
    exact hw.fifos u g0 h1
  · rw [allExecs_patched, List.map_map]
    have : ((·.uuid) ∘ patchExec) = fun e : Execution => e.uuid := funext patchExec_uuid
    rw [this]
    exact hw.execs
  · intro e he'
    rw [allExecs_patched, List.mem_map] at he'
    obtain ⟨e0, h1, rfl⟩ := he'
    rw [patchExec_eq]
    exact hw.captureOut e0 h1
  · intro e he'
    rw [allExecs_patched, List.mem_map] at he'
    obtain ⟨e0, h1, rfl⟩ := he'
    rw [patchExec_eq]
    exact hw.captureErr e0 h1
  · rw [allFiles_patched]; exact hw.files
  · rw [allFiles_patched]; exact hf
  · intro e h1
    rw [he] at h1
    have := hw.execCallbacks e h1
    rw [allExecs_patched, List.map_map]
    have h2 : ((·.uuid) ∘ patchExec) = fun e : Execution => e.uuid := funext patchExec_uuid
    rw [h2]
    exact this
  · intro u g hg f hf
    obtain ⟨g0, h1, rfl⟩ := hgroup hg
    rw [patchGroup_deps] at hf
    rw [allFiles_patched]
    exact hi u g0 h1 f hf
  · have hd : ∀ {a b}, DependsOn (patched d) a b → DependsOn d a b := by
      rintro a b ⟨g, h, f, h1, h2, h3, h4⟩
      obtain ⟨g0, h5, rfl⟩ := hgroup h1
      obtain ⟨g1, h6, rfl⟩ := hgroup h2
      rw [patchGroup_deps] at h3
      rw [patchGroup_outs] at h4
      exact ⟨g0, g1, f, h5, h6, h3, h4⟩
    have ht : ∀ {a b}, Relation.TransGen (DependsOn (patched d)) a b → Relation.TransGen (DependsOn d) a b := by
      intro a b h
      induction h with
      | single h => exact .single (hd h)
      | tail _ h ih => exact .tail ih (hd h)
    exact fun u hu => ha u (ht hu)

/-! ## The files -/

theorem fold_writes (l : List (FileUuid × String)) : ∀ ev : Eval, ev.dag.config.dryRun = false →
    l.foldl writeAllowFail ev =
      { ev with writes := l.foldl (fun m p => m.insert p.1 ⟨p.2, false, true⟩) ev.writes } := by
  induction l with
  | nil => intro ev _; rfl
  | cons p l ih =>
    intro ev hd
    simp only [List.foldl_cons]
    have : writeAllowFail ev p = { ev with writes := ev.writes.insert p.1 ⟨p.2, false, true⟩ } := by
      unfold writeAllowFail
      rw [if_neg (by rw [hd]; simp)]
    rw [this, ih { ev with writes := ev.writes.insert p.1 ⟨p.2, false, true⟩ } hd]

theorem fold_dry (l : List (FileUuid × String)) (ev : Eval) (hd : ev.dag.config.dryRun = true) :
    l.foldl writeAllowFail ev = ev := by
  induction l with
  | nil => rfl
  | cons p l ih =>
    have : writeAllowFail ev p = ev := by
      unfold writeAllowFail
      rw [if_pos hd]
    rw [List.foldl_cons, this, ih]

theorem fold_get (l : List (FileUuid × String)) : ∀ (m : AMap FileUuid WriteTo) (f : FileUuid),
    (∀ p ∈ l, p.1 ≠ f) → (l.foldl (fun m p => m.insert p.1 ⟨p.2, false, true⟩) m).get? f = m.get? f := by
  induction l with
  | nil => intro m f _; rfl
  | cons p l ih =>
    intro m f h
    rw [List.foldl_cons, ih _ _ (fun q hq => h q (List.mem_cons_of_mem _ hq)),
      AMap.get?_insert_ne _ _ (Ne.symm (h p (List.mem_cons_self ..)))]

theorem fold_get_mem (l : List (FileUuid × String)) : ∀ (m : AMap FileUuid WriteTo) (f : FileUuid) (w : WriteTo),
    (l.foldl (fun m p => m.insert p.1 ⟨p.2, false, true⟩) m).get? f = some w →
    (∃ p ∈ l, p.1 = f ∧ w = ⟨p.2, false, true⟩) ∨ m.get? f = some w := by
  induction l with
  | nil => intro m f w h; exact .inr h
  | cons p l ih =>
    intro m f w h
    rw [List.foldl_cons] at h
    rcases ih _ _ _ h with ⟨q, h1, h2, h3⟩ | h1
    · exact .inl ⟨q, List.mem_cons_of_mem _ h1, h2, h3⟩
    · by_cases hf : p.1 = f
      · subst hf
        rw [AMap.get?_insert_self] at h1
        cases h1
        exact .inl ⟨p, List.mem_cons_self .., rfl, rfl⟩
      · rw [AMap.get?_insert_ne _ _ (Ne.symm hf)] at h1
        exact .inr h1

theorem fold_get_only (l : List (FileUuid × String)) (m : AMap FileUuid WriteTo) {p : FileUuid × String} (hp : p ∈ l)
    (h : ∀ q ∈ l, q.1 = p.1 → q.2 = p.2) :
    (l.foldl (fun m p => m.insert p.1 ⟨p.2, false, true⟩) m).get? p.1 = some ⟨p.2, false, true⟩ := by
  induction l generalizing m with
  | nil => cases hp
  | cons q l ih =>
    rw [List.foldl_cons]
    by_cases hl : ∃ r ∈ l, r.1 = p.1
    · obtain ⟨r, hr, hrp⟩ := hl
      have : r = p := Prod.ext hrp (h r (List.mem_cons_of_mem _ hr) hrp)
      exact ih _ (this ▸ hr) (fun x hx => h x (List.mem_cons_of_mem _ hx))
    · rw [fold_get _ _ _ (fun r hr e => hl ⟨r, hr, e⟩)]
      have : q = p := by
        rcases List.mem_cons.1 hp with rfl | hp
        · rfl
        · exact absurd ⟨p, hp, rfl⟩ hl
      rw [this, AMap.get?_insert_self]

theorem get_map_write (g : WriteTo → WriteTo) (m : AMap FileUuid WriteTo) (f : FileUuid) :
    AMap.get? (m.map (fun p => (p.1, g p.2))) f = (m.get? f).map g := by
  induction m with
  | nil => rfl
  | cons p m ih =>
    obtain ⟨k, w⟩ := p
    simp only [List.map_cons, AMap.get?]
    split
    · rfl
    · exact ih

end TM.BadCase
