import Verif.BadCase.PropsPatch
/-!
# The executions the tool counts, and what succeeds (helpers of C96)
-/
namespace TM.BadCase
open TM TM.Build TM.DagSpec TM.Build.Spec

variable {task task' : Task} {v : InputValidator} {args : List String} {size index : Nat} {seed : Nat → Nat} {batch : Batch}
  {n : Uuid} {cfg : DagConfig} {fs : FS} {root : String} {sol : Src} {io : GeneratedIo} {ev ev' : Eval}
  {name : Nat → String} {work : String}

theorem processedTopics_nodup {keys : List Nat} (h : keys.Nodup) : (processedTopics task' keys).Nodup := by
  unfold processedTopics
  refine nodup_flatMap (fun k _ => evaluationMessages_nodup _ _ _ _) (h.imp (fun hab x hx y hy e => hab ?_))
  subst e
  have h1 := (evaluationMessages_about hx).1
  have h2 := (evaluationMessages_about hy).1
  rw [h1] at h2
  exact Option.some.inj h2

theorem batch_nodup (hp : patchTask task v args size index seed = some (task', batch)) : batch.keys.Nodup := by
  obtain ⟨t, src, a, h1, h2, h3, h4⟩ := patchTask_some hp
  rw [h3]
  exact batch_keys_nodup _ _ _ _

theorem batch_length (hp : patchTask task v args size index seed = some (task', batch)) : batch.keys.length = size := by
  obtain ⟨t, src, a, h1, h2, h3, h4⟩ := patchTask_some hp
  rw [h3, batch_keys]
  simp

theorem type_same (hp : patchTask task v args size index seed = some (task', batch)) : task'.type = task.type := by
  obtain ⟨t, src, a, h1, h2, h3, h4⟩ := patchTask_some hp
  rw [h4]

/-- Each of the executions the tool looks for is reported as one of the topics, and they are all different. -/
theorem processed_count (hfit : Fits n task' [sol]) (hp : patchTask task v args size index seed = some (task', batch))
    (hr : buildDag fs root task' [sol] (start n cfg) = .ok (io, ev)) :
    (executions ev).countP isProcessed = (processedTopics task' batch.keys).length := by
  obtain ⟨hid, htc⟩ := patched_ids hp
  have hdone := (buildDag_done hfit hr).1
  have hnd : (allExecs ev.dag).Nodup := List.Pairwise.of_map (·.uuid) (fun a b h e => h (by rw [e])) (nodup_uuids hdone)
  have htopic : ∀ {t}, t ∈ processedTopics task' batch.keys → t ∈ messages task' 1 := by
    intro t ht
    obtain ⟨k, hk, ht⟩ := List.mem_flatMap.1 ht
    obtain ⟨c, hc⟩ := AMap.mem_keys_iff.1 hk
    obtain ⟨st, tc, input, handle, output, p1, p2, p3, p4, p5⟩ := prepared_of hfit hp hr hc
    exact (patched_messages hp).2 ⟨k, c, tc, hc, p3, .inr (.inr (.inr ht))⟩
  have hhead : ∀ {e}, e ∈ allExecs ev.dag → isProcessed e = true →
      ∃ t ∈ processedTopics task' batch.keys, Reports ev e.uuid t ∧ reportsOn ev e.uuid = [t] := by
    intro e he hpr
    obtain ⟨t, h1, h2⟩ := (processed_iff hfit hp hr he).1 hpr
    obtain ⟨t', h3, -⟩ := reported_once hfit hr he
    have := mem_reportsOn.2 h2
    rw [h3, List.mem_singleton] at this
    subst this
    exact ⟨t, h1, h2, h3⟩
  have key : (((allExecs ev.dag).filter isProcessed).map (fun e => (reportsOn ev e.uuid).head?)).Perm
      ((processedTopics task' batch.keys).map some) := by
    refine (List.perm_ext_iff_of_nodup ?_ ?_).2 ?_
    · rw [List.Nodup, List.pairwise_map]
      refine (List.Pairwise.and_mem.1 (hnd.filter _)).imp ?_
      rintro a b ⟨ha, hb, hab⟩ e
      rw [List.mem_filter] at ha hb
      obtain ⟨t, h1, h2, h3⟩ := hhead ha.1 ha.2
      obtain ⟨t', h1', h2', h3'⟩ := hhead hb.1 hb.2
      rw [h3, h3'] at e
      cases e
      obtain ⟨e0, -, -, h⟩ := one_execution_each hfit hid htc hr (htopic h1)
      exact hab ((h a ha.1 h2).trans (h b hb.1 h2').symm)
    · rw [List.Nodup, List.pairwise_map]
      exact (processedTopics_nodup (batch_nodup hp)).imp (fun h e => h (Option.some.inj e))
    · intro x
      simp only [List.mem_map, List.mem_filter]
      constructor
      · rintro ⟨e, ⟨he, hpr⟩, rfl⟩
        obtain ⟨t, h1, h2, h3⟩ := hhead he hpr
        exact ⟨t, h1, by rw [h3]; rfl⟩
      · rintro ⟨t, ht, rfl⟩
        obtain ⟨e0, he, h2, -⟩ := one_execution_each hfit hid htc hr (htopic ht)
        have hpr := (processed_iff hfit hp hr he).2 ⟨t, ht, h2⟩
        refine ⟨e0, ⟨he, hpr⟩, ?_⟩
        obtain ⟨t', h3, -⟩ := reported_once hfit hr he
        have := mem_reportsOn.2 h2
        rw [h3, List.mem_singleton] at this
        subst this
        rw [h3]; rfl
  have := key.length_eq
  simp only [List.length_map] at this
  rw [List.countP_eq_length_filter]
  exact this

theorem processed_length (hp : patchTask task v args size index seed = some (task', batch)) :
    (processedTopics task' batch.keys).length = size * (match task.type with
      | .batch _ => 2
      | .communication _ m _ => m + 1
      | .none => 0) := by
  unfold processedTopics
  rw [List.length_flatMap, type_same hp, ← batch_length hp]
  generalize batch.keys = l
  generalize task.type = ty
  cases ty <;> induction l <;> simp_all [evaluationMessages, Nat.succ_mul] <;> omega

/-- The description of an execution is the one of its topic. -/
theorem descriptionOf_of {e : Execution} {t : Topic} (h : reportsOn ev e.uuid = [t]) :
    descriptionOf name ev e = describe name t := by
  unfold descriptionOf
  unfold reportsOn at h
  have h1 : (ev.handlers.findSome? (topicOn e.uuid)) = some t := by
    rw [← List.head?_filterMap, h]; rfl
  have h2 : ∀ l : List (ExecutionUuid × Handler), l.findSome? (describedBy name e.uuid) = (l.findSome? (topicOn e.uuid)).map (describe name) := by
    intro l
    induction l with
    | nil => rfl
    | cons p l ih =>
      obtain ⟨u, hd⟩ := p
      simp only [List.findSome?_cons, ih]
      cases hd <;> simp only [topicOn, describedBy]
      by_cases hu : u = e.uuid
      · rw [if_pos hu, if_pos hu]; rfl
      · rw [if_neg hu, if_neg hu]
  rw [h2, h1]
  rfl

theorem id_describe {t : Topic} {k : Nat} (ht : t ∈ evaluationMessages task'.type 0 k 0) :
    idOfDescription (describe name t).toList = some k := by
  have h1 : ∀ s : String, idOfDescription (s ++ " on testcase " ++ toString k ++ ", subtask " ++ toString 0).toList = some k := by
    intro s
    have := id_description s.toList k 0
    simpa only [String.toList_append, List.append_assoc] using this
  unfold evaluationMessages at ht
  split at ht
  · simp only [List.mem_cons, List.not_mem_nil, or_false] at ht
    rcases ht with rfl | rfl
    · exact h1 _
    · exact h1 _
  · simp only [List.mem_append, List.mem_map, List.mem_range, List.mem_singleton] at ht
    rcases ht with ⟨i, hi, rfl⟩ | rfl
    · exact h1 _
    · exact h1 _
  · cases ht

/-- The file an execution looked for is saved as. -/
theorem outputOf_processed (hfit : Fits n task' [sol]) (hp : patchTask task v args size index seed = some (task', batch))
    (hr : buildDag fs root task' [sol] (start n cfg) = .ok (io, ev)) {e : Execution} (he : e ∈ allExecs ev.dag)
    (ht : e.tag = some "evaluation") : ∃ k c t, batch.get? k = some c ∧ t ∈ evaluationMessages task'.type 0 k 0 ∧
      Reports ev e.uuid t ∧
      outputOfExec name work batch ev e = some (e.stdout.toList.map (fun f => (f, c.file work "output.txt"))) := by
  obtain ⟨t, h1, h2⟩ := (processed_iff hfit hp hr he).1 (by simp [isProcessed, ht])
  obtain ⟨k, hk, h3⟩ := List.mem_flatMap.1 h1
  obtain ⟨c, hc⟩ := AMap.mem_keys_iff.1 hk
  obtain ⟨t', h4, -⟩ := reported_once hfit hr he
  have := mem_reportsOn.2 h2
  rw [h4, List.mem_singleton] at this
  subst this
  refine ⟨k, c, t, hc, h3, h2, ?_⟩
  unfold outputOfExec
  rw [if_pos ht, descriptionOf_of h4, id_describe h3]
  cases e.stdout with
  | none => rfl
  | some f => simp [hc]

theorem newWrites_some {l : List Execution} (h : ∀ e ∈ l, (outputOfExec name work batch ev e).isSome = true) :
    newWrites name work batch ev l = some (l.flatMap (fun e => (outputOfExec name work batch ev e).getD [])) := by
  induction l with
  | nil => rfl
  | cons e l ih =>
    unfold newWrites
    rw [ih (fun x hx => h x (List.mem_cons_of_mem _ hx))]
    obtain ⟨a, ha⟩ := Option.isSome_iff_exists.1 (h e (List.mem_cons_self ..))
    rw [ha]
    simp [ha]

theorem patchWrites_some {ws : AMap FileUuid WriteTo}
    (h : ∀ p ∈ ws, (patchWrite root work batch p.2).isSome = true) :
    patchWrites root work batch ws = some (ws.map (fun p => (p.1, (patchWrite root work batch p.2).getD p.2))) := by
  induction ws with
  | nil => rfl
  | cons p l ih =>
    obtain ⟨f, w⟩ := p
    unfold patchWrites
    rw [ih (fun x hx => h x (List.mem_cons_of_mem _ hx))]
    obtain ⟨a, ha⟩ := Option.isSome_iff_exists.1 (h (f, w) (List.mem_cons_self ..))
    simp only at ha
    rw [ha]
    simp [ha]

theorem stripRoot_append (r s : Text) : stripRoot r (r ++ ('/' :: s)) = some s := by
  unfold stripRoot
  have h : (r ++ ['/']).isPrefixOf (r ++ ('/' :: s)) = true :=
    List.isPrefixOf_iff_prefix.2 ⟨s, by simp⟩
  rw [if_pos h]
  congr 1
  induction r with
  | nil => rfl
  | cons c r ih => simpa using ih (List.isPrefixOf_iff_prefix.2 ⟨s, by simp⟩)

theorem under_append (d s : Text) : under d (d ++ ('/' :: s)) = true := by
  unfold under
  have h : (d ++ ['/']).isPrefixOf (d ++ ('/' :: s)) = true :=
    List.isPrefixOf_iff_prefix.2 ⟨s, by simp⟩
  simp [h]

/-- The path of an input, relative to the task. -/
theorem dest_input (root : String) (k : Nat) : (root ++ "/input/input" ++ toString k ++ ".txt").toList =
    root.toList ++ ('/' :: ("input".toList ++ ('/' :: ioName "in".toList k))) := by
  simp only [String.toList_append, List.append_assoc, ioName]
  rfl

theorem dest_output (root : String) (k : Nat) : (root ++ "/output/output" ++ toString k ++ ".txt").toList =
    root.toList ++ ('/' :: ("output".toList ++ ('/' :: ioName "out".toList k))) := by
  simp only [String.toList_append, List.append_assoc, ioName]
  rfl

theorem patchWrite_input {k : Nat} {c : Case} (hc : batch.get? k = some c) {w : WriteTo}
    (hw : w.dest = root ++ "/input/input" ++ toString k ++ ".txt") :
    patchWrite root work batch w = some ⟨c.file work "input.txt", w.executable, true⟩ := by
  unfold patchWrite
  rw [hw, dest_input, stripRoot_append]
  simp only [under_append, id_io (dir := "input".toList) (pre := "in".toList) (n := k) (by decide), hc, Option.bind_some]
  simp

theorem patchWrite_output {k : Nat} {c : Case} (hc : batch.get? k = some c) {w : WriteTo}
    (hw : w.dest = root ++ "/output/output" ++ toString k ++ ".txt") :
    patchWrite root work batch w = some ⟨c.file work "correct_output.txt", w.executable, true⟩ := by
  unfold patchWrite
  rw [hw, dest_output, stripRoot_append]
  have h : under "input".toList ("output".toList ++ ('/' :: ioName "out".toList k)) = false := by
    simp [under, List.isPrefixOf]
  simp only [h, under_append, id_io (dir := "output".toList) (pre := "out".toList) (n := k) (by decide), hc, Option.bind_some]
  simp

end TM.BadCase
