import Verif.Sanity.NewLine
/-!
# C77: the subtasks whose official outputs are all equal
-/
namespace TM.Sanity
open TM

/-! ## Specification -/

/-- The official output of the testcase was given to the client, and this is its content. -/
def OutputIs (task : Task) (ds : List Delivery) (k : Nat) (c : Bytes) : Prop :=
  ∃ tc d, task.testcases.get? k = some tc ∧ d ∈ ds ∧ tc.output = some d.file ∧ d.content = c

/-- The subtask has two testcases or more and all their official outputs are `c`. -/
def SameOutputs (task : Task) (ds : List Delivery) (st : St) (c : Bytes) : Prop :=
  2 ≤ st.testcases.length ∧ ∀ k ∈ st.testcases, OutputIs task ds k c

/-- Subtasks are indexed by their ids and their testcases exist. -/
structure Task.Ok (task : Task) : Prop where
  wf : task.subtasks.Wf
  ids : ∀ id st, task.subtasks.get? id = some st → st.id = id
  known : ∀ id st, task.subtasks.get? id = some st → ∀ k ∈ st.testcases, ∃ tc, task.testcases.get? k = some tc

/-! ## Lemmas -/

theorem file_unique {ds : List Delivery} (hnd : (ds.map (·.file)).Nodup) {d d' : Delivery} (h : d ∈ ds) (h' : d' ∈ ds)
    (heq : d.file = d'.file) : d = d' := by
  induction ds with
  | nil => cases h
  | cons a ds ih =>
    rw [List.map_cons, List.nodup_cons] at hnd
    rcases List.mem_cons.1 h with h1 | h1 <;> rcases List.mem_cons.1 h' with h2 | h2
    · rw [h1, h2]
    · exact absurd (List.mem_map.2 ⟨d', h2, by rw [← heq, h1]⟩) hnd.1
    · exact absurd (List.mem_map.2 ⟨d, h1, by rw [heq, h2]⟩) hnd.1
    · exact ih hnd.2 h1 h2

section
variable {H : Type} (hash : Bytes → H)

theorem flatMap_congr' {α β : Type} {l : List α} {f g : α → List β} (h : ∀ a ∈ l, f a = g a) :
    l.flatMap f = l.flatMap g := by
  induction l with
  | nil => rfl
  | cons a l ih =>
    rw [List.flatMap_cons, List.flatMap_cons, h a List.mem_cons_self, ih (fun a ha => h a (List.mem_cons_of_mem _ ha))]

theorem hasher_add_all (e : Hasher) (cs : List Bytes) (h : ∀ c ∈ cs, c ≠ []) :
    (cs.foldl Hasher.add e) = { e with first := e.first.or cs.head?, data := e.data ++ cs.flatten } := by
  induction cs generalizing e with
  | nil => obtain ⟨a, b, c, d⟩ := e; cases c <;> simp
  | cons c cs ih =>
    have hc := h c List.mem_cons_self
    have hadd : e.add c = { e with first := e.first.or (some c), data := e.data ++ c } := by
      unfold Hasher.add
      cases c with
      | nil => exact absurd rfl hc
      | cons => rfl
    rw [List.foldl_cons, ih _ (fun c hc => h c (List.mem_cons_of_mem _ hc)), hadd]
    obtain ⟨a, b, f, d⟩ := e
    cases f <;> simp

theorem eq_chunk_hashers (f : FileUuid) (s : Equal H) (cs : List Bytes) :
    (cs.foldl (Equal.chunk hash f) s).hashers = s.hashers.map (fun e => if e.file = f then cs.foldl Hasher.add e else e) := by
  induction cs generalizing s with
  | nil => simp
  | cons c cs ih =>
    rw [List.foldl_cons, ih]
    simp only [Equal.chunk, List.map_map]
    apply List.map_congr_left
    intro e _
    simp only [Function.comp_apply]
    by_cases h : e.file = f
    · have : (e.add c).file = f := by
        unfold Hasher.add
        split <;> exact h
      simp [h, this]
    · simp [h]

theorem eq_chunk_outputs (f : FileUuid) (s : Equal H) (cs : List Bytes) (h : ∀ c ∈ cs, c ≠ []) :
    (cs.foldl (Equal.chunk hash f) s).outputs = s.outputs := by
  induction cs generalizing s with
  | nil => rfl
  | cons c cs ih =>
    rw [List.foldl_cons, ih _ (fun c hc => h c (List.mem_cons_of_mem _ hc))]
    have hc := h c List.mem_cons_self
    cases c with
    | nil => exact absurd rfl hc
    | cons => rfl

theorem finish_get (m : AMap Nat (List (Out H))) (e : Hasher) (id : Nat) :
    (Equal.finish hash m e).get? id =
      (m.get? id).map (· ++ if e.subtask = id then [⟨e.first, hash e.data⟩] else []) := by
  unfold Equal.finish
  split
  · next h =>
    by_cases hid : e.subtask = id
    · rw [← hid, h]; rfl
    · rw [if_neg hid]; cases m.get? id <;> simp
  · next out h =>
    by_cases hid : e.subtask = id
    · rw [if_pos hid, ← hid, AMap.get?_insert_self, h]; rfl
    · rw [if_neg hid, AMap.get?_insert_ne _ _ (fun h => hid h.symm)]
      cases m.get? id <;> simp

theorem finish_fold_get (m : AMap Nat (List (Out H))) (hs : List Hasher) (id : Nat) :
    (hs.foldl (Equal.finish hash) m).get? id =
      (m.get? id).map (· ++ (hs.filter (fun e => e.subtask = id)).map (fun e => ⟨e.first, hash e.data⟩)) := by
  induction hs generalizing m with
  | nil => cases h : m.get? id <;> simp [h]
  | cons e hs ih =>
    rw [List.foldl_cons, ih, finish_get]
    cases m.get? id with
    | none => rfl
    | some out =>
      by_cases h : e.subtask = id <;> simp [h]

theorem finish_fold_wf {m : AMap Nat (List (Out H))} (hw : m.Wf) (hs : List Hasher) :
    (hs.foldl (Equal.finish hash) m).Wf := by
  induction hs generalizing m with
  | nil => exact hw
  | cons e hs ih =>
    rw [List.foldl_cons]
    apply ih
    unfold Equal.finish
    split
    · exact hw
    · exact AMap.wf_insert hw _ _

/-- What a callback records of a file. -/
def outOf (d : Delivery) : Out H := ⟨d.chunks.head?, hash d.content⟩

/-- The callbacks of a file that work for a subtask. -/
def Equal.of (s : Equal H) (f : FileUuid) (id : Nat) : List Hasher :=
  s.hashers.filter (fun e => e.file = f ∧ e.subtask = id)

theorem eq_deliver (s : Equal H) (d : Delivery) (hd : d.Ok)
    (hf : ∀ e ∈ s.hashers, e.file = d.file → e.first = none ∧ e.data = []) (id : Nat) :
    (Equal.deliver hash s d).outputs.get? id =
      (s.outputs.get? id).map (· ++ (s.of d.file id).map (fun _ => outOf hash d)) := by
  have ho := eq_chunk_outputs hash d.file s d.chunks hd
  have he := eq_chunk_hashers hash d.file s d.chunks
  unfold Equal.deliver
  rw [List.foldl_append]
  generalize d.chunks.foldl (Equal.chunk hash d.file) s = s' at *
  show (Equal.chunk hash d.file s' []).outputs.get? id = _
  simp only [Equal.chunk, List.isEmpty_nil, if_true]
  rw [finish_fold_get, ho, he]
  congr 2
  funext out
  congr 1
  have key : ∀ hs : List Hasher, (∀ e ∈ hs, e.file = d.file → e.first = none ∧ e.data = []) →
      List.map (fun e => (⟨e.first, hash e.data⟩ : Out H)) (List.filter (fun e => decide (e.subtask = id))
        (List.filter (fun e => decide (e.file = d.file))
          (List.map (fun e => if e.file = d.file then List.foldl Hasher.add e d.chunks else e) hs))) =
      (hs.filter (fun e => e.file = d.file ∧ e.subtask = id)).map (fun _ => outOf hash d) := by
    intro hs
    induction hs with
    | nil => intro _; rfl
    | cons e hs ih =>
      intro h
      have ih := ih (fun e he => h e (List.mem_cons_of_mem _ he))
      rw [List.map_cons]
      by_cases hfe : e.file = d.file
      · obtain ⟨h1, h2⟩ := h e List.mem_cons_self hfe
        rw [if_pos hfe, hasher_add_all e d.chunks hd]
        by_cases hid : e.subtask = id
        · simp only [List.filter_cons, hfe, hid, decide_true, if_true, List.map_cons, ih, h1, h2, and_self]
          simp [outOf, Delivery.content]
        · simp only [List.filter_cons, hfe, hid, decide_true, if_true, decide_false, Bool.false_eq_true, if_false, ih, and_false]
      · rw [if_neg hfe]
        simp only [List.filter_cons, hfe, decide_false, Bool.false_eq_true, if_false, ih, false_and]
  exact key s.hashers hf

theorem eq_deliver_hashers (s : Equal H) (d : Delivery) : (Equal.deliver hash s d).hashers =
    s.hashers.map (fun e => if e.file = d.file then (d.chunks ++ [[]]).foldl Hasher.add e else e) :=
  eq_chunk_hashers hash d.file s _

theorem hasher_fold_same (e : Hasher) (cs : List Bytes) :
    (cs.foldl Hasher.add e).file = e.file ∧ (cs.foldl Hasher.add e).subtask = e.subtask := by
  induction cs generalizing e with
  | nil => exact ⟨rfl, rfl⟩
  | cons c cs ih =>
    rw [List.foldl_cons]
    obtain ⟨h1, h2⟩ := ih (e.add c)
    rw [h1, h2]
    unfold Hasher.add
    split <;> exact ⟨rfl, rfl⟩

theorem of_deliver_length (s : Equal H) (d : Delivery) (f : FileUuid) (id : Nat) :
    ((Equal.deliver hash s d).of f id).length = (s.of f id).length := by
  unfold Equal.of
  rw [eq_deliver_hashers]
  induction s.hashers with
  | nil => rfl
  | cons e hs ih =>
    obtain ⟨h1, h2⟩ := hasher_fold_same e (d.chunks ++ [[]])
    rw [List.map_cons, List.filter_cons, List.filter_cons]
    have : (fun e : Hasher => decide (e.file = f ∧ e.subtask = id))
        (if e.file = d.file then (d.chunks ++ [[]]).foldl Hasher.add e else e) = decide (e.file = f ∧ e.subtask = id) := by
      split
      · simp only [h1, h2]
      · rfl
    simp only at this
    rw [this]
    split
    · simp only [List.length_cons, ih]
    · exact ih

theorem map_const_eq {α α' β : Type} {l : List α} {l' : List α'} (h : l.length = l'.length) (b : β) :
    l.map (fun _ => b) = l'.map (fun _ => b) := by
  rw [List.map_const', List.map_const', h]

theorem eq_run (ds : List Delivery) (hds : ∀ d ∈ ds, d.Ok) (hnd : (ds.map (·.file)).Nodup) (s : Equal H)
    (hf : ∀ e ∈ s.hashers, ∀ d ∈ ds, e.file = d.file → e.first = none ∧ e.data = []) (id : Nat) :
    (ds.foldl (Equal.deliver hash) s).outputs.get? id =
      (s.outputs.get? id).map (· ++ ds.flatMap (fun d => (s.of d.file id).map (fun _ => outOf hash d))) := by
  induction ds generalizing s with
  | nil => cases h : s.outputs.get? id <;> simp [h]
  | cons d ds ih =>
    rw [List.map_cons, List.nodup_cons] at hnd
    rw [List.foldl_cons, ih (fun d hd => hds d (List.mem_cons_of_mem _ hd)) hnd.2,
      eq_deliver hash s d (hds d List.mem_cons_self) (fun e he h => hf e he d List.mem_cons_self h)]
    · cases s.outputs.get? id with
      | none => rfl
      | some out =>
        simp only [Option.map_some, List.flatMap_cons, List.append_assoc]
        congr 3
        apply flatMap_congr'
        intro d' _
        exact map_const_eq (of_deliver_length hash s d d'.file id) _
    · intro e' he' d' hd' h
      rw [eq_deliver_hashers] at he'
      obtain ⟨e, he, rfl⟩ := List.mem_map.1 he'
      have hne : e.file ≠ d.file := by
        intro heq
        rw [if_pos heq, (hasher_fold_same e _).1, heq] at h
        exact hnd.1 (List.mem_map.2 ⟨d', hd', h.symm⟩)
      rw [if_neg hne] at h ⊢
      exact hf e he d' (List.mem_cons_of_mem _ hd') h

theorem eq_run_wf (ds : List Delivery) {s : Equal H} (hw : s.outputs.Wf) :
    (ds.foldl (Equal.deliver hash) s).outputs.Wf := by
  have hchunk : ∀ f (cs : List Bytes) (s : Equal H), s.outputs.Wf → (cs.foldl (Equal.chunk hash f) s).outputs.Wf := by
    intro f cs
    induction cs with
    | nil => intro s h; exact h
    | cons c cs ih =>
      intro s h
      rw [List.foldl_cons]
      apply ih
      unfold Equal.chunk
      simp only
      split
      · exact finish_fold_wf hash h _
      · exact h
  induction ds generalizing s with
  | nil => exact hw
  | cons d ds ih => rw [List.foldl_cons]; exact ih (hchunk _ _ _ hw)

/-- The files of a subtask whose callbacks have seen the end, counted. -/
theorem count_delivered (ds : List Delivery) (hnd : (ds.map (·.file)).Nodup) (fs : List FileUuid) :
    (ds.flatMap (fun d => fs.filter (· = d.file))).length = (fs.filter (fun f => f ∈ ds.map (·.file))).length := by
  induction ds with
  | nil => rw [List.filter_eq_nil_iff.2 (by simp)]; rfl
  | cons d ds ih =>
    rw [List.map_cons, List.nodup_cons] at hnd
    rw [List.flatMap_cons, List.length_append, ih hnd.2]
    clear ih
    induction fs with
    | nil => rfl
    | cons f fs ih =>
      by_cases h1 : f = d.file
      · subst h1
        have : decide (d.file ∈ ds.map (·.file)) = false := by simp only [decide_eq_false_iff_not]; exact hnd.1
        simp only [List.filter_cons, this, decide_true, if_true, List.length_cons, List.map_cons,
          List.mem_cons, true_or] at ih ⊢
        simp only [Bool.false_eq_true, if_false]
        omega
      · by_cases h2 : f ∈ ds.map (·.file)
        · simp only [List.filter_cons, h1, h2, decide_true, decide_false, if_true, Bool.false_eq_true, if_false, List.length_cons, List.map_cons,
            List.mem_cons, or_true] at ih ⊢
          omega
        · simp only [List.filter_cons, h1, h2, decide_false, Bool.false_eq_true, if_false, List.map_cons,
            List.mem_cons, or_false] at ih ⊢
          exact ih

theorem outFiles_spec {task : Task} {ks : List Nat} {fs : List FileUuid} (h : outFiles task ks = some fs) :
    fs.length ≤ ks.length ∧ (∀ f, f ∈ fs ↔ ∃ k ∈ ks, ∃ tc, task.testcases.get? k = some tc ∧ tc.output = some f) ∧
    (fs.length = ks.length ↔ ∀ k ∈ ks, ∃ tc f, task.testcases.get? k = some tc ∧ tc.output = some f) := by
  induction ks generalizing fs with
  | nil => cases h; simp
  | cons k ks ih =>
    unfold outFiles at h
    split at h
    · cases h
    · next tc htc =>
      cases h' : outFiles task ks with
      | none => rw [h'] at h; cases h
      | some gs =>
        rw [h'] at h
        cases h
        obtain ⟨i1, i2, i3⟩ := ih h'
        cases ho : tc.output with
        | none =>
          refine ⟨by simp; omega, ?_, ?_⟩
          · intro f
            simp only [Option.toList_none, List.nil_append, i2, List.mem_cons, exists_eq_or_imp, htc, Option.some.injEq,
              exists_eq_left', ho]
            simp
          · simp only [Option.toList_none, List.nil_append, List.length_cons, List.mem_cons, forall_eq_or_imp, htc,
              Option.some.injEq, exists_and_left, exists_eq_left', ho]
            simp; omega
        | some f' =>
          refine ⟨by simp; omega, ?_, ?_⟩
          · intro f
            simp only [Option.toList_some, List.cons_append, List.nil_append, i2, List.mem_cons, exists_eq_or_imp, htc,
              Option.some.injEq, exists_eq_left', ho]
            constructor
            · rintro (rfl | h)
              · exact .inl rfl
              · exact .inr h
            · rintro (h | h)
              · exact .inl h.symm
              · exact .inr h
          · simp only [Option.toList_some, List.cons_append, List.nil_append, List.length_cons, Nat.add_right_cancel_iff,
              i3, List.mem_cons, forall_eq_or_imp, htc, Option.some.injEq, exists_and_left, exists_eq_left', ho]
            simp

theorem outFiles_total {task : Task} {ks : List Nat} (h : ∀ k ∈ ks, ∃ tc, task.testcases.get? k = some tc) :
    ∃ fs, outFiles task ks = some fs := by
  induction ks with
  | nil => exact ⟨[], rfl⟩
  | cons k ks ih =>
    obtain ⟨tc, htc⟩ := h k List.mem_cons_self
    obtain ⟨fs, hfs⟩ := ih (fun k hk => h k (List.mem_cons_of_mem _ hk))
    unfold outFiles
    rw [htc, hfs]
    exact ⟨_, rfl⟩

/-- A fresh callback. -/
def mkHasher (id : Nat) (f : FileUuid) : Hasher := ⟨f, id, none, []⟩

theorem pre_spec {task : Task} {sts : List St} {s s' : Equal H} (hids : (sts.map (·.id)).Nodup)
    (h : Equal.pre task sts s = some s') :
    (∀ id, (∀ st ∈ sts, st.id = id → ¬ 2 ≤ st.testcases.length) → s'.outputs.get? id = s.outputs.get? id ∧
      s'.hashers.filter (fun e => e.subtask = id) = s.hashers.filter (fun e => e.subtask = id)) ∧
    (∀ st ∈ sts, 2 ≤ st.testcases.length → s'.outputs.get? st.id = some [] ∧
      ∃ fs, outFiles task st.testcases = some fs ∧ s'.hashers.filter (fun e => e.subtask = st.id) =
        s.hashers.filter (fun e => e.subtask = st.id) ++ fs.map (mkHasher st.id)) ∧
    (∀ e ∈ s'.hashers, e ∈ s.hashers ∨ (e.first = none ∧ e.data = [])) ∧
    (s.outputs.Wf → s'.outputs.Wf) := by
  induction sts generalizing s with
  | nil => cases h; exact ⟨fun _ _ => ⟨rfl, rfl⟩, (fun _ h => nomatch h), fun _ h => .inl h, fun h => h⟩
  | cons st sts ih =>
    rw [List.map_cons, List.nodup_cons] at hids
    unfold Equal.pre at h
    split at h
    · cases h
    · next s1 hs1 =>
      obtain ⟨i1, i2, i3, i4⟩ := ih hids.2 h
      unfold Equal.preSt at hs1
      split at hs1
      · next hbig =>
        cases hfs : outFiles task st.testcases with
        | none => rw [hfs] at hs1; cases hs1
        | some fs =>
          rw [hfs] at hs1
          cases hs1
          simp only at i1 i2 i3 i4
          have hsame : ∀ id, id ≠ st.id → (s.hashers ++ fs.map (fun f => (⟨f, st.id, none, []⟩ : Hasher))).filter
              (fun e => e.subtask = id) = s.hashers.filter (fun e => e.subtask = id) := by
            intro id hid
            rw [List.filter_append]
            have : (fs.map (fun f => (⟨f, st.id, none, []⟩ : Hasher))).filter (fun e => e.subtask = id) = [] := by
              rw [List.filter_eq_nil_iff]
              intro e he
              obtain ⟨f, -, rfl⟩ := List.mem_map.1 he
              simp only [decide_eq_true_eq]
              exact fun h => hid h.symm
            rw [this, List.append_nil]
          refine ⟨?_, ?_, ?_, ?_⟩
          · intro id hsm
            have hid : id ≠ st.id := fun h => hsm st List.mem_cons_self h.symm hbig
            obtain ⟨a, b⟩ := i1 id (fun st hst => hsm st (List.mem_cons_of_mem _ hst))
            rw [a, b, AMap.get?_insert_ne _ _ hid, hsame id hid]
            exact ⟨rfl, rfl⟩
          · intro st' hst' hb'
            rcases List.mem_cons.1 hst' with rfl | hst'
            · obtain ⟨a, b⟩ := i1 st'.id (fun st hst h => absurd (List.mem_map.2 ⟨st, hst, h⟩) hids.1)
              refine ⟨by rw [a, AMap.get?_insert_self], fs, hfs, ?_⟩
              rw [b, List.filter_append]
              congr 1
              refine (List.filter_eq_self.2 ?_).trans rfl
              intro e he
              obtain ⟨f, -, rfl⟩ := List.mem_map.1 he
              simp
            · obtain ⟨a, fs', b, c⟩ := i2 st' hst' hb'
              refine ⟨a, fs', b, ?_⟩
              rw [c, hsame]
              exact fun h => hids.1 (List.mem_map.2 ⟨st', hst', h⟩)
          · intro e he
            rcases i3 e he with he | he
            · rcases List.mem_append.1 he with he | he
              · exact .inl he
              · obtain ⟨f, -, rfl⟩ := List.mem_map.1 he
                exact .inr ⟨rfl, rfl⟩
            · exact .inr he
          · intro hw; exact i4 (AMap.wf_insert hw _ _)
      · next hsmall =>
        cases hs1
        refine ⟨?_, ?_, i3, i4⟩
        · intro id hsm
          exact i1 id (fun st hst => hsm st (List.mem_cons_of_mem _ hst))
        · intro st' hst' hb'
          rcases List.mem_cons.1 hst' with rfl | hst'
          · exact absurd hb' hsmall
          · exact i2 st' hst' hb'

theorem pre_total {task : Task} {sts : List St} {s : Equal H}
    (h : ∀ st ∈ sts, ∀ k ∈ st.testcases, ∃ tc, task.testcases.get? k = some tc) :
    ∃ s', Equal.pre task sts s = some s' := by
  induction sts generalizing s with
  | nil => exact ⟨s, rfl⟩
  | cons st sts ih =>
    obtain ⟨fs, hfs⟩ := outFiles_total (h st List.mem_cons_self)
    have : ∃ s1, Equal.preSt task s st = some s1 := by
      unfold Equal.preSt
      split
      · rw [hfs]; exact ⟨_, rfl⟩
      · exact ⟨_, rfl⟩
    obtain ⟨s1, h1⟩ := this
    unfold Equal.pre
    rw [h1]
    exact ih (fun st hst => h st (List.mem_cons_of_mem _ hst))

variable [DecidableEq H]

theorem post_spec {task : Task} {m : AMap Nat (List (Out H))} :
    (Equal.post task m = none ↔ ∃ p ∈ m, equalOne task p.1 p.2 = none) ∧
    ∀ ws, Equal.post task m = some ws → ws = m.flatMap (fun p => (equalOne task p.1 p.2).getD []) := by
  induction m with
  | nil =>
    refine ⟨by simp [Equal.post], ?_⟩
    intro ws h
    cases h; rfl
  | cons p m ih =>
    unfold Equal.post
    split
    · next h => exact ⟨⟨fun _ => ⟨p, List.mem_cons_self, h⟩, fun _ => rfl⟩, (fun _ h => nomatch h)⟩
    · next w h =>
      constructor
      · rw [Option.map_eq_none_iff, ih.1]
        constructor
        · rintro ⟨q, hq, h'⟩; exact ⟨q, List.mem_cons_of_mem _ hq, h'⟩
        · rintro ⟨q, hq, h'⟩
          rcases List.mem_cons.1 hq with rfl | hq
          · rw [h] at h'; cases h'
          · exact ⟨q, hq, h'⟩
      · intro ws hws
        obtain ⟨ws', h1, rfl⟩ := Option.map_eq_some_iff.1 hws
        rw [List.flatMap_cons, h, ← ih.2 ws' h1]
        rfl

/-- What the check knows of a subtask in the end. -/
theorem recorded {task : Task} (hok : task.Ok) {ds : List Delivery} (hds : ∀ d ∈ ds, d.Ok)
    (hnd : (ds.map (·.file)).Nodup) {s : Equal H} (hs : Equal.pre task task.subtasks.values {} = some s) (id : Nat)
    (out : List (Out H)) :
    (ds.foldl (Equal.deliver hash) s).outputs.get? id = some out ↔
      ∃ st fs, task.subtasks.get? id = some st ∧ 2 ≤ st.testcases.length ∧ outFiles task st.testcases = some fs ∧
        out = ds.flatMap (fun d => (fs.filter (· = d.file)).map (fun _ => outOf hash d)) := by
  have hval : ∀ st, st ∈ task.subtasks.values ↔ task.subtasks.get? st.id = some st := by
    intro st
    constructor
    · intro hm
      obtain ⟨p, hp, rfl⟩ := List.mem_map.1 hm
      have := AMap.get?_of_mem hok.wf (k := p.1) (v := p.2) hp
      rw [hok.ids _ _ this]; exact this
    · intro hm
      exact List.mem_map.2 ⟨_, AMap.mem_of_get? hm, rfl⟩
  have hids : (task.subtasks.values.map (·.id)).Nodup := by
    have : task.subtasks.values.map (·.id) = task.subtasks.keys := by
      unfold AMap.values AMap.keys
      rw [List.map_map]
      apply List.map_congr_left
      intro p hp
      exact hok.ids _ _ (AMap.get?_of_mem hok.wf (k := p.1) (v := p.2) hp)
    rw [this]; exact hok.wf
  obtain ⟨p1, p2, p3, p4⟩ := pre_spec hids hs
  have hfresh : ∀ e ∈ s.hashers, ∀ d ∈ ds, e.file = d.file → e.first = none ∧ e.data = [] := by
    intro e he _ _ _
    rcases p3 e he with h | h
    · cases h
    · exact h
  rw [eq_run hash ds hds hnd s hfresh id]
  have hof : ∀ f, s.of f id = (s.hashers.filter (fun e => e.subtask = id)).filter (fun e => e.file = f) := by
    intro f
    unfold Equal.of
    rw [List.filter_filter]
    congr 1
    funext e
    simp [Bool.decide_and]
  constructor
  · intro h
    obtain ⟨o, h1, h2⟩ := Option.map_eq_some_iff.1 h
    have : ∃ st ∈ task.subtasks.values, st.id = id ∧ 2 ≤ st.testcases.length := by
      apply Classical.byContradiction
      intro hno
      obtain ⟨a, -⟩ := p1 id (fun st hst h1 h2 => hno ⟨st, hst, h1, h2⟩)
      rw [a] at h1; cases h1
    obtain ⟨st, hst, rfl, hbig⟩ := this
    obtain ⟨a, fs, b, c⟩ := p2 st hst hbig
    rw [a] at h1
    cases h1
    refine ⟨st, fs, (hval st).1 hst, hbig, b, ?_⟩
    rw [← h2, List.nil_append]
    apply flatMap_congr'
    intro d _
    rw [hof, c]
    simp only [List.filter_nil, List.nil_append]
    apply map_const_eq
    rw [List.filter_map, List.length_map]
    rfl
  · rintro ⟨st, fs, h1, h2, h3, rfl⟩
    have hid := hok.ids _ _ h1
    subst hid
    obtain ⟨a, fs', b, c⟩ := p2 st ((hval st).2 h1) h2
    rw [h3] at b
    cases b
    rw [a]
    simp only [Option.map_some, List.nil_append]
    congr 1
    apply flatMap_congr'
    intro d _
    rw [hof, c]
    simp only [List.filter_nil, List.nil_append]
    apply map_const_eq
    rw [List.filter_map, List.length_map]
    rfl

/-- What the check says of a subtask. -/
theorem equalOne_spec (hinj : ∀ a b, hash a = hash b → a = b) {task : Task} {ds : List Delivery}
    (hds : ∀ d ∈ ds, d.Ok) (hnd : (ds.map (·.file)).Nodup) {st : St} {fs : List FileUuid} {id : Nat}
    (hst : task.subtasks.get? id = some st) (hbig : 2 ≤ st.testcases.length)
    (hfs : outFiles task st.testcases = some fs) {out : List (Out H)}
    (hout : out = ds.flatMap (fun d => (fs.filter (· = d.file)).map (fun _ => outOf hash d))) :
    (SameOutputs task ds st [] → equalOne task id out = none) ∧
    (∀ c, c ≠ [] → SameOutputs task ds st c → ∃ w, equalOne task id out = some [⟨id, w⟩] ∧ w ≠ [] ∧ ∃ r, c = w ++ r) ∧
    ((∀ c, ¬ SameOutputs task ds st c) → equalOne task id out = some []) := by
  obtain ⟨f1, f2, f3⟩ := outFiles_spec hfs
  have hlen : out.length = (fs.filter (fun f => f ∈ ds.map (·.file))).length := by
    rw [← count_delivered ds hnd fs, hout, List.length_flatMap, List.length_flatMap]
    simp only [List.length_map]
  have hmem : ∀ o, o ∈ out ↔ ∃ d ∈ ds, d.file ∈ fs ∧ o = outOf hash d := by
    intro o
    rw [hout, List.mem_flatMap]
    constructor
    · rintro ⟨d, hd, ho⟩
      obtain ⟨f, hf, rfl⟩ := List.mem_map.1 ho
      rw [List.mem_filter, decide_eq_true_eq] at hf
      exact ⟨d, hd, hf.2 ▸ hf.1, rfl⟩
    · rintro ⟨d, hd, hf, rfl⟩
      exact ⟨d, hd, List.mem_map.2 ⟨d.file, List.mem_filter.2 ⟨hf, by simp⟩, rfl⟩⟩
  have hall : out.length = st.testcases.length ↔ ∀ k ∈ st.testcases, ∃ c, OutputIs task ds k c := by
    constructor
    · intro h k hk
      have hle := List.length_filter_le (fun f => decide (f ∈ ds.map (·.file))) fs
      obtain ⟨tc, f, h1, h2⟩ := f3.1 (by omega) k hk
      have hsub := (List.length_filter_eq_length_iff (p := fun f => decide (f ∈ ds.map (·.file))) (l := fs)).1 (by omega)
      have hff : f ∈ fs := (f2 f).2 ⟨k, hk, tc, h1, h2⟩
      have := hsub f hff
      rw [decide_eq_true_eq] at this
      obtain ⟨d, hd, hdf⟩ := List.mem_map.1 this
      exact ⟨d.content, tc, d, h1, hd, by rw [h2, ← hdf], rfl⟩
    · intro h
      have e1 : fs.length = st.testcases.length := f3.2 (fun k hk => by
        obtain ⟨c, tc, d, h1, -, h2, -⟩ := h k hk
        exact ⟨tc, d.file, h1, h2⟩)
      rw [hlen, ← e1, List.length_filter_eq_length_iff]
      intro f hf
      obtain ⟨k, hk, tc, h1, h2⟩ := (f2 f).1 hf
      obtain ⟨c, tc', d, h1', hd, h2', -⟩ := h k hk
      rw [h1] at h1'
      cases h1'
      rw [h2] at h2'
      cases h2'
      rw [decide_eq_true_eq]
      exact List.mem_map.2 ⟨d, hd, rfl⟩
  have huniq : ∀ {k c c'}, OutputIs task ds k c → OutputIs task ds k c' → c = c' := by
    rintro k c c' ⟨tc, d, h1, h2, h3, rfl⟩ ⟨tc', d', h1', h2', h3', rfl⟩
    rw [h1] at h1'
    cases h1'
    rw [h3] at h3'
    have heq : d.file = d'.file := Option.some.inj h3'
    rw [file_unique hnd h2 h2' heq]
  -- with all the outputs, an output is recorded for each testcase and the other way round
  have hrec : ∀ o ∈ out, ∃ k ∈ st.testcases, ∃ c, OutputIs task ds k c ∧ o.hash = hash c ∧
      (o.first = none ↔ c = []) ∧ ∀ w, o.first = some w → w ≠ [] ∧ ∃ r, c = w ++ r := by
    intro o ho
    obtain ⟨d, hd, hf, rfl⟩ := (hmem o).1 ho
    obtain ⟨k, hk, tc, h1, h2⟩ := (f2 _).1 hf
    refine ⟨k, hk, d.content, ⟨tc, d, h1, hd, h2, rfl⟩, rfl, ?_⟩
    unfold outOf Delivery.content
    have hdok := hds d hd
    unfold Delivery.Ok at hdok
    cases hc : d.chunks with
    | nil => simp
    | cons c cs =>
      have hne := hdok c (by rw [hc]; exact List.mem_cons_self)
      simp only [List.head?_cons, List.flatten_cons, Option.some.injEq]
      refine ⟨by simp [hne], ?_⟩
      rintro w rfl
      exact ⟨hne, _, rfl⟩
  have hback : ∀ k ∈ st.testcases, ∀ c, OutputIs task ds k c → ∃ o ∈ out, o.hash = hash c := by
    rintro k hk c ⟨tc, d, h1, hd, h2, rfl⟩
    exact ⟨outOf hash d, (hmem _).2 ⟨d, hd, (f2 _).2 ⟨k, hk, tc, h1, h2⟩, rfl⟩, rfl⟩
  have hsame : ∀ c, SameOutputs task ds st c → out.length = st.testcases.length ∧ ∀ o ∈ out, o.hash = hash c ∧
      (o.first = none ↔ c = []) ∧ ∀ w, o.first = some w → w ≠ [] ∧ ∃ r, c = w ++ r := by
    intro c hc
    refine ⟨hall.2 (fun k hk => ⟨c, hc.2 k hk⟩), fun o ho => ?_⟩
    obtain ⟨k, hk, c', h1, h2, h3⟩ := hrec o ho
    rw [huniq h1 (hc.2 k hk)] at h2 h3
    exact ⟨h2, h3⟩
  unfold equalOne
  rw [hst]
  simp only
  refine ⟨?_, ?_, ?_⟩
  · intro hc
    obtain ⟨h1, h2⟩ := hsame [] hc
    rw [if_neg (by simp [h1])]
    cases out with
    | nil => rfl
    | cons o out =>
      have : (o :: out).all (fun x => decide (x.hash = o.hash)) = true := by
        rw [List.all_eq_true]
        intro x hx
        rw [decide_eq_true_eq, (h2 x hx).1, (h2 o List.mem_cons_self).1]
      simp only
      rw [if_pos this, (h2 o List.mem_cons_self).2.1.2 rfl]
  · intro c hne hc
    obtain ⟨h1, h2⟩ := hsame c hc
    rw [if_neg (by simp [h1])]
    cases out with
    | nil => simp only [List.length_nil] at h1; omega
    | cons o out =>
      have : (o :: out).all (fun x => decide (x.hash = o.hash)) = true := by
        rw [List.all_eq_true]
        intro x hx
        rw [decide_eq_true_eq, (h2 x hx).1, (h2 o List.mem_cons_self).1]
      simp only
      rw [if_pos this]
      cases hf : o.first with
      | none => exact absurd ((h2 o List.mem_cons_self).2.1.1 hf) hne
      | some w => exact ⟨w, rfl, (h2 o List.mem_cons_self).2.2 w hf⟩
  · intro hno
    by_cases h1 : out.length = st.testcases.length
    · rw [if_neg (by simp [h1])]
      cases out with
      | nil => simp only [List.length_nil] at h1; omega
      | cons o out =>
        simp only
        rw [if_neg]
        intro hall'
        rw [List.all_eq_true] at hall'
        obtain ⟨k0, hk0, c0, g1, g2, -⟩ := hrec o List.mem_cons_self
        apply hno c0
        refine ⟨hbig, fun k hk => ?_⟩
        obtain ⟨c, hc⟩ := hall.1 h1 k hk
        obtain ⟨x, hx, hxc⟩ := hback k hk c hc
        have := hall' x hx
        rw [decide_eq_true_eq, hxc, g2] at this
        rw [← hinj _ _ this]
        exact hc
    · rw [if_pos h1]

end

/-! ## The properties -/

section
variable {H : Type} [DecidableEq H] {hash : Bytes → H}

/-- **C77** (partial: the program panics otherwise, `equal_outputs_panic`).  If in no subtask all the
official outputs are empty, whatever the order in which the files arrive and the way they are split,
there is one warning for each subtask with two testcases or more whose official outputs are all known
and all equal, and it shows the beginning of these outputs; provided different contents have different
hashes. -/
theorem equal_outputs_warned_partial (hinj : ∀ a b, hash a = hash b → a = b) {task : Task} (hok : task.Ok)
    {ds : List Delivery} (hds : ∀ d ∈ ds, d.Ok) (hnd : (ds.map (·.file)).Nodup)
    (hne : ∀ id st, task.subtasks.get? id = some st → ¬ SameOutputs task ds st []) :
    ∃ ws, equalCheck hash task ds = some ws ∧ (ws.map (·.subtask)).Nodup ∧
      (∀ id, id ∈ ws.map (·.subtask) ↔ ∃ st c, task.subtasks.get? id = some st ∧ SameOutputs task ds st c) ∧
      ∀ w ∈ ws, w.first ≠ [] ∧ ∀ st c, task.subtasks.get? w.subtask = some st → SameOutputs task ds st c →
        ∃ r, c = w.first ++ r := by
  have hknown : ∀ st ∈ task.subtasks.values, ∀ k ∈ st.testcases, ∃ tc, task.testcases.get? k = some tc := by
    intro st hst
    obtain ⟨p, hp, rfl⟩ := List.mem_map.1 hst
    exact hok.known _ _ (AMap.get?_of_mem hok.wf (k := p.1) (v := p.2) hp)
  obtain ⟨s, hs⟩ := pre_total (H := H) (s := {}) hknown
  have hrec := recorded hash hok hds hnd hs
  have hw : (ds.foldl (Equal.deliver hash) s).outputs.Wf := by
    apply eq_run_wf
    have hids : (task.subtasks.values.map (·.id)).Nodup := by
      have : task.subtasks.values.map (·.id) = task.subtasks.keys := by
        unfold AMap.values AMap.keys
        rw [List.map_map]
        apply List.map_congr_left
        intro p hp
        exact hok.ids _ _ (AMap.get?_of_mem hok.wf (k := p.1) (v := p.2) hp)
      rw [this]; exact hok.wf
    exact (pre_spec hids hs).2.2.2 AMap.wf_nil
  unfold equalCheck
  rw [hs]
  simp only
  generalize (ds.foldl (Equal.deliver hash) s).outputs = m at hrec hw
  have hone : ∀ p ∈ m, ∃ st, task.subtasks.get? p.1 = some st ∧
      ((∃ c w, c ≠ [] ∧ SameOutputs task ds st c ∧ equalOne task p.1 p.2 = some [⟨p.1, w⟩] ∧ w ≠ [] ∧ ∃ r, c = w ++ r) ∨
       ((∀ c, ¬ SameOutputs task ds st c) ∧ equalOne task p.1 p.2 = some [])) := by
    intro p hp
    obtain ⟨st, fs, h1, h2, h3, h4⟩ := (hrec p.1 p.2).1 (AMap.get?_of_mem hw hp)
    obtain ⟨e1, e2, e3⟩ := equalOne_spec hash hinj hds hnd h1 h2 h3 h4
    refine ⟨st, h1, ?_⟩
    by_cases hc : ∃ c, SameOutputs task ds st c
    · obtain ⟨c, hc⟩ := hc
      have hcne : c ≠ [] := fun h => hne p.1 st h1 (h ▸ hc)
      obtain ⟨w, g1, g2, g3⟩ := e2 c hcne hc
      exact .inl ⟨c, w, hcne, hc, g1, g2, g3⟩
    · exact .inr ⟨fun c h => hc ⟨c, h⟩, e3 (fun c h => hc ⟨c, h⟩)⟩
  cases hpost : Equal.post task m with
  | none =>
    obtain ⟨p, hp, h⟩ := post_spec.1.1 hpost
    obtain ⟨st, -, ⟨c, w, -, -, h', -⟩ | ⟨-, h'⟩⟩ := hone p hp <;> rw [h] at h' <;> cases h'
  | some ws =>
    have hws := post_spec.2 ws hpost
    have hmem : ∀ w, w ∈ ws ↔ ∃ p ∈ m, equalOne task p.1 p.2 = some [w] := by
      intro w
      rw [hws, List.mem_flatMap]
      constructor
      · rintro ⟨p, hp, h⟩
        obtain ⟨st, -, ⟨c, w', -, -, h', -⟩ | ⟨-, h'⟩⟩ := hone p hp
        · rw [h'] at h
          cases List.mem_singleton.1 h
          exact ⟨p, hp, h'⟩
        · rw [h'] at h; cases h
      · rintro ⟨p, hp, h⟩
        exact ⟨p, hp, by rw [h]; exact List.mem_cons_self⟩
    refine ⟨ws, rfl, ?_, ?_, ?_⟩
    · have hsub : List.Sublist (ws.map (·.subtask)) (m.map (·.1)) := by
        rw [hws]
        clear hpost hws hmem hrec hw
        induction m with
        | nil => exact List.Sublist.slnil
        | cons p m ih =>
          rw [List.flatMap_cons, List.map_append, List.map_cons]
          have ih := ih (fun p hp => hone p (List.mem_cons_of_mem _ hp))
          obtain ⟨st, -, ⟨c, w', -, -, h', -⟩ | ⟨-, h'⟩⟩ := hone p List.mem_cons_self
          · rw [h']; exact List.Sublist.cons_cons _ ih
          · rw [h']; exact List.Sublist.cons _ ih
      exact hsub.nodup hw
    · intro id
      rw [List.mem_map]
      constructor
      · rintro ⟨w, hw', rfl⟩
        obtain ⟨p, hp, h⟩ := (hmem w).1 hw'
        obtain ⟨st, h1, ⟨c, w', -, hc, h', -⟩ | ⟨-, h'⟩⟩ := hone p hp
        · rw [h] at h'; cases h'
          exact ⟨st, c, h1, hc⟩
        · rw [h] at h'; cases h'
      · rintro ⟨st, c, h1, hc⟩
        obtain ⟨fs, hfs⟩ := outFiles_total (hok.known _ _ h1)
        have hg := (hrec id _).2 ⟨st, fs, h1, hc.1, hfs, rfl⟩
        have hp := AMap.mem_of_get? hg
        obtain ⟨st', h1', ⟨c', w', -, hc', h', -⟩ | ⟨hno, -⟩⟩ := hone _ hp
        · exact ⟨_, (hmem _).2 ⟨_, hp, h'⟩, rfl⟩
        · rw [h1] at h1'; cases h1'
          exact absurd hc (hno c)
    · intro w hw'
      obtain ⟨p, hp, h⟩ := (hmem w).1 hw'
      obtain ⟨st, h1, ⟨c, w', -, hc, h', g1, g2⟩ | ⟨-, h'⟩⟩ := hone p hp
      · rw [h] at h'; cases h'
        refine ⟨g1, fun st' c' h2 hc' => ?_⟩
        rw [h1] at h2
        cases h2
        have hlen := hc.1
        cases hk : st.testcases with
        | nil => rw [hk] at hlen; simp at hlen
        | cons k ks =>
          have e1 := hc.2 k (by rw [hk]; exact List.mem_cons_self)
          have e2 := hc'.2 k (by rw [hk]; exact List.mem_cons_self)
          obtain ⟨tc, d, a1, a2, a3, rfl⟩ := e1
          obtain ⟨tc', d', b1, b2, b3, rfl⟩ := e2
          rw [a1] at b1; cases b1
          rw [a3] at b3
          rw [← file_unique hnd a2 b2 (Option.some.inj b3)]
          exact g2
      · rw [h] at h'; cases h'

/-- The check panics, and the evaluation with it, when all the official outputs of a subtask with two
testcases or more are empty. -/
theorem equal_outputs_panic (hinj : ∀ a b, hash a = hash b → a = b) {task : Task} (hok : task.Ok)
    {ds : List Delivery} (hds : ∀ d ∈ ds, d.Ok) (hnd : (ds.map (·.file)).Nodup) {id : Nat} {st : St}
    (hst : task.subtasks.get? id = some st) (hempty : SameOutputs task ds st []) :
    equalCheck hash task ds = none := by
  unfold equalCheck
  cases hs : Equal.pre task task.subtasks.values ({} : Equal H) with
  | none => rfl
  | some s =>
    obtain ⟨fs, hfs⟩ := outFiles_total (hok.known _ _ hst)
    have hg := (recorded hash hok hds hnd hs id _).2 ⟨st, fs, hst, hempty.1, hfs, rfl⟩
    simp only
    apply post_spec.1.2
    exact ⟨_, AMap.mem_of_get? hg, (equalOne_spec hash hinj hds hnd hst hempty.1 hfs rfl).1 hempty⟩

end

/-- Three testcases with the same official output, split in different ways, and one with another. -/
def equalTask : Task where
  testcases := [(0, ⟨0, some 10, some 20⟩), (1, ⟨1, some 11, some 21⟩), (2, ⟨2, some 12, some 22⟩),
    (3, ⟨3, some 13, some 23⟩)]
  subtasks := [(0, ⟨0, [0]⟩), (1, ⟨1, [0, 1, 2]⟩), (2, ⟨2, [0, 1, 2, 3]⟩)]

def equalFiles : List Delivery := [⟨22, [[52, 50, 10]]⟩, ⟨23, [[51]]⟩, ⟨20, [[52], [50, 10]]⟩, ⟨21, [[52, 50], [10]]⟩]

example : equalCheck (fun b => b) equalTask equalFiles = some [⟨1, [52, 50, 10]⟩] := by decide +kernel

example : equalTask.Ok := by
  have hall : ∀ id st, equalTask.subtasks.get? id = some st → (id, st) ∈ equalTask.subtasks :=
    fun _ _ h => AMap.mem_of_get? h
  refine ⟨by unfold AMap.Wf; decide, fun id st h => ?_, fun id st h k hk => ?_⟩
  · have : ∀ p ∈ equalTask.subtasks, p.2.id = p.1 := by decide
    exact this _ (hall id st h)
  · have : ∀ p ∈ equalTask.subtasks, ∀ k ∈ p.2.testcases, (equalTask.testcases.get? k).isSome := by decide +kernel
    exact Option.isSome_iff_exists.1 (this _ (hall id st h) k hk)

example : (∀ d ∈ equalFiles, d.Ok) ∧ (equalFiles.map (·.file)).Nodup := by
  refine ⟨?_, by decide⟩
  unfold Delivery.Ok; decide

/-- The official solution crashes at once on both the testcases of a subtask. -/
example : equalCheck (fun b => b) equalTask [⟨20, []⟩, ⟨21, []⟩, ⟨22, []⟩] = none := by decide +kernel

end TM.Sanity
