import Verif.Ui.Shown
/-!
# From the notices of a server to what the UI shows
-/
namespace TM.Ui
open TM TM.Build DagSpec Build.Spec Ui.Spec

variable {n : Uuid} {cfg : DagConfig} {fs : FS} {root : String} {task : Task} {sols : List Src}
  {io : GeneratedIo} {ev : Eval}

theorem scoreEmpty_sent {t : Score.Task} : ∀ {l : List Nat} {m m' : Score.Manager},
    m.scoreEmpty t l = some m' → (∀ x ∈ m.sent, notTestcase x = true) → ∀ x ∈ m'.sent, notTestcase x = true := by
  intro l
  induction l with
  | nil => intro m m' h hm; cases h; exact hm
  | cons st l ih =>
    intro m m' h hm
    simp only [Score.Manager.scoreEmpty] at h
    split at h
    · cases h
    · split at h
      · split at h
        · cases h
        · next m1 h1 =>
          refine ih h ?_
          obtain ⟨tail, h2, h3⟩ := scoreSubtask_sent h1
          rw [h2]
          intro x hx
          rcases List.mem_append.1 hx with hx | hx
          · exact hm x hx
          · exact h3 x hx
      · exact ih h hm

theorem new_sent {t : Score.Task} {order : List Nat} {m : Score.Manager}
    (h : Score.Manager.new t order = some m) : ∀ x ∈ m.sent, notTestcase x = true :=
  scoreEmpty_sent h (by simp)

theorem newManagers_mem {t : Score.Task} {order : Nat → List Nat} : ∀ {js : List Nat}
    {ms : AMap Nat Score.Manager}, newManagers t order js = some ms →
    ms.map (·.1) = js ∧ ∀ p ∈ ms, Score.Manager.new t (order p.1) = some p.2 := by
  intro js
  induction js with
  | nil => intro ms h; cases h; exact ⟨rfl, by simp⟩
  | cons j js ih =>
    intro ms h
    simp only [newManagers] at h
    split at h
    · cases h
    · next m hm =>
      cases hr : newManagers t order js with
      | none => rw [hr] at h; cases h
      | some r =>
        rw [hr] at h
        cases h
        obtain ⟨h1, h2⟩ := ih hr
        refine ⟨by rw [List.map_cons, h1], ?_⟩
        intro p hp
        rcases List.mem_cons.1 hp with rfl | hp
        · exact hm
        · exact h2 p hp

/-- What is sent at the start about an evaluation says only that it is going to be run. -/
theorem start_about {t : Score.Task} {order : Nat → List Nat} {js : List Nat}
    {ms : AMap Nat Score.Manager} (hms : newManagers t order js = some ms)
    {checks : List (Nat × List SolCheck)} {m : Message}
    (hm : m ∈ (Live.start ev ms checks).sent) {p : Nat × Nat} (hab : m.about = some p) :
    ∃ t, m = .progress t .pending := by
  unfold Live.start at hm
  simp only [List.mem_append, List.mem_cons, List.mem_flatMap, List.mem_map] at hm
  rcases hm with (rfl | ⟨q, hq, x, hx, rfl⟩) | rfl | ⟨t, -, rfl⟩
  · cases hab
  · rw [about_ofScore (new_sent ((newManagers_mem hms).2 q hq) x hx)] at hab; cases hab
  · cases hab
  · exact ⟨t, rfl⟩

theorem effect_pending (tp : Topic) (t : TcEval) : ∃ t', (Message.progress tp .pending).effect t = some t' ∧
    t'.status = t.status ∧ t'.score = t.score := by
  cases tp with
  | evaluation st k j a b =>
    refine ⟨_, rfl, ?_, ?_⟩
    · split <;> rfl
    · split <;> rfl
  | _ => exact ⟨_, rfl, rfl, rfl⟩

/-- No closure of a batch task uses a sender. -/
theorem batch_answers (h : Fits n task sols)
    (hr : buildDag fs root task sols (start n cfg) = .ok (io, ev)) {checker : Checker}
    (ht : task.type = .batch checker) {x : Notice × Handler} {ns : List Notice}
    (hx : x ∈ invocations ev.handlers ns) : answerBy x = none := by
  unfold invocations at hx
  obtain ⟨y, -, hx⟩ := List.mem_flatMap.1 hx
  obtain ⟨p, hp, rfl⟩ := List.mem_map.1 hx
  have hp := (List.mem_filter.1 hp).1
  have hsc := (handlers_scoring h hr).1
  rw [ht, batch_scoring] at hsc
  cases hso : scoringOf p with
  | none =>
    obtain ⟨u, hd⟩ := p
    cases hd <;> cases y <;> first | rfl | cases hso
  | some hd =>
    have hmem : hd ∈ ev.handlers.filterMap scoringOf := List.mem_filterMap.2 ⟨p, hp, hso⟩
    rw [hsc] at hmem
    obtain ⟨⟨a, b, d⟩, -, h3⟩ := List.mem_flatMap.1 hmem
    simp only [List.mem_cons, List.not_mem_nil, or_false] at h3
    have hpd : p.2 = hd := by
      obtain ⟨u, hd'⟩ := p
      cases hd' <;> cases hso <;> rfl
    rw [hpd]
    rcases h3 with rfl | rfl
    · cases y <;> rfl
    · cases checker <;> cases y <;> rfl

/-- The messages about an evaluation of a batch task. -/
theorem batch_talk (h : Fits n task sols) (hid : (task.subtasks.values.map (·.id)).Nodup)
    (htc : ∀ st ∈ task.subtasks.values, st.testcases.Nodup)
    (hr : buildDag fs root task sols (start n cfg) = .ok (io, ev)) {checker : Checker}
    (ht : task.type = .batch checker) {st : Subtask} (hst : st ∈ task.subtasks.values) {k : Nat}
    (hk : k ∈ st.owned) {j : Nat} (hj : j < sols.length) {e q : Execution} (he : e ∈ allExecs ev.dag)
    (hq : q ∈ allExecs ev.dag) (hre : Reports ev e.uuid (.evaluation st.id k j 0 1))
    (hrq : Reports ev q.uuid (.checker st.id k j)) :
    Talk checker st.id k j e.uuid q.uuid (noticeMsgs ev j k) ∧ e.uuid ≠ q.uuid ∧
      ∀ pre, Fed ev.dag pre q.uuid → ∃ o, .done e.uuid o ∈ pre ∧ o.status = .success := by
  obtain ⟨e', q', f, g1, g2, g3, g4, g5, g6, g7, g8, g9, g10⟩ := batch_executions h hr ht hst hk hj
  have ee := reported_unique h hid htc hr g9 g1 he g5 hre
  have eq := reported_unique h hid htc hr g10 g2 hq g6 hrq
  subst ee eq
  refine ⟨⟨?_, ?_, ?_, ?_, ?_⟩, ?_, ?_⟩
  · intro x m hm
    obtain ⟨hd, h1, h2, h3⟩ := mem_noticeMsgs.1 hm
    exact says_of_emits h hid htc hr ht hst hk he hq hre hrq h1 h2 h3
  · intro x hx; exact says_run (by rw [hx]; exact hre)
  · intro x hx; exact says_check (by rw [hx]; exact hrq)
  · intro o ho; exact says_zero ho g7
  · intro o s msg hv; exact says_verdict hv g8
  · intro hu
    obtain ⟨t, h1, -⟩ := reported_once h hr he
    have a1 := mem_reportsOn.2 hre
    have a2 := mem_reportsOn.2 (show Reports ev e'.uuid (.checker st.id k j) by rw [hu]; exact hrq)
    rw [h1, List.mem_singleton] at a1 a2
    rw [← a1] at a2; cases a2
  · intro pre hf
    exact hf q' hq rfl e' he f g4 g3

/-- The status and the score shown for a testcase of a batch task. -/
theorem shown_batch (h : Fits n task sols) (hid : (task.subtasks.values.map (·.id)).Nodup)
    (htc : ∀ st ∈ task.subtasks.values, st.testcases.Nodup)
    (hr : buildDag fs root task sols (start n cfg) = .ok (io, ev)) {checker : Checker}
    (ht : task.type = .batch checker) {st : Subtask} (hst : st ∈ task.subtasks.values) {k : Nat}
    (hk : k ∈ st.owned) {j : Nat} (hj : j < sols.length) {e q : Execution} (he : e ∈ allExecs ev.dag)
    (hq : q ∈ allExecs ev.dag) (hre : Reports ev e.uuid (.evaluation st.id k j 0 1))
    (hrq : Reports ev q.uuid (.checker st.id k j)) {t : Score.Task} {order : Nat → List Nat}
    {js : List Nat} {ms : AMap Nat Score.Manager} (hms : newManagers t order js = some ms)
    {checks : List (Nat × List SolCheck)} {pick : Live → List Nat} {ns : List Notice}
    (ho : Ordered ev.dag ns) {l : Live} (hl : Live.follow pick ev ms checks ns = some l) {s : State}
    (hs : l.ui task = some s) {t0 : TcEval} (h0 : (State.new task).tc task j k = some t0)
    (h1 : t0.status = .pending) (h2 : t0.score = none) :
    ∃ t, s.tc task j k = some t ∧ t.status = batchStatus checker e.uuid q.uuid ns ∧
      t.score = batchScore checker e.uuid q.uuid ns := by
  obtain ⟨talk, hne, hfed⟩ := batch_talk h hid htc hr ht hst hk hj he hq hre hrq
  have hsent : l.sent.filter (isAbout j k) = (Live.start ev ms checks).sent.filter (isAbout j k) ++
      (firsts ns).flatMap (noticeMsgs ev j k) := by
    unfold Live.follow at hl
    rw [live_notifyAll] at hl
    have := (live_invoke hl).2 (fun x hx => batch_answers h hr ht hx) j k
    rw [this, invocations_msgs]
    rfl
  have happ := applyAll_tc hs j k
  have hf : (fun m : Message => decide (m.about = some (j, k))) = isAbout j k := rfl
  rw [hf, h0, hsent] at happ
  simp only [Option.bind_some] at happ
  rw [effects_append] at happ
  obtain ⟨t1, p1, p2, p3⟩ := fold_inv (P := fun y => y.status = .pending ∧ y.score = none)
    (l := (Live.start ev ms checks).sent.filter (isAbout j k)) (fun m hm y hy => by
      obtain ⟨hm, hab⟩ := List.mem_filter.1 hm
      obtain ⟨tp, rfl⟩ := start_about hms hm (p := (j, k)) (by simpa [isAbout] using hab)
      obtain ⟨y', b1, b2, b3⟩ := effect_pending tp y
      exact ⟨y', b1, b2.trans hy.1, b3.trans hy.2⟩) ⟨h1, h2⟩
  obtain ⟨t2, p4, p5, p6⟩ := status_shown talk hne hfed p2 p3 (ordered_firsts ho)
  rw [p1] at happ
  simp only [Option.bind_some] at happ
  rw [p4] at happ
  exact ⟨t2, happ, by rw [p5, batchStatus_firsts], by rw [p6, batchScore_firsts]⟩

theorem get?_const {α β : Type} (l : List α) (key : α → Nat) (v : β) {k : Nat} {x : β}
    (h : AMap.get? (l.map (fun a => (key a, v))) k = some x) : x = v := by
  induction l with
  | nil => cases h
  | cons a l ih =>
    rw [List.map_cons, AMap.get?_cons] at h
    split at h
    · cases h; rfl
    · exact ih h

/-- At the beginning. -/
theorem new_tc {k : Nat} (hk : k ∈ task.testcases.values.map (·.id)) (j : Nat) :
    (State.new task).tc task j k = some {} := by
  obtain ⟨t, h1⟩ := (new_full task).tcs j k hk
  rw [h1]
  unfold State.tc State.evalOf State.new at h1
  simp only [AMap.get?_nil, Option.getD_none, SolEval.new] at h1
  rw [get?_const _ _ _ h1]

end TM.Ui
