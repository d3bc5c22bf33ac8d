import Verif.Whole.Spec
import Verif.Build.PropsScore
import Verif.Sched.PropsNotify
/-!
# The client and the server together: lemmas
-/
namespace TM.Whole
open TM TM.Build TM.Sched TM.DagSpec Build.Spec

variable {st : St} {c : ClientUuid} {dag : DagData} {cb : WatchSet} {look : ExecutionResult → Outcome}

theorem mem_done {log : List Obs} {u : ExecutionUuid} {o : Outcome} :
    .done u o ∈ noticesFor c look log ↔ ∃ r, Obs.out (.done c u r) ∈ log ∧ look r = o := by
  unfold noticesFor
  rw [List.mem_filterMap]
  constructor
  · rintro ⟨x, hx, he⟩
    have hx := List.mem_reverse.1 hx
    unfold noticeTo at he
    split at he
    · split at he <;> cases he
    · split at he
      · next hc => cases he; subst hc; exact ⟨_, hx, rfl⟩
      · cases he
    · split at he <;> cases he
    · cases he
  · rintro ⟨r, hr, rfl⟩
    exact ⟨_, List.mem_reverse.2 hr, by simp [noticeTo]⟩

theorem group_of_exec {e : Execution} (he : e ∈ allExecs dag) (hwf : dag.Wf) :
    ∃ u g, dag.executionGroups.get? u = some g ∧ e ∈ g.executions := by
  obtain ⟨p, hp, hep⟩ := List.mem_flatMap.1 he
  exact ⟨p.1, p.2, AMap.get?_of_mem hwf.groups hp, hep⟩

theorem groupOf_of_get? {log : List Obs} (ha : Asked log c dag cb) (hwf : dag.Wf) {u : GroupUuid}
    {g : ExecutionGroup} (hg : dag.executionGroups.get? u = some g) : GroupOf log c g ∧ g.uuid = u := by
  have := hwf.keyed u g (AMap.mem_of_get? hg)
  exact ⟨⟨dag, cb, ha, by rw [this]; exact hg⟩, this⟩

theorem zip_unique {es : List Execution} {rs : List ExecutionResult} (hn : (es.map (·.uuid)).Nodup)
    {x x' : Execution} {r r' : ExecutionResult} (h : (x, r) ∈ es.zip rs) (h' : (x', r') ∈ es.zip rs)
    (he : x.uuid = x'.uuid) : r = r' := by
  induction es generalizing rs with
  | nil => cases h
  | cons e es ih =>
    cases rs with
    | nil => cases h
    | cons q rs =>
      simp only [List.map_cons, List.nodup_cons] at hn
      rw [List.zip_cons_cons] at h h'
      have out : ∀ {y : Execution} {s : ExecutionResult}, (y, s) ∈ es.zip rs → y.uuid ≠ e.uuid := by
        intro y s hy hu
        exact hn.1 (List.mem_map.2 ⟨y, (List.of_mem_zip hy).1, hu⟩)
      rcases List.mem_cons.1 h with h1 | h1 <;> rcases List.mem_cons.1 h' with h2 | h2
      · cases h1; cases h2; rfl
      · cases h1; exact absurd he.symm (out h2)
      · cases h2; exact absurd he (out h1)
      · exact ih hn.2 h1 h2

theorem group_execs_nodup {log : List Obs} (hh : Hist log) {g : ExecutionGroup} (hg : GroupOf log c g) :
    (g.executions.map (·.uuid)).Nodup := by
  obtain ⟨d, b, h1, h2⟩ := hg
  have hw := (hh.wellFormed h1).execs
  unfold allExecs at hw
  rw [List.map_flatMap] at hw
  exact nodup_of_flatMap hw (AMap.mem_of_get? h2)

theorem same_group {log : List Obs} (hh : Hist log) {g g' : ExecutionGroup} (hg : GroupOf log c g)
    (hg' : GroupOf log c g') {x x' : Execution} (hx : x ∈ g.executions) (hx' : x' ∈ g'.executions)
    (he : x.uuid = x'.uuid) : g = g' := by
  have := hh.exec_count hg hg' hx
  split at this
  · next h => exact h.symm
  · rw [List.countP_eq_zero] at this
    exact absurd (decide_eq_true he.symm) (this x' hx')

theorem completed_of_done (h : Reachable st) {e : ExecutionUuid} {r : ExecutionResult}
    (hd : Obs.out (.done c e r) ∈ st.log) :
    ∃ g rs os b x, Obs.completed c g rs os b ∈ st.log ∧ (x, r) ∈ g.executions.zip rs ∧ x.uuid = e := by
  have hh := (reachable_aux h).hist
  obtain ⟨post, pre, he, ⟨-, -, g, rs, os, b, x, h1, h2, h3⟩, -⟩ := hh.mem hd
  exact ⟨g, rs, os, b, x, by rw [he]; simp [h1], h2, h3⟩

theorem done_unique (h : Reachable st)
    (honce : ∀ g, GroupOf st.log c g → RunsOnce g) {e : ExecutionUuid}
    {r r' : ExecutionResult} (hd : Obs.out (.done c e r) ∈ st.log)
    (hd' : Obs.out (.done c e r') ∈ st.log) : r = r' := by
  have hh := (reachable_aux h).hist
  obtain ⟨g, rs, os, b, x, h1, h2, h3⟩ := completed_of_done h hd
  obtain ⟨g', rs', os', b', x', h1', h2', h3'⟩ := completed_of_done h hd'
  have hg := hh.completed_groupOf h1
  have := same_group hh hg (hh.completed_groupOf h1') (List.of_mem_zip h2).1 (List.of_mem_zip h2').1
    (h3.trans h3'.symm)
  subst this
  obtain ⟨rfl, -, -⟩ := hh.completed_once (mult_le_one (honce _ hg)) h1 h1'
  exact zip_unique (group_execs_nodup hh hg) h2 h2' (h3.trans h3'.symm)

theorem done_of_completed (h : Reachable st) (ha : Asked st.log c dag cb)
    (hw : ∀ e ∈ allExecs dag, e.uuid ∈ cb.executions) (honce : ∀ g, GroupOf st.log c g → RunsOnce g)
    {g : ExecutionGroup} {rs : List ExecutionResult} {os : AMap FileUuid FileStoreKey} {b : Bool}
    (hm : Obs.completed c g rs os b ∈ st.log) {x : Execution} (hx : x ∈ g.executions) :
    ∃ r, (x, r) ∈ g.executions.zip rs ∧ Obs.out (.done c x.uuid r) ∈ st.log := by
  have hh := (reachable_aux h).hist
  have hg := hh.completed_groupOf hm
  have hgd := hh.groupOf_dag hg ha
  have hxa : x ∈ allExecs dag := List.mem_flatMap.2 ⟨_, AMap.mem_of_get? hgd, hx⟩
  obtain ⟨h1, -, -⟩ := watched_execution_notified h ha hg hx (hw x hxa)
  have hpos : 0 < st.log.countP (isCompletion c g) :=
    List.countP_pos_iff.2 ⟨_, hm, by simp [isCompletion]⟩
  rw [← h1] at hpos
  obtain ⟨o, ho, hp⟩ := List.countP_pos_iff.1 hpos
  obtain ⟨r, rfl⟩ : ∃ r, o = .out (.done c x.uuid r) := by
    cases o with
    | out m =>
      cases m with
      | done c' e' r' =>
        simp [isDoneMsg] at hp
        exact ⟨r', by rw [hp.1, hp.2]⟩
      | _ => simp [isDoneMsg] at hp
    | _ => simp [isDoneMsg] at hp
  refine ⟨r, ?_, ho⟩
  obtain ⟨g', rs', os', b', x', h1', h2', h3'⟩ := completed_of_done h ho
  have := same_group hh hg (hh.completed_groupOf h1') hx (List.of_mem_zip h2').1 h3'.symm
  subst this
  obtain ⟨rfl, -, -⟩ := hh.completed_once (mult_le_one (honce _ hg)) hm h1'
  have hn := group_execs_nodup hh hg
  have : x' = x := map_inj_of_nodup hn (List.of_mem_zip h2').1 hx h3'
  rw [this] at h2'
  exact h2'

theorem outcome_of_done (h : Reachable st) (honce : ∀ g, GroupOf st.log c g → RunsOnce g)
    {e : ExecutionUuid} {r : ExecutionResult} (hd : Obs.out (.done c e r) ∈ st.log) :
    outcomeOf (noticesFor c look st.log) e = some (look r) := by
  cases hx : outcomeOf (noticesFor c look st.log) e with
  | none => exact absurd (mem_done.2 ⟨r, hd, rfl⟩) (outcome_none hx)
  | some o =>
    obtain ⟨r', hr', rfl⟩ := mem_done.1 (outcome_mem hx)
    rw [done_unique h honce hr' hd]

/-- What a server says is a history. -/
theorem history_of_server (h : Reachable st) (hl : Reading look) (ha : Asked st.log c dag cb)
    (hw : ∀ e ∈ allExecs dag, e.uuid ∈ cb.executions)
    (honce : ∀ g, GroupOf st.log c g → RunsOnce g) : History dag (noticesFor c look st.log) := by
  have hh := (reachable_aux h).hist
  have hwf := (hh.asked_ok ha).1
  refine ⟨?_⟩
  intro e he o ho p hp f hf hfo
  obtain ⟨r, hr, rfl⟩ := mem_done.1 ho
  obtain ⟨g, rs, os, b, x, h1, h2, h3⟩ := completed_of_done h hr
  obtain ⟨u, ge, hge, hee⟩ := group_of_exec he hwf
  obtain ⟨hgo, -⟩ := groupOf_of_get? ha hwf hge
  have := same_group hh (hh.completed_groupOf h1) hgo (List.of_mem_zip h2).1 hee h3
  subst this
  obtain ⟨post, pre, hlog, ⟨-, -, -, hav, -⟩, -⟩ := hh.mem h1
  have hsub : ∀ y ∈ pre, y ∈ st.log := by intro y hy; rw [hlog]; simp [hy]
  obtain ⟨v, gp, hgp, hpp⟩ := group_of_exec hp hwf
  obtain ⟨hgpo, -⟩ := groupOf_of_get? ha hwf hgp
  have hfd : f ∈ g.deps := List.mem_flatMap.2 ⟨e, hee, hf⟩
  have hav' : Available st.log c f := by
    rcases hav f hfd with ⟨k, hk⟩ | ⟨g', ⟨rs', os', b', hm', hs'⟩, hf'⟩
    · exact .inl ⟨k, hsub _ hk⟩
    · exact .inr ⟨g', ⟨rs', os', b', hsub _ hm', hs'⟩, hf'⟩
  obtain ⟨rs', os', b', hm', hs'⟩ := hh.available_succeeded hgpo (List.mem_flatMap.2 ⟨p, hpp, hfo⟩) hav'
  obtain ⟨r', hz, hd⟩ := done_of_completed h ha hw honce hm' hpp
  exact ⟨look r', outcome_of_done h honce hd, (hl r').trans (hs' _ (List.of_mem_zip hz).2)⟩

end TM.Whole
