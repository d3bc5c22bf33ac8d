import Verif.CheckDag.Spec
/-! Executable (there is a valid order) is the same as: inputs defined and no cycle. -/

namespace TM.DagSpec

theorem exists_minimal {α : Type} (R : α → α → Prop) (irr : ∀ x, ¬ R x x)
    (tr : ∀ x y z, R x y → R y z → R x z) (l : List α) (hl : l ≠ []) :
    ∃ m ∈ l, ∀ y ∈ l, ¬ R m y := by
  induction l with
  | nil => exact absurd rfl hl
  | cons a l ih =>
    by_cases h : l = []
    · subst h; exact ⟨a, by simp, by simp [irr]⟩
    · obtain ⟨m, hm, hmin⟩ := ih h
      by_cases hR : R m a
      · refine ⟨a, by simp, fun y hy => ?_⟩
        rcases List.mem_cons.1 hy with rfl | hy
        · exact irr _
        · exact fun hr => hmin y hy (tr _ _ _ hR hr)
      · refine ⟨m, by simp [hm], fun y hy => ?_⟩
        rcases List.mem_cons.1 hy with rfl | hy
        · exact hR
        · exact hmin y hy

theorem runnable_split {dag : DagData} {order : List (GroupUuid × ExecutionGroup)}
    (h : Runnable dag order) : ∀ p ∈ order, ∃ a b, order = a ++ p :: b ∧
      ∀ f ∈ p.2.deps, f ∈ dag.providedFiles.keys ∨ ∃ q ∈ a, f ∈ q.2.outs := by
  induction h with
  | nil => simp
  | snoc pre u g _ hd ih =>
    intro p hp
    rcases List.mem_append.1 hp with hp | hp
    · obtain ⟨a, b, rfl, hab⟩ := ih p hp
      exact ⟨a, b ++ [(u, g)], by simp, hab⟩
    · have : p = (u, g) := by simpa using hp
      subst this
      exact ⟨pre, [], by simp, hd⟩

theorem outs_unique {gs : List (GroupUuid × ExecutionGroup)}
    (hn : (gs.flatMap (fun p => p.2.outs)).Nodup) {p q : GroupUuid × ExecutionGroup} {f : FileUuid}
    (hp : p ∈ gs) (hq : q ∈ gs) (hfp : f ∈ p.2.outs) (hfq : f ∈ q.2.outs) : p = q := by
  induction gs with
  | nil => simp at hp
  | cons x gs ih =>
    simp only [List.flatMap_cons, List.nodup_append] at hn
    obtain ⟨_, h2, h3⟩ := hn
    rcases List.mem_cons.1 hp with hp' | hp' <;> rcases List.mem_cons.1 hq with hq' | hq'
    · rw [hp', hq']
    · exact absurd rfl (h3 f (hp' ▸ hfp) f (List.mem_flatMap.2 ⟨q, hq', hfq⟩))
    · exact absurd rfl (h3 f (hq' ▸ hfq) f (List.mem_flatMap.2 ⟨p, hp', hfp⟩))
    · exact ih h2 hp' hq'

theorem executable_iff (dag : DagData) (hw : dag.Wf) (hf : (allFiles dag).Nodup) :
    Executable dag ↔ InputsDefined dag ∧ Acyclic dag := by
  obtain ⟨hout, _, hdisj⟩ := List.nodup_append.1 hf
  constructor
  · rintro ⟨order, hperm, hrun⟩
    have hkeys : (order.map (·.1)).Nodup := (hperm.map _).nodup_iff.2 hw.groups
    have hlt : ∀ u v, DependsOn dag u v →
        (order.map (·.1)).idxOf v < (order.map (·.1)).idxOf u := by
      rintro u v ⟨g, h, f, hu, hv, hfd, hfo⟩
      obtain ⟨a, b, hab, hd⟩ := runnable_split hrun (u, g) (hperm.mem_iff.2 hu)
      rcases hd f hfd with hp | ⟨q, hq, hfq⟩
      · exact absurd rfl (hdisj f (List.mem_flatMap.2 ⟨(v, h), hv, hfo⟩) f hp)
      · have hqg : q ∈ dag.executionGroups := hperm.mem_iff.1 (by rw [hab]; simp [hq])
        have : q = (v, h) := outs_unique hout hqg hv hfq hfo
        subst this
        rw [hab] at hkeys ⊢
        simp only [List.map_append, List.map_cons] at hkeys ⊢
        have hva : v ∈ a.map (·.1) := List.mem_map.2 ⟨(v, h), hq, rfl⟩
        have hua : u ∉ a.map (·.1) := by
          intro hua
          exact (List.nodup_append.1 hkeys).2.2 u hua u (by simp) rfl
        rw [List.idxOf_append, List.idxOf_append, if_pos hva, if_neg hua]
        have := List.idxOf_lt_length_of_mem hva
        omega
    constructor
    · intro u g hu f hfd
      obtain ⟨a, b, hab, hd⟩ := runnable_split hrun (u, g) (hperm.mem_iff.2 hu)
      rcases hd f hfd with hp | ⟨q, hq, hfq⟩
      · exact List.mem_append.2 (Or.inr hp)
      · refine List.mem_append.2 (Or.inl (List.mem_flatMap.2 ⟨q, ?_, hfq⟩))
        exact hperm.mem_iff.1 (by rw [hab]; simp [hq])
    · intro u hu
      have : ∀ v, Relation.TransGen (DependsOn dag) u v →
          (order.map (·.1)).idxOf v < (order.map (·.1)).idxOf u := by
        intro v hv
        induction hv with
        | single h => exact hlt _ _ h
        | tail _ h ih => exact Nat.lt_trans (hlt _ _ h) ih
      exact Nat.lt_irrefl _ (this u hu)
  · rintro ⟨hin, hac⟩
    have step : ∀ n (pre rest : List (GroupUuid × ExecutionGroup)), rest.length = n →
        (pre ++ rest).Perm dag.executionGroups → Runnable dag pre →
        ∃ order, order.Perm dag.executionGroups ∧ Runnable dag order := by
      intro n
      induction n with
      | zero =>
        intro pre rest hl hperm hrun
        have : rest = [] := List.length_eq_zero_iff.1 hl
        subst this
        exact ⟨pre, by simpa using hperm, hrun⟩
      | succ n ih =>
        intro pre rest hl hperm hrun
        have hne : rest ≠ [] := by rintro rfl; simp at hl
        obtain ⟨m, hm, hmin⟩ := exists_minimal
          (fun p q : GroupUuid × ExecutionGroup => Relation.TransGen (DependsOn dag) p.1 q.1)
          (fun x => hac x.1) (fun x y z => Relation.TransGen.trans) rest hne
        have hperm' : ((pre ++ [m]) ++ rest.erase m).Perm dag.executionGroups := by
          refine List.Perm.trans ?_ hperm
          rw [List.append_assoc]
          exact List.Perm.append_left _ (List.perm_cons_erase hm).symm
        refine ih (pre ++ [m]) (rest.erase m) (by rw [List.length_erase_of_mem hm]; omega) hperm' ?_
        refine Runnable.snoc pre m.1 m.2 hrun (fun f hfd => ?_)
        have hmg : m ∈ dag.executionGroups := hperm.mem_iff.1 (by simp [hm])
        rcases List.mem_append.1 (hin m.1 m.2 hmg f hfd) with h | h
        · obtain ⟨q, hq, hfq⟩ := List.mem_flatMap.1 h
          rcases List.mem_append.1 (hperm.mem_iff.2 hq) with hqp | hqr
          · exact Or.inr ⟨q, hqp, hfq⟩
          · exact absurd (Relation.TransGen.single ⟨m.2, q.2, f, hmg, hq, hfd, hfq⟩) (hmin q hqr)
        · exact Or.inl h
    exact step _ [] dag.executionGroups rfl (by simp) .nil

end TM.DagSpec
