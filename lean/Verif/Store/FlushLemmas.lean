import Verif.Store.Model
/-!
Helper lemmas about the index and its flush.
-/

namespace TM.Store

open TM

/-- The sum of the sizes of a list of entries. -/
def sizes (l : List (Key × Item)) : Nat := (l.map (fun p => p.2.size)).sum

@[simp] theorem sizes_nil : sizes [] = 0 := rfl
@[simp] theorem sizes_cons (p : Key × Item) (l) : sizes (p :: l) = p.2.size + sizes l := by
  simp [sizes]

theorem sizes_perm {l l' : List (Key × Item)} (h : l.Perm l') : sizes l = sizes l' :=
  (h.map _).sum_nat

theorem flushLoop_sublist (locked : Key → Bool) (target total : Nat) (q : List (Key × Item)) :
    (flushLoop locked target total q).2.1.Sublist q := by
  induction q generalizing total with
  | nil => simp [flushLoop]
  | cons p q ih =>
    obtain ⟨k, it⟩ := p
    unfold flushLoop
    split
    · exact List.Sublist.refl _
    · split
      · exact (ih _).cons_cons _
      · exact (ih _).cons _

theorem flushLoop_sum (locked : Key → Bool) (target : Nat) (q : List (Key × Item))
    (total c : Nat) (h : total = sizes q + c) :
    (flushLoop locked target total q).1 = sizes (flushLoop locked target total q).2.1 + c := by
  induction q generalizing total c with
  | nil => simpa [flushLoop] using h
  | cons p q ih =>
    obtain ⟨k, it⟩ := p
    simp only [sizes_cons] at h
    unfold flushLoop
    split
    · simpa using h
    · split
      · have := ih total (c + it.size) (by omega)
        simp only [sizes_cons]; omega
      · exact ih (total - it.size) c (by omega)

theorem flushLoop_removed (locked : Key → Bool) (target total : Nat) (q : List (Key × Item)) :
    (∀ k ∈ (flushLoop locked target total q).2.2, locked k = false ∧ k ∈ q.map (·.1)) ∧
    (∀ p ∈ q, p ∈ (flushLoop locked target total q).2.1 ∨
      p.1 ∈ (flushLoop locked target total q).2.2) := by
  induction q generalizing total with
  | nil => simp [flushLoop]
  | cons p q ih =>
    obtain ⟨k, it⟩ := p
    unfold flushLoop
    split
    · exact ⟨by simp, fun p hp => Or.inl hp⟩
    · split
      · obtain ⟨h1, h2⟩ := ih total
        refine ⟨fun x hx => ⟨(h1 x hx).1, List.mem_cons_of_mem _ (h1 x hx).2⟩, ?_⟩
        intro p hp
        rcases List.mem_cons.1 hp with rfl | hp
        · exact Or.inl (List.mem_cons_self ..)
        · exact (h2 p hp).imp (List.mem_cons_of_mem _) id
      · next hl =>
        obtain ⟨h1, h2⟩ := ih (total - it.size)
        constructor
        · intro x hx
          rcases List.mem_cons.1 hx with rfl | hx
          · exact ⟨by simpa using hl, by simp⟩
          · exact ⟨(h1 x hx).1, List.mem_cons_of_mem _ (h1 x hx).2⟩
        · intro p hp
          rcases List.mem_cons.1 hp with rfl | hp
          · exact Or.inr (List.mem_cons_self ..)
          · exact (h2 p hp).imp id (List.mem_cons_of_mem _)

theorem flushLoop_disjoint (locked : Key → Bool) (target total : Nat) (q : List (Key × Item))
    (hn : (q.map (·.1)).Nodup) :
    ∀ p ∈ (flushLoop locked target total q).2.1, p.1 ∉ (flushLoop locked target total q).2.2 := by
  induction q generalizing total with
  | nil => simp [flushLoop]
  | cons p q ih =>
    obtain ⟨k, it⟩ := p
    simp only [List.map_cons, List.nodup_cons] at hn
    unfold flushLoop
    split
    · simp
    · split
      · intro p hp
        rcases List.mem_cons.1 hp with rfl | hp
        · intro hx
          exact hn.1 ((flushLoop_removed locked target total q).1 k hx).2
        · exact ih total hn.2 p hp
      · intro p hp hx
        rcases List.mem_cons.1 hx with hx | hx
        · refine hn.1 (hx ▸ List.mem_map.2 ⟨p, ?_, rfl⟩)
          exact (flushLoop_sublist locked target (total - it.size) q).subset hp
        · exact ih (total - it.size) hn.2 p hp hx

theorem flushLoop_end (locked : Key → Bool) (target total : Nat) (q : List (Key × Item)) :
    (flushLoop locked target total q).1 ≤ target ∨
      ∀ p ∈ (flushLoop locked target total q).2.1, locked p.1 = true := by
  induction q generalizing total with
  | nil => simp [flushLoop]
  | cons p q ih =>
    obtain ⟨k, it⟩ := p
    unfold flushLoop
    split
    · next h => exact Or.inl h
    · split
      · next hl =>
        refine (ih total).imp id (fun h p hp => ?_)
        rcases List.mem_cons.1 hp with rfl | hp
        · exact hl
        · exact h p hp
      · exact ih (total - it.size)

/-- The flush stops as soon as it can. -/
theorem flushLoop_stops (locked : Key → Bool) (target total : Nat) (q : List (Key × Item))
    (h : total ≤ target) : flushLoop locked target total q = (total, q, []) := by
  cases q with
  | nil => rfl
  | cons p q => obtain ⟨k, it⟩ := p; simp [flushLoop, h]

theorem flushLoop_order {locked : Key → Bool} {target : Nat} {q : List (Key × Item)}
    (hs : q.Pairwise (fun a b => popBefore a b = true)) (hn : (q.map (·.1)).Nodup) (total : Nat) :
    ∀ a ∈ q, a.1 ∈ (flushLoop locked target total q).2.2 →
      ∀ p ∈ (flushLoop locked target total q).2.1, locked p.1 = false → popBefore a p = true := by
  induction q generalizing total with
  | nil => simp
  | cons x q ih =>
    obtain ⟨k, it⟩ := x
    rw [List.pairwise_cons] at hs
    simp only [List.map_cons, List.nodup_cons] at hn
    intro a ha
    unfold flushLoop
    split
    · simp
    · split
      · next hl =>
        intro hr p hp hlp
        rcases List.mem_cons.1 ha with rfl | ha
        · exact absurd ((flushLoop_removed locked target total q).1 _ hr).2 hn.1
        · rcases List.mem_cons.1 hp with rfl | hp
          · simp [hl] at hlp
          · exact ih hs.2 hn.2 total a ha hr p hp hlp
      · intro hr p hp hlp
        have hpq := (flushLoop_sublist locked target (total - it.size) q).subset hp
        rcases List.mem_cons.1 ha with rfl | ha
        · exact hs.1 p hpq
        · rcases List.mem_cons.1 hr with hr | hr
          · exact absurd (hr ▸ List.mem_map.2 ⟨a, ha, rfl⟩) hn.1
          · exact ih hs.2 hn.2 _ a ha hr p hp hlp

theorem natLe_total : TotalLe (fun x y : Nat => decide (x ≤ y)) := by
  refine ⟨?_, ?_, ?_⟩ <;> simp only [decide_eq_true_eq] <;> intros <;> omega

theorem popBefore_total (a b : Key × Item) : popBefore a b = true ∨ popBefore b a = true :=
  (natLe_total.lex strLe_total).total _ _

theorem popBefore_trans (a b c : Key × Item) (h1 : popBefore a b = true)
    (h2 : popBefore b c = true) : popBefore a c = true :=
  (natLe_total.lex strLe_total).trans _ _ _ h2 h1

theorem popBefore_access {a b : Key × Item} (h : popBefore a b = true) :
    b.2.lastAccess ≤ a.2.lastAccess := by
  unfold popBefore lexLe at h
  split at h
  · next e => simp only at e; omega
  · simpa using h

/-- An index whose total is the sum of the sizes. -/
structure Index.Ok (ix : Index) : Prop where
  wf : AMap.Wf ix.known
  total : ix.total = sizes ix.known

theorem flush_known (ix : Index) (locked : Key → Bool) (target : Nat) :
    ∀ p ∈ (ix.flush locked target).1.known, p ∈ ix.known := by
  intro p hp
  exact (isort_perm popBefore ix.known).mem_iff.1
    ((flushLoop_sublist _ _ _ _).subset hp)

theorem sorted_nodup {ix : Index} (h : ix.Ok) :
    ((isort popBefore ix.known).map (·.1)).Nodup := by
  have p := (isort_perm popBefore ix.known).map (fun p : Key × Item => p.1)
  exact p.nodup_iff.2 h.wf

theorem flush_ok {ix : Index} (h : ix.Ok) (locked : Key → Bool) (target : Nat) :
    (ix.flush locked target).1.Ok := by
  constructor
  · exact List.Nodup.sublist ((flushLoop_sublist _ _ _ _).map _) (sorted_nodup h)
  · have := flushLoop_sum locked target (isort popBefore ix.known) ix.total 0
      (by rw [sizes_perm (isort_perm _ _), h.total]; rfl)
    simpa [Index.flush] using this

theorem sizes_erase {m : AMap Key Item} (hw : AMap.Wf m) {k : Key} {it : Item}
    (h : m.get? k = some it) : sizes m = it.size + sizes (m.erase k) := by
  induction m with
  | nil => simp at h
  | cons p m ih =>
    obtain ⟨a, b⟩ := p
    simp only [AMap.Wf, AMap.keys, List.map_cons, List.nodup_cons] at hw
    rw [AMap.get?_cons] at h
    split at h
    · next e =>
      subst e; cases h
      have : AMap.erase ((a, it) :: m) a = m := by
        simp only [AMap.erase, List.filter_cons]
        simp only [ne_eq, not_true_eq_false, decide_false, Bool.false_eq_true, if_false]
        rw [List.filter_eq_self]
        intro x hx
        simp only [decide_eq_true_eq]
        rintro rfl
        exact hw.1 (List.mem_map.2 ⟨x, hx, rfl⟩)
      rw [this]; simp
    · next e =>
      have hm : AMap.erase ((a, b) :: m) k = (a, b) :: AMap.erase m k := by
        simp [AMap.erase, List.filter_cons, e]
      rw [hm, sizes_cons, sizes_cons, ih hw.2 h]
      omega

theorem erase_of_none {m : AMap Key Item} {k : Key} (h : m.get? k = none) : m.erase k = m := by
  rw [AMap.get?_eq_none_iff] at h
  simp only [AMap.erase, List.filter_eq_self]
  intro x hx
  simp only [decide_eq_true_eq]
  rintro rfl
  exact h (List.mem_map.2 ⟨x, hx, rfl⟩)

theorem touch_ok {ix : Index} (h : ix.Ok) (k : Key) (now : Nat) : (ix.touch k now).Ok := by
  unfold Index.touch
  split
  · next it hg =>
    refine ⟨AMap.wf_insert h.wf _ _, ?_⟩
    simp only [AMap.insert, sizes_cons]
    rw [h.total, sizes_erase h.wf hg]
  · exact h

theorem add_ok {ix : Index} (h : ix.Ok) (k : Key) (size now : Nat) : (ix.add k size now).Ok := by
  unfold Index.add
  split
  · next it hg =>
    refine ⟨AMap.wf_insert h.wf _ _, ?_⟩
    simp only [AMap.insert, sizes_cons]
    rw [h.total, sizes_erase h.wf hg]
  · next hg =>
    refine ⟨AMap.wf_insert h.wf _ _, ?_⟩
    simp only [AMap.insert, sizes_cons]
    rw [h.total, erase_of_none hg, Nat.add_comm]

end TM.Store
