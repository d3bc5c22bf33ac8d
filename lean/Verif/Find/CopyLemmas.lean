import Verif.Find.Copy
import Verif.Find.PropsContest
import Verif.Find.PropsTask

/-!
# The files for the contestants: lemmas
-/
namespace TM.Find
open TM AMap

theorem place_join (cwd : Place) (a : RPath) (l : List Name) (h : ∀ n ∈ l, n ≠ dot ∧ n ≠ dotdot) :
    place cwd (a.join ⟨false, l⟩) = place cwd a ++ l := by
  have hh : l.head? ≠ some dot := by
    cases l with
    | nil => simp
    | cons x l => simpa using (h x (by simp)).1
  unfold RPath.join
  simp only [Bool.false_eq_true, if_false]
  by_cases hc : a.comps = [] ∧ a.abs = false
  · rw [if_pos hc]
    unfold place
    rw [hc.1, hc.2]
    simp only [Bool.false_eq_true, if_false, List.foldl_nil]
    exact resolve_plain ⟨cwd, []⟩ l h cwd
  · rw [if_neg hc, if_neg hh]
    unfold place
    rw [List.foldl_append]
    exact resolve_plain ⟨cwd, []⟩ l h _

theorem place_append (cwd : Place) (abs : Bool) (cs l : List Name) (h : ∀ n ∈ l, n ≠ dot ∧ n ≠ dotdot) :
    place cwd ⟨abs, cs ++ l⟩ = place cwd ⟨abs, cs⟩ ++ l := by
  unfold place
  rw [List.foldl_append]
  exact resolve_plain ⟨cwd, []⟩ l h _

theorem ofText_name {n : Name} (h0 : '/' ∉ n) (h1 : n ≠ []) : RPath.ofText n = ⟨false, [n]⟩ := by
  unfold RPath.ofText
  have hh : n.head? ≠ some '/' := by
    cases n with
    | nil => simp
    | cons c n => simp only [List.head?_cons]; intro h; cases h; simp at h0
  simp [pieces_noslash h0, hh, h1]

theorem copyAll_append {β : Type} [Inhabited β] (task files : RPath) : ∀ (a b : List RPath) (d : Disk β),
    copyAll task files (a ++ b) d = (match copyAll task files a d with
      | .error e => .error e
      | .ok d2 => copyAll task files b d2) := by
  intro a
  induction a with
  | nil => intro b d; rfl
  | cons p a ih =>
    intro b d
    simp only [List.cons_append, copyAll]
    cases p.fileName with
    | none => rfl
    | some n =>
      simp only
      cases d.copy (place d.cwd (task.join p)) (place d.cwd (files.join ⟨false, [n]⟩)) with
      | error e => rfl
      | ok d' => exact ih b d'

theorem copy_ok {β : Type} [Inhabited β] {d d' : Disk β} {src dst : Place} (hne : src ≠ dst) :
    d.copy src dst = .ok d' ↔ ∃ c, d.items.get? src = some (.file c) ∧ dst ≠ [] ∧ d.isDir dst = false ∧
      d.isDir dst.dropLast = true ∧ d' = { d with items := d.items.insert dst (.file c) } := by
  unfold Disk.copy
  cases hs : d.items.get? src with
  | none => simp
  | some it =>
    cases it with
    | dir => simp
    | file c =>
      simp only [hne, if_false]
      by_cases hc : dst ≠ [] ∧ d.isDir dst = false ∧ d.isDir dst.dropLast = true
      · rw [if_pos hc]
        constructor
        · intro h; cases h; exact ⟨c, rfl, hc.1, hc.2.1, hc.2.2, rfl⟩
        · rintro ⟨c', h, -, -, -, rfl⟩; cases h; rfl
      · rw [if_neg hc]
        constructor
        · intro h; cases h
        · rintro ⟨c', h, h1, h2, h3, rfl⟩; exact absurd ⟨h1, h2, h3⟩ hc

theorem isDir_insert_file {β : Type} {d : Disk β} {q k : Place} {c : β} (h : q ≠ k) :
    (Disk.isDir { d with items := d.items.insert k (.file c) } q) = d.isDir q := by
  unfold Disk.isDir
  simp only [get?_insert_ne d.items _ h]

/-- The copies of a list of files. -/
theorem copyAll_spec {β : Type} [Inhabited β] {task files : RPath} {cwd : Place} : ∀ (ps : List RPath) (d : Disk β),
    d.cwd = cwd → d.isDir (place cwd files) = true →
    (∀ p ∈ ps, ¬ place cwd files <+: place cwd (task.join p)) → (ps.map RPath.fileName).Nodup →
    ((∃ d', copyAll task files ps d = .ok d') ↔ ∀ p ∈ ps, ∃ n c, p.fileName = some n ∧
      d.items.get? (place cwd (task.join p)) = some (.file c) ∧ d.isDir (place cwd files ++ [n]) = false) ∧
    ∀ d', copyAll task files ps d = .ok d' → d'.cwd = cwd ∧ (d.items.Wf → d'.items.Wf) ∧
      (∀ p ∈ ps, ∀ n, p.fileName = some n →
        d'.items.get? (place cwd files ++ [n]) = d.items.get? (place cwd (task.join p))) ∧
      ∀ q, (∀ p ∈ ps, ∀ n, p.fileName = some n → q ≠ place cwd files ++ [n]) →
        d'.items.get? q = d.items.get? q := by
  intro ps
  induction ps with
  | nil =>
    intro d hcw _ _ _
    refine ⟨⟨fun _ => (fun p hp => nomatch hp), fun _ => ⟨d, rfl⟩⟩, ?_⟩
    intro d' h
    cases h
    exact ⟨hcw, id, (fun p hp => nomatch hp), fun _ _ => rfl⟩
  | cons p ps ih =>
    intro d hcw hdir hsrc hnd
    rw [List.map_cons, List.nodup_cons] at hnd
    simp only [copyAll]
    cases hn : p.fileName with
    | none =>
      refine ⟨⟨?_, ?_⟩, ?_⟩
      · rintro ⟨d', h⟩; cases h
      · intro h
        obtain ⟨n, c, h1, -⟩ := h p (by simp)
        rw [hn] at h1; cases h1
      · intro d' h; cases h
    | some n =>
      simp only
      have hnn := fileName_some.1 hn
      have hpl : place cwd (files.join ⟨false, [n]⟩) = place cwd files ++ [n] :=
        place_join cwd files [n] (by simp only [List.mem_singleton, forall_eq]; exact hnn.2)
      rw [hcw, hpl]
      have hne : place cwd (task.join p) ≠ place cwd files ++ [n] := by
        intro h
        exact hsrc p (by simp) (h ▸ List.prefix_append _ _)
      have hdrop : (place cwd files ++ [n]).dropLast = place cwd files := by simp
      have hneq : place cwd files ≠ place cwd files ++ [n] := by
        intro h
        have := congrArg List.length h
        simp at this
      cases hcp : d.copy (place cwd (task.join p)) (place cwd files ++ [n]) with
      | error e =>
        simp only
        refine ⟨⟨?_, ?_⟩, ?_⟩
        · rintro ⟨d', h⟩; cases h
        · intro h
          obtain ⟨n', c, h1, h2, h3⟩ := h p (by simp)
          rw [hn] at h1
          cases h1
          have := (copy_ok (d := d) (d' := { d with items := d.items.insert (place cwd files ++ [n]) (.file c) }) hne).2
            ⟨c, h2, by simp, h3, by rw [hdrop]; exact hdir, rfl⟩
          rw [hcp] at this; cases this
        · intro d' h; cases h
      | ok d1 =>
        simp only
        obtain ⟨c, h1, h2, h3, h4, h5⟩ := (copy_ok hne).1 hcp
        subst h5
        have hdir1 : Disk.isDir { d with items := d.items.insert (place cwd files ++ [n]) (.file c) } (place cwd files) = true := by
          rw [isDir_insert_file hneq]; exact hdir
        obtain ⟨i1, i2⟩ := ih { d with items := d.items.insert (place cwd files ++ [n]) (.file c) } hcw hdir1
          (fun q hq => hsrc q (by simp [hq])) hnd.2
        have hsrc' : ∀ q ∈ ps, (d.items.insert (place cwd files ++ [n]) (.file c)).get? (place cwd (task.join q)) =
            d.items.get? (place cwd (task.join q)) := by
          intro q hq
          refine get?_insert_ne _ _ ?_
          intro h
          exact hsrc q (by simp [hq]) (h ▸ List.prefix_append _ _)
        have hother : ∀ q ∈ ps, ∀ m, q.fileName = some m → m ≠ n := by
          intro q hq m hm e
          subst e
          exact hnd.1 (by rw [hn, ← hm]; exact List.mem_map.2 ⟨q, hq, rfl⟩)
        refine ⟨⟨?_, ?_⟩, ?_⟩
        · intro h q hq
          rcases List.mem_cons.1 hq with rfl | hq
          · exact ⟨n, c, hn, h1, h3⟩
          · obtain ⟨m, c', k1, k2, k3⟩ := i1.1 h q hq
            refine ⟨m, c', k1, ?_, ?_⟩
            · rw [← hsrc' q hq]; exact k2
            · rwa [isDir_insert_file (by simpa using hother q hq m k1)] at k3
        · intro h
          refine i1.2 ?_
          intro q hq
          obtain ⟨m, c', k1, k2, k3⟩ := h q (by simp [hq])
          refine ⟨m, c', k1, ?_, ?_⟩
          · rw [← k2]; exact hsrc' q hq
          · rw [isDir_insert_file (by simpa using hother q hq m k1)]; exact k3
        · intro d' h
          obtain ⟨j1, j0, j2, j3⟩ := i2 d' h
          refine ⟨j1, fun hw => j0 (wf_insert hw _ _), ?_, ?_⟩
          · intro q hq m hm
            rcases List.mem_cons.1 hq with rfl | hq
            · rw [hn] at hm
              cases hm
              rw [j3 _ (fun r hr k hk e => hother r hr k hk (by simpa using e.symm))]
              simp only [get?_insert_self]
              exact h1.symm
            · rw [j2 q hq m hm]; exact hsrc' q hq
          · intro q hq
            rw [j3 q (fun r hr => hq r (by simp [hr]))]
            exact get?_insert_ne _ _ (hq p (by simp) n hn)

theorem ensureDir_ok {β : Type} {d d' : Disk β} {q : Place} : d.ensureDir q = .ok d' ↔
    ((q = [] ∨ q ∈ d.items.keys) ∧ d' = d) ∨
    (q ≠ [] ∧ q ∉ d.items.keys ∧ d.isDir q.dropLast = true ∧ d' = { d with items := d.items.insert q .dir }) := by
  have hk : d.items.contains q = true ↔ q ∈ d.items.keys := by rw [contains_iff, mem_keys_iff]
  unfold Disk.ensureDir Disk.mkdir
  by_cases h0 : q = [] ∨ q ∈ d.items.keys
  · rw [if_pos (by rw [hk]; exact h0)]
    constructor
    · intro h; cases h; exact .inl ⟨h0, rfl⟩
    · rintro (⟨-, rfl⟩ | ⟨h1, h2, -⟩)
      · rfl
      · exact absurd h0 (by simp [h1, h2])
  · rw [if_neg (by rw [hk]; exact h0)]
    have h1 : q ≠ [] := fun h => h0 (.inl h)
    have h2 : q ∉ d.items.keys := fun h => h0 (.inr h)
    have h3 : d.items.contains q = false := by
      rw [← Bool.not_eq_true]; exact fun h => h2 (hk.1 h)
    by_cases h4 : d.isDir q.dropLast = true
    · rw [if_pos ⟨h1, h3, h4⟩]
      constructor
      · intro h; cases h; exact .inr ⟨h1, h2, h4, rfl⟩
      · rintro (⟨h5, -⟩ | ⟨-, -, -, rfl⟩)
        · exact absurd h5 h0
        · rfl
    · rw [if_neg (fun h => h4 h.2.2)]
      constructor
      · intro h; cases h
      · rintro (⟨h5, -⟩ | ⟨-, -, h5, -⟩)
        · exact absurd h5 h0
        · exact absurd h5 h4

theorem isDir_keys {β : Type} {d : Disk β} {q : Place} : d.isDir q = true ↔ q = [] ∨ d.items.get? q = some .dir := by
  unfold Disk.isDir
  cases d.items.get? q with
  | none => simp
  | some it => cases it <;> simp

theorem mem_filesIn {β : Type} {d : Disk β} {q : Place} {n : Name} : n ∈ d.filesIn q ↔
    ∃ c, d.items.get? (q ++ [n]) = some (.file c) := by
  unfold Disk.filesIn
  rw [List.mem_filterMap]
  constructor
  · rintro ⟨k, hk, h⟩
    split at h
    · rename_i c hc
      split at h
      · rename_i hq
        have := dropLast_last h
        rw [hq.2] at this
        exact ⟨c, by rw [this]; exact hc⟩
      · cases h
    · cases h
  · rintro ⟨c, h⟩
    refine ⟨q ++ [n], mem_keys_iff.2 ⟨_, h⟩, ?_⟩
    simp [h]

theorem filesIn_nodup {β : Type} {d : Disk β} (h : d.items.Wf) (q : Place) : (d.filesIn q).Nodup := by
  have hsub : (d.filesIn q) = (d.items.keys.filter (fun k => match d.items.get? k with
      | some (.file _) => true
      | _ => false)).filterMap (fun k => if k ≠ [] ∧ k.dropLast = q then k.getLast? else none) := by
    unfold Disk.filesIn
    rw [List.filterMap_filter]
    congr 1
    funext k
    cases d.items.get? k with
    | none => rfl
    | some it => cases it <;> rfl
  rw [hsub]
  exact filterMap_last_nodup (List.Pairwise.filter _ h)

end TM.Find
