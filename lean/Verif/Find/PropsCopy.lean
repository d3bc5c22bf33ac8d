import Verif.Find.CopyLemmas

/-!
# C107: the files for the contestants
-/
namespace TM.Find
open TM AMap

/-- The name of a file or directory as it can be found in a directory. -/
def GoodName (n : Name) : Prop := n ≠ [] ∧ '/' ∉ n ∧ n ≠ dot ∧ n ≠ dotdot

/-- The place is a directory. -/
def Disk.HasDir {β : Type} (d : Disk β) (q : Place) : Prop := q = [] ∨ d.items.get? q = some .dir

/-- **C107** The copy of the statements and attachments of a task: when their names are different and none of them is
in the target directory, the copy succeeds exactly when the target directory is there, or can be created, all of
them are files and no directory has the name of one of them; then the target directory has each of them, with its
content, and nothing else has changed. -/
theorem copy_files_exact {β : Type} [Inhabited β] (info : TaskPaths) (task files : RPath) (d : Disk β)
    (hout : ∀ p ∈ info.statements ++ info.attachments, ¬ place d.cwd files <+: place d.cwd (task.join p))
    (hnd : ((info.statements ++ info.attachments).map RPath.fileName).Nodup) :
    let target := place d.cwd files
    let source := fun p => place d.cwd (task.join p)
    ((∃ d', copyFiles info task files d = .ok d') ↔
      (d.HasDir target ∨ (target ∉ d.items.keys ∧ d.HasDir target.dropLast) ∨
        (target ∈ d.items.keys ∧ info.statements ++ info.attachments = [])) ∧
      ∀ p ∈ info.statements ++ info.attachments, ∃ n c, p.fileName = some n ∧
        d.items.get? (source p) = some (.file c) ∧ d.items.get? (target ++ [n]) ≠ some .dir) ∧
    ∀ d', copyFiles info task files d = .ok d' →
      d'.cwd = d.cwd ∧ (d.items.Wf → d'.items.Wf) ∧
      (∀ p ∈ info.statements ++ info.attachments, ∀ n, p.fileName = some n →
        d'.items.get? (target ++ [n]) = d.items.get? (source p)) ∧
      ∀ q, (∀ p ∈ info.statements ++ info.attachments, ∀ n, p.fileName = some n → q ≠ target ++ [n]) →
        d'.items.get? q = (if q = target ∧ q ≠ [] ∧ q ∉ d.items.keys then some .dir else d.items.get? q) := by
  intro target source
  have hcf : copyFiles info task files d = (match d.ensureDir target with
      | .error e => .error e
      | .ok d1 => copyAll task files (info.statements ++ info.attachments) d1) := by
    unfold copyFiles
    cases d.ensureDir target with
    | error e => rfl
    | ok d1 =>
      simp only [copyAll_append]
      cases copyAll task files info.statements d1 <;> rfl
  rw [hcf]
  clear hcf
  generalize hps : info.statements ++ info.attachments = ps at *
  clear hps
  have hfd : ∀ (e : Disk β) (n : Name), e.isDir (target ++ [n]) = false ↔ e.items.get? (target ++ [n]) ≠ some .dir := by
    intro e n
    rw [← Bool.not_eq_true, isDir_keys]
    simp
  by_cases hk : target = [] ∨ target ∈ d.items.keys
  · have he : d.ensureDir target = .ok d := ensureDir_ok.2 (.inl ⟨hk, rfl⟩)
    rw [he]
    simp only
    by_cases hd : d.isDir target = true
    · obtain ⟨s1, s2⟩ := copyAll_spec (cwd := d.cwd) ps d rfl hd hout hnd
      constructor
      · rw [s1]
        constructor
        · intro h
          refine ⟨.inl (isDir_keys.1 hd), fun p hp => ?_⟩
          obtain ⟨n, c, h1, h2, h3⟩ := h p hp
          exact ⟨n, c, h1, h2, (hfd d n).1 h3⟩
        · rintro ⟨-, h⟩ p hp
          obtain ⟨n, c, h1, h2, h3⟩ := h p hp
          exact ⟨n, c, h1, h2, (hfd d n).2 h3⟩
      · intro d' h
        obtain ⟨j1, j2, j3, j4⟩ := s2 d' h
        refine ⟨j1, j2, j3, ?_⟩
        intro q hq
        rw [j4 q hq, if_neg]
        rintro ⟨rfl, h1, h2⟩
        exact hk.elim h1 h2
    · cases ps with
      | nil =>
        refine ⟨⟨fun _ => ⟨.inr (.inr ⟨?_, rfl⟩), (fun p hp => nomatch hp)⟩, fun _ => ⟨d, rfl⟩⟩, ?_⟩
        · rcases hk with h | h
          · exact absurd (isDir_keys.2 (.inl h)) hd
          · exact h
        · intro d' h
          cases h
          refine ⟨rfl, id, (fun p hp => nomatch hp), ?_⟩
          intro q _
          rw [if_neg]
          rintro ⟨rfl, h1, h2⟩
          exact hk.elim h1 h2
      | cons p ps =>
        have hno : ∀ d', copyAll task files (p :: ps) d ≠ .ok d' := by
          intro d' h
          simp only [copyAll] at h
          cases hn : p.fileName with
          | none => rw [hn] at h; cases h
          | some n =>
            rw [hn] at h
            simp only at h
            have hnn := fileName_some.1 hn
            have hpl : place d.cwd (files.join ⟨false, [n]⟩) = target ++ [n] :=
              place_join d.cwd files [n] (by simp only [List.mem_singleton, forall_eq]; exact hnn.2)
            rw [hpl] at h
            cases hc : d.copy (place d.cwd (task.join p)) (target ++ [n]) with
            | error e => rw [hc] at h; cases h
            | ok d1 =>
              have hne : place d.cwd (task.join p) ≠ target ++ [n] := by
                intro h
                exact hout p (by simp) (h ▸ List.prefix_append _ _)
              obtain ⟨c, -, -, -, h4, -⟩ := (copy_ok hne).1 hc
              rw [List.dropLast_concat] at h4
              exact hd h4
        refine ⟨⟨?_, ?_⟩, ?_⟩
        · rintro ⟨d', h⟩; exact absurd h (hno d')
        · rintro ⟨h | h | h, -⟩
          · exact absurd (isDir_keys.2 h) hd
          · rcases hk with h' | h'
            · exact absurd (isDir_keys.2 (.inl h')) hd
            · exact absurd h' h.1
          · cases h.2
        · intro d' h; exact absurd h (hno d')
  · have h1 : target ≠ [] := fun h => hk (.inl h)
    have h2 : target ∉ d.items.keys := fun h => hk (.inr h)
    by_cases hp : d.isDir target.dropLast = true
    · have he : d.ensureDir target = .ok { d with items := d.items.insert target .dir } :=
        ensureDir_ok.2 (.inr ⟨h1, h2, hp, rfl⟩)
      rw [he]
      simp only
      have hd : Disk.isDir { d with items := d.items.insert target .dir } target = true :=
        isDir_keys.2 (.inr (get?_insert_self _ _ _))
      obtain ⟨s1, s2⟩ := copyAll_spec (cwd := d.cwd) ps { d with items := d.items.insert target .dir } rfl hd hout hnd
      have hsrc : ∀ p ∈ ps, (d.items.insert target .dir).get? (source p) = d.items.get? (source p) := by
        intro p hp
        refine get?_insert_ne _ _ ?_
        intro h
        exact hout p hp (by
          show target <+: source p
          rw [h]
          exact List.prefix_refl _)
      have htn : ∀ n : Name, (d.items.insert target .dir).get? (target ++ [n]) = d.items.get? (target ++ [n]) := by
        intro n
        refine get?_insert_ne _ _ ?_
        intro h
        have := congrArg List.length h
        simp at this
      constructor
      · rw [s1]
        constructor
        · intro h
          refine ⟨.inr (.inl ⟨h2, isDir_keys.1 hp⟩), fun p hp => ?_⟩
          obtain ⟨n, c, k1, k2, k3⟩ := h p hp
          refine ⟨n, c, k1, ?_, ?_⟩
          · rw [← hsrc p hp]; exact k2
          · rw [← htn]; exact (hfd _ n).1 k3
        · rintro ⟨-, h⟩ p hp
          obtain ⟨n, c, k1, k2, k3⟩ := h p hp
          refine ⟨n, c, k1, ?_, ?_⟩
          · rw [← k2]; exact hsrc p hp
          · exact (hfd _ n).2 (by simp only [htn]; exact k3)
      · intro d' h
        obtain ⟨j1, j2, j3, j4⟩ := s2 d' h
        refine ⟨j1, fun hw => j2 (wf_insert hw _ _), ?_, ?_⟩
        · intro p hp n hn
          rw [← hsrc p hp]
          exact j3 p hp n hn
        · intro q hq
          rw [j4 q hq]
          by_cases hqt : q = target
          · rw [if_pos ⟨hqt, hqt ▸ h1, hqt ▸ h2⟩, hqt]
            exact get?_insert_self _ _ _
          · rw [if_neg (fun h => hqt h.1)]
            exact get?_insert_ne _ _ hqt
    · have he : ∀ d', d.ensureDir target ≠ .ok d' := by
        intro d' h
        rcases ensureDir_ok.1 h with ⟨h, -⟩ | ⟨-, -, h, -⟩
        · exact hk h
        · exact hp h
      cases hen : d.ensureDir target with
      | ok d1 => exact absurd hen (he d1)
      | error e =>
        simp only
        refine ⟨⟨?_, ?_⟩, ?_⟩
        · rintro ⟨d', h⟩; cases h
        · rintro ⟨h | h | h, -⟩
          · rcases h with h | h
            · exact absurd h h1
            · exact absurd (mem_keys_iff.2 ⟨_, h⟩) h2
          · exact absurd (isDir_keys.2 h.2) hp
          · exact absurd h.1 h2
        · intro d' h; cases h

/-! ## A contest -/

/-- What the property takes for granted of a contest in the directory `contest`, seen from `cwd`: the directories of
the tasks have the names of the tasks, all different; the statements of a task are in a directory of the task
that is not `att/`, with different names; the evaluation of the statements of a task only changes the
directory of the task, and there no attachment has the name of a statement. -/
structure TidyContest {β : Type} (wk : Work β) (cwd : Place) (contest : RPath) (ts : List LoadedTask) : Prop where
  names : (ts.map (·.name)).Nodup
  good : ∀ t ∈ ts, GoodName t.name ∧ t.name ≠ filesName
  located : ∀ t ∈ ts, place cwd t.path = place cwd contest ++ [t.name]
  statements : ∀ t ∈ ts, ∀ b ∈ t.booklets, ∃ dir n, (dir ≠ dot ∧ dir ≠ dotdot) ∧ (n ≠ dot ∧ n ≠ dotdot) ∧
    b = ⟨t.path.abs, t.path.comps ++ [dir, n]⟩
  distinct : ∀ t ∈ ts, (t.booklets.map RPath.fileName).Nodup
  inside : ∀ t ∈ ts, ∀ d d', wk.run t d = some d' → d.cwd = cwd → d'.cwd = cwd ∧ (d.items.Wf → d'.items.Wf) ∧
    (∀ q, ¬ place cwd contest ++ [t.name] <+: q → d'.items.get? q = d.items.get? q) ∧
    (∀ b ∈ t.booklets, ∀ n, b.fileName = some n →
      ∀ c, d'.items.get? (place cwd contest ++ [t.name, attName, n]) ≠ some (.file c)) ∧
    ∀ n c, d'.items.get? (place cwd contest ++ [t.name, attName, n]) = some (.file c) → n ≠ dot ∧ n ≠ dotdot

theorem pathOf_in (task : RPath) (l : List Name) : pathOf task ⟨task.abs, task.comps ++ l⟩ = ⟨false, l⟩ := by
  unfold pathOf
  rw [if_pos ⟨rfl, by rw [List.isPrefixOf_iff_prefix]; exact List.prefix_append _ _⟩]
  simp

/-- What happens to a task of the contest. -/
theorem copy_task {β : Type} [Inhabited β] {wk : Work β} {cwd : Place} {contest : RPath} {ts : List LoadedTask}
    (h : TidyContest wk cwd contest ts) {t : LoadedTask} (ht : t ∈ ts) {d d1 d2 : Disk β} (hcwd : d.cwd = cwd)
    (hwf : d.items.Wf) (hr : wk.run t d = some d1)
    (hc : copyFiles (taskPaths d1 t) (contest.join (RPath.ofText t.name))
      ((contest.join ⟨false, [filesName]⟩).join (RPath.ofText t.name)) d1 = .ok d2) :
    d2.cwd = cwd ∧ d2.items.Wf ∧
    (∀ b ∈ t.booklets, ∀ n, b.fileName = some n → ∃ c, d2.items.get? (place cwd b) = some (.file c) ∧
      d2.items.get? (place cwd contest ++ [filesName, t.name, n]) = some (.file c)) ∧
    (∀ n c, d2.items.get? (place cwd contest ++ [t.name, attName, n]) = some (.file c) →
      d2.items.get? (place cwd contest ++ [filesName, t.name, n]) = some (.file c)) ∧
    ∀ q, d2.items.get? q ≠ d.items.get? q → place cwd contest ++ [t.name] <+: q ∨
      (q = place cwd contest ++ [filesName, t.name] ∧ d2.items.get? q = some .dir) ∨
      ∃ n, q = place cwd contest ++ [filesName, t.name, n] ∧
        ((∃ b ∈ t.booklets, b.fileName = some n) ∨
          ∃ c, d2.items.get? (place cwd contest ++ [t.name, attName, n]) = some (.file c)) := by
  obtain ⟨⟨g1, g2, g3, g4⟩, g5⟩ := h.good t ht
  obtain ⟨r1, r2, r3, r4, r5⟩ := h.inside t ht d d1 hr hcwd
  have hname : RPath.ofText t.name = ⟨false, [t.name]⟩ := ofText_name g2 g1
  have hfn : filesName ≠ dot ∧ filesName ≠ dotdot := by decide
  have han : attName ≠ dot ∧ attName ≠ dotdot := by decide
  rw [hname] at hc
  generalize hK : place cwd contest = K at *
  have hfiles : place cwd ((contest.join ⟨false, [filesName]⟩).join ⟨false, [t.name]⟩) = K ++ [filesName, t.name] := by
    rw [place_join _ _ _ (by simp only [List.mem_singleton, forall_eq]; exact ⟨g3, g4⟩),
      place_join _ _ _ (by simp only [List.mem_singleton, forall_eq]; exact hfn), hK]
    simp
  have htask : ∀ l : List Name, (∀ n ∈ l, n ≠ dot ∧ n ≠ dotdot) →
      place cwd ((contest.join ⟨false, [t.name]⟩).join ⟨false, l⟩) = K ++ t.name :: l := by
    intro l hl
    rw [place_join _ _ _ hl, place_join _ _ _ (by simp only [List.mem_singleton, forall_eq]; exact ⟨g3, g4⟩), hK]
    simp
  have hloc := h.located t ht
  -- the statements
  have hst : ∀ b ∈ t.booklets, ∃ dir n, (dir ≠ dot ∧ dir ≠ dotdot) ∧ (n ≠ dot ∧ n ≠ dotdot) ∧
      b.fileName = some n ∧ pathOf t.path b = ⟨false, [dir, n]⟩ ∧ place cwd b = K ++ [t.name, dir, n] := by
    intro b hb
    obtain ⟨dir, n, e1, e2, rfl⟩ := h.statements t ht b hb
    refine ⟨dir, n, e1, e2, ?_, pathOf_in _ _, ?_⟩
    · exact fileName_some.2 ⟨by simp, e2⟩
    · rw [place_append _ _ _ _ (by
        intro m hm
        rcases List.mem_cons.1 hm with rfl | hm
        · exact e1
        · rw [List.mem_singleton.1 hm]; exact e2)]
      show place cwd t.path ++ _ = _
      rw [hloc, hK]
      simp
  -- the attachments
  have hattp : place d1.cwd (t.path.push attName) = K ++ [t.name, attName] := by
    rw [r1]
    unfold RPath.push
    rw [place_append _ _ _ _ (by simp only [List.mem_singleton, forall_eq]; exact han)]
    show place cwd t.path ++ _ = _
    rw [hloc, hK]
    simp
  have hpo : ∀ n, pathOf t.path ((t.path.push attName).push n) = ⟨false, [attName, n]⟩ := by
    intro n
    unfold RPath.push
    simp only [List.append_assoc]
    exact pathOf_in _ _
  have hatt : ∀ p, p ∈ (taskPaths d1 t).attachments ↔ ∃ n c, p = ⟨false, [attName, n]⟩ ∧
      d1.items.get? (K ++ [t.name, attName, n]) = some (.file c) := by
    intro p
    show p ∈ List.map _ _ ↔ _
    rw [List.mem_map, hattp]
    constructor
    · rintro ⟨n, hn, rfl⟩
      obtain ⟨c, hc⟩ := mem_filesIn.1 hn
      exact ⟨n, c, hpo n, by simpa using hc⟩
    · rintro ⟨n, c, rfl, hc⟩
      exact ⟨n, mem_filesIn.2 ⟨c, by simpa using hc⟩, hpo n⟩
  have hall : ∀ p ∈ (taskPaths d1 t).statements ++ (taskPaths d1 t).attachments, ∃ dir n,
      p = ⟨false, [dir, n]⟩ ∧ (dir ≠ dot ∧ dir ≠ dotdot) ∧ (n ≠ dot ∧ n ≠ dotdot) := by
    intro p hp
    rcases List.mem_append.1 hp with hp | hp
    · obtain ⟨b, hb, rfl⟩ := List.mem_map.1 hp
      obtain ⟨dir, n, e1, e2, -, e3, -⟩ := hst b hb
      exact ⟨dir, n, e3, e1, e2⟩
    · obtain ⟨n, c, rfl, hc⟩ := (hatt p).1 hp
      exact ⟨attName, n, rfl, han, r5 n c hc⟩
  have hfnm : ∀ dir n : Name, (n ≠ dot ∧ n ≠ dotdot) → (⟨false, [dir, n]⟩ : RPath).fileName = some n := by
    intro dir n hn
    exact fileName_some.2 ⟨by simp, hn⟩
  have hsrc : ∀ dir n : Name, (dir ≠ dot ∧ dir ≠ dotdot) → (n ≠ dot ∧ n ≠ dotdot) →
      place cwd ((contest.join ⟨false, [t.name]⟩).join ⟨false, [dir, n]⟩) = K ++ [t.name, dir, n] := by
    intro dir n e1 e2
    refine htask [dir, n] ?_
    intro m hm
    rcases List.mem_cons.1 hm with rfl | hm
    · exact e1
    · rw [List.mem_singleton.1 hm]; exact e2
  have hout : ∀ p ∈ (taskPaths d1 t).statements ++ (taskPaths d1 t).attachments,
      ¬ place d1.cwd ((contest.join ⟨false, [filesName]⟩).join ⟨false, [t.name]⟩) <+:
        place d1.cwd ((contest.join ⟨false, [t.name]⟩).join p) := by
    intro p hp hpre
    obtain ⟨dir, n, rfl, e1, e2⟩ := hall p hp
    rw [r1, hfiles, hsrc dir n e1 e2, List.prefix_append_right_inj] at hpre
    obtain ⟨z, hz⟩ := hpre
    simp only [List.cons_append, List.cons.injEq] at hz
    exact g5 hz.1.symm
  have hnd : (((taskPaths d1 t).statements ++ (taskPaths d1 t).attachments).map RPath.fileName).Nodup := by
    rw [List.map_append, List.nodup_append]
    refine ⟨?_, ?_, ?_⟩
    · have : (taskPaths d1 t).statements.map RPath.fileName = t.booklets.map RPath.fileName := by
        show (t.booklets.map _).map _ = _
        rw [List.map_map]
        refine List.map_congr_left ?_
        intro b hb
        obtain ⟨dir, n, e1, e2, e3, e4, -⟩ := hst b hb
        simp only [Function.comp, e4, e3]
        exact hfnm dir n e2
      rw [this]
      exact h.distinct t ht
    · have : (taskPaths d1 t).attachments.map RPath.fileName = (d1.filesIn (K ++ [t.name, attName])).map some := by
        show (List.map _ _).map _ = _
        rw [List.map_map, hattp]
        refine List.map_congr_left ?_
        intro n hn
        obtain ⟨c, hc⟩ := mem_filesIn.1 hn
        simp only [Function.comp, hpo]
        exact hfnm attName n (r5 n c (by simpa using hc))
      rw [this]
      have hn := filesIn_nodup (r2 hwf) (K ++ [t.name, attName])
      exact List.Pairwise.map some (fun a b hab h => hab (Option.some.inj h)) hn
    · intro a ha b hb hab
      subst hab
      obtain ⟨p, hp, hpa⟩ := List.mem_map.1 ha
      obtain ⟨p', hp', hpb⟩ := List.mem_map.1 hb
      obtain ⟨bk, hbk, rfl⟩ := List.mem_map.1 hp
      obtain ⟨dir, n, e1, e2, e3, e4, -⟩ := hst bk hbk
      obtain ⟨m, c, rfl, hc⟩ := (hatt p').1 hp'
      rw [e4, hfnm dir n e2] at hpa
      rw [hfnm attName m (r5 m c hc)] at hpb
      rw [← hpa] at hpb
      cases hpb
      exact r4 bk hbk n e3 c hc
  obtain ⟨s1, s2⟩ := copy_files_exact (taskPaths d1 t) _ _ d1 hout hnd
  obtain ⟨k1, k2, k3, k4⟩ := s2 d2 hc
  obtain ⟨-, k5⟩ := s1.1 ⟨d2, hc⟩
  rw [r1] at k1 k3 k4 k5
  rw [hfiles] at k3 k4 k5
  dsimp only at k3 k5
  -- the places of the task are not changed by the copy
  have hkeep : ∀ l, d2.items.get? (K ++ t.name :: l) = d1.items.get? (K ++ t.name :: l) := by
    intro l
    have hne : ∀ x, K ++ t.name :: l ≠ K ++ filesName :: x := by
      intro x hx
      rw [List.append_cancel_left_eq, List.cons.injEq] at hx
      exact g5 hx.1
    rw [k4 _ (fun p hp n hn => by simpa using hne [t.name, n])]
    rw [if_neg (fun hx => hne _ hx.1)]
  refine ⟨k1, k2 (r2 hwf), ?_, ?_, ?_⟩
  · intro b hb n hn
    obtain ⟨dir, m, e1, e2, e3, e4, e5⟩ := hst b hb
    rw [hn] at e3
    cases e3
    have hmem : pathOf t.path b ∈ (taskPaths d1 t).statements ++ (taskPaths d1 t).attachments :=
      List.mem_append.2 (.inl (List.mem_map.2 ⟨b, hb, rfl⟩))
    rw [e4] at hmem
    obtain ⟨m', c, f1, f2, -⟩ := k5 _ hmem
    have f3 := k3 _ hmem n (hfnm dir n e2)
    rw [hsrc dir n e1 e2] at f2 f3
    refine ⟨c, ?_, ?_⟩
    · rw [e5, hkeep]; exact f2
    · rw [← f2, ← f3]; simp
  · intro n c hn
    rw [hkeep] at hn
    have hmem : (⟨false, [attName, n]⟩ : RPath) ∈ (taskPaths d1 t).statements ++ (taskPaths d1 t).attachments :=
      List.mem_append.2 (.inr ((hatt _).2 ⟨n, c, rfl, hn⟩))
    have f3 := k3 _ hmem n (hfnm attName n (r5 n c hn))
    rw [hsrc attName n han (r5 n c hn), hn] at f3
    rw [← f3]
    simp
  · intro q hq
    by_cases h1 : K ++ [t.name] <+: q
    · exact .inl h1
    · right
      rw [← r3 q h1] at hq
      by_cases h2 : ∃ p ∈ (taskPaths d1 t).statements ++ (taskPaths d1 t).attachments, ∃ n, p.fileName = some n ∧
          q = K ++ [filesName, t.name] ++ [n]
      · obtain ⟨p, hp, n, hpn, rfl⟩ := h2
        right
        refine ⟨n, by simp, ?_⟩
        rcases List.mem_append.1 hp with hp | hp
        · obtain ⟨b, hb, rfl⟩ := List.mem_map.1 hp
          obtain ⟨dir, m, e1, e2, e3, e4, -⟩ := hst b hb
          rw [e4, hfnm dir m e2] at hpn
          cases hpn
          exact .inl ⟨b, hb, e3⟩
        · obtain ⟨m, c, rfl, hc⟩ := (hatt p).1 hp
          rw [hfnm attName m (r5 m c hc)] at hpn
          cases hpn
          exact .inr ⟨c, by rw [hkeep]; exact hc⟩
      · left
        have := k4 q (fun p hp n hn e => h2 ⟨p, hp, n, hn, e⟩)
        by_cases h3 : q = K ++ [filesName, t.name] ∧ q ≠ [] ∧ q ∉ d1.items.keys
        · rw [if_pos h3] at this
          exact ⟨h3.1, this⟩
        · rw [if_neg h3] at this
          exact absurd this hq

theorem copy_tasks {β : Type} [Inhabited β] {wk : Work β} {cwd : Place} {contest : RPath} {all : List LoadedTask}
    (h : TidyContest wk cwd contest all) : ∀ (ts : List LoadedTask), (∀ t ∈ ts, t ∈ all) → (ts.map (·.name)).Nodup →
    ∀ (d d' : Disk β), d.cwd = cwd → d.items.Wf → copyTasks wk contest ts d = .ok d' →
    (∀ t ∈ ts, ∀ b ∈ t.booklets, ∀ n, b.fileName = some n → ∃ c, d'.items.get? (place cwd b) = some (.file c) ∧
      d'.items.get? (place cwd contest ++ [filesName, t.name, n]) = some (.file c)) ∧
    (∀ t ∈ ts, ∀ n c, d'.items.get? (place cwd contest ++ [t.name, attName, n]) = some (.file c) →
      d'.items.get? (place cwd contest ++ [filesName, t.name, n]) = some (.file c)) ∧
    ∀ q, d'.items.get? q ≠ d.items.get? q → ∃ t ∈ ts, place cwd contest ++ [t.name] <+: q ∨
      (q = place cwd contest ++ [filesName, t.name] ∧ d'.items.get? q = some .dir) ∨
      ∃ n, q = place cwd contest ++ [filesName, t.name, n] ∧
        ((∃ b ∈ t.booklets, b.fileName = some n) ∨
          ∃ c, d'.items.get? (place cwd contest ++ [t.name, attName, n]) = some (.file c)) := by
  intro ts
  induction ts with
  | nil =>
    intro _ _ d d' _ _ hc
    cases hc
    exact ⟨(fun t ht => nomatch ht), (fun t ht => nomatch ht), fun q hq => absurd rfl hq⟩
  | cons t ts ih =>
    intro hall hnd d d' hcwd hwf hc
    rw [List.map_cons, List.nodup_cons] at hnd
    simp only [copyTasks] at hc
    cases hr : wk.run t d with
    | none => rw [hr] at hc; cases hc
    | some d1 =>
      rw [hr] at hc
      simp only at hc
      cases hcp : copyFiles (taskPaths d1 t) (contest.join (RPath.ofText t.name))
          ((contest.join ⟨false, [filesName]⟩).join (RPath.ofText t.name)) d1 with
      | error e => rw [hcp] at hc; cases hc
      | ok d2 =>
        rw [hcp] at hc
        simp only at hc
        obtain ⟨k1, k2, k3, k4, k5⟩ := copy_task h (hall t (by simp)) hcwd hwf hr hcp
        obtain ⟨i1, i2, i3⟩ := ih (fun u hu => hall u (by simp [hu])) hnd.2 d2 d' k1 k2 hc
        have hgood := (h.good t (hall t (by simp))).2
        have hne : ∀ u ∈ ts, u.name ≠ t.name := by
          intro u hu e
          exact hnd.1 (e ▸ List.mem_map.2 ⟨u, hu, rfl⟩)
        generalize hK : place cwd contest = K at *
        -- the rest does not change the directories of this task
        have hkeep : ∀ l, d'.items.get? (K ++ t.name :: l) = d2.items.get? (K ++ t.name :: l) := by
          intro l
          refine Classical.byContradiction fun hx => ?_
          obtain ⟨u, hu, hp | ⟨hp, -⟩ | ⟨n, hp, -⟩⟩ := i3 _ hx
          · rw [List.prefix_append_right_inj] at hp
            obtain ⟨z, hz⟩ := hp
            simp only [List.cons_append, List.cons.injEq] at hz
            exact hne u hu hz.1
          · rw [List.append_cancel_left_eq, List.cons.injEq] at hp
            exact hgood hp.1
          · rw [List.append_cancel_left_eq, List.cons.injEq] at hp
            exact hgood hp.1
        have hkeep2 : ∀ l, d'.items.get? (K ++ filesName :: t.name :: l) = d2.items.get? (K ++ filesName :: t.name :: l) := by
          intro l
          refine Classical.byContradiction fun hx => ?_
          obtain ⟨u, hu, hp | ⟨hp, -⟩ | ⟨n, hp, -⟩⟩ := i3 _ hx
          · rw [List.prefix_append_right_inj] at hp
            obtain ⟨z, hz⟩ := hp
            simp only [List.cons_append, List.cons.injEq] at hz
            exact (h.good u (hall u (by simp [hu]))).2 hz.1
          · rw [List.append_cancel_left_eq, List.cons.injEq, List.cons.injEq] at hp
            exact hne u hu hp.2.1.symm
          · rw [List.append_cancel_left_eq, List.cons.injEq, List.cons.injEq] at hp
            exact hne u hu hp.2.1.symm
        refine ⟨?_, ?_, ?_⟩
        · intro u hu b hb n hn
          rcases List.mem_cons.1 hu with rfl | hu
          · obtain ⟨c, c1, c2⟩ := k3 b hb n hn
            refine ⟨c, ?_, by rw [hkeep2]; exact c2⟩
            obtain ⟨dir, m, e1, e2, e3⟩ := h.statements u (hall u (by simp)) b hb
            have : place cwd b = K ++ u.name :: [dir, m] := by
              rw [e3, place_append _ _ _ _ (by
                intro x hx
                rcases List.mem_cons.1 hx with rfl | hx
                · exact e1
                · rw [List.mem_singleton.1 hx]; exact e2)]
              show place cwd u.path ++ _ = _
              rw [h.located u (hall u (by simp)), hK]
              simp
            rw [this] at c1 ⊢
            rw [hkeep]
            exact c1
          · exact i1 u hu b hb n hn
        · intro u hu n c hn
          rcases List.mem_cons.1 hu with rfl | hu
          · rw [hkeep] at hn
            rw [hkeep2]
            exact k4 n c hn
          · exact i2 u hu n c hn
        · intro q hq
          by_cases hq2 : d'.items.get? q = d2.items.get? q
          · rw [hq2] at hq
            refine ⟨t, by simp, ?_⟩
            rcases k5 q hq with h1 | ⟨rfl, h2⟩ | ⟨n, rfl, h3⟩
            · exact .inl h1
            · exact .inr (.inl ⟨rfl, by rw [hkeep2]; exact h2⟩)
            · refine .inr (.inr ⟨n, rfl, ?_⟩)
              rcases h3 with h3 | ⟨c, h3⟩
              · exact .inl h3
              · exact .inr ⟨c, by rw [hkeep]; exact h3⟩
          · obtain ⟨u, hu, h1⟩ := i3 q hq2
            exact ⟨u, by simp [hu], h1⟩

/-- The body of the theorem below. -/
theorem competition_files_body {β : Type} [Inhabited β] {wk : Work β} {contest : RPath} {ts : List LoadedTask}
    {d d' : Disk β} (h : TidyContest wk d.cwd contest ts) (hwf : d.items.Wf)
    (hc : competitionFiles wk contest ts d = .ok d') :
    (∀ t ∈ ts, ∀ b ∈ t.booklets, ∀ n, b.fileName = some n → ∃ c, d'.items.get? (place d.cwd b) = some (.file c) ∧
      d'.items.get? (place d.cwd contest ++ [filesName, t.name, n]) = some (.file c)) ∧
    (∀ t ∈ ts, ∀ n c, d'.items.get? (place d.cwd contest ++ [t.name, attName, n]) = some (.file c) →
      d'.items.get? (place d.cwd contest ++ [filesName, t.name, n]) = some (.file c)) ∧
    ∀ q, d'.items.get? q ≠ d.items.get? q → (q = place d.cwd contest ++ [filesName] ∧ d'.items.get? q = some .dir) ∨
      ∃ t ∈ ts, place d.cwd contest ++ [t.name] <+: q ∨
      (q = place d.cwd contest ++ [filesName, t.name] ∧ d'.items.get? q = some .dir) ∨
      ∃ n, q = place d.cwd contest ++ [filesName, t.name, n] ∧
        ((∃ b ∈ t.booklets, b.fileName = some n) ∨
          ∃ c, d'.items.get? (place d.cwd contest ++ [t.name, attName, n]) = some (.file c)) := by
  unfold competitionFiles at hc
  cases he : d.ensureDir (place d.cwd (contest.join ⟨false, [filesName]⟩)) with
  | error e => rw [he] at hc; cases hc
  | ok d1 =>
    rw [he] at hc
    simp only at hc
    have hpl : place d.cwd (contest.join ⟨false, [filesName]⟩) = place d.cwd contest ++ [filesName] :=
      place_join _ _ _ (by decide)
    rw [hpl] at he
    have h1 : d1.cwd = d.cwd ∧ d1.items.Wf ∧ ∀ q, d1.items.get? q ≠ d.items.get? q →
        q = place d.cwd contest ++ [filesName] ∧ d1.items.get? q = some .dir := by
      rcases ensureDir_ok.1 he with ⟨-, rfl⟩ | ⟨-, -, -, rfl⟩
      · exact ⟨rfl, hwf, fun q hq => absurd rfl hq⟩
      · refine ⟨rfl, wf_insert hwf _ _, ?_⟩
        intro q hq
        refine Classical.byContradiction fun hx => hq ?_
        refine get?_insert_ne _ _ ?_
        intro e
        exact hx ⟨e, by rw [e]; exact get?_insert_self _ _ _⟩
    obtain ⟨k1, k2, k3⟩ := copy_tasks h ts (fun _ h => h) h.names d1 d' h1.1 h1.2.1 hc
    refine ⟨k1, k2, ?_⟩
    intro q hq
    by_cases hq2 : d'.items.get? q = d1.items.get? q
    · rw [hq2] at hq ⊢
      exact .inl (h1.2.2 q hq)
    · exact .inr (k3 q hq2)

/-- **C107** The files for the contestants of a tidy contest: at the end the directory of every task in
`competition-files/` has all its statements, as they are at the end, and all its attachments; outside the
directories of the tasks nothing else has been created or changed. -/
theorem competition_files_partial {β : Type} [Inhabited β] {wk : Work β} {contest : RPath} {ts : List LoadedTask}
    {d d' : Disk β} (h : TidyContest wk d.cwd contest ts) (hwf : d.items.Wf)
    (hc : competitionFiles wk contest ts d = .ok d') :
    (∀ t ∈ ts, ∀ b ∈ t.booklets, ∀ n, b.fileName = some n → ∃ c, d'.items.get? (place d.cwd b) = some (.file c) ∧
      d'.items.get? (place d.cwd contest ++ ["competition-files".toList, t.name, n]) = some (.file c)) ∧
    (∀ t ∈ ts, ∀ n c, d'.items.get? (place d.cwd contest ++ [t.name, "att".toList, n]) = some (.file c) →
      d'.items.get? (place d.cwd contest ++ ["competition-files".toList, t.name, n]) = some (.file c)) ∧
    ∀ q, d'.items.get? q ≠ d.items.get? q → (q = place d.cwd contest ++ ["competition-files".toList] ∧ d'.items.get? q = some .dir) ∨
      ∃ t ∈ ts, place d.cwd contest ++ [t.name] <+: q ∨
      (q = place d.cwd contest ++ ["competition-files".toList, t.name] ∧ d'.items.get? q = some .dir) ∨
      ∃ n, q = place d.cwd contest ++ ["competition-files".toList, t.name, n] ∧
        ((∃ b ∈ t.booklets, b.fileName = some n) ∨
          ∃ c, d'.items.get? (place d.cwd contest ++ [t.name, "att".toList, n]) = some (.file c)) := competition_files_body h hwf hc

/-- A file that is copied on itself is lost. -/
theorem copy_on_itself {β : Type} [Inhabited β] {d d' : Disk β} {p : Place} (h : d.copy p p = .ok d') :
    d'.items.get? p = some (.file default) := by
  unfold Disk.copy at h
  split at h
  · split at h
    · cases h; simp
    · cases h
  · cases h


/-! ## Examples -/

/-- A contest in `/c` with the tasks `a` and `b`; `a` has a statement and two attachments, `b` a statement. -/
def demoDisk : Disk Nat :=
  ⟨[['c']], [
    ([['c']], .dir), ([['c'], ['a']], .dir), ([['c'], ['b']], .dir),
    ([['c'], ['a'], attName], .dir), ([['c'], ['a'], ['s']], .dir), ([['c'], ['b'], ['s']], .dir),
    ([['c'], ['a'], ['s'], ['e']], .file 1), ([['c'], ['b'], ['s'], ['e']], .file 2),
    ([['c'], ['a'], attName, ['x']], .file 3), ([['c'], ['a'], attName, ['y']], .file 4)]⟩

def demoTasks : List LoadedTask :=
  [⟨['a'], ⟨true, [['c'], ['a']]⟩, [⟨true, [['c'], ['a'], ['s'], ['e']]⟩]⟩,
   ⟨['b'], ⟨true, [['c'], ['b']]⟩, [⟨true, [['c'], ['b'], ['s'], ['e']]⟩]⟩]

/-- The evaluation writes the statements anew, on a disk like the one above. -/
def demoWork : Work Nat :=
  ⟨fun t d => if (d.filesIn [['c'], ['a'], attName]).all (fun n => n == ['x'] || n == ['y']) = true ∧
      (d.filesIn [['c'], ['b'], attName]) = [] then
    some { d with items := d.items.insert ([['c'], t.name, ['s'], ['e']]) (.file 7) } else none⟩

/-- A contest that is tidy, and what is copied. -/
example : TidyContest demoWork demoDisk.cwd ⟨false, [dot]⟩ demoTasks ∧ demoDisk.items.Wf ∧
    (match competitionFiles demoWork ⟨false, [dot]⟩ demoTasks demoDisk with
      | .ok d => some (d.items.filter (fun e => decide ([['c'], filesName] <+: e.1)))
      | .error _ => none) =
    some [([['c'], filesName, ['b'], ['e']], .file 7), ([['c'], filesName, ['b']], .dir),
      ([['c'], filesName, ['a'], ['y']], .file 4), ([['c'], filesName, ['a'], ['x']], .file 3),
      ([['c'], filesName, ['a'], ['e']], .file 7), ([['c'], filesName, ['a']], .dir), ([['c'], filesName], .dir)] := by
  refine ⟨⟨by decide, ?_, by decide +kernel, ?_, by decide +kernel, ?_⟩, by unfold AMap.Wf; decide +kernel, by decide +kernel⟩
  · unfold GoodName; decide +kernel
  · intro t ht b hb
    simp only [demoTasks, List.mem_cons, List.not_mem_nil, or_false] at ht
    rcases ht with rfl | rfl <;>
    · rw [List.mem_singleton] at hb
      exact ⟨['s'], ['e'], by decide, by decide, hb⟩
  · intro t ht d d' hr hcwd
    have hK : place demoDisk.cwd ⟨false, [dot]⟩ = [['c']] := by decide
    rw [hK]
    unfold demoWork at hr
    simp only at hr
    split at hr
    · rename_i hif
      obtain ⟨i3, i4⟩ := hif
      cases hr
      have hxy : ∀ n c, d.items.get? ([['c']] ++ [['a'], attName, n]) = some (.file c) → n = ['x'] ∨ n = ['y'] := by
        intro n c hn
        have := List.all_eq_true.1 i3 n (mem_filesIn.2 ⟨c, hn⟩)
        simpa using this
      have hb : ∀ n c, d.items.get? ([['c']] ++ [['b'], attName, n]) ≠ some (.file c) := by
        intro n c hn
        have : n ∈ d.filesIn [['c'], ['b'], attName] := mem_filesIn.2 ⟨c, hn⟩
        rw [i4] at this
        cases this
      have hne : ∀ n, [['c']] ++ [t.name, attName, n] ≠ [['c'], t.name, ['s'], ['e']] := by
        intro n h
        have : attName = ['s'] := by
          simp only [List.cons_append, List.nil_append, List.cons.injEq, true_and] at h
          exact h.1
        exact absurd this (by decide)
      have hget : ∀ n, (d.items.insert [['c'], t.name, ['s'], ['e']] (.file 7)).get? ([['c']] ++ [t.name, attName, n]) =
          d.items.get? ([['c']] ++ [t.name, attName, n]) := fun n => get?_insert_ne _ _ (hne n)
      refine ⟨hcwd, fun hw => wf_insert hw _ _, ?_, ?_, ?_⟩
      · intro q hq
        refine get?_insert_ne _ _ ?_
        rintro rfl
        exact hq ⟨[['s'], ['e']], rfl⟩
      · intro b hbk n hn c
        simp only
        rw [hget]
        simp only [demoTasks, List.mem_cons, List.not_mem_nil, or_false] at ht
        rcases ht with rfl | rfl
        · intro hc
          rw [List.mem_singleton] at hbk
          subst hbk
          have hen : n = ['e'] := by
            have : (RPath.fileName ⟨true, [['c'], ['a'], ['s'], ['e']]⟩) = some ['e'] := by decide
            rw [this] at hn
            exact (Option.some.inj hn).symm
          subst hen
          rcases hxy _ _ hc with h | h <;> cases h
        · exact hb n c
      · intro n c hn
        simp only at hn
        rw [hget] at hn
        simp only [demoTasks, List.mem_cons, List.not_mem_nil, or_false] at ht
        rcases ht with rfl | rfl
        · rcases hxy _ _ hn with rfl | rfl <;> decide
        · exact absurd hn (hb n c)
    · cases hr

/-- A task with nothing to do. -/
def idle : Work Nat := ⟨fun _ d => some d⟩

/-- An attachment with the name of a statement takes its place: the contestants do not get the statement. -/
theorem statement_replaced : ∃ (d d' : Disk Nat) (t : LoadedTask) (contest : RPath),
    competitionFiles idle contest [t] d = .ok d' ∧ (∃ b ∈ t.booklets, d.items.get? (place d.cwd b) = some (.file 1)) ∧
    ∀ e ∈ d'.items, [['c'], filesName] <+: e.1 → e.2 ≠ .file 1 := by
  refine ⟨⟨[['c']], [([['c']], .dir), ([['c'], ['a']], .dir), ([['c'], ['a'], attName], .dir),
      ([['c'], ['a'], ['s']], .dir), ([['c'], ['a'], ['s'], ['e']], .file 1),
      ([['c'], ['a'], attName, ['e']], .file 3)]⟩, _,
    ⟨['a'], ⟨true, [['c'], ['a']]⟩, [⟨true, [['c'], ['a'], ['s'], ['e']]⟩]⟩, ⟨true, [['c']]⟩, rfl,
    ⟨_, List.mem_singleton.2 rfl, by decide +kernel⟩, by decide +kernel⟩

/-- The files are taken from the directory with the name of the task, also when the task is in another one: if
the directories `a` and `b` have the tasks named `b` and `a`, the contestants of each find the statement of the other. -/
theorem other_task_copied : ∃ (d d' : Disk Nat) (ts : List LoadedTask) (contest : RPath),
    competitionFiles idle contest ts d = .ok d' ∧ (∃ t ∈ ts, t.name = ['a'] ∧
      (∃ b ∈ t.booklets, d.items.get? (place d.cwd b) = some (.file 2)) ∧
      d'.items.get? [['c'], filesName, ['a'], ['e']] = some (.file 1)) := by
  refine ⟨⟨[['c']], [([['c']], .dir), ([['c'], ['a']], .dir), ([['c'], ['b']], .dir),
      ([['c'], ['a'], ['s']], .dir), ([['c'], ['b'], ['s']], .dir),
      ([['c'], ['a'], ['s'], ['e']], .file 1), ([['c'], ['b'], ['s'], ['e']], .file 2)]⟩, _, [⟨['b'], ⟨true, [['c'], ['a']]⟩, [⟨true, [['c'], ['a'], ['s'], ['e']]⟩]⟩,
      ⟨['a'], ⟨true, [['c'], ['b']]⟩, [⟨true, [['c'], ['b'], ['s'], ['e']]⟩]⟩], ⟨true, [['c']]⟩, rfl,
    ⟨⟨['a'], ⟨true, [['c'], ['b']]⟩, [⟨true, [['c'], ['b'], ['s'], ['e']]⟩]⟩, by simp, rfl,
      ⟨_, List.mem_singleton.2 rfl, by decide +kernel⟩, by decide +kernel⟩⟩

/-- What was copied before stays: an attachment that has been removed is still given to the contestants. -/
theorem old_file_stays : ∃ (d d' : Disk Nat) (t : LoadedTask) (contest : RPath),
    competitionFiles idle contest [t] d = .ok d' ∧ d'.items.get? [['c'], filesName, ['a'], ['x']] = some (.file 3) ∧
    d'.items.get? [['c'], ['a'], attName, ['x']] = none ∧ ∀ b ∈ t.booklets, b.fileName ≠ some ['x'] := by
  refine ⟨⟨[['c']], [([['c']], .dir), ([['c'], ['a']], .dir), ([['c'], filesName], .dir), ([['c'], filesName, ['a']], .dir),
      ([['c'], filesName, ['a'], ['x']], .file 3)]⟩, _, ⟨['a'], ⟨true, [['c'], ['a']]⟩, []⟩, ⟨true, [['c']]⟩, rfl,
    by decide +kernel⟩

end TM.Find
