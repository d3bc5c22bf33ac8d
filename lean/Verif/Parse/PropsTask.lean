import Verif.Parse.EntryLemmas
import Verif.Parse.PropsYaml
import Verif.Find.PropsSol
import Verif.Parse.Sample

/-!
# C111: loading a task
-/
namespace TM.Parse
open TM AMap TM.Find

section
variable {env : Env} {w : World} {base : RPath} {order : Nat → List Nat} {rounds : Nat}

/-- The steps of the loading. -/
theorem parseWith_inv {y : Yaml} {orig : Bool} {t : Task} (h : parseWith env w base order rounds y orig = .ok t) :
    ∃ es l v, parseKind w base y = .ok t.kind ∧ readEntries env w base t.kind = .ok es ∧
      Format.load orig order rounds es = some (.ok l) ∧ validatorSource w base = .ok v ∧
      t = { dir := base, kind := t.kind, name := y.name, title := y.title, time := y.time, memory := y.memory,
            infile := mapFile y.infile, outfile := mapFile y.outfile, aggregator := aggregatorOf y l.subtasks.length,
            precision := y.precision, subtasks := l.subtasks, testcases := l.testcases, graders := taskGraders w base,
            difficulty := y.difficulty, syllabus := y.syllabus, validator := validatorFor v } := by
  unfold parseWith at h
  cases hk : parseKind w base y with
  | error e => rw [hk] at h; cases h
  | ok k =>
    rw [hk] at h; dsimp only at h
    cases he : readEntries env w base k with
    | error e => rw [he] at h; cases h
    | ok es =>
      rw [he] at h; dsimp only at h
      cases hl : Format.load orig order rounds es with
      | none => rw [hl] at h; cases h
      | some r =>
        cases r with
        | error e => rw [hl] at h; cases h
        | ok l =>
          rw [hl] at h; dsimp only at h
          cases hv : validatorSource w base with
          | error e => rw [hv] at h; cases h
          | ok v =>
            rw [hv] at h
            cases h
            exact ⟨es, l, v, rfl, he, hl, rfl, rfl⟩

theorem parseTask_inv {t : Task} (h : parseTask env w base order rounds = .ok t) :
    ∃ y orig, readTaskYaml env w base = .ok (y, orig) ∧ parseWith env w base order rounds y orig = .ok t := by
  unfold parseTask at h
  split at h
  · cases h
  · next y orig hy => exact ⟨y, orig, hy, h⟩

/-- More rounds do not matter. -/
theorem closeLoop_mono : ∀ (n m i : Nat) (subs : AMap Nat Format.Subtask) (r : Except Format.LoadErr (AMap Nat Format.Subtask)),
    n ≤ m → Format.closeLoop order n i subs = some r → Format.closeLoop order m i subs = some r
  | 0, _, _, _, _, _, h => by cases h
  | n + 1, 0, _, _, _, hle, _ => by omega
  | n + 1, m + 1, i, subs, r, hle, h => by
    unfold Format.closeLoop at h ⊢
    split at h
    · exact h
    · next m' u hr =>
      split at h
      · next hu =>
        rw [if_pos hu]
        exact closeLoop_mono n m (i + 1) m' r (by omega) h
      · next hu => rw [if_neg hu]; exact h

theorem load_mono {n m : Nat} {orig : Bool} {es : List Format.Entry} {r : Except Format.LoadErr Format.Loaded}
    (hle : n ≤ m) (h : Format.load orig order n es = some r) : Format.load orig order m es = some r := by
  unfold Format.load at h ⊢
  split at h
  · exact h
  · next l hl =>
    cases hc : Format.closeLoop order n 0 l.subtasks with
    | none => rw [hc] at h; cases h
    | some x => rw [closeLoop_mono _ _ _ _ _ hle hc]; rw [hc] at h; exact h

theorem load_from {orig : Bool} {es : List Format.Entry} {l : Format.Loaded} (hw : Format.WellNumbered es)
    (hord : Format.IterOrder es order) (h : Format.load orig order rounds es = some (.ok l)) :
    LoadedFrom es l.subtasks l.testcases ∧ (orig = true ∨ ¬ ∃ a d, Format.DependsDirectly es a d) := by
  obtain ⟨b1, h1⟩ := Format.load_closure hw
  obtain ⟨b2, h2⟩ := Format.load_without_orig hw
  have h' := load_mono (m := rounds + b1 + b2) (by omega) h
  obtain ⟨l', e1, e2, e3, e4, e5⟩ := h1 (rounds + b1 + b2) (by omega) order hord
  obtain ⟨f1, f2⟩ := h2 (rounds + b1 + b2) (by omega) order hord
  cases orig with
  | true =>
    rw [e1] at h'
    cases h'
    exact ⟨⟨e2, e3, e4, e5⟩, Or.inl rfl⟩
  | false =>
    have hno : ¬ ∃ a d, Format.DependsDirectly es a d := fun hd => by rw [f1 hd] at h'; cases h'
    rw [f2 hno, e1] at h'
    cases h'
    exact ⟨⟨e2, e3, e4, e5⟩, Or.inr hno⟩

theorem mapFile_spec (t : Text) : (t = [] ∧ mapFile t = none) ∨ (t ≠ [] ∧ mapFile t = some t) := by
  unfold mapFile
  by_cases h : t = []
  · exact Or.inl ⟨h, if_pos h⟩
  · exact Or.inr ⟨h, if_neg h⟩

theorem aggregator_spec (y : Yaml) (n : Nat) : (y.scoreType = some (aggregatorOf y n)) ∨
    (y.scoreType = none ∧ n = 1 ∧ aggregatorOf y n = .sum) ∨ (y.scoreType = none ∧ n ≠ 1 ∧ aggregatorOf y n = .min) := by
  unfold aggregatorOf
  cases y.scoreType with
  | some a => exact Or.inl rfl
  | none =>
    by_cases h : n = 1
    · exact Or.inr (Or.inl ⟨rfl, h, by simp [h]⟩)
    · exact Or.inr (Or.inr ⟨rfl, h, by simp [h]⟩)

theorem made_taskOf (hreal : RealNames w) (hplain : Plain base) (hwf : w.fs.Wf) (hb : Writable base) {y : Yaml}
    {orig : Bool} {t : Task} (h : parseWith env w base order rounds y orig = .ok t)
    (hord : ∀ es, EntriesOf env w base t.kind es → Format.IterOrder es order) :
    ∃ es, EntriesOf env w base t.kind es ∧ TaskOf w base y es t ∧
      (orig = true ∨ ¬ ∃ a d, Format.DependsDirectly es a d) := by
  obtain ⟨es, l, v, hk, he, hl, hv, ht⟩ := parseWith_inv h
  have hes := (entries_iff hreal hplain hwf hb t.kind es).1 he
  have hw := entries_wellNumbered hes
  obtain ⟨hlf, hdep⟩ := load_from hw (hord es hes) hl
  have hcount := loaded_count hw hlf (load_wf hw hl)
  have hkind := (kind_exact hreal hplain hwf y t.kind).1 hk
  have hval := validator_of hreal hplain hwf hv
  obtain ⟨g1, g2⟩ := graders_left_out_partial (w := w) (base := base)
  refine ⟨es, hes, ?_, hdep⟩
  generalize t.kind = k at *
  subst ht
  exact
    { dir := rfl
      kind := hkind
      name := rfl
      title := rfl
      time := rfl
      memory := rfl
      infile := mapFile_spec _
      outfile := mapFile_spec _
      aggregator := hcount ▸ aggregator_spec y _
      precision := rfl
      loaded := hlf
      graders := g1
      allGraders := g2
      difficulty := rfl
      syllabus := rfl
      validator := hval }

/-- **C111** A task that is loaded is the one its directory describes: `task.yaml.orig`, or `task.yaml` if there is
no such file; the manager, the checker, the official solution and the validator found in the directory; and the
subtasks and the testcases of `gen/cases.gen`, `gen/GEN` or `input/`, the first of the three that is there.  Without a
`task.yaml.orig` no subtask depends on another. -/
theorem parse_sound (hreal : RealNames w) (hplain : Plain base) (hwf : w.fs.Wf) (hb : Writable base) {t : Task}
    (h : parseTask env w base order rounds = .ok t)
    (hord : ∀ es, EntriesOf env w base t.kind es → Format.IterOrder es order) :
    ∃ y orig es, YamlOf env w base y orig ∧ EntriesOf env w base t.kind es ∧ TaskOf w base y es t ∧
      (orig = true ∨ ¬ ∃ a d, Format.DependsDirectly es a d) := by
  obtain ⟨y, orig, hy, hp⟩ := parseTask_inv h
  obtain ⟨es, h1, h2, h3⟩ := made_taskOf hreal hplain hwf hb hp hord
  exact ⟨y, orig, es, readTaskYaml_iff.1 hy, h1, h2, h3⟩

/-- **C111** A directory that describes a task is loaded, whatever the iteration order of the hash maps. -/
theorem parse_total (hreal : RealNames w) (hplain : Plain base) (hwf : w.fs.Wf) (hb : Writable base) {y : Yaml}
    {orig : Bool} {k : Kind} {es : List Format.Entry} (hy : YamlOf env w base y orig) (hk : KindOf w base y k)
    (hes : EntriesOf env w base k es) (hdep : orig = true ∨ ¬ ∃ a d, Format.DependsDirectly es a d)
    (hval : ¬ ManyParts w base validators) :
    ∃ bound, ∀ rounds, bound ≤ rounds → ∀ order, Format.IterOrder es order →
      ∃ t, parseTask env w base order rounds = .ok t ∧ t.kind = k ∧ TaskOf w base y es t := by
  have hw := entries_wellNumbered hes
  obtain ⟨b1, h1⟩ := Format.load_closure hw
  obtain ⟨b2, h2⟩ := Format.load_without_orig hw
  refine ⟨b1 + b2, fun rounds hr order hord => ?_⟩
  obtain ⟨l, e1, _⟩ := h1 rounds (by omega) order hord
  have hl : Format.load orig order rounds es = some (.ok l) := by
    rcases hdep with rfl | hno
    · exact e1
    · cases orig with
      | true => exact e1
      | false => rw [(h2 rounds (by omega) order hord).2 hno]; exact e1
  have hvs : ∃ v, validatorSource w base = .ok v := by
    cases hv : validatorSource w base with
    | ok v => exact ⟨v, rfl⟩
    | error e => exact absurd (((validator_found hreal hplain hwf).2.2 e).1 hv).2 hval
  obtain ⟨v, hv⟩ := hvs
  have hk' := (kind_exact hreal hplain hwf y k).2 hk
  have he' := (entries_iff hreal hplain hwf hb k es).2 hes
  have hp : ∃ t, parseWith env w base order rounds y orig = .ok t ∧ t.kind = k := by
    unfold parseWith
    rw [hk']; dsimp only
    rw [he']; dsimp only
    rw [hl]; dsimp only
    rw [hv]
    exact ⟨_, rfl, rfl⟩
  obtain ⟨t, ht, htk⟩ := hp
  have hord' : ∀ es', EntriesOf env w base t.kind es' → Format.IterOrder es' order := by
    intro es' h'
    rw [htk] at h'
    have := (entries_iff hreal hplain hwf hb k es').2 h'
    rw [he'] at this
    cases this
    exact hord
  obtain ⟨es', a1, a2, _⟩ := made_taskOf hreal hplain hwf hb ht hord'
  rw [htk] at a1
  have := (entries_iff hreal hplain hwf hb k es').2 a1
  rw [he'] at this
  cases this
  refine ⟨t, ?_, htk, a2⟩
  unfold parseTask
  rw [readTaskYaml_iff.2 hy]
  exact ht

/-- **C111** Loading a task twice gives the same task: the iteration order of the hash maps does not matter. -/
theorem parse_order (hreal : RealNames w) (hplain : Plain base) (hwf : w.fs.Wf) (hb : Writable base) {t t' : Task}
    {order' : Nat → List Nat} {rounds' : Nat} (h : parseTask env w base order rounds = .ok t)
    (h' : parseTask env w base order' rounds' = .ok t')
    (hord : ∀ es, EntriesOf env w base t.kind es → Format.IterOrder es order ∧ Format.IterOrder es order') :
    (∀ i, t.subtasks.get? i = t'.subtasks.get? i) ∧ (∀ i, t.testcases.get? i = t'.testcases.get? i) ∧
      t' = { t with subtasks := t'.subtasks, testcases := t'.testcases } := by
  obtain ⟨y, orig, hy, hp⟩ := parseTask_inv h
  obtain ⟨y', orig', hy', hp'⟩ := parseTask_inv h'
  rw [hy] at hy'
  cases hy'
  obtain ⟨es, l, v, hk, he, hl, hv, ht⟩ := parseWith_inv hp
  obtain ⟨es', l', v', hk', he', hl', hv', ht'⟩ := parseWith_inv hp'
  rw [hk] at hk'
  injection hk' with hk'
  rw [← hk'] at he'
  rw [he] at he'
  cases he'
  rw [hv] at hv'
  cases hv'
  have hes := (entries_iff hreal hplain hwf hb t.kind es).1 he
  have hw := entries_wellNumbered hes
  have c1 := loaded_count hw (load_from hw (hord es hes).1 hl).1 (load_wf hw hl)
  have c2 := loaded_count hw (load_from hw (hord es hes).2 hl').1 (load_wf hw hl')
  obtain ⟨b, hbd⟩ := Format.load_order_independent hw (hord es hes).1 (hord es hes).2
  obtain ⟨l₁, l₂, e₁, e₂, e₃, e₄⟩ := hbd (b + rounds + rounds') (b + rounds + rounds') (by omega) (by omega)
  have hsame : l = l₁ ∧ l' = l₂ := by
    have m1 := load_mono (m := b + rounds + rounds') (by omega) hl
    have m2 := load_mono (m := b + rounds + rounds') (by omega) hl'
    cases orig with
    | true =>
      rw [e₁] at m1; rw [e₂] at m2
      cases m1; cases m2
      exact ⟨rfl, rfl⟩
    | false =>
      have hno := (load_from hw (hord es hes).1 hl).2
      have hno := hno.resolve_left (by simp)
      obtain ⟨b2, h2⟩ := Format.load_without_orig hw
      have n1 := load_mono (m := b + rounds + rounds' + b2) (by omega) hl
      have n2 := load_mono (m := b + rounds + rounds' + b2) (by omega) hl'
      rw [(h2 _ (by omega) order (hord es hes).1).2 hno, load_mono (m := b + rounds + rounds' + b2) (by omega) e₁] at n1
      rw [(h2 _ (by omega) order' (hord es hes).2).2 hno, load_mono (m := b + rounds + rounds' + b2) (by omega) e₂] at n2
      cases n1; cases n2
      exact ⟨rfl, rfl⟩
  obtain ⟨rfl, rfl⟩ := hsame
  rw [ht, ht']
  refine ⟨e₃, e₄, ?_⟩
  dsimp only
  rw [c1, c2, hk']

/-- **C111** The `task.yaml` that is written for a `task.yaml.orig` is accepted, and says the same task, if no
subtask depends on another. -/
theorem written_task (hreal : RealNames w) (hplain : Plain base) (hwf : w.fs.Wf) (hb : Writable base) {d : Doc}
    {n : Text} {y : Yaml} (hy : OrigSays d n y) {t : Task}
    (h : parseWith env w base order rounds y true = .ok t)
    (hord : ∀ es, EntriesOf env w base t.kind es → Format.IterOrder es order ∧ ¬ ∃ a d, Format.DependsDirectly es a d) :
    ∃ y', readYaml (madeYaml y t) = some y' ∧ ∃ bound, ∀ rounds, bound ≤ rounds →
      parseWith env w base order rounds y' false = .ok t := by
  refine ⟨{ y with scoreType := some t.aggregator, params := some (scoreParams t.subtasks) }, ?_, ?_⟩
  · unfold madeYaml
    rw [yaml_exact]
    refine write_says ?_ rfl
    have h := orig_inRange hy
    exact h
  · obtain ⟨es, l, v, hk, he, hl, hv, ht⟩ := parseWith_inv h
    have hes := (entries_iff hreal hplain hwf hb t.kind es).1 he
    have hw := entries_wellNumbered hes
    obtain ⟨b2, h2⟩ := Format.load_without_orig hw
    refine ⟨rounds + b2, fun rounds' hr => ?_⟩
    have hk' : parseKind w base { y with scoreType := some t.aggregator, params := some (scoreParams t.subtasks) } =
        .ok t.kind := hk
    unfold parseWith
    rw [hk']; dsimp only
    rw [he]; dsimp only
    rw [(h2 rounds' (by omega) order (hord es hes).1).2 (hord es hes).2, load_mono (by omega) hl]; dsimp only
    rw [hv]; dsimp only
    have ha : aggregatorOf { y with scoreType := some t.aggregator, params := some (scoreParams t.subtasks) } l.subtasks.length =
        t.aggregator := rfl
    rw [ha]
    conv => rhs; rw [ht]
    congr 1
    rw [ht]

/-! ## score_type_parameters -/

theorem pad3_spec (n : Nat) : Padded n (pad3 n) := by
  refine ⟨?_, 3 - (Nat.toDigits 10 n).length, rfl⟩
  show (List.replicate (3 - (Nat.toDigits 10 n).length) '0' ++ Nat.toDigits 10 n).length = _
  rw [List.length_append, List.length_replicate]
  omega

theorem sorted_keys {α : Type} {m : AMap Nat α} (hm : m.Wf) :
    ((isort (fun a b => decide (a.1 ≤ b.1)) m).map (·.1)).Pairwise (· < ·) := by
  have hperm := isort_perm (fun (a b : Nat × α) => decide (a.1 ≤ b.1)) m
  have hs : (isort (fun (a b : Nat × α) => decide (a.1 ≤ b.1)) m).Pairwise (fun a b => decide (a.1 ≤ b.1) = true) := by
    refine isort_sorted' ?_ ?_ m
    · intro a b
      simp only [decide_eq_true_eq]
      omega
    · intro a b c
      simp only [decide_eq_true_eq]
      omega
  have hn : ((isort (fun (a b : Nat × α) => decide (a.1 ≤ b.1)) m).map (·.1)).Nodup :=
    (hperm.map (fun e : Nat × α => e.1)).nodup_iff.2 hm
  rw [List.pairwise_map]
  have hn' := List.pairwise_map.1 hn
  refine (hs.and hn').imp ?_
  rintro a b ⟨h1, h2⟩
  simp only [decide_eq_true_eq] at h1
  omega

/-- **C111** The `task.yaml` that is written has, in the order of the subtasks, the points of each subtask and the
numbers of its testcases. -/
theorem written_params (y : Yaml) (t : Task) (hwf : t.subtasks.Wf) :
    ∃ ps, Says (madeYaml y t) ["score_type_parameters"] (.pairs ps) ∧ ParamsOf t.subtasks ps := by
  refine ⟨scoreParams t.subtasks, ⟨"score_type_parameters", by simp, ?_⟩, ?_⟩
  · unfold madeYaml writeYaml
    generalize "score_type_parameters".toList = k
    simp
  · have hperm := isort_perm (fun (a b : Nat × Format.Subtask) => decide (a.1 ≤ b.1)) t.subtasks
    refine ⟨(isort (fun a b => decide (a.1 ≤ b.1)) t.subtasks).map (·.1), sorted_keys hwf, ?_, ?_, ?_⟩
    · intro k
      rw [(hperm.map (·.1)).mem_iff]
      exact mem_keys_iff
    · unfold scoreParams
      simp
    · intro i k s hk hs
      rw [List.getElem?_map, Option.map_eq_some_iff] at hk
      obtain ⟨⟨k', s'⟩, he, rfl⟩ := hk
      have hm : (k', s') ∈ t.subtasks := hperm.mem_iff.1 (List.mem_of_getElem? he)
      have hs' : s' = s := by
        have := get?_of_mem hwf hm
        rw [this] at hs
        exact Option.some.inj hs
      subst hs'
      refine ⟨s'.testcases.map pad3, ?_, ?_, ?_⟩
      · unfold scoreParams
        rw [List.getElem?_map, he]
        rfl
      · simp
      · intro j n hj
        refine ⟨pad3 n, ?_, pad3_spec n⟩
        rw [List.getElem?_map, hj]
        rfl

/-- The subtasks of a task that is loaded are a map. -/
theorem parse_wf (hreal : RealNames w) (hplain : Plain base) (hwf : w.fs.Wf) (hb : Writable base) {t : Task}
    (h : parseTask env w base order rounds = .ok t) : t.subtasks.Wf := by
  obtain ⟨y, orig, hy, hp⟩ := parseTask_inv h
  obtain ⟨es, l, v, hk, he, hl, hv, ht⟩ := parseWith_inv hp
  have hes := (entries_iff hreal hplain hwf hb t.kind es).1 he
  rw [ht]
  exact load_wf (entries_wellNumbered hes) hl

/-- **C111** A task with a `task.yaml.orig` cannot be loaded from a path that ends with `..`. -/
theorem orig_panics {text : Text} {d : Doc} {n : Text} {y : Yaml} (hf : HasFile w base ["task.yaml.orig".toList] text)
    (hd : env.yaml text = some d) (hy : OrigSays d n y) (hlast : base.comps.getLast? = some dotdot) :
    parseTask env w base order rounds = .error .panic := by
  have hfile : ∀ n ∈ ["task.yaml.orig".toList], n ≠ dot ∧ n ≠ dotdot := by decide +kernel
  have hr := (read_file hfile).2 hf
  have he : w.exists (base.push "task.yaml.orig".toList) = true := by
    rw [← Bool.not_eq_false]
    intro h
    exact not_missing hf ((exists_file hfile).1 h)
  have hr' : w.read (base.push "task.yaml.orig".toList) = some text := hr
  obtain ⟨mk, hmk, _⟩ := (orig_exact d n y).2 hy
  have hfn : base.fileName = none := by
    unfold RPath.fileName
    rw [hlast]
    simp
  unfold parseTask readTaskYaml
  rw [if_pos he, hr']
  dsimp only [Option.bind]
  rw [hd]
  dsimp only
  rw [hmk]
  dsimp only
  rw [hfn]

end

/-! ## Concrete cases -/

theorem batch_ready : (sampleWorld batchFiles).fs.Wf ∧ RealNames (sampleWorld batchFiles) ∧ Plain samplePath ∧ Writable samplePath := by
  refine ⟨by unfold AMap.Wf; decide +kernel, by unfold RealNames; decide +kernel, by unfold Plain; decide +kernel, ?_⟩
  unfold Writable
  decide +kernel

theorem comm_ready : (sampleWorld commFiles).fs.Wf ∧ RealNames (sampleWorld commFiles) := by
  exact ⟨by unfold AMap.Wf; decide +kernel, by unfold RealNames; decide +kernel⟩

/-- What is interesting of a task. -/
structure Glance where
  name : String
  subtasks : List (Nat × Rat × List Nat)
  testcases : List Nat
  aggregator : Aggregator
  time : Option Rat
  deriving DecidableEq

def glance (r : Except Err Task) : Option Glance :=
  r.toOption.map (fun t => ⟨String.ofList t.name,
    List.map (fun (e : Nat × Format.Subtask) => (e.1, e.2.maxScore, e.2.testcases)) t.subtasks, t.testcases.keys, t.aggregator, t.time⟩)

/-- The error. -/
def errorOf {α : Type} : Except Err α → Option Err
  | .ok _ => none
  | .error e => some e

/-- Non-vacuity: both tasks are loaded. -/
theorem batch_loaded : glance (parseTask sampleEnv (sampleWorld batchFiles) samplePath (fun _ => [0, 1]) 2) =
    some ⟨"easy", [(1, 60, [1, 2]), (0, 40, [0])], [2, 1, 0], .min, some 2⟩ := by decide +kernel

theorem comm_loaded : glance (parseTask sampleEnv (sampleWorld commFiles) samplePath (fun _ => [0]) 2) =
    some ⟨"t", [(0, 100, [0, 1])], [1, 0], .sum, some (3 / 2)⟩ := by decide +kernel

/-- The kind of the batch task. -/
def batchKind : Kind :=
  .batch (some ⟨⟨true, [['t'], "sol".toList, "soluzione.cpp".toList]⟩, ⟨"C++", ["cpp", "cc", "c++"], true⟩, true,
      some ⟨true, [['t'], "bin".toList, "official_solution".toList]⟩, false, false⟩)
    (.custom ⟨⟨true, [['t'], "cor".toList, "correttore.cpp".toList]⟩, ⟨"C++", ["cpp", "cc", "c++"], true⟩, false,
      some ⟨true, [['t'], "cor".toList, "correttore".toList]⟩, true, true⟩)

theorem toOption_some {α β : Type} {r : Except β α} {a : α} (h : r.toOption = some a) : r = .ok a := by
  cases r with
  | error e => cases h
  | ok x => cases h; rfl

/-- Non-vacuity: the kind of the task and the iteration orders. -/
theorem batch_orders : ∃ t, parseTask sampleEnv (sampleWorld batchFiles) samplePath (fun i => if i = 0 then [0, 1] else [1, 0]) 2 = .ok t ∧
    t.kind = batchKind ∧
    ∀ es, EntriesOf sampleEnv (sampleWorld batchFiles) samplePath t.kind es →
      Format.IterOrder es (fun i => if i = 0 then [0, 1] else [1, 0]) ∧ ¬ ∃ a d, Format.DependsDirectly es a d := by
  have h : ((parseTask sampleEnv (sampleWorld batchFiles) samplePath (fun i => if i = 0 then [0, 1] else [1, 0]) 2).toOption.map (·.kind)) =
    some batchKind := by decide +kernel
  obtain ⟨t, ht, hk⟩ := Option.map_eq_some_iff.1 h
  refine ⟨t, toOption_some ht, hk, fun es hes => ?_⟩
  rw [hk] at hes
  obtain ⟨h1, h2, h3, h4⟩ := batch_ready
  have he := (entries_iff h2 h3 h1 h4 batchKind es).2 hes
  have hids : (readEntries sampleEnv (sampleWorld batchFiles) samplePath batchKind).toOption.map
      (fun es => (Format.stIds es, es.filterMap (fun e => match e with | .subtask s => some s.dependencies | .testcase _ => none))) =
      some ([0, 1], [[], []]) := by decide +kernel
  rw [he] at hids
  simp only [Except.toOption, Option.map_some, Option.some.injEq, Prod.mk.injEq] at hids
  constructor
  · intro i k
    rw [hids.1]
    dsimp only
    split
    · exact Iff.rfl
    · simp only [List.mem_cons, List.not_mem_nil, or_false]
      exact Or.comm
  · rintro ⟨a, d, s, hs, _, hd⟩
    have : s.dependencies ∈ es.filterMap (fun e => match e with | .subtask s => some s.dependencies | .testcase _ => none) :=
      List.mem_filterMap.2 ⟨_, hs, rfl⟩
    rw [hids.2] at this
    simp only [List.mem_cons, List.not_mem_nil, or_false, or_self] at this
    rw [this] at hd
    cases hd

def subtaskValidator : Format.Entry → Option Format.Validator
  | .subtask s => some s.validator
  | .testcase _ => none

/-- Two validators are an error even if `gen/cases.gen` does not use them: the rest of the task can be loaded. -/
theorem validators_of_cases_refused : ∃ (env : Env) (w : World) (base : RPath) (k : Kind) (es : List Format.Entry),
    (∃ y orig, YamlOf env w base y orig ∧ KindOf w base y k) ∧ EntriesOf env w base k es ∧ es.length = 3 ∧
    (∀ e ∈ es, ∀ s, e = .subtask s → s.validator = .assumeValid) ∧
    ∀ order rounds t, parseTask env w base order rounds ≠ .ok t := by
  have hwf : (sampleWorld casesFiles).fs.Wf := by unfold AMap.Wf; decide +kernel
  have hreal : RealNames (sampleWorld casesFiles) := by unfold RealNames; decide +kernel
  obtain ⟨_, _, hplain, hb⟩ := batch_ready
  have h1 : ((readTaskYaml sampleEnv (sampleWorld casesFiles) samplePath).toOption.bind
      (fun r => (parseKind (sampleWorld casesFiles) samplePath r.1).toOption)) = some (.batch none .whiteDiff) := by decide +kernel
  obtain ⟨r, hr, hk⟩ := Option.bind_eq_some_iff.1 h1
  have h2 : (readEntries sampleEnv (sampleWorld casesFiles) samplePath (.batch none .whiteDiff)).toOption.map
      (fun es => (es.length, es.filterMap subtaskValidator)) = some (3, [.assumeValid]) := by decide +kernel
  obtain ⟨es, hes, hes2⟩ := Option.map_eq_some_iff.1 h2
  simp only [Prod.mk.injEq] at hes2
  refine ⟨sampleEnv, sampleWorld casesFiles, samplePath, .batch none .whiteDiff, es,
    ⟨r.1, r.2, readTaskYaml_iff.1 (toOption_some hr), (kind_exact hreal hplain hwf _ _).1 (toOption_some hk)⟩,
    (entries_iff hreal hplain hwf hb _ _).1 (toOption_some hes), hes2.1, ?_, ?_⟩
  · rintro e he s rfl
    have : s.validator ∈ es.filterMap subtaskValidator := List.mem_filterMap.2 ⟨_, he, rfl⟩
    rw [hes2.2] at this
    simpa using this
  · intro order rounds t ht
    obtain ⟨y, orig, _, hp⟩ := parseTask_inv ht
    obtain ⟨_, _, v, _, _, _, hv, _⟩ := parseWith_inv hp
    have : (validatorSource (sampleWorld casesFiles) samplePath).toOption.isNone = true := by decide +kernel
    rw [hv] at this
    cases this

/-- A task is refused because of an old version of its solution. -/
theorem backup_refused : ∃ (w : World) (base : RPath) (y : Yaml), w.fs.Wf ∧ RealNames w ∧ Plain base ∧
    HasEntry w base "sol".toList "solution.cpp".toList ∧ HasEntry w base "sol".toList "solution.old.cpp".toList ∧
    parseKind w base y = .error .multipleSolutions ∧
    ∀ k, ¬ KindOf w base y k := by
  have hwf : (sampleWorld backupFiles).fs.Wf := by unfold AMap.Wf; decide +kernel
  have hreal : RealNames (sampleWorld backupFiles) := by unfold RealNames; decide +kernel
  obtain ⟨_, _, hplain, hb⟩ := batch_ready
  have hy : ((readTaskYaml sampleEnv (sampleWorld backupFiles) samplePath).toOption.map
      (fun r => errorOf (parseKind (sampleWorld backupFiles) samplePath r.1))) = some (some .multipleSolutions) := by
    decide +kernel
  obtain ⟨r, _, hk⟩ := Option.map_eq_some_iff.1 hy
  have hk' : parseKind (sampleWorld backupFiles) samplePath r.1 = .error .multipleSolutions := by
    unfold errorOf at hk
    split at hk
    · cases hk
    · next h => cases hk; exact h
  refine ⟨sampleWorld backupFiles, samplePath, r.1, hwf, hreal, hplain, ?_, ?_, hk', ?_⟩
  · unfold HasEntry; decide +kernel
  · unfold HasEntry; decide +kernel
  · intro k h
    rw [(kind_exact hreal hplain hwf _ _).2 h] at hk'
    cases hk'

/-- Non-vacuity: a `task.yaml.orig` in the directory above, and `tm -t ..`. -/
example : ∃ text d n y, HasFile { sampleWorld commFiles with cwd := [['t'], "check".toList] } ⟨false, [dotdot]⟩ ["task.yaml.orig".toList] text ∧
    sampleEnv.yaml text = some d ∧ OrigSays d n y := by
  have h : (readOrig sampleOrig).isSome = true := by decide +kernel
  obtain ⟨mk, hmk⟩ := Option.isSome_iff_exists.1 h
  refine ⟨"orig".toList, sampleOrig, [], mk [], ?_, by decide +kernel, (orig_exact _ _ _).1 ⟨mk, hmk, rfl⟩⟩
  unfold HasFile
  decide +kernel

/-- Non-vacuity: the parameters that are written. -/
example : (parseTask sampleEnv (sampleWorld batchFiles) samplePath (fun _ => [0, 1]) 2).toOption.map (fun t => scoreParams t.subtasks) =
    some [(40, "000".toList), (60, "001|002".toList)] := by decide +kernel

/-- Non-vacuity of `written_task`: the task with a `task.yaml.orig`. -/
example : ∃ d n y t, OrigSays d n y ∧ parseWith sampleEnv (sampleWorld commFiles) samplePath (fun _ => [0]) 2 y true = .ok t ∧
    t.testcases.length = 2 ∧
    ∀ es, EntriesOf sampleEnv (sampleWorld commFiles) samplePath t.kind es →
      Format.IterOrder es (fun _ => [0]) ∧ ¬ ∃ a d, Format.DependsDirectly es a d := by
  have h0 : ((readOrig sampleOrig).bind (fun mk =>
      (parseWith sampleEnv (sampleWorld commFiles) samplePath (fun _ => [0]) 2 (mk ['t']) true).toOption.bind (fun t =>
        (readEntries sampleEnv (sampleWorld commFiles) samplePath t.kind).toOption.map
          (fun es => (t.testcases.length, Format.stIds es,
            es.filterMap (fun e => match e with | .subtask s => some s.dependencies | .testcase _ => none)))))) =
      some (2, [0], [[]]) := by decide +kernel
  obtain ⟨mk, hmk, h1⟩ := Option.bind_eq_some_iff.1 h0
  obtain ⟨t, ht, h2⟩ := Option.bind_eq_some_iff.1 h1
  obtain ⟨es0, hes0, h3⟩ := Option.map_eq_some_iff.1 h2
  simp only [Prod.mk.injEq] at h3
  obtain ⟨k1, k2⟩ := comm_ready
  obtain ⟨_, _, k3, k4⟩ := batch_ready
  refine ⟨sampleOrig, ['t'], mk ['t'], t, (orig_exact _ _ _).1 ⟨mk, hmk, rfl⟩, toOption_some ht, h3.1, fun es hes => ?_⟩
  have he := (entries_iff k2 k3 k1 k4 t.kind es).2 hes
  rw [he] at hes0
  have hsame : es = es0 := Option.some.inj hes0
  subst hsame
  refine ⟨fun i k => by rw [h3.2.1], ?_⟩
  rintro ⟨a, d, s, hs, _, hd⟩
  have : s.dependencies ∈ es.filterMap (fun e => match e with | .subtask s => some s.dependencies | .testcase _ => none) :=
    List.mem_filterMap.2 ⟨_, hs, rfl⟩
  rw [h3.2.2] at this
  simp only [List.mem_cons, List.not_mem_nil, or_false] at this
  rw [this] at hd
  cases hd

end TM.Parse
