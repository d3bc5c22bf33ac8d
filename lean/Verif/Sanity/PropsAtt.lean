import Verif.Sanity.AttLemmas
import Verif.Sanity.PropsGraders
import Verif.Disk.Listed
/-!
# C135: the samples among the attachments are checked; C136: directories, templates and links
-/
namespace TM.Sanity.Att
open TM.Disk TM.Sanity TM.Ui

variable {d : Disk} {att : Path} {names : List Name} {inputs : Option (List (Option Path))}

/-! ## C135 -/

/-- **C135** The samples that are broken links, those that are not links, and that there are none, are reported exactly when
it is so. -/
theorem samples_exact (hd : Roomy d) :
    (∀ name target, Says.broken name target ∈ samples d att names inputs ↔
      name ∈ names ∧ IsSample name ∧ BrokenAt d (att ++ [name]) target) ∧
    (∀ name, Says.notLink name ∈ samples d att names inputs ↔
      name ∈ names ∧ IsSample name ∧ ∀ target, ¬ LinkAt d (att ++ [name]) target) ∧
    (Says.noSample ∈ samples d att names inputs ↔ ∀ name ∈ names, ¬ IsSample name) := by
  have hno : ∀ {s a b}, s ∈ differ a b → ∀ n t, s ≠ .broken n t ∧ s ≠ .notLink n ∧ s ≠ .noSample := by
    intro s a b h n t
    rcases differ_kind h with ⟨l, rfl⟩ | ⟨l, rfl⟩ <;> exact ⟨nofun, nofun, nofun⟩
  refine ⟨fun name target => ?_, fun name => ?_, ?_⟩
  · rw [mem_samples]
    constructor
    · rintro (⟨n, h1, h2, h3⟩ | h | ⟨-, h⟩)
      · unfold sampleSays at h3
        split at h3
        · rename_i t ht
          split at h3
          · rename_i hn
            cases List.mem_singleton.1 h3
            refine ⟨h1, h2, (readLink_iff hd).1 ht, fun ⟨r, hr⟩ => ?_⟩
            rw [(canon_iff hd).2 hr] at hn
            cases hn
          · cases h3
        · cases List.mem_singleton.1 h3
      · exact absurd rfl (hno h name target).1
      · cases h
    · rintro ⟨h1, h2, h3, h4⟩
      refine .inl ⟨name, h1, h2, ?_⟩
      unfold sampleSays
      rw [(readLink_iff hd).2 h3]
      dsimp only
      rw [(canon_none hd).2 (fun r hr => h4 ⟨r, hr⟩)]
      exact List.mem_singleton.2 rfl
  · rw [mem_samples]
    constructor
    · rintro (⟨n, h1, h2, h3⟩ | h | ⟨-, h⟩)
      · unfold sampleSays at h3
        split at h3
        · split at h3
          · cases List.mem_singleton.1 h3
          · cases h3
        · rename_i hn
          cases List.mem_singleton.1 h3
          refine ⟨h1, h2, fun t ht => ?_⟩
          rw [(readLink_iff hd).2 ht] at hn
          cases hn
      · exact absurd rfl (hno h name []).2.1
      · cases h
    · rintro ⟨h1, h2, h3⟩
      refine .inl ⟨name, h1, h2, ?_⟩
      unfold sampleSays
      split
      · exact absurd ((readLink_iff hd).1 ‹_›) (h3 _)
      · exact List.mem_singleton.2 rfl
  · rw [mem_samples]
    constructor
    · rintro (⟨n, h1, h2, h3⟩ | h | ⟨h, -⟩)
      · rcases sampleSays_kind h3 with ⟨t, h⟩ | h <;> cases h
      · exact absurd rfl (hno h [] []).2.2
      · exact h
    · exact fun h => .inr (.inr ⟨h, rfl⟩)

/-- **C135** A sample of the task is said to be missing from the attachments exactly when it is, and the other way; but
only if the real names of the inputs, and only them, contain `input`. -/
theorem missing_exact_partial (hd : Roomy d) (hn : Named d att names) (file : Path) :
    ((∃ l, Says.missingAtt l ∈ samples d att names inputs ∧ file ∈ l) ↔ InTask d inputs file ∧ ¬ InAtt d att names file) ∧
    ((∃ l, Says.missingTask l ∈ samples d att names inputs ∧ file ∈ l) ↔
      (∃ f, InTask d inputs f) ∧ InAtt d att names file ∧ ¬ InTask d inputs file) := by
  constructor
  · rw [← mem_inAtt hd hn, ← mem_taskSamples hd, ← mem_differ_att]
    constructor
    · rintro ⟨l, h, hf⟩
      rcases mem_samples.1 h with ⟨n, h1, h2, h3⟩ | h | ⟨-, h⟩
      · rcases sampleSays_kind h3 with ⟨t, h⟩ | h <;> cases h
      · exact ⟨l, h, hf⟩
      · cases h
    · rintro ⟨l, h, hf⟩
      exact ⟨l, mem_samples.2 (.inr (.inl h)), hf⟩
  · have hne : (∃ f, InTask d inputs f) ↔ taskSamples d inputs ≠ [] := by
      constructor
      · rintro ⟨f, hf⟩ e
        have := (mem_taskSamples hd).2 hf
        rw [e] at this
        cases this
      · intro h
        obtain ⟨f, hf⟩ := List.exists_mem_of_ne_nil _ h
        exact ⟨f, (mem_taskSamples hd).1 hf⟩
    rw [hne, ← mem_inAtt hd hn, ← mem_taskSamples hd, ← mem_differ_task]
    constructor
    · rintro ⟨l, h, hf⟩
      rcases mem_samples.1 h with ⟨n, h1, h2, h3⟩ | h | ⟨-, h⟩
      · rcases sampleSays_kind h3 with ⟨t, h⟩ | h <;> cases h
      · exact ⟨l, h, hf⟩
      · cases h
    · rintro ⟨l, h, hf⟩
      exact ⟨l, mem_samples.2 (.inr (.inl h)), hf⟩

/-- **C135** If nothing is said, the samples of the task are the inputs among the attachments. -/
theorem samples_same (hd : Roomy d) (hn : Named d att names) (h : samples d att names inputs = []) (ht : ∃ f, InTask d inputs f)
    (file : Path) : InTask d inputs file ↔ InAtt d att names file := by
  have h1 := missing_exact_partial (inputs := inputs) hd hn file
  rw [h] at h1
  constructor
  · intro a
    refine Classical.byContradiction fun b => ?_
    obtain ⟨l, hl, -⟩ := h1.1.2 ⟨a, b⟩
    cases hl
  · intro a
    refine Classical.byContradiction fun b => ?_
    obtain ⟨l, hl, -⟩ := h1.2.2 ⟨ht, a, b⟩
    cases hl

/-! ## C136 -/

/-- **C136** The directories among the attachments are reported exactly, if no attachment leads nowhere; if one does, it is
found, and what is reported is a directory anyway. -/
theorem directories_exact_partial (hd : Roomy d) (names : List Name) :
    (∀ name ∈ (directories d att names).1, name ∈ names ∧ DirAt d (att ++ [name])) ∧
    ((directories d att names).2 = none ↔ ∀ name ∈ names, ∃ r, LeadsTo d (att ++ [name]) r) ∧
    ((∀ name ∈ names, ∃ r, LeadsTo d (att ++ [name]) r) →
      ∀ name, name ∈ (directories d att names).1 ↔ name ∈ names ∧ DirAt d (att ++ [name])) := by
  induction names with
  | nil => exact ⟨nofun, by simp [directories], fun _ => by simp [directories]⟩
  | cons name names ih =>
    obtain ⟨h1, h2, h3⟩ := ih
    simp only [directories]
    cases hc : d.canonicalize (att ++ [name]) with
    | none =>
      have hn := (canon_none hd).1 hc
      refine ⟨nofun, ⟨nofun, fun h => ?_⟩, fun h => ?_⟩ <;>
      · obtain ⟨r, hr⟩ := h name (by simp)
        exact absurd hr (hn r)
    | some path =>
      have hl := (canon_iff hd).1 hc
      have hdir : d.isDir path = true ↔ DirAt d (att ++ [name]) := by rw [isDir_iff hd, dirAt_real hl]
      dsimp only
      have hmem : ∀ n, n ∈ (if d.isDir path = true then name :: (directories d att names).1 else (directories d att names).1) ↔
          (n = name ∧ DirAt d (att ++ [name])) ∨ n ∈ (directories d att names).1 := by
        intro n
        split
        · rename_i h
          simp [hdir.1 h]
        · rename_i h
          have h' : ¬ DirAt d (att ++ [name]) := fun h' => h (hdir.2 h')
          simp only [h', and_false, false_or]
      refine ⟨fun n hn => ?_, ?_, fun h n => ?_⟩
      · rcases (hmem n).1 hn with ⟨rfl, h⟩ | h
        · exact ⟨by simp, h⟩
        · exact ⟨by simp [(h1 n h).1], (h1 n h).2⟩
      · rw [h2]
        constructor
        · intro h n hn
          rcases List.mem_cons.1 hn with rfl | hn
          · exact ⟨_, hl⟩
          · exact h n hn
        · exact fun h n hn => h n (by simp [hn])
      · rw [hmem, h3 (fun n hn => h n (by simp [hn]))]
        constructor
        · rintro (⟨rfl, h⟩ | ⟨h, h'⟩)
          · exact ⟨by simp, h⟩
          · exact ⟨by simp [h], h'⟩
        · rintro ⟨h, h'⟩
          rcases List.mem_cons.1 h with rfl | h
          · exact .inl ⟨rfl, h'⟩
          · exact .inr ⟨h, h'⟩

/-- The extension of a name. -/
def HasExt (name ext : Name) : Prop := ∃ stem, name = stem ++ '.' :: ext ∧ stem ≠ [] ∧ '.' ∉ ext ∧ name ≠ "..".toList

theorem hasExt_iff {name ext : Name} : (splitDot name).2 = some ext ↔ HasExt name ext := by
  constructor
  · intro h
    obtain ⟨h1, h2, h3⟩ := splitDot_some (f := name) (s := (splitDot name).1) (e := ext) (by rw [← h])
    refine ⟨_, h1, h2, h3, fun e => ?_⟩
    rw [e] at h
    revert h
    have : (splitDot "..".toList).2 = none := by decide +kernel
    rw [this]
    exact nofun
  · rintro ⟨stem, rfl, h1, h2, h3⟩
    rw [splitDot_of h1 h2 h3]

/-- **C136** The templates that are missing from the attachments are reported exactly, with their graders. -/
theorem templates_exact (hd : Roomy d) {task : Name} : ∀ {graders : List Name}, (∀ g ∈ graders, ∃ e, HasExt g e) →
    ∃ l, templates d att task graders = some l ∧ ∀ t g, (t, g) ∈ l ↔
      g ∈ graders ∧ ∃ e, HasExt g e ∧ t = task ++ '.' :: e ∧ ¬ ∃ r, LeadsTo d (att ++ [t]) r
  | [], _ => ⟨[], rfl, by simp⟩
  | grader :: graders, h => by
    obtain ⟨l, h1, h2⟩ := templates_exact hd (task := task) (graders := graders) (fun g hg => h g (List.mem_cons_of_mem _ hg))
    obtain ⟨ext, he⟩ := h grader (by simp)
    have huniq : ∀ e, HasExt grader e → e = ext := by
      intro e h'
      have a := hasExt_iff.2 h'
      rw [hasExt_iff.2 he] at a
      exact (Option.some.inj a).symm
    simp only [templates, hasExt_iff.2 he, h1]
    refine ⟨_, rfl, fun t g => ?_⟩
    have hex := exists_iff hd (p := att ++ [templateName task ext])
    have key : ∀ X : Prop, (g = grader ∧ ∃ e, HasExt g e ∧ t = task ++ '.' :: e ∧ ¬ ∃ r, LeadsTo d (att ++ [t]) r) ↔
        ((t, g) = (templateName task ext, grader) ∧ ¬ ∃ r, LeadsTo d (att ++ [templateName task ext]) r) := by
      intro _
      constructor
      · rintro ⟨rfl, e, h3, rfl, h4⟩
        cases huniq e h3
        exact ⟨rfl, h4⟩
      · rintro ⟨h3, h4⟩
        cases h3
        exact ⟨rfl, ext, he, rfl, h4⟩
    have key := key True
    rw [List.mem_cons, or_and_right, key, ← h2 t g]
    split
    · rename_i h'
      constructor
      · exact .inr
      · rintro (⟨-, h''⟩ | h'')
        · exact absurd (hex.1 h') h''
        · exact h''
    · rename_i h'
      rw [List.mem_cons]
      exact or_congr ⟨fun e => ⟨e, fun h'' => h' (hex.2 h'')⟩, And.left⟩ Iff.rfl

/-- **C136** The check of the templates fails exactly when some grader has no extension. -/
theorem templates_none {task : Name} : ∀ {graders : List Name}, templates d att task graders = none ↔
    ∃ g ∈ graders, ∀ e, ¬ HasExt g e
  | [] => by simp [templates]
  | grader :: graders => by
    have ih : templates d att task graders = none ↔ ∃ g ∈ graders, ∀ e, ¬ HasExt g e := templates_none
    simp only [templates, List.mem_cons, exists_eq_or_imp, ← ih]
    cases he : (splitDot grader).2 with
    | none =>
      refine ⟨fun _ => .inl (fun e h => ?_), fun _ => rfl⟩
      rw [hasExt_iff.2 h] at he
      cases he
    | some ext =>
      dsimp only
      have hx := hasExt_iff.1 he
      cases templates d att task graders with
      | none => exact ⟨fun _ => .inr rfl, fun _ => rfl⟩
      | some l => exact ⟨nofun, fun h => h.elim (fun h => absurd hx (h ext)) nofun⟩

/-- The graders of a task have an extension, and are graders of some language. -/
theorem grader_lang (files : List Name) : ∀ p ∈ taskGraders files, ∃ l, detectLanguage p.2 = some l := by
  unfold taskGraders graderMap
  generalize (files.filter (wildMatch "grader.*".toList) ++ files.filter (wildMatch "stub.*".toList)) = gs
  have key : ∀ (gs : List Name) (m : AMap String Name), (∀ p ∈ m, ∃ l, detectLanguage p.2 = some l) →
      ∀ p ∈ gs.foldl (fun m g => match detectLanguage g with
        | none => m
        | some l => m.insert l.name g) m, ∃ l, detectLanguage p.2 = some l := by
    intro gs
    induction gs with
    | nil => exact fun m h => h
    | cons g gs ih =>
      intro m h
      rw [List.foldl_cons]
      refine ih _ ?_
      split
      · exact h
      · rename_i l hl
        intro p hp
        rcases List.mem_cons.1 hp with rfl | hp
        · exact ⟨l, hl⟩
        · exact h p (List.mem_filter.1 hp).1
  exact key gs [] nofun

theorem lang_ext {g : Name} {l : Language} (h : detectLanguage g = some l) : ∃ e, HasExt g e := by
  obtain ⟨hl, stem, ext, rfl, h1, h2, e, he, h3⟩ := (language_exact g l).1 h
  refine ⟨ext, stem, rfl, h1, h2, fun h4 => ?_⟩
  have hne := (extensions_nonempty l hl e he).1
  have : ext = [] := by
    cases stem with
    | nil => exact absurd rfl h1
    | cons a stem =>
      have := congrArg List.length h4
      simp only [List.cons_append, List.length_cons, List.length_append] at this
      have h5 : "..".toList.length = 2 := by decide +kernel
      rw [h5] at this
      exact List.length_eq_zero_iff.1 (by omega)
  rw [this] at h3
  exact hne h3.symm

/-- **C136** The check of the templates of a task never fails, and for each language with a grader among the solutions it
looks for the template with the extension of one of the graders. -/
theorem templates_task (hd : Roomy d) (task : Name) (files : List Name) :
    ∃ l, templates d att task (AMap.values (taskGraders files)) = some l ∧
      (∀ t g, (t, g) ∈ l → g ∈ files ∧ ∃ e, HasExt g e ∧ t = task ++ '.' :: e ∧ ¬ ∃ r, LeadsTo d (att ++ [t]) r) ∧
      ∀ lang ∈ knownLanguages, (∃ g ∈ files, GraderIn lang g) → ∃ g ∈ files, GraderIn lang g ∧
        ∃ e, HasExt g e ∧ ((task ++ '.' :: e, g) ∈ l ↔ ¬ ∃ r, LeadsTo d (att ++ [task ++ '.' :: e]) r) := by
  have hv : ∀ g ∈ AMap.values (taskGraders files), ∃ l, detectLanguage g = some l := by
    intro g hg
    obtain ⟨p, hp, rfl⟩ := List.mem_map.1 hg
    exact grader_lang files p hp
  obtain ⟨l, h1, h2⟩ := templates_exact (att := att) hd (task := task) (fun g hg => (hv g hg).elim (fun _ h => lang_ext h))
  have hget : ∀ lang ∈ knownLanguages, (taskGraders files).get? lang.name = _ := fun lang hl => graderMap_get _ lang hl
  have hval : ∀ g ∈ AMap.values (taskGraders files), g ∈ files := by
    intro g hg
    obtain ⟨p, hp, rfl⟩ := List.mem_map.1 hg
    have key : ∀ (gs : List Name) (m : AMap String Name), (∀ q ∈ m, q.2 ∈ files) → (∀ x ∈ gs, x ∈ files) →
        ∀ q ∈ gs.foldl (fun m g => match detectLanguage g with
          | none => m
          | some l => m.insert l.name g) m, q.2 ∈ files := by
      intro gs
      induction gs with
      | nil => exact fun m h _ => h
      | cons x gs ih =>
        intro m h hx
        rw [List.foldl_cons]
        refine ih _ ?_ (fun y hy => hx y (List.mem_cons_of_mem _ hy))
        split
        · exact h
        · intro q hq
          rcases List.mem_cons.1 hq with rfl | hq
          · exact hx _ List.mem_cons_self
          · exact h q (List.mem_filter.1 hq).1
    exact key _ [] nofun (fun x hx => (mem_graders.1 hx).1) p hp
  refine ⟨l, h1, fun t g h => ?_, fun lang hl ⟨g0, hg0, hgr⟩ => ?_⟩
  · obtain ⟨a, b⟩ := (h2 t g).1 h
    exact ⟨hval g a, b⟩
  · have hg := hget lang hl
    generalize hgs : (files.filter (wildMatch "grader.*".toList) ++ files.filter (wildMatch "stub.*".toList)) = gs at hg
    have hmem : g0 ∈ gs.filter (fun g => detectLanguage g = some lang) := by
      rw [List.mem_filter, decide_eq_true_eq, ← hgs]
      exact ⟨mem_graders.2 ⟨hg0, hgr.2⟩, (language_exact g0 lang).2 hgr.1⟩
    cases hlast : (gs.filter (fun g => detectLanguage g = some lang)).getLast? with
    | none =>
      rw [List.getLast?_eq_none_iff.1 hlast] at hmem
      cases hmem
    | some g =>
      rw [hlast] at hg
      have hgm := List.mem_of_getLast? hlast
      rw [List.mem_filter, decide_eq_true_eq, ← hgs] at hgm
      obtain ⟨e, he⟩ := lang_ext hgm.2
      refine ⟨g, (mem_graders.1 hgm.1).1, ⟨(language_exact g lang).1 hgm.2, (mem_graders.1 hgm.1).2⟩, e, he, ?_⟩
      rw [h2]
      constructor
      · rintro ⟨-, e', h3, h4, h5⟩
        exact h5
      · intro h3
        exact ⟨List.mem_map.2 ⟨_, AMap.mem_of_get? hg, rfl⟩, e, he, rfl, h3⟩

/-- **C136** The templates among the solutions that are not links are reported exactly, with the file they should point
to. -/
theorem solTemplates_exact (hd : Roomy d) {sol : Path} {task : Name} (name target : Name) :
    (name, target) ∈ solTemplates d sol task names ↔
      name ∈ names ∧ (∃ ext, name = "template.".toList ++ ext) ∧ (∀ t, ¬ LinkAt d (sol ++ [name]) t) ∧
        ∃ ext, HasExt name ext ∧ target = task ++ '.' :: ext := by
  have hg : Glob "template.*".toList name ↔ ∃ ext, name = "template.".toList ++ ext := by
    have e : "template.*".toList = "template.".toList ++ ['*'] := by decide +kernel
    rw [e, glob_literal _ _ _ (by decide +kernel)]
    exact ⟨fun ⟨g, h, _⟩ => ⟨g, h⟩, fun ⟨g, h⟩ => ⟨g, h, glob_star g⟩⟩
  unfold solTemplates
  rw [List.mem_flatMap, ← hg]
  constructor
  · rintro ⟨n, h1, h2⟩
    rw [List.mem_filter, wildMatch_iff] at h1
    split at h2
    · cases h2
    · rename_i ext he
      split at h2
      · cases h2
      · rename_i hl
        cases List.mem_singleton.1 h2
        exact ⟨h1.1, h1.2, fun t ht => hl (by rw [(readLink_iff hd).2 ht]; rfl), ext, hasExt_iff.1 he, rfl⟩
  · rintro ⟨h1, h2, h3, ext, h4, rfl⟩
    refine ⟨name, List.mem_filter.2 ⟨h1, (wildMatch_iff _ _).2 h2⟩, ?_⟩
    rw [hasExt_iff.2 h4]
    dsimp only
    cases hl : d.readLink (sol ++ [name]) with
    | none => exact List.mem_singleton.2 rfl
    | some t => exact absurd ((readLink_iff hd).1 hl) (h3 t)

/-- **C136** The links of the task that lead nowhere are reported exactly, but those in `fuzz`. -/
theorem brokenLinks_exact (hd : Roomy d) {task : Path} {files : List Path} (file target : Path) :
    (file, target) ∈ brokenLinks d task files ↔
      file ∈ files ∧ file.head? ≠ some "fuzz".toList ∧ BrokenAt d (task ++ file) target := by
  unfold brokenLinks BrokenAt
  rw [List.mem_flatMap]
  constructor
  · rintro ⟨f, h1, h2⟩
    split at h2
    · cases h2
    · rename_i he
      split at h2
      · cases h2
      · rename_i hf
        split at h2
        · rename_i t ht
          cases List.mem_singleton.1 h2
          exact ⟨h1, hf, (readLink_iff hd).1 ht, fun h => he ((exists_iff hd).2 h)⟩
        · cases h2
  · rintro ⟨h1, h2, h3, h4⟩
    refine ⟨file, h1, ?_⟩
    rw [if_neg (fun h => h4 ((exists_iff hd).1 h)), if_neg h2, (readLink_iff hd).2 h3]
    exact List.mem_singleton.2 rfl

/-! ## Where the code differs, and examples -/

def P (l : List String) : Path := l.map String.toList

/-- A task with a linked sample, one that is not a link, and a broken one. -/
def attNodes : List (Path × Node) :=
  [(P ["t"], .dir), (P ["t", "att"], .dir), (P ["t", "statement"], .dir), (P ["t", "sol"], .dir),
   (P ["t", "statement", "input0.txt"], .file "1".toList),
   (P ["t", "statement", "output0.txt"], .file "2".toList),
   (P ["t", "statement", "input1.txt"], .file "3".toList),
   (P ["t", "att", "input0.txt"], .link (P ["t", "statement", "input0.txt"])),
   (P ["t", "att", "output0.txt"], .file "2".toList),
   (P ["t", "att", "dir"], .dir),
   (P ["t", "att", "t.cpp"], .file []),
   (P ["t", "sol", "template.cpp"], .link (P ["t", "att", "t.cpp"])),
   (P ["t", "sol", "template.py"], .file [])]

def attDisk : Disk := listed attNodes
theorem attDisk_roomy : Roomy attDisk := listed_roomy (by decide +kernel)

def attNames : List Name := ["dir".toList, "input0.txt".toList, "output0.txt".toList, "t.cpp".toList]

def attInputs : Option (List (Option Path)) :=
  some [some (P ["t", "statement", "input0.txt"]), some (P ["t", "statement", "input1.txt"])]

theorem att_leads {p r : Path} (h : LeadsTo attDisk p r) : attDisk.canonicalize p = some r := attDisk_roomy p r h

theorem att_named : Named attDisk (P ["t", "att"]) attNames := by
  intro name hn file hl
  have h := att_leads hl
  simp only [attNames, List.mem_cons, List.not_mem_nil, or_false] at hn
  simp only [← wildMatch_iff]
  rcases hn with rfl | rfl | rfl | rfl
  · exact ⟨fun h => absurd h (by decide +kernel), fun _ h => absurd h (by decide +kernel)⟩
  · have : attDisk.canonicalize (P ["t", "att"] ++ ["input0.txt".toList]) = some (P ["t", "statement", "input0.txt"]) := by
      decide +kernel
    rw [this] at h
    cases h
    exact ⟨fun _ => ⟨"input0.txt".toList, by decide +kernel, by decide +kernel⟩, fun h => absurd (by decide +kernel) h⟩
  · have : attDisk.canonicalize (P ["t", "att"] ++ ["output0.txt".toList]) = some (P ["t", "att", "output0.txt"]) := by
      decide +kernel
    rw [this] at h
    cases h
    refine ⟨fun h => absurd h (by decide +kernel), fun _ _ c hc => ?_⟩
    have : (P ["t", "att", "output0.txt"]).getLast? = some "output0.txt".toList := by decide +kernel
    rw [this] at hc
    cases hc
    decide +kernel
  · exact ⟨fun h => absurd h (by decide +kernel), fun _ h => absurd h (by decide +kernel)⟩

example : samples attDisk (P ["t", "att"]) attNames attInputs =
    [.notLink "output0.txt".toList, .missingAtt [P ["t", "statement", "input1.txt"]]] := by decide +kernel

/-- The theorem on the files, on a case. -/
example : InTask attDisk attInputs (P ["t", "statement", "input1.txt"]) ∧
    ¬ InAtt attDisk (P ["t", "att"]) attNames (P ["t", "statement", "input1.txt"]) :=
  (missing_exact_partial attDisk_roomy att_named _).1.1
    ⟨[P ["t", "statement", "input1.txt"]], by decide +kernel, by decide +kernel⟩

/-- Nothing is said when there is only the first sample. -/
example : samples attDisk (P ["t", "att"]) ["input0.txt".toList] (some [some (P ["t", "statement", "input0.txt"])]) = [] ∧
    samples attDisk (P ["t", "att"]) ["t.cpp".toList] none = [.noSample] := by decide +kernel

example : directories attDisk (P ["t", "att"]) attNames = (["dir".toList], none) ∧
    templates attDisk (P ["t", "att"]) "t".toList (AMap.values (taskGraders ["grader.cpp".toList, "grader.py".toList])) =
      some [("t.py".toList, "grader.py".toList)] ∧
    solTemplates attDisk (P ["t", "sol"]) "t".toList ["template.cpp".toList, "template.py".toList] =
      [("template.py".toList, "t.py".toList)] := by decide +kernel

/-- Broken links. -/
def brokenDisk : Disk := ⟨fun p => if p = P ["t"] ∨ p = P ["t", "d"] ∨ p = P ["t", "fuzz"] then some .dir
  else if p = P ["t", "link"] ∨ p = P ["t", "fuzz", "link"] then some (.link (P ["nope"]))
  else if p = P ["t", "f"] then some (.file []) else none, 40⟩

example : brokenLinks brokenDisk (P ["t"]) [P ["d"], P ["f"], P ["fuzz", "link"], P ["link"]] = [(P ["link"], P ["nope"])] := by
  decide +kernel

/-- The sample of the task is among the attachments, but its real name is not that of an input: it is said to be missing. -/
def sampleNodes : List (Path × Node) :=
  [(P ["t"], .dir), (P ["t", "att"], .dir), (P ["t", "statement"], .dir),
   (P ["t", "statement", "sample0.txt"], .file "1".toList),
   (P ["t", "att", "input0.txt"], .link (P ["t", "statement", "sample0.txt"]))]

/-- **C135** Without the hypothesis on the names, samples that are among the attachments are said to be missing. -/
theorem missing_false_alarm : ∃ (d : Disk) (att : Path) (names : List Name) (inputs : Option (List (Option Path))) (file : Path),
    Roomy d ∧ InTask d inputs file ∧ InAtt d att names file ∧ ∃ l, Says.missingAtt l ∈ samples d att names inputs ∧ file ∈ l := by
  have hr : Roomy (listed sampleNodes) := listed_roomy (by decide +kernel)
  refine ⟨listed sampleNodes, P ["t", "att"], ["input0.txt".toList], some [some (P ["t", "statement", "sample0.txt"])],
    P ["t", "statement", "sample0.txt"], hr, (mem_taskSamples hr).1 (by decide +kernel),
    ⟨"input0.txt".toList, by simp, (wildMatch_iff _ _).1 (by decide +kernel), (canon_iff hr).1 (by decide +kernel)⟩,
    [P ["t", "statement", "sample0.txt"]], by decide +kernel, by decide +kernel⟩

/-- **C136** A directory among the attachments is not reported when a broken link comes before it. -/
theorem directory_hidden : ∃ (d : Disk) (att : Path) (names : List Name) (name : Name),
    name ∈ names ∧ DirAt d (att ++ [name]) ∧ (directories d att names).1 = [] := by
  refine ⟨brokenDisk, P ["t"], ["link".toList, "d".toList], "d".toList, by simp,
    ⟨P ["t", "d"], walk_leads (n := 40) (by decide +kernel), .inr (by decide +kernel)⟩, by decide +kernel⟩

end TM.Sanity.Att
