import Verif.Parse.TaskLemmas

/-!
# Loading a task: the entries
-/
namespace TM.Parse
open TM AMap TM.Find

section
variable {env : Env} {w : World} {base : RPath}

theorem cenv_ext {a b : Format.CasesEnv} (h1 : a.outputGen = b.outputGen) (h2 : a.join = b.join)
    (h3 : a.pathExists = b.pathExists) (h4 : a.source = b.source) (h5 : a.split = b.split) : a = b := by
  cases a; cases b; simp_all

theorem genv_ext {a b : Format.GenEnv} (h1 : a.validator = b.validator) (h2 : a.outputGen = b.outputGen)
    (h3 : a.generators = b.generators) (h4 : a.join = b.join) (h5 : a.nfkc = b.nfkc)
    (h6 : a.okCategory = b.okCategory) (h7 : a.isSpace = b.isSpace) : a = b := by
  cases a; cases b; simp_all

theorem language_some {p : RPath} : (languageOf p).isSome = true ↔
    ∃ n l, p.comps.getLast? = some n ∧ Sanity.SourceIn l n := by
  unfold languageOf
  constructor
  · intro h
    cases hf : p.fileName with
    | none => rw [hf] at h; cases h
    | some n =>
      rw [hf] at h
      dsimp only at h
      obtain ⟨l, hl⟩ := Option.isSome_iff_exists.1 h
      exact ⟨n, l, (fileName_some.1 hf).1, (Sanity.language_exact _ _).1 hl⟩
  · rintro ⟨n, l, h1, h2⟩
    rw [fileName_some.2 ⟨h1, sourceIn_not_dots h2⟩]
    dsimp only
    rw [(Sanity.language_exact _ _).2 h2]
    rfl

theorem casesEnv_source (k : Kind) (t s : Text) : (casesEnv env w base k).source t = some s ↔
    s = t ∧ ∃ n l, (RPath.ofText t).comps.getLast? = some n ∧ Sanity.SourceIn l n := by
  unfold casesEnv
  dsimp only
  rw [← language_some]
  split
  · next h => simp [h, eq_comm]
  · next h => simp [h]

theorem taskFile_eq (base : RPath) (a b : String) : taskFile base a b = ⟨base.abs, base.comps ++ [a.toList, b.toList]⟩ := by
  simp [taskFile, RPath.push]

theorem casesEnv_ok (k : Kind) {content : Text} {es : List Format.Entry}
    (hf : HasFile w base ["gen".toList, "cases.gen".toList] content) :
    Format.parseCasesGen (casesEnv env w base k) content = .ok es ↔ EntriesOf env w base k es := by
  constructor
  · intro h
    exact .cases hf (outputs_of base k) (fun _ => rfl) (fun t => exists_iff w _) (casesEnv_source k) rfl h
  · intro h
    cases h with
    | @cases content' es cenv a b c d e f g =>
      have hc : content = content' := by
        unfold HasFile at hf a
        rw [hf] at a
        cases a
        rfl
      subst hc
      have he : cenv = casesEnv env w base k := by
        apply cenv_ext
        · exact outputs_unique b (outputs_of base k)
        · funext t; rw [c]; rfl
        · funext t
          rw [Bool.eq_iff_iff, d]
          exact (exists_iff w _).symm
        · funext t
          cases hs : (casesEnv env w base k).source t with
          | some s => rw [(e t s).2 ((casesEnv_source k t s).1 hs)]
          | none =>
            cases hs2 : cenv.source t with
            | none => rfl
            | some s => rw [(casesEnv_source k t s).2 ((e t s).1 hs2)] at hs; cases hs
        · rw [f]; rfl
      rw [← he]
      exact g
    | gen a _ _ _ _ _ _ _ _ _ _ _ => exact absurd a (not_missing hf)
    | static a _ _ _ _ _ => exact absurd a (not_missing hf)

theorem generators_one {gs : List Src} (hreal : RealNames w) (hplain : Plain base) (hwf : w.fs.Wf)
    (hg : generatorSources w base = some gs) (p : RPath) :
    gs.map (·.path) = [p] ↔ ∃ l, OnlyPart w base generators p l := by
  obtain ⟨gs', h1, h2, h3⟩ := generators_found hreal hplain hwf
  rw [hg] at h1
  cases h1
  constructor
  · intro h
    have hm : ∀ s ∈ gs, s.path = p := by
      intro s hs
      have : s.path ∈ gs.map (·.path) := List.mem_map.2 ⟨s, hs, rfl⟩
      rw [h] at this
      simpa using this
    have hp : ∃ s ∈ gs, s.path = p := by
      have : p ∈ gs.map (·.path) := by rw [h]; simp
      exact List.mem_map.1 this
    obtain ⟨l, hl⟩ := (h3 p).1 hp
    refine ⟨l, hl, fun q l' hq => ?_⟩
    obtain ⟨s, hs, rfl⟩ := (h3 q).2 ⟨l', hq⟩
    exact hm s hs
  · rintro ⟨l, ho⟩
    have hmem : ∀ q, q ∈ gs.map (·.path) ↔ q = p := by
      intro q
      rw [List.mem_map, h3]
      constructor
      · rintro ⟨l', h⟩; exact ho.2 _ _ h
      · rintro rfl; exact ⟨l, ho.1⟩
    have hn1 : [p].Nodup := by simp
    have := (List.perm_ext_iff_of_nodup h2 hn1).2 (fun q => by rw [hmem]; simp)
    exact List.perm_singleton.1 this

theorem parseGenGen_generators {genv : Format.GenEnv} {content : Text} {es : List Format.Entry}
    (h : Format.parseGenGen genv content = .ok es) : ∃ g, genv.generators = [g] := by
  unfold Format.parseGenGen at h
  split at h
  · cases h
  · unfold Format.interpGen at h
    split at h
    · cases h
    · cases h
    · next g hg => exact ⟨g, hg⟩

theorem entries_iff (hreal : RealNames w) (hplain : Plain base) (hwf : w.fs.Wf) (hb : Writable base) (k : Kind)
    (es : List Format.Entry) : readEntries env w base k = .ok es ↔ EntriesOf env w base k es := by
  have hcf : ∀ n ∈ ["gen".toList, "cases.gen".toList], n ≠ dot ∧ n ≠ dotdot := by decide +kernel
  have hgf : ∀ n ∈ ["gen".toList, "GEN".toList], n ≠ dot ∧ n ≠ dotdot := by decide +kernel
  unfold readEntries
  rw [taskFile_eq, taskFile_eq]
  cases hc : w.exists ⟨base.abs, base.comps ++ ["gen".toList, "cases.gen".toList]⟩ with
  | true =>
    have hnm : ¬ Missing w base ["gen".toList, "cases.gen".toList] := fun hm => by
      rw [(exists_file hcf).2 hm] at hc; cases hc
    rw [if_pos rfl]
    cases hr : w.read ⟨base.abs, base.comps ++ ["gen".toList, "cases.gen".toList]⟩ with
    | none =>
      refine ⟨fun h => (by cases h), fun h => ?_⟩
      cases h with
      | cases a _ _ _ _ _ _ => rw [(read_file hcf).2 a] at hr; cases hr
      | gen a _ _ _ _ _ _ _ _ _ _ _ => exact absurd a hnm
      | static a _ _ _ _ _ => exact absurd a hnm
    | some content =>
      have hf := (read_file hcf).1 hr
      dsimp only
      rw [← casesEnv_ok k hf]
      cases Format.parseCasesGen (casesEnv env w base k) content with
      | error e => exact ⟨fun h => (by cases h), fun h => (by cases h)⟩
      | ok x => exact ⟨fun h => (by cases h; rfl), fun h => (by cases h; rfl)⟩
  | false =>
    have hmc := (exists_file hcf).1 hc
    rw [if_neg (by simp)]
    cases hg : w.exists ⟨base.abs, base.comps ++ ["gen".toList, "GEN".toList]⟩ with
    | true =>
      have hnm : ¬ Missing w base ["gen".toList, "GEN".toList] := fun hm => by
        rw [(exists_file hgf).2 hm] at hg; cases hg
      rw [if_pos rfl]
      obtain ⟨gs, hgs, _, _⟩ := generators_found hreal hplain hwf
      constructor
      · intro h
        cases hv : validatorSource w base with
        | error e => rw [hv] at h; cases h
        | ok v =>
          rw [hv] at h
          dsimp only at h
          cases hr : w.read ⟨base.abs, base.comps ++ ["gen".toList, "GEN".toList]⟩ with
          | none => rw [hr] at h; cases h
          | some content =>
            rw [hr, hgs] at h
            dsimp only at h
            cases hp : Format.parseGenGen (genEnv env base k v gs) content with
            | error e => rw [hp] at h; cases h
            | ok x =>
              rw [hp] at h
              cases h
              obtain ⟨g, hg1⟩ := parseGenGen_generators hp
              have hg2 : gs.map (fun s => pathText s.path) = [g] := hg1
              obtain ⟨s, rfl⟩ : ∃ s, gs = [s] := by
                match gs, hg2 with
                | [s], _ => exact ⟨s, rfl⟩
              obtain ⟨l, ho⟩ := (generators_one hreal hplain hwf hgs s.path).1 rfl
              exact .gen hmc ((read_file hgf).1 hr) (validator_of hreal hplain hwf hv) (fun _ => rfl)
                (outputs_of base k) ho rfl (fun _ => rfl) rfl rfl rfl hp
      · intro h
        cases h with
        | cases a _ _ _ _ _ _ => exact absurd hmc (not_missing a)
        | static _ a _ _ _ _ => exact absurd a hnm
        | @gen content es vf p l genv a b c d e f g hj i1 i2 i3 hp =>
          obtain ⟨v, hv, hvf⟩ := validator_ok hreal hplain hwf c
          rw [hv, (read_file hgf).2 b, hgs]
          dsimp only
          have he : genv = genEnv env base k v gs := by
            apply genv_ext
            · funext st; rw [d, hvf]; rfl
            · exact outputs_unique e (outputs_of base k)
            · rw [g]
              have := (generators_one hreal hplain hwf hgs p).2 ⟨l, f⟩
              show _ = gs.map (fun s => pathText s.path)
              have e2 : gs.map (fun s => pathText s.path) = (gs.map (·.path)).map pathText := by simp
              rw [e2, this]; rfl
            · funext t; rw [hj]; rfl
            · rw [i1]; rfl
            · rw [i2]; rfl
            · rw [i3]; rfl
          rw [← he, hp]
    | false =>
      have hmg := (exists_file hgf).1 hg
      rw [if_neg (by simp)]
      obtain ⟨n, hn1, hn2, hn3⟩ := static_bound (w := w) (base := base)
      have hst : ∀ v : Option Src, (Format.staticTake (staticEnv w base k v) (w.fs.length + 2) 0).1 =
          .subtask { id := 0, name := some "static-testcases".toList, maxScore := 100, isDefault := true
                     validator := validatorFor v (some 0) } ::
         (List.range n).map (fun i => .testcase ⟨i, .staticFile (pathText (inDir base "input".toList
           ("input".toList ++ Nat.toDigits 10 i ++ ".txt".toList))), k.outputs base i⟩) := by
        intro v
        rw [Format.static_inputs (staticEnv w base k v) (k := n) (fun i hi => (static_exists hb k v i).2 (hn2 i hi))
          (by rw [← Bool.not_eq_true, static_exists hb k v n]; exact hn3) _ (by omega)]
        unfold Format.staticEntries staticEnv
        simp [RPath.push, inDir, Format.inputName, Format.natText]
      constructor
      · intro h
        cases hv : validatorSource w base with
        | error e => rw [hv] at h; cases h
        | ok v =>
          rw [hv] at h
          dsimp only at h
          rw [hst v] at h
          cases h
          exact .static hmc hmg (validator_of hreal hplain hwf hv) (outputs_of base k) hn2 hn3
      · intro h
        cases h with
        | cases a _ _ _ _ _ _ => exact absurd hmc (not_missing a)
        | gen _ a _ _ _ _ _ _ _ _ _ _ => exact absurd hmg (not_missing a)
        | @static vf f m a b c d e1 e2 =>
          obtain ⟨v, hv, hvf⟩ := validator_ok hreal hplain hwf c
          rw [hv]
          dsimp only
          rw [hst v, hvf, outputs_unique d (outputs_of base k)]
          have : m = n := by
            rcases Nat.lt_trichotomy m n with h | h | h
            · exact absurd (hn2 m h) e2
            · exact h
            · exact absurd (e1 n h) hn3
          rw [this]

theorem entries_wellNumbered {k : Kind} {es : List Format.Entry} (h : EntriesOf env w base k es) :
    Format.WellNumbered es := by
  cases h with
  | cases a b c d e f g =>
    unfold Format.parseCasesGen at g
    split at g
    · cases g
    · exact Format.cases_wellNumbered g
  | gen a b c d e f g hj i1 i2 i3 hp => exact Format.gen_wellNumbered hp
  | @static v f n a b c d e1 e2 =>
    have := Format.static_wellNumbered
      { inputPath := fun n => pathText (inDir base "input".toList n)
        pathExists := fun _ => true
        validator := fun st => v (some st)
        outputGen := f } n
    exact this

/-! ## The subtasks -/

theorem stIds_length (es : List Format.Entry) : (Format.stIds es).length = subtaskCount es := by
  unfold Format.stIds subtaskCount
  induction es with
  | nil => rfl
  | cons e es ih => cases e <;> simp [ih]

theorem load_wf {orig : Bool} {order : Nat → List Nat} {rounds : Nat} {es : List Format.Entry} {l : Format.Loaded}
    (hw : Format.WellNumbered es) (h : Format.load orig order rounds es = some (.ok l)) : l.subtasks.Wf := by
  obtain ⟨l0, h0, hwf, _⟩ := Format.group_ok hw
  unfold Format.load at h
  rw [h0] at h
  dsimp only at h
  split at h
  · cases h
  · cases h
  · next subs hc =>
    split at h
    · cases h
    · cases h
      exact Format.wf_closeLoop order rounds 0 l0.subtasks subs hwf hc

theorem loaded_count {es : List Format.Entry} {subs : AMap Nat Format.Subtask} {tcs : AMap Nat Format.Testcase}
    (hw : Format.WellNumbered es) (hl : LoadedFrom es subs tcs) (hwf : subs.Wf) : subs.length = subtaskCount es := by
  have hp : (AMap.keys subs).Perm (Format.stIds es) := by
    refine (List.perm_ext_iff_of_nodup hwf hw.subtasks).2 fun k => ?_
    rw [mem_keys_iff, Format.mem_stIds]
    constructor
    · rintro ⟨v, hv⟩
      apply Classical.byContradiction
      intro hn
      rw [hl.noSubtask k (fun s hs he => hn ⟨s, hs, he⟩)] at hv
      cases hv
    · rintro ⟨s, hs, rfl⟩
      obtain ⟨st, h, _⟩ := hl.subtask s hs
      exact ⟨st, h⟩
  have := hp.length_eq
  rw [stIds_length] at this
  simpa [AMap.keys] using this

end

end TM.Parse
