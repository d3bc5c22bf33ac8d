import Verif.Parse.PropsParts
import Verif.Parse.PropsYaml
import Verif.Format.PropsCases
import Verif.Format.PropsGenGen

/-!
# Loading a task: lemmas
-/
namespace TM.Parse
open TM AMap TM.Find

/-! ## Paths as texts -/

theorem pieces_inter : ∀ (cs : List Name), cs ≠ [] → (∀ n ∈ cs, '/' ∉ n) → pieces (List.intercalate ['/'] cs) = cs := by
  intro cs h hs
  have gen : ∀ (cs : List Name) (n : Name), '/' ∉ n → (∀ m ∈ cs, '/' ∉ m) →
      pieces (List.intercalate ['/'] (n :: cs)) = n :: cs := by
    intro cs
    induction cs with
    | nil => intro n hn _; simpa [List.intercalate] using pieces_noslash hn
    | cons c cs ih =>
      intro n hn hc
      have e : List.intercalate ['/'] (n :: c :: cs) = n ++ '/' :: List.intercalate ['/'] (c :: cs) := by
        simp [List.intercalate, List.intersperse]
      rw [e]
      have step : ∀ (n : Name), '/' ∉ n → ∀ r, pieces (n ++ '/' :: r) = n :: pieces r := by
        intro n
        induction n with
        | nil => intro _ r; simp [pieces]
        | cons a n ihn =>
          intro ha r
          simp only [List.mem_cons, not_or] at ha
          rw [List.cons_append, pieces, if_neg (Ne.symm ha.1), ihn ha.2 r]
      rw [step n hn, ih c (hc c (by simp)) (fun m hm => hc m (by simp [hm]))]
  cases cs with
  | nil => exact absurd rfl h
  | cons n cs => exact gen cs n (hs n (by simp)) (fun m hm => hs m (by simp [hm]))

theorem ofText_pathText {p : RPath} (h : Writable p) : RPath.ofText (pathText p) = p := by
  obtain ⟨h1, h2, h3⟩ := h
  obtain ⟨abs, cs⟩ := p
  dsimp only at h1 h2 h3
  have hne : ∀ {l : List Name}, (∀ n ∈ l, n ≠ []) → l.filter (fun p => decide (p ≠ [])) = l := by
    intro l hl
    rw [List.filter_eq_self]
    intro n hn
    simpa using hl n hn
  have hdot : ∀ {l : List Name}, (∀ n ∈ l, n ≠ dot) → l.filter (fun p => decide (p ≠ dot)) = l := by
    intro l hl
    rw [List.filter_eq_self]
    intro n hn
    simpa using hl n hn
  cases abs with
  | true =>
    unfold pathText RPath.ofText
    simp only [if_true, List.cons_append, List.nil_append, List.head?_cons, decide_true]
    have hp : (pieces ('/' :: List.intercalate ['/'] cs)).filter (fun p => decide (p ≠ [])) = cs := by
      have e : pieces ('/' :: List.intercalate ['/'] cs) = [] :: pieces (List.intercalate ['/'] cs) := by
        simp [pieces]
      rw [e]
      simp only [List.filter_cons, ne_eq, not_true_eq_false, decide_false, Bool.false_eq_true, if_false]
      cases cs with
      | nil => rfl
      | cons n cs =>
        rw [pieces_inter _ (by simp) (fun m hm => (h1 m hm).2)]
        exact hne (fun m hm => (h1 m hm).1)
    simp only [hp]
    rw [hdot (h3 rfl)]
  | false =>
    unfold pathText RPath.ofText
    simp only [Bool.false_eq_true, if_false, List.nil_append]
    cases cs with
    | nil => rfl
    | cons n cs =>
      have hn := h1 n (by simp)
      have hh : (List.intercalate ['/'] (n :: cs)).head? ≠ some '/' := by
        obtain ⟨c, r, rfl⟩ : ∃ c r, n = c :: r := by
          cases n with
          | nil => exact absurd rfl hn.1
          | cons c r => exact ⟨c, r, rfl⟩
        have : c ≠ '/' := by intro h; apply hn.2; simp [h]
        cases cs <;> simp [List.intercalate, List.intersperse, this]
      rw [pieces_inter _ (by simp) (fun m hm => (h1 m hm).2), hne (fun m hm => (h1 m hm).1)]
      simp only [hh, decide_false, Bool.false_eq_true, if_false]
      rw [hdot (l := cs) h2]

section
variable {env : Env} {w : World} {base : RPath}

theorem writable_inDir (h : Writable base) {d n : Name} (hd : d ≠ [] ∧ '/' ∉ d ∧ d ≠ dot)
    (hn : n ≠ [] ∧ '/' ∉ n ∧ n ≠ dot) : Writable (inDir base d n) := by
  obtain ⟨h1, h2, h3⟩ := h
  have hmem : ∀ m ∈ base.comps ++ [d, n], m ∈ base.comps ∨ m = d ∨ m = n := by
    intro m hm
    simpa using hm
  refine ⟨?_, ?_, ?_⟩
  · intro m hm
    rcases hmem m hm with h | rfl | rfl
    · exact h1 m h
    · exact ⟨hd.1, hd.2.1⟩
    · exact ⟨hn.1, hn.2.1⟩
  · intro m hm
    unfold inDir at hm
    dsimp only at hm
    cases hb : base.comps with
    | nil =>
      rw [hb] at hm
      simp only [List.nil_append, List.tail_cons, List.mem_singleton] at hm
      rw [hm]; exact hn.2.2
    | cons c cs =>
      rw [hb] at hm h2
      simp only [List.cons_append, List.tail_cons, List.mem_append, List.mem_cons, List.not_mem_nil, or_false] at hm h2
      rcases hm with h | rfl | rfl
      · exact h2 m h
      · exact hd.2.2
      · exact hn.2.2
  · intro ha m hm
    rcases hmem m hm with h | rfl | rfl
    · exact h3 ha m h
    · exact hd.2.2
    · exact hn.2.2

/-! ## task.yaml -/

theorem read_file {p : RPath} {l : List Name} (h : ∀ n ∈ l, n ≠ dot ∧ n ≠ dotdot) {content : Text} :
    w.read ⟨p.abs, p.comps ++ l⟩ = some content ↔ HasFile w p l content := by
  unfold World.read HasFile
  rw [resolve_append w p l h]
  constructor
  · intro hh
    split at hh
    · next c e => rw [e, hh]
    · cases hh
  · intro hh; rw [hh]

theorem exists_file {p : RPath} {l : List Name} (h : ∀ n ∈ l, n ≠ dot ∧ n ≠ dotdot) :
    w.exists ⟨p.abs, p.comps ++ l⟩ = false ↔ Missing w p l := by
  unfold Missing
  rw [← Bool.not_eq_true, exists_iff, resolve_append w p l h]

theorem not_missing {p : RPath} {l : List Name} {content : Text} (h : HasFile w p l content) : ¬ Missing w p l :=
  fun hm => hm (mem_keys_iff.2 ⟨_, h⟩)

/-- What the files of the task say. -/
theorem readTaskYaml_iff {y : Yaml} {o : Bool} : readTaskYaml env w base = .ok (y, o) ↔ YamlOf env w base y o := by
  have ho : ∀ n ∈ ["task.yaml.orig".toList], n ≠ dot ∧ n ≠ dotdot := by decide +kernel
  have hy : ∀ n ∈ ["task.yaml".toList], n ≠ dot ∧ n ≠ dotdot := by decide +kernel
  unfold readTaskYaml RPath.push
  cases he : w.exists ⟨base.abs, base.comps ++ ["task.yaml.orig".toList]⟩ with
  | true =>
    have hnm : ¬ Missing w base ["task.yaml.orig".toList] := fun hm => by
      rw [(exists_file ho).2 hm] at he; cases he
    rw [if_pos rfl]
    cases hr : (w.read ⟨base.abs, base.comps ++ ["task.yaml.orig".toList]⟩).bind env.yaml with
    | none =>
      refine ⟨fun h => (by cases h), fun h => ?_⟩
      cases h with
      | orig a b c _ _ f => rw [(read_file ho).2 a, Option.bind_some, b] at hr; cases hr
      | yaml a _ _ _ => exact absurd a hnm
    | some d =>
      obtain ⟨text, ht, hd⟩ := Option.bind_eq_some_iff.1 hr
      dsimp only
      constructor
      · intro h
        cases hm : readOrig d with
        | none => rw [hm] at h; cases h
        | some mk =>
          rw [hm] at h
          dsimp only at h
          cases hf : base.fileName with
          | none => rw [hf] at h; cases h
          | some n =>
            rw [hf] at h
            cases h
            obtain ⟨g1, g2, g3⟩ := fileName_some.1 hf
            exact .orig ((read_file ho).1 ht) hd g1 g2 g3 ((orig_exact d n _).1 ⟨mk, hm, rfl⟩)
      · intro h
        cases h with
        | orig a b c e1 e2 f =>
          rw [(read_file ho).2 a] at ht
          cases ht
          rw [b] at hd
          cases hd
          obtain ⟨mk, hm, rfl⟩ := (orig_exact d _ _).2 f
          rw [hm, fileName_some.2 ⟨c, e1, e2⟩]
        | yaml a _ _ _ => exact absurd a hnm
  | false =>
    have hmiss := (exists_file ho).1 he
    rw [if_neg (by simp)]
    constructor
    · intro h
      split at h
      · cases hr : (w.read ⟨base.abs, base.comps ++ ["task.yaml".toList]⟩).bind env.yaml with
        | none => rw [hr] at h; cases h
        | some d =>
          rw [hr] at h
          obtain ⟨text, ht, hd⟩ := Option.bind_eq_some_iff.1 hr
          dsimp only at h
          cases hm : readYaml d with
          | none => rw [hm] at h; cases h
          | some y' =>
            rw [hm] at h
            cases h
            exact .yaml hmiss ((read_file hy).1 ht) hd ((yaml_exact d y).1 hm)
      · cases h
    · intro h
      cases h with
      | orig a _ _ _ _ _ => exact absurd hmiss (not_missing a)
      | yaml _ b c d =>
        have : w.exists ⟨base.abs, base.comps ++ ["task.yaml".toList]⟩ = true := by
          cases hx : w.exists ⟨base.abs, base.comps ++ ["task.yaml".toList]⟩ with
          | true => rfl
          | false => exact absurd ((exists_file hy).1 hx) (not_missing b)
        rw [if_pos this, (read_file hy).2 b, Option.bind_some, c]
        dsimp only
        rw [(yaml_exact _ _).2 d]

/-! ## The entries -/

theorem outputs_of (base : RPath) (k : Kind) : OutputsOf base k (k.outputs base) := by
  unfold OutputsOf
  cases k with
  | batch o c =>
    cases o with
    | none =>
      intro i
      simp [Kind.outputs, outputFor, RPath.push, inDir, Format.natText]
    | some s => intro i; rfl
  | communication m p io => intro i; rfl

theorem outputs_unique {k : Kind} {f g : Nat → Format.OutputGen} (hf : OutputsOf base k f) (hg : OutputsOf base k g) :
    f = g := by
  funext i
  unfold OutputsOf at hf hg
  cases k with
  | batch o c => cases o <;> (simp only at hf hg; rw [hf, hg])
  | communication m p io => simp only at hf hg; rw [hf, hg]

theorem validator_of (hreal : RealNames w) (hplain : Plain base) (hwf : w.fs.Wf) {v : Option Src}
    (h : validatorSource w base = .ok v) : ValidatorOf w base (validatorFor v) := by
  have hv := validator_found hreal hplain hwf
  cases v with
  | none => exact Or.inl ⟨hv.1.1 h, fun _ => rfl⟩
  | some s =>
    obtain ⟨p, l, h1, rfl⟩ := (hv.2.1 s).1 h
    exact Or.inr ⟨p, l, h1, rfl, fun _ => rfl⟩

theorem validator_unique {v v' : Option Nat → Format.Validator} (h : ValidatorOf w base v) (h' : ValidatorOf w base v') :
    v = v' := by
  rcases h with ⟨a, b⟩ | ⟨p, l, a, b, c⟩ <;> rcases h' with ⟨a', b'⟩ | ⟨p', l', a', b', c'⟩
  · funext st; rw [b, b']
  · exact absurd a'.1 (a _ _)
  · exact absurd a.1 (a' _ _)
  · obtain ⟨rfl, _⟩ := onlyPart_unique a a'
    funext st
    cases st with
    | none => rw [b, b']
    | some n => rw [c, c']

theorem validator_ok (hreal : RealNames w) (hplain : Plain base) (hwf : w.fs.Wf) {v : Option Nat → Format.Validator}
    (h : ValidatorOf w base v) : ∃ s, validatorSource w base = .ok s ∧ v = validatorFor s := by
  have hv := validator_found hreal hplain hwf
  cases e : validatorSource w base with
  | error x =>
    obtain ⟨_, p, l, q, l', h1, h2, h3⟩ := (hv.2.2 x).1 e
    rcases h with ⟨a, _⟩ | ⟨p', l'', a, _⟩
    · exact absurd h1 (a _ _)
    · exact absurd ((a.2 _ _ h1).trans (a.2 _ _ h2).symm) h3
  | ok s => exact ⟨s, rfl, validator_unique h (validator_of hreal hplain hwf e)⟩

theorem least {P : Nat → Prop} : ∀ N, ¬ P N → ∃ k, k ≤ N ∧ (∀ i < k, P i) ∧ ¬ P k := by
  intro N
  induction N with
  | zero => intro h; exact ⟨0, Nat.le_refl _, by omega, h⟩
  | succ N ih =>
    intro h
    by_cases hP : ∀ i < N + 1, P i
    · exact ⟨N + 1, Nat.le_refl _, hP, h⟩
    · have : ∃ i, i < N + 1 ∧ ¬ P i := Classical.byContradiction fun hn =>
        hP (fun i hi => Classical.byContradiction fun hp => hn ⟨i, hi, hp⟩)
      obtain ⟨i, hi, hp⟩ := this
      -- the least one below
      have strong : ∀ m, ∀ j < m, ¬ P j → ∃ k, k ≤ j ∧ (∀ i < k, P i) ∧ ¬ P k := by
        intro m
        induction m with
        | zero => intro j hj; omega
        | succ m ihm =>
          intro j hj hpj
          by_cases hq : ∀ i < j, P i
          · exact ⟨j, Nat.le_refl _, hq, hpj⟩
          · have : ∃ i, i < j ∧ ¬ P i := Classical.byContradiction fun hn =>
              hq (fun i hi => Classical.byContradiction fun hp => hn ⟨i, hi, hp⟩)
            obtain ⟨i', hi', hp'⟩ := this
            obtain ⟨k, hk, h2⟩ := ihm i' (by omega) hp'
            exact ⟨k, by omega, h2⟩
      obtain ⟨k, hk, h2⟩ := strong (N + 1) i hi hp
      exact ⟨k, by omega, h2⟩

theorem inputName_good (i : Nat) : Format.inputName i ≠ [] ∧ '/' ∉ Format.inputName i ∧ Format.inputName i ≠ dot ∧
    Format.inputName i ≠ dotdot := by
  have hd : ∀ c ∈ Format.natText i, Format.isDigit c = true := fun c hc => by
    have := Format.decimal_eq i
    unfold Format.natText at hc
    rw [← this] at hc
    exact Format.decimal_digits hc
  have hlen : 3 ≤ (Format.inputName i).length := by
    unfold Format.inputName
    simp
  refine ⟨?_, ?_, ?_, ?_⟩
  · intro h; rw [h] at hlen; simp at hlen
  · intro h
    unfold Format.inputName at h
    simp only [List.mem_append] at h
    rcases h with (h | h) | h
    · revert h; decide
    · have := hd _ h; revert this; decide
    · revert h; decide
  · intro h; rw [h] at hlen; simp at hlen
  · intro h; rw [h] at hlen; simp at hlen

theorem static_exists (hb : Writable base) (k : Kind) (v : Option Src) (i : Nat) :
    (staticEnv w base k v).pathExists ((staticEnv w base k v).inputPath (Format.inputName i)) = true ↔
      HasEntry w base "input".toList (Format.inputName i) := by
  have hg := inputName_good i
  have e : (base.push "input".toList).push (Format.inputName i) = inDir base "input".toList (Format.inputName i) := by
    simp [RPath.push, inDir]
  unfold staticEnv
  dsimp only
  rw [e, ofText_pathText (writable_inDir hb (by decide +kernel) ⟨hg.1, hg.2.1, hg.2.2.1⟩), exists_iff]
  unfold inDir HasEntry
  rw [resolve_append w base _ (by
    intro x hx
    simp only [List.mem_cons, List.not_mem_nil, or_false] at hx
    rcases hx with rfl | rfl
    · decide +kernel
    · exact hg.2.2)]

/-- The static inputs end. -/
theorem static_bound : ∃ k, k ≤ w.fs.length ∧
    (∀ i < k, HasEntry w base "input".toList (Format.inputName i)) ∧
    ¬ HasEntry w base "input".toList (Format.inputName k) := by
  have hex : ∃ N, N ≤ w.fs.length ∧ ¬ HasEntry w base "input".toList (Format.inputName N) := by
    apply Classical.byContradiction
    intro hn
    have hall : ∀ i, i ≤ w.fs.length → HasEntry w base "input".toList (Format.inputName i) := fun i hi =>
      Classical.byContradiction fun h => hn ⟨i, hi, h⟩
    have hnd : ((List.range (w.fs.length + 1)).map
        (fun i => w.resolve base ++ ["input".toList, Format.inputName i])).Nodup := by
      unfold List.Nodup
      rw [List.pairwise_map]
      refine List.Pairwise.imp ?_ (List.nodup_range (n := w.fs.length + 1))
      intro a b hab h
      have := List.append_cancel_left h
      simp only [List.cons.injEq, and_true, true_and] at this
      exact hab (Format.inputName_injective this)
    have hle := List.Nodup.length_le_of_subset hnd (l₂ := w.fs.keys) (by
      intro x hx
      obtain ⟨i, hi, rfl⟩ := List.mem_map.1 hx
      exact hall i (by have := List.mem_range.1 hi; omega))
    simp [AMap.keys] at hle
    omega
  obtain ⟨N, hN, hP⟩ := hex
  obtain ⟨k, hk, h2⟩ := least (P := fun i => HasEntry w base "input".toList (Format.inputName i)) N hP
  exact ⟨k, by omega, h2⟩

end

end TM.Parse
