import Verif.Terry.Steps
import Verif.Build.Final
/-!
# The construction of a Terry task as a whole
-/
namespace TM.Terry
open TM TM.Build DagSpec Build.Spec Terry.Spec

/-! ## The context of a task -/

/-- The context of a task. -/
def ctxOf (fs : FS) (cfg : DagConfig) (task : Task) (sols : List Src) : Ctx where
  fs := fs
  grader f := (((sources task sols).flatMap gradersOf).find? (fun g => g.file = f)).map (·.localPath)
  src k := ((sources task sols).find? (fun s => s.id = k)).getD noSrc
  mayWrite d := cfg.copyExe = true ∧ ∃ s ∈ sols, d = inDest task s ∨ d = outDest task s
  used k := ∃ s ∈ sources task sols, s.id = k

theorem ctx_knows {n : Uuid} {fs : FS} {cfg : DagConfig} {task : Task} {sols : List Src}
    (h : Fits n task sols) {s : Src} (hs : s ∈ sources task sols) :
    (ctxOf fs cfg task sols).Knows s := by
  refine ⟨?_, ⟨s, hs, rfl⟩, ?_⟩
  · show ((sources task sols).find? (fun t => t.id = s.id)).getD noSrc = s
    cases hf : (sources task sols).find? (fun t => decide (t.id = s.id)) with
    | none =>
      have := List.find?_eq_none.1 hf s hs
      simp at this
    | some t =>
      have h1 := List.mem_of_find?_eq_some hf
      have h2 := List.find?_some hf
      exact h.instances t h1 s hs (by simpa using h2)
  · intro m hm p hp
    have hg : p.2 ∈ gradersOf s := by
      simp only [gradersOf, hm, Option.getD_some]
      exact List.mem_map.2 ⟨p, hp, rfl⟩
    have hmem : p.2 ∈ (sources task sols).flatMap gradersOf := List.mem_flatMap.2 ⟨s, hs, hg⟩
    show (((sources task sols).flatMap gradersOf).find? (fun g => decide (g.file = p.2.file))).map
      (·.localPath) = some p.2.localPath
    cases hf : ((sources task sols).flatMap gradersOf).find? (fun g => decide (g.file = p.2.file)) with
    | none =>
      have := List.find?_eq_none.1 hf _ hmem
      simp at this
    | some g =>
      have h1 := List.mem_of_find?_eq_some hf
      have h2 := List.find?_some hf
      obtain ⟨t, ht, hgt⟩ := List.mem_flatMap.1 h1
      simp only [Option.map_some, Option.some.injEq]
      exact h.graderPath t ht s hs g hgt _ hg (by simpa using h2)

theorem start_inv {n : Uuid} {fs : FS} {task : Task} {sols : List Src}
    (h : Fits n task sols) (cfg : DagConfig) : Inv (ctxOf fs cfg task sols).G (start n cfg) [] := by
  refine ⟨⟨by simp [start, AMap.Wf, AMap.keys], by simp [start, AMap.Wf, AMap.keys], ?_⟩, ?_, ?_, ?_, ?_,
    ?_, ?_, ?_, ?_, ?_, ?_, ?_, Runnable.nil, ?_, ?_, ?_, ?_, ?_⟩
  all_goals simp [start, execUuids, allExecs, groupOuts, outsOf, AMap.keys, AMap.Wf]
  intro f hf
  simp only [Ctx.G, ctxOf, Option.isSome_map] at hf
  obtain ⟨g, hg⟩ := Option.isSome_iff_exists.1 hf
  have h1 := List.mem_of_find?_eq_some hg
  have h2 := List.find?_some hg
  obtain ⟨t, ht, hgt⟩ := List.mem_flatMap.1 h1
  have := h.graders t ht g hgt
  simp only [decide_eq_true_eq] at h2
  rw [← h2]; exact this

theorem start_side {fs : FS} {task : Task} {sols : List Src} (n : Uuid)
    (cfg : DagConfig) : Side (ctxOf fs cfg task sols) [] (start n cfg) := by
  refine ⟨?_, ?_, ?_, ?_, ?_, ?_, ?_, ?_, ?_, ?_⟩
  all_goals simp [start, allExecs, AMap.keys, AMap.get?]

/-! ## The solutions -/

/-- Everything that is known about the evaluation of a solution. -/
def EvalOk (c : Ctx) (ev : Eval) (task : Task) (seed : Nat → Nat) (i : Nat) (src : Src) : Prop :=
  ∃ input handle output, GenOk c ev task i (seed i) input ∧ ValOk c ev task i input handle ∧
    SolOk c ev task i src input handle output ∧ ChkOk c ev task i input output ∧
    Kept ev input (inDest task src) ∧ Kept ev output (outDest task src)

theorem EvalOk.mono {c : Ctx} {a b : Eval} {task : Task} {seed : Nat → Nat} {i : Nat} {src : Src}
    (h : EvalOk c a task seed i src) (k : Ext c.G a b) : EvalOk c b task seed i src := by
  obtain ⟨x, y, z, h1, h2, h3, h4, h5, h6⟩ := h
  exact ⟨x, y, z, h1.mono k, h2.mono k, h3.mono k, h4.mono k, h5.mono k, h6.mono k⟩

/-- The sources of a task are known. -/
structure Known (c : Ctx) (task : Task) (sols : List Src) : Prop where
  generator : c.Knows task.generator
  validator : ∀ v, task.validator = some v → c.Knows v
  checker : c.Knows task.checker
  official : OfficialKnown c task
  sols : ∀ s ∈ sols, c.Knows s

theorem buildSolution_spec {c : Ctx} {task : Task} {seed : Nat → Nat} {sols : List Src} {i : Nat} {src : Src}
    {ev ev' : Eval} {a : Unit} (h : Inv c.G ev []) (hk : Known c task sols) (hs : src ∈ sols)
    (hd : ev.dag.config.copyExe = true → c.mayWrite (inDest task src) ∧ c.mayWrite (outDest task src))
    (hr : buildSolution c.fs task seed (i, src) ev = .ok (a, ev')) :
    Inv c.G ev' [] ∧ Step c ev ev' (solutionMessages task i (seed i)) [outcomeHandler i] ∧
    EvalOk c ev' task seed i src := by
  simp only [buildSolution, bind_ok] at hr
  obtain ⟨input, ev1, h1, handle, ev2, h2, output, ev3, h3, h4⟩ := hr
  obtain ⟨i1, s1, -, m1, g1, w1⟩ := generateAndBind_spec h hk.generator hk.official (fun hc => (hd hc).1) h1
  obtain ⟨i2, s2, -, m2, g2⟩ := validateMaybe_spec i1 hk.validator hk.official m1 h2
  have s12 := s1.trans s2
  obtain ⟨i3, s3, -, m3, g3, w3⟩ := solveAndBind_spec i2 (hk.sols src hs)
    (fun hc => (hd (by rw [← s12.ext.config]; exact hc)).2) (s2.ext.allFiles m1) m2 h3
  obtain ⟨i4, s4, -, g4⟩ := checkAndBind_spec i3 hk.checker hk.official
    (s3.ext.allFiles (s2.ext.allFiles m1)) m3 h4
  refine ⟨i4, ?_, input, handle, output, ?_, ?_, g3.mono s4.ext, g4, ?_, w3.mono s4.ext⟩
  · have := (s12.trans s3).trans s4
    simpa [solutionMessages] using this
  · exact ((g1.mono s2.ext).mono s3.ext).mono s4.ext
  · exact (g2.mono s3.ext).mono s4.ext
  · exact ((w1.mono s2.ext).mono s3.ext).mono s4.ext

theorem solutions_spec {c : Ctx} {task : Task} {seed : Nat → Nat} {sols : List Src} (hk : Known c task sols) :
    ∀ (rest : List Src) (i : Nat) {ev ev' : Eval} {a : Unit}, Inv c.G ev [] → (∀ s ∈ rest, s ∈ sols) →
    (ev.dag.config.copyExe = true → ∀ s ∈ sols, c.mayWrite (inDest task s) ∧ c.mayWrite (outDest task s)) →
    each (buildSolution c.fs task seed) (enumFrom i rest) ev = .ok (a, ev') →
    Inv c.G ev' [] ∧
    Step c ev ev' ((enumFrom i rest).flatMap (fun p => solutionMessages task p.1 (seed p.1)))
      ((enumFrom i rest).map (fun p => outcomeHandler p.1)) ∧
    ∀ p ∈ enumFrom i rest, EvalOk c ev' task seed p.1 p.2 := by
  intro rest
  induction rest with
  | nil =>
    intro i ev ev' a h _ _ hr
    simp only [enumFrom, each, pure_ok] at hr
    obtain ⟨-, rfl⟩ := hr
    exact ⟨h, .refl _ _, by simp [enumFrom]⟩
  | cons s rest ih =>
    intro i ev ev' a h hm hd hr
    simp only [enumFrom, each, bind_ok] at hr
    obtain ⟨_, ev1, h1, h2⟩ := hr
    obtain ⟨i1, s1, g1⟩ := buildSolution_spec h hk (hm s (by simp)) (fun hc => hd hc s (hm s (by simp))) h1
    obtain ⟨i2, s2, g2⟩ := ih (i + 1) i1 (fun t ht => hm t (by simp [ht]))
      (fun hc => hd (by rw [← s1.ext.config]; exact hc)) h2
    refine ⟨i2, ?_, ?_⟩
    · simpa [enumFrom] using s1.trans s2
    · intro p hp
      simp only [enumFrom, List.mem_cons] at hp
      rcases hp with rfl | hp
      · exact g1.mono s2.ext
      · exact g2 p hp

theorem enumFrom_getElem {α : Type} : ∀ (l : List α) (i j : Nat) (x : α), l[j]? = some x → (i + j, x) ∈ enumFrom i l
  | [], _, _, _, h => by simp at h
  | y :: l, i, 0, x, h => by simp at h; subst h; simp [enumFrom]
  | y :: l, i, j + 1, x, h => by
    simp only [List.getElem?_cons_succ] at h
    have := enumFrom_getElem l (i + 1) j x h
    simp only [enumFrom, List.mem_cons]
    right
    have e : i + (j + 1) = i + 1 + j := by omega
    rw [e]; exact this

theorem enumFrom_fst {α β : Type} (f : Nat → List β) : ∀ (l : List α) (i : Nat),
    (enumFrom i l).flatMap (fun p => f p.1) = (List.range' i l.length).flatMap f
  | [], _ => rfl
  | x :: l, i => by
    simp only [enumFrom, List.flatMap_cons, List.length_cons, List.range'_succ]
    rw [enumFrom_fst f l (i + 1)]

theorem known {n : Uuid} {fs : FS} {cfg : DagConfig} {task : Task} {sols : List Src} (h : Fits n task sols) :
    Known (ctxOf fs cfg task sols) task sols := by
  refine ⟨ctx_knows h (by simp [Spec.sources]), fun v hv => ctx_knows h (by simp [Spec.sources, hv]),
    ctx_knows h (by simp [Spec.sources]), fun s name hs => ctx_knows h (by simp [Spec.sources, hs]),
    fun s hs => ctx_knows h (by simp [Spec.sources, hs])⟩

theorem buildDag_done {n : Uuid} {cfg : DagConfig} {fs : FS} {task : Task} {seed : Nat → Nat} {sols : List Src}
    {ev : Eval} {a : Unit} (h : Fits n task sols) (hr : buildDag fs task seed sols (start n cfg) = .ok (a, ev)) :
    let c := ctxOf fs cfg task sols
    Done c ev ∧
    Step c (start n cfg) ev (messages task seed sols.length) ((enumFrom 0 sols).map (fun p => outcomeHandler p.1)) ∧
    ∀ i src, sols[i]? = some src → EvalOk c ev task seed i src := by
  have hr' : each (buildSolution (ctxOf fs cfg task sols).fs task seed) (enumFrom 0 sols) (start n cfg) = .ok (a, ev) := hr
  obtain ⟨h1, h2, h3⟩ := solutions_spec (known h) sols 0 (start_inv h cfg) (fun _ hs => hs)
    (fun hc s hs => ⟨⟨hc, s, hs, Or.inl rfl⟩, ⟨hc, s, hs, Or.inr rfl⟩⟩) hr'
  refine ⟨⟨h1, h2.side [] (start_side n cfg)⟩, ?_, ?_⟩
  · have e : messages task seed sols.length =
        (enumFrom 0 sols).flatMap (fun p => solutionMessages task p.1 (seed p.1)) := by
      rw [enumFrom_fst (fun i => solutionMessages task i (seed i)), Spec.messages, List.range_eq_range']
    rw [e]; exact h2
  · intro i src hi
    have := h3 (0 + i, src) (enumFrom_getElem sols 0 i src hi)
    simpa using this

theorem used_source {n : Uuid} {fs : FS} {cfg : DagConfig} {task : Task} {sols : List Src}
    (h : Fits n task sols) {k : Nat} (hk : (ctxOf fs cfg task sols).used k) :
    ∃ s ∈ sources task sols, s.id = k ∧ (ctxOf fs cfg task sols).src k = s := by
  obtain ⟨s, hs, rfl⟩ := hk
  exact ⟨s, hs, rfl, (ctx_knows h hs).src⟩

/-! ## To the specification -/

theorem HasOff.spec {c : Ctx} {ev : Eval} (h : Done c ev) {task : Task} (hk : OfficialKnown c task)
    {over over' : List String} {e : Execution} (he : HasOff ev task over e) (ho : ∀ q, q ∈ over → q ∈ over') :
    HasOfficial c.fs ev task over' e := by
  intro s name hs hn
  obtain ⟨f, h1, h2⟩ := he s name hs (fun hm => hn (ho _ hm))
  exact ⟨f, h1, h2, executable_of h (hk s name hs) h2⟩

theorem EvalOk.spec {c : Ctx} {ev : Eval} (h : Done c ev) {task : Task} {sols : List Src} (hk : Known c task sols)
    {seed : Nat → Nat} {i : Nat} {src : Src} (hs : src ∈ sols) (he : EvalOk c ev task seed i src) :
    ∃ input handle output, Evaluates c.fs ev task i src (seed i) input handle output ∧
      Kept ev input (inDest task src) ∧ Kept ev output (outDest task src) := by
  obtain ⟨input, handle, output, hg, hv, hso, hc, w1, w2⟩ := he
  refine ⟨input, handle, output, ⟨?_, ?_, ?_, ?_⟩, w1, w2⟩
  · obtain ⟨e, h1, h2, h3, h4, h5, h6, h7, h8, h9, h10⟩ := hg
    exact ⟨e, h2.runs h hk.generator h1 (fun _ => Iff.rfl), h3.spec h hk.official (fun _ hq => hq), h4, h5, h6, h7,
      h8, h9, h10⟩
  · unfold ValOk at hv
    cases hval : task.validator with
    | none => simpa only [hval] using hv
    | some v =>
      simp only [hval] at hv ⊢
      obtain ⟨f, h0, e, h1, h2, h3, h4, h5, h6, h7, h8, h9, h10⟩ := hv
      exact ⟨f, e, h0, h2.runs h (hk.validator v hval) h1 (fun _ => Iff.rfl),
        h3.spec h hk.official (fun _ hq => hq), h4, h5, h6, h7, h8, h9, h10⟩
  · obtain ⟨e, h1, h2, h3, h4⟩ := hso
    exact ⟨e, h2.runs h (hk.sols src hs) h1 (fun _ => Iff.rfl), h3, h4⟩
  · obtain ⟨e, h1, h2, h3, h4⟩ := hc
    refine ⟨e, h2.runs h hk.checker h1 (fun q => ?_), h3.spec h hk.official (fun q hq => ?_), h4⟩
    · simp only [List.mem_cons]; grind
    · simp only [List.mem_cons, List.not_mem_nil, or_false] at hq ⊢; grind

/-! ## One report for each execution -/

section
variable (u : ExecutionUuid)

theorem includeOfficial_gap (fs : FS) (official : Option (Src × String)) (e : Execution) :
    Gap u (includeOfficial fs official e) (fun _ => 0) (fun e' => e'.uuid = e.uuid) := by
  cases official with
  | none => exact Gap.pure rfl rfl
  | some p =>
    refine Gap.bind0 (Q := fun _ => True) ?_ (fun f _ => Gap.pure rfl rfl)
    exact (prepareBound_gap u fs p.1).bind0 (fun _ _ => Gap.look)

theorem copyTo_gap (f : FileUuid) (dest : String) : Even u (copyTo f dest) := by
  refine Gap.look.bind0 (fun b _ => ?_)
  split
  · exact writeFileTo_gap u _ _ _
  · exact Gap.pure rfl trivial

theorem bindAndAdd_gap (e : Execution) (t : Topic) : Even u (bindAndAdd e t) := by
  refine (bindCallbacks_gap u e.uuid t).bind (fun _ _ => ?_)
  refine (captureStderr_gap u e _).bind0 (fun e' he => ?_)
  exact (addExec_gap u e').congr (fun _ _ => by rw [he]; omega) (fun _ h => h)

theorem buildDag_gap (fs : FS) (task : Task) (seed : Nat → Nat) (sols : List Src) :
    Even u (buildDag fs task seed sols) := by
  refine Gap.each (fun p _ => ?_)
  refine Gap.bind0 (Q := fun _ => True) ?_ (fun input _ => ?_)
  · refine Gap.bind0 (Q := fun _ => True) ?_ (fun p _ => ?_)
    · refine (execute_gap u fs _ _).bind0 (fun e _ => ?_)
      refine (includeOfficial_gap u fs _ _).bind0 (fun e _ => ?_)
      exact (stdoutOf_gap u _).congr (fun _ _ => rfl) (fun _ _ => trivial)
    · refine (copyTo_gap u _ _).bind0 (fun _ _ => ?_)
      exact (bindAndAdd_gap u _ _).bind0 (fun _ _ => Gap.pure rfl trivial)
  refine Gap.bind0 (Q := fun _ => True) ?_ (fun handle _ => ?_)
  · unfold validateMaybe
    cases task.validator with
    | none => exact Gap.pure rfl trivial
    | some v =>
      refine Gap.bind0 (Q := fun _ => True) ?_ (fun _ _ => Gap.pure rfl trivial)
      refine Gap.bind0 (Q := fun _ => True) ?_ (fun p _ => ?_)
      · refine (execute_gap u fs _ _).bind0 (fun e _ => ?_)
        refine (includeOfficial_gap u fs _ _).bind0 (fun e _ => ?_)
        exact (stdoutOf_gap u _).congr (fun _ _ => rfl) (fun _ _ => trivial)
      · exact (bindAndAdd_gap u _ _).bind0 (fun _ _ => Gap.pure rfl trivial)
  refine Gap.bind0 (Q := fun _ => True) ?_ (fun output _ => ?_)
  · refine Gap.bind0 (Q := fun _ => True) ?_ (fun p _ => ?_)
    · refine (execute_gap u fs _ _).bind0 (fun e _ => ?_)
      exact (stdoutOf_gap u _).bind0 (fun _ _ => Gap.pure rfl trivial)
    · refine (copyTo_gap u _ _).bind0 (fun _ _ => ?_)
      exact (bindAndAdd_gap u _ _).bind0 (fun _ _ => Gap.pure rfl trivial)
  refine Gap.bind0 (Q := fun _ => True) ?_ (fun e _ => bindAndAdd_gap u _ _)
  refine (execute_gap u fs _ _).bind0 (fun e _ => ?_)
  refine (includeOfficial_gap u fs _ _).bind0 (fun e _ => ?_)
  refine (captureStdout_gap u _ _).bind0 (fun e _ => ?_)
  exact (onExec_gap u _ _ rfl).bind0 (fun _ _ => Gap.pure rfl trivial)
end

theorem reports_balanced {n : Uuid} {cfg : DagConfig} {fs : FS} {task : Task} {seed : Nat → Nat}
    {sols : List Src} {ev : Eval} {a : Unit}
    (hr : buildDag fs task seed sols (start n cfg) = .ok (a, ev)) (u : ExecutionUuid) :
    (ev.handlers.filterMap reportedBy).count u = ((allExecs ev.dag).map (·.uuid)).count u := by
  obtain ⟨-, h, -⟩ := buildDag_gap u fs task seed sols _ _ _ (by simp [Bounded, start, AMap.keys]) hr
  rw [gap_start] at h
  unfold gap at h
  simp only at h
  omega

/-! ## How it can fail -/

theorem includeOfficial_safe (fs : FS) (official : Option (Src × String)) (e : Execution) :
    Safe fs (includeOfficial fs official e) (fun _ => True) := by
  cases official with
  | none => exact Safe.pure trivial
  | some p =>
    refine Safe.bind' (Q := fun _ => True) ?_ (fun f => Safe.pure trivial)
    exact (prepareBound_safe fs p.1).bind' (fun _ => Safe.look _)

theorem copyTo_safe (fs : FS) (f : FileUuid) (dest : String) : Safe fs (copyTo f dest) (fun _ => True) := by
  refine (Safe.look _).bind' (fun b => ?_)
  split
  · exact Safe.upd _
  · exact Safe.pure trivial

theorem bindAndAdd_safe (fs : FS) (e : Execution) (t : Topic) : Safe fs (bindAndAdd e t) (fun _ => True) :=
  (bindCallbacks_safe fs _ _).bind' (fun _ => (captureStderr_safe fs _ _).bind' (fun _ => addExec_safe fs _))

theorem buildDag_safe (fs : FS) (task : Task) (seed : Nat → Nat) (sols : List Src) :
    Safe fs (buildDag fs task seed sols) (fun _ => True) := by
  refine Safe.each (fun p _ => ?_)
  refine Safe.bind' (Q := fun _ => True) ?_ (fun input => ?_)
  · refine Safe.bind' (Q := fun _ => True) ?_ (fun p => ?_)
    · refine (execute_safe fs _ _).bind' (fun e => ?_)
      refine (includeOfficial_safe fs _ _).bind' (fun e => ?_)
      exact (stdoutOf_safe fs _).mono (fun _ _ => trivial)
    · refine (copyTo_safe fs _ _).bind' (fun _ => ?_)
      exact (bindAndAdd_safe fs _ _).bind' (fun _ => Safe.pure trivial)
  refine Safe.bind' (Q := fun _ => True) ?_ (fun handle => ?_)
  · unfold validateMaybe
    cases task.validator with
    | none => exact Safe.pure trivial
    | some v =>
      refine Safe.bind' (Q := fun _ => True) ?_ (fun _ => Safe.pure trivial)
      refine Safe.bind' (Q := fun _ => True) ?_ (fun p => ?_)
      · refine (execute_safe fs _ _).bind' (fun e => ?_)
        refine (includeOfficial_safe fs _ _).bind' (fun e => ?_)
        exact (stdoutOf_safe fs _).mono (fun _ _ => trivial)
      · exact (bindAndAdd_safe fs _ _).bind' (fun _ => Safe.pure trivial)
  refine Safe.bind' (Q := fun _ => True) ?_ (fun output => ?_)
  · refine Safe.bind' (Q := fun _ => True) ?_ (fun p => ?_)
    · refine (execute_safe fs _ _).bind' (fun e => ?_)
      exact (stdoutOf_safe fs _).bind' (fun _ => Safe.pure trivial)
    · refine (copyTo_safe fs _ _).bind' (fun _ => ?_)
      exact (bindAndAdd_safe fs _ _).bind' (fun _ => Safe.pure trivial)
  refine Safe.bind' (Q := fun _ => True) ?_ (fun e => bindAndAdd_safe fs _ _)
  refine (execute_safe fs _ _).bind' (fun e => ?_)
  refine (includeOfficial_safe fs _ _).bind' (fun e => ?_)
  refine (captureStdout_safe fs _ _).bind' (fun e => ?_)
  exact (Safe.upd _).bind' (fun _ => Safe.pure trivial)

/-! ## The messages are different -/

/-- The solution a message of Terry is about. -/
def about : Topic → Option Nat
  | .generation i _ => some i
  | .validation i _ => some i
  | .evaluation _ _ i _ _ => some i
  | .checker _ _ i => some i
  | _ => none

theorem solutionMessages_about {task : Task} {i s : Nat} {t : Topic} (h : t ∈ solutionMessages task i s) :
    about t = some i := by
  simp only [solutionMessages, List.cons_append, List.mem_cons, List.mem_append, List.mem_map, List.not_mem_nil,
    or_false] at h
  rcases h with rfl | ⟨_, _, rfl⟩ | rfl | rfl <;> rfl

theorem messages_nodup (task : Task) (seed : Nat → Nat) (n : Nat) : (messages task seed n).Nodup := by
  refine nodup_flatMap (fun i _ => ?_) ?_
  · unfold solutionMessages
    cases task.validator <;> simp
  · refine List.Pairwise.imp ?_ (List.nodup_range (n := n))
    intro i j hij x hx y hy hxy
    subst hxy
    have h1 := solutionMessages_about hx
    rw [solutionMessages_about hy] at h1
    exact hij (Option.some.inj h1).symm

end TM.Terry
