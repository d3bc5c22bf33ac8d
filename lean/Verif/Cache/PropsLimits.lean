import Verif.Cache.Lemmas
/-!
# C17, C18: limits and statuses of the results served by the cache
-/

namespace TM.Cache

open TM

theorem hit_origin {ops : List Op} {s : State} (hr : Reach ops s)
    {g : ExecutionGroup} {fk : FileKeys} {present : FileStoreKey → Bool}
    {rs : List ExecutionResult} {outs : AMap FileUuid FileStoreKey}
    (h : get s g fk present = some (.hit rs outs)) :
    ∃ op ∈ ops, ∃ en, SameKey op g fk ∧ cacheEntry op.group op.fileKeys op.results = some en ∧
      isCompatible en g = some true ∧ outputs en present g = some outs ∧
      rs = (g.executions.zip en.items).map servedResult := by
  obtain ⟨key, ens, pre, en, post, hk, he, rfl, ho, hc, hrs, _⟩ := get_hit h
  obtain ⟨op, hop, hk', hce⟩ := entry_origin hr he (en := en) (by simp)
  exact ⟨op, hop, en, ⟨key, hk', hk⟩, hce, hc, ho, hrs⟩

theorem servedFrom {op : Op} {en : Entry} {g : ExecutionGroup} {rs : List ExecutionResult}
    (hce : cacheEntry op.group op.fileKeys op.results = some en)
    (hrs : rs = (g.executions.zip en.items).map servedResult) : ServedFrom op g rs := by
  subst hrs
  refine ⟨by simp [cacheEntry_length hce], ?_⟩
  intro i r hr
  simp only [List.getElem?_map, Option.map_eq_some_iff] at hr
  obtain ⟨p, hp, rfl⟩ := hr
  obtain ⟨_, b⟩ := List.getElem?_zip_eq_some.1 hp
  obtain ⟨e, r₀, _, h2, h3⟩ := cacheEntry_item hce b
  obtain ⟨h4, _⟩ := entryItem_some h3
  exact ⟨r₀, h2, rfl, by simp [servedResult, h4], by simp [servedResult, h4],
    by simp [servedResult, h4], by simp [servedResult, h4]⟩

theorem item_of {op : Op} {en : Entry}
    (hce : cacheEntry op.group op.fileKeys op.results = some en) {i : Nat} {e₀ : Execution}
    {r₀ : ExecutionResult} (h1 : op.group.executions[i]? = some e₀)
    (h2 : op.results[i]? = some r₀) :
    ∃ it, en.items[i]? = some it ∧ entryItem op.fileKeys e₀ r₀ = some it := by
  have h' := congrArg (fun l => l[i]?) (cacheEntry_items hce)
  have hz : (op.group.executions.zip op.results)[i]? = some (e₀, r₀) :=
    List.getElem?_zip_eq_some.2 ⟨h1, h2⟩
  simp only [List.getElem?_map, hz, Option.map_some] at h'
  cases hi : en.items[i]? with
  | none => simp [hi] at h'
  | some it =>
    simp only [hi, Option.map_some, Option.some.injEq] at h'
    exact ⟨it, rfl, h'⟩

theorem head_config {g : ExecutionGroup} (hg : GroupOk g) {e e₀ : Execution}
    (he : e ∈ g.executions) (h0 : g.executions.head? = some e₀) : e₀.config = e.config :=
  hg.config _ (List.mem_of_head? h0) _ he

/-- C17 (partial).  Whatever was inserted before, when a lookup is a hit the served results are
those of an earlier run of the same request such that, execution by execution: if that run
succeeded then no limit enforced on the new request is stricter than the one enforced on that run;
if it failed no limit is looser.  The extra time and memory are accounted for.  Missing: `/proc`
and the readable directories, for which only "not a strict superset" is guaranteed
(`served_limits_fails`). -/
theorem served_limits_partial {ops : List Op} {s : State} (hr : Reach ops s)
    {g : ExecutionGroup} {fk : FileKeys} {present : FileStoreKey → Bool}
    {rs : List ExecutionResult} {outs : AMap FileUuid FileStoreKey}
    (hops : ∀ op ∈ ops, GroupOk op.group) (hg : GroupOk g)
    (h : get s g fk present = some (.hit rs outs)) :
    ∃ op ∈ ops, SameKey op g fk ∧ ServedFrom op g rs ∧
      ∀ (i : Nat) e e₀ r₀, g.executions[i]? = some e → op.group.executions[i]? = some e₀ →
        op.results[i]? = some r₀ →
        (r₀.status = .success →
          TighterNumeric (Execution.request e₀) (Execution.request e) ∧
          ¬ StrictlyMoreDirs (Execution.request e₀) (Execution.request e)) ∧
        (r₀.status ≠ .success →
          TighterNumeric (Execution.request e) (Execution.request e₀) ∧
          ¬ StrictlyMoreDirs (Execution.request e) (Execution.request e₀)) := by
  obtain ⟨op, hop, en, hk, hce, hc, ho, hrs⟩ := hit_origin hr h
  refine ⟨op, hop, hk, servedFrom hce hrs, ?_⟩
  intro i e e₀ r₀ he he₀ hr₀
  obtain ⟨it, hi, hit⟩ := item_of hce he₀ hr₀
  obtain ⟨f, hf, hcomp⟩ := compatible_item hc he hi
  obtain ⟨h1, h2, h3, h4, _⟩ := entryItem_some hit
  have me := List.mem_iff_getElem?.2 ⟨i, he⟩
  have me₀ := List.mem_iff_getElem?.2 ⟨i, he₀⟩
  have hcfg := head_config hg me hf
  rw [hcfg] at hcomp
  have fe := hg.fits e me
  have fe₀ := (hops op hop).fits e₀ me₀
  simp only [itemCompatible, h1, h2, h3, h4] at hcomp
  constructor
  · intro hs
    simp only [hs] at hcomp
    exact checkLimits_sound (a := Execution.request e₀) (b := Execution.request e) fe₀ fe hcomp
  · intro hs
    split at hcomp
    · next hs' => exact absurd hs' hs
    · exact checkLimits_sound (a := Execution.request e) (b := Execution.request e₀) fe fe₀ hcomp

theorem limit_kept {l l₀ : Option Int} {used : Int} (hle : LimitLe l l₀)
    (h : Execution.over l₀ used = true) : Execution.over l used = true := by
  cases l <;> cases l₀ <;> simp [LimitLe, Execution.over] at *
  omega

theorem limitLe_cancel {l l₀ : Option Int} {x : Int} (h : LimitLe (withExtra l x) (withExtra l₀ x)) :
    LimitLe l l₀ := by
  cases l <;> cases l₀ <;> simp [LimitLe, withExtra] at *
  omega

/-- When a limit is exceeded the status does not depend on how the program ended. -/
theorem status_over (e : Execution) (r : Resources) (c c' : Nat) (s s' : Option (Nat × String))
    (h : Execution.over e.limits.cpuTime r.cpuTime = true ∨
      Execution.over e.limits.sysTime r.sysTime = true ∨
      Execution.over e.limits.wallTime r.wallTime = true ∨
      Execution.overMem e.limits.memory r.memory = true) :
    e.status c s r = e.status c' s' r := by
  unfold Execution.status
  grind

theorem status_limit {e : Execution} {c : Nat} {s : Option (Nat × String)} {r : Resources}
    (h : LimitStatus (e.status c s r)) :
    Execution.over e.limits.cpuTime r.cpuTime = true ∨
      Execution.over e.limits.sysTime r.sysTime = true ∨
      Execution.over e.limits.wallTime r.wallTime = true ∨
      Execution.overMem e.limits.memory r.memory = true := by
  unfold LimitStatus Execution.status at h
  grind

theorem recovered_status {e e₀ : Execution} {c : Nat} {s : Option (Nat × String)} {r : Resources}
    (h : ¬ LimitStatus (e₀.status c s r)) :
    e.status (recovered (e₀.status c s r)).1 (recovered (e₀.status c s r)).2 r = e.status c s r := by
  unfold LimitStatus at h
  generalize hs : e₀.status c s r = st at *
  unfold Execution.status at hs
  split at hs; · simp [← hs] at h
  split at hs; · simp [← hs] at h
  split at hs; · simp [← hs] at h
  split at hs; · simp [← hs] at h
  split at hs
  · subst hs; simp [recovered, Execution.status]
  · split at hs
    · subst hs; simp [recovered]
    · subst hs; simp_all [recovered]

/-- C18 (partial).  Take a program that always ends in the same way (`code`, `sig`) and always uses
the same resources.  When a lookup is a hit, the status served is the one `Execution::status` gives
under the new limits, provided the earlier run exceeded no limit or was made with the same extra
time and memory.  Missing: an earlier run that exceeded a limit, with a different extra
(`served_status_wrong`). -/
theorem served_status_partial {ops : List Op} {s : State} (hr : Reach ops s)
    {g : ExecutionGroup} {fk : FileKeys} {present : FileStoreKey → Bool}
    {rs : List ExecutionResult} {outs : AMap FileUuid FileStoreKey}
    (hops : ∀ op ∈ ops, GroupOk op.group) (hg : GroupOk g)
    (h : get s g fk present = some (.hit rs outs)) :
    ∃ op ∈ ops, SameKey op g fk ∧ ServedFrom op g rs ∧
      ∀ (i : Nat) e e₀ r₀ code sig, g.executions[i]? = some e → op.group.executions[i]? = some e₀ →
        op.results[i]? = some r₀ → r₀.status = e₀.status code sig r₀.resources →
        (¬ LimitStatus r₀.status ∨ (e.config.extraTime = e₀.config.extraTime ∧
          e.config.extraMemory = e₀.config.extraMemory)) →
        ∃ r, rs[i]? = some r ∧ r.status = e.status code sig r₀.resources := by
  obtain ⟨op, hop, en, hk, hce, hc, ho, hrs⟩ := hit_origin hr h
  refine ⟨op, hop, hk, servedFrom hce hrs, ?_⟩
  intro i e e₀ r₀ code sig he he₀ hr₀ hst hcase
  obtain ⟨it, hi, hit⟩ := item_of hce he₀ hr₀
  obtain ⟨f, hf, hcomp⟩ := compatible_item hc he hi
  obtain ⟨h1, h2, h3, h4, _⟩ := entryItem_some hit
  have me := List.mem_iff_getElem?.2 ⟨i, he⟩
  have me₀ := List.mem_iff_getElem?.2 ⟨i, he₀⟩
  rw [head_config hg me hf] at hcomp
  have fe := hg.fits e me
  have fe₀ := (hops op hop).fits e₀ me₀
  refine ⟨servedResult (e, it), ?_, ?_⟩
  · subst hrs
    have hz : (g.executions.zip en.items)[i]? = some (e, it) :=
      List.getElem?_zip_eq_some.2 ⟨he, hi⟩
    rw [List.getElem?_map, hz]
    rfl
  · simp only [servedResult, h1]
    rw [hst]
    by_cases hl : LimitStatus (e₀.status code sig r₀.resources)
    · rcases hcase with hn | ⟨hx, hm⟩
      · exact absurd (hst ▸ hl) hn
      · simp only [itemCompatible, h1, h2, h3, h4] at hcomp
        have hns : r₀.status ≠ .success := by
          intro e'; rw [← hst, e'] at hl; simp [LimitStatus] at hl
        have hcomp' : checkLimits e.limits e₀.limits (e.config.extraTime - e₀.config.extraTime)
            (wsub e.config.extraMemory e₀.config.extraMemory) = true := by
          split at hcomp
          · next hs' => exact absurd hs' hns
          · exact hcomp
        obtain ⟨tn, _⟩ := checkLimits_sound (a := Execution.request e) (b := Execution.request e₀)
          fe fe₀ hcomp'
        have c1 := tn.cpu; have c2 := tn.sys; have c3 := tn.wall; have c4 := tn.memory
        simp only [Execution.request, hx, hm] at c1 c2 c3 c4
        refine status_over e r₀.resources _ _ _ _ ?_
        rcases status_limit hl with o | o | o | o
        · exact Or.inl (limit_kept (limitLe_cancel c1) o)
        · exact Or.inr (Or.inl (limit_kept (limitLe_cancel c2) o))
        · exact Or.inr (Or.inr (Or.inl (limit_kept (limitLe_cancel c3) o)))
        · refine Or.inr (Or.inr (Or.inr ?_))
          have := limitLe_cancel c4
          cases hm : e.limits.memory <;> cases hm₀ : e₀.limits.memory <;>
            simp [hm, hm₀, LimitLe, ofNat, Execution.overMem] at *
          omega
    · exact recovered_status hl

/-- A group made of one execution with the given limits and configuration. -/
def single (limits : ExecutionLimits) (config : DagConfig := {}) : ExecutionGroup :=
  { uuid := 0, executions := [{ uuid := 1, limits := limits, config := config }] }

/-- A result with the given status and resources. -/
def resultOf (st : ExecutionStatus) (r : Resources) : ExecutionResult := { status := st, resources := r }

/-- The cache with one insertion. -/
def cacheWith (g : ExecutionGroup) (r : ExecutionResult) : Option State := insert {} g [] [r]

theorem groupOk_single {limits : ExecutionLimits} {config : DagConfig}
    (h : (Request.mk limits config.extraTime config.extraMemory).Fits) :
    GroupOk (single limits config) := by
  constructor
  · simp [single]
  · intro e he
    simp [single] at he
    subst he
    exact h

/-- C17 fails in general: a success obtained while reading the directory `/a` (and with `/proc`) is
served to a request that may only read `/b` (and has no `/proc`). -/
theorem served_limits_fails :
    ∃ s, Reach [⟨single { mountProc := true, extraReadableDirs := ["/a"] }, [],
        [resultOf .success {}]⟩] s ∧
      get s (single { extraReadableDirs := ["/b"] }) [] (fun _ => true)
        = some (.hit [{ resultOf .success {} with wasCached := true }] []) ∧
      ¬ Tighter ⟨{ mountProc := true, extraReadableDirs := ["/a"] }, 0, 8192⟩
        ⟨{ extraReadableDirs := ["/b"] }, 0, 8192⟩ := by
  refine ⟨_, .insert (s := {}) (ops := []) _ (.empty false) rfl, rfl, ?_⟩
  intro h
  have := h.proc rfl
  cases this

/-- C18 fails in general: a program that never ends is killed after 11 seconds (limit 1, extra 10)
and reported as out of time; a request with limit 11 and no extra is served a success, although a
program ending with code 9 (or killed by the sandbox) is not one. -/
theorem served_status_wrong :
    ∃ s, Reach [⟨single { cpuTime := some 1 } { extraTime := 10 }, [],
        [resultOf .timeLimitExceeded { cpuTime := 11 }]⟩] s ∧
      get s (single { cpuTime := some 11 }) [] (fun _ => true)
        = some (.hit [{ resultOf .success { cpuTime := 11 } with wasCached := true }] []) ∧
      (∀ e ∈ (single { cpuTime := some 1 } { extraTime := 10 }).executions,
        e.status 9 none { cpuTime := 11 } = .timeLimitExceeded) ∧
      (∀ e ∈ (single { cpuTime := some 11 }).executions,
        e.status 9 none { cpuTime := 11 } = .returnCode 9) := by
  refine ⟨_, .insert (s := {}) (ops := []) _ (.empty false) rfl, rfl, ?_, ?_⟩
  · simp [single, Execution.status, Execution.over]
  · simp [single, Execution.status, Execution.over, Execution.overMem]

/-- The hypotheses of `served_limits_partial` and `served_status_partial` are met: a success with
limit 2 is served to a request with limit 3, and a time limit exceeded with limit 3 to a request
with limit 2. -/
example : ∃ s, Reach [⟨single { cpuTime := some 2, memory := some 100 }, [],
      [resultOf .success { cpuTime := 1 }]⟩] s ∧
    get s (single { cpuTime := some 3, memory := some 100 }) [] (fun _ => true)
      = some (.hit [{ resultOf .success { cpuTime := 1 } with wasCached := true }] []) ∧
    GroupOk (single { cpuTime := some 2, memory := some 100 }) ∧
    GroupOk (single { cpuTime := some 3, memory := some 100 }) := by
  refine ⟨_, .insert (s := {}) (ops := []) _ (.empty false) rfl, rfl, groupOk_single ?_,
    groupOk_single ?_⟩ <;> constructor <;> simp

example : ∃ s, Reach [⟨single { cpuTime := some 3 }, [],
      [resultOf .timeLimitExceeded { cpuTime := 4 }]⟩] s ∧
    get s (single { cpuTime := some 2 }) [] (fun _ => true)
      = some (.hit [{ resultOf .timeLimitExceeded { cpuTime := 4 } with wasCached := true }] []) :=
  ⟨_, .insert (s := {}) (ops := []) _ (.empty false) rfl, rfl⟩

/-- A success is not served to a request with a stricter limit. -/
example : ∃ s, Reach [⟨single { cpuTime := some 3 }, [],
      [resultOf .success { cpuTime := 1 }]⟩] s ∧
    get s (single { cpuTime := some 2 }) [] (fun _ => true) = some .miss :=
  ⟨_, .insert (s := {}) (ops := []) _ (.empty false) rfl, rfl⟩

end TM.Cache
