import Verif.Dag.Model
/-!
# Properties of the DAG data types (C02, part of C15)

Specification vocabulary: `Exceeds limit used` is the English "a limit is set and the usage is
strictly above it".
-/

namespace TM.DagSpec

/-- A limit is set and the used amount is strictly above it. -/
def Exceeds (limit : Option Int) (used : Int) : Prop := ∃ l, limit = some l ∧ l < used

/-- Same, for the memory. -/
def ExceedsMem (limit : Option Nat) (used : Nat) : Prop := ∃ l, limit = some l ∧ l < used

/-- `b` is at least as permissive as `a` (no limit = infinitely permissive). -/
def LooserI (a b : Option Int) : Prop := ∀ y, b = some y → ∃ x, a = some x ∧ x ≤ y
/-- Same as `LooserI`, for natural-valued limits. -/
def LooserN (a b : Option Nat) : Prop := ∀ y, b = some y → ∃ x, a = some x ∧ x ≤ y

/-- The documented classification, as a relation: one rule per status, in order of precedence. -/
inductive Classified (l : ExecutionLimits) (code : Nat) (sig : Option (Nat × String))
    (r : Resources) : ExecutionStatus → Prop
  | cpu : Exceeds l.cpuTime r.cpuTime → Classified l code sig r .timeLimitExceeded
  | sys : ¬ Exceeds l.cpuTime r.cpuTime → Exceeds l.sysTime r.sysTime →
      Classified l code sig r .sysTimeLimitExceeded
  | wall : ¬ Exceeds l.cpuTime r.cpuTime → ¬ Exceeds l.sysTime r.sysTime →
      Exceeds l.wallTime r.wallTime → Classified l code sig r .wallTimeLimitExceeded
  | mem : ¬ Exceeds l.cpuTime r.cpuTime → ¬ Exceeds l.sysTime r.sysTime →
      ¬ Exceeds l.wallTime r.wallTime → ExceedsMem l.memory r.memory →
      Classified l code sig r .memoryLimitExceeded
  | signal (n name) : ¬ Exceeds l.cpuTime r.cpuTime → ¬ Exceeds l.sysTime r.sysTime →
      ¬ Exceeds l.wallTime r.wallTime → ¬ ExceedsMem l.memory r.memory →
      sig = some (n, name) → Classified l code sig r (.signal n name)
  | code : ¬ Exceeds l.cpuTime r.cpuTime → ¬ Exceeds l.sysTime r.sysTime →
      ¬ Exceeds l.wallTime r.wallTime → ¬ ExceedsMem l.memory r.memory →
      sig = none → code ≠ 0 → Classified l code sig r (.returnCode code)
  | ok : ¬ Exceeds l.cpuTime r.cpuTime → ¬ Exceeds l.sysTime r.sysTime →
      ¬ Exceeds l.wallTime r.wallTime → ¬ ExceedsMem l.memory r.memory →
      sig = none → code = 0 → Classified l code sig r .success

end TM.DagSpec

namespace TM
open DagSpec

theorem over_iff {l : Option Int} {u : Int} : Execution.over l u = true ↔ Exceeds l u := by
  cases l <;> simp [Execution.over, Exceeds]

theorem overMem_iff {l : Option Nat} {u : Nat} : Execution.overMem l u = true ↔ ExceedsMem l u := by
  cases l <;> simp [Execution.overMem, ExceedsMem]

/-- **C02** The computed status is exactly the one the documented precedence assigns (and the
rules are exclusive, so it is the only one). -/
theorem status_classified (e : Execution) (code : Nat) (sig : Option (Nat × String))
    (r : Resources) (st : ExecutionStatus) :
    e.status code sig r = st ↔ Classified e.limits code sig r st := by
  constructor
  · rintro rfl
    unfold Execution.status
    by_cases h1 : Execution.over e.limits.cpuTime r.cpuTime
    · simp [h1]; exact .cpu (over_iff.1 h1)
    · have h1' := mt over_iff.2 h1
      by_cases h2 : Execution.over e.limits.sysTime r.sysTime
      · simp [h1, h2]; exact .sys h1' (over_iff.1 h2)
      · have h2' := mt over_iff.2 h2
        by_cases h3 : Execution.over e.limits.wallTime r.wallTime
        · simp [h1, h2, h3]; exact .wall h1' h2' (over_iff.1 h3)
        · have h3' := mt over_iff.2 h3
          by_cases h4 : Execution.overMem e.limits.memory r.memory
          · simp [h1, h2, h3, h4]; exact .mem h1' h2' h3' (overMem_iff.1 h4)
          · have h4' := mt overMem_iff.2 h4
            simp only [h1, h2, h3, h4, if_false, Bool.false_eq_true]
            rcases sig with _ | ⟨n, name⟩
            · by_cases h5 : code = 0
              · simp [h5]; exact .ok h1' h2' h3' h4' rfl rfl
              · simp [h5]; exact .code h1' h2' h3' h4' rfl h5
            · exact .signal n name h1' h2' h3' h4' rfl
  · intro h
    cases h <;> simp_all [Execution.status, ← over_iff, ← overMem_iff]

/-- **C02** Success iff no limit is exceeded, no signal, exit code zero. -/
theorem status_success_iff (e : Execution) (code : Nat) (sig : Option (Nat × String))
    (r : Resources) :
    e.status code sig r = .success ↔
      ¬ Exceeds e.limits.cpuTime r.cpuTime ∧ ¬ Exceeds e.limits.sysTime r.sysTime ∧
      ¬ Exceeds e.limits.wallTime r.wallTime ∧ ¬ ExceedsMem e.limits.memory r.memory ∧
      sig = none ∧ code = 0 := by
  rw [status_classified]
  constructor
  · intro h; cases h; simp_all
  · rintro ⟨a, b, c, d, e, f⟩; exact .ok a b c d e f

/-- **C02** The sandbox outcome is never classified as an internal error. -/
theorem status_not_internal (e : Execution) (code : Nat) (sig : Option (Nat × String))
    (r : Resources) : (e.status code sig r).isInternalError = false := by
  unfold Execution.status
  repeat' split
  all_goals rfl

/-- **C02** Relaxing the limits never turns a success into a failure. -/
theorem status_success_mono (e e' : Execution) (code : Nat) (sig : Option (Nat × String))
    (r : Resources)
    (hc : LooserI e.limits.cpuTime e'.limits.cpuTime)
    (hs : LooserI e.limits.sysTime e'.limits.sysTime)
    (hw : LooserI e.limits.wallTime e'.limits.wallTime)
    (hm : LooserN e.limits.memory e'.limits.memory)
    (h : e.status code sig r = .success) : e'.status code sig r = .success := by
  rw [status_success_iff] at h ⊢
  obtain ⟨h1, h2, h3, h4, h5, h6⟩ := h
  have key : ∀ {a b : Option Int} {u : Int}, LooserI a b → ¬ Exceeds a u → ¬ Exceeds b u := by
    rintro a b u hl hn ⟨y, hb, hy⟩
    obtain ⟨x, ha, hxy⟩ := hl y hb
    exact hn ⟨x, ha, by omega⟩
  refine ⟨key hc h1, key hs h2, key hw h3, ?_, h5, h6⟩
  rintro ⟨y, hb, hy⟩
  obtain ⟨x, ha, hxy⟩ := hm y hb
  exact h4 ⟨x, ha, by omega⟩

/-- Non-vacuity: a run killed by a signal after exceeding the wall limit is reported as a wall
time limit, and the same run with looser limits is reported as a signal. -/
example :
    ({ uuid := 1, limits := { wallTime := some 5, cpuTime := some 3 } } : Execution).status 0
      (some (9, "KILL")) { wallTime := 6, cpuTime := 2 } = .wallTimeLimitExceeded ∧
    ({ uuid := 1, limits := { wallTime := some 7 } } : Execution).status 0
      (some (9, "KILL")) { wallTime := 6, cpuTime := 2 } = .signal 9 "KILL" := by decide

/-- Non-vacuity of `status_success_mono`. -/
example : LooserI (some 3) (some 4) ∧ LooserI (some 3) none ∧ LooserN (some 10) (some 10) := by
  refine ⟨?_, ?_, ?_⟩ <;> intro y h <;> simp_all <;> omega

/-! ### Command line cache mode (C15) -/

/-- Joining with commas, the inverse of `splitComma`. -/
def joinComma : List (List Char) → List Char
  | [] => []
  | [w] => w
  | w :: ws => w ++ ',' :: joinComma ws

theorem splitComma_ne_nil (cs : List Char) : splitComma cs ≠ [] := by
  induction cs with
  | nil => simp [splitComma]
  | cons c cs ih =>
    simp only [splitComma]
    split
    · simp
    · split <;> simp

theorem join_split (cs : List Char) : joinComma (splitComma cs) = cs := by
  induction cs with
  | nil => rfl
  | cons c cs ih =>
    simp only [splitComma]
    split
    · next h =>
      subst h
      cases h2 : splitComma cs with
      | nil => exact absurd h2 (splitComma_ne_nil cs)
      | cons w ws => rw [h2] at ih; simp [joinComma, ih]
    · cases h2 : splitComma cs with
      | nil => exact absurd h2 (splitComma_ne_nil cs)
      | cons w ws =>
        rw [h2] at ih
        cases ws with
        | nil => simp [joinComma] at ih ⊢; exact ih
        | cons w2 ws => simp [joinComma] at ih ⊢; exact ih

theorem split_no_comma (cs : List Char) : ∀ w ∈ splitComma cs, ',' ∉ w := by
  induction cs with
  | nil => simp [splitComma]
  | cons c cs ih =>
    simp only [splitComma]
    split
    · simpa using ih
    · next hc =>
      cases h2 : splitComma cs with
      | nil => simp; exact fun h => hc h.symm
      | cons w ws =>
        rw [h2] at ih
        intro w' hw'
        simp at hw'
        rcases hw' with rfl | hw'
        · simp; exact ⟨fun h => hc h.symm, ih w (by simp)⟩
        · exact ih w' (by simp [hw'])

/-- **C15** The `--no-cache[=tags]` option: absent = cache everything, alone = cache nothing, with
a list = everything except exactly the comma separated tags, all of which must be valid tags;
anything else is an error. -/
theorem cacheMode_tryFrom_spec (conf : Option (Option (List Char))) (valid : List String)
    (m : CacheMode) :
    CacheMode.tryFrom conf valid = some m ↔
      (conf = none ∧ m = .everything) ∨ (conf = some none ∧ m = .nothing) ∨
      (∃ ws : List (List Char), ws ≠ [] ∧ (∀ w ∈ ws, ',' ∉ w) ∧
        conf = some (some (joinComma ws)) ∧ (∀ w ∈ ws, String.ofList w ∈ valid) ∧
        m = .except (ws.map String.ofList)) := by
  have uniq : ∀ ws : List (List Char), ws ≠ [] → (∀ w ∈ ws, ',' ∉ w) →
      splitComma (joinComma ws) = ws := by
    intro ws
    have single : ∀ w : List Char, ',' ∉ w → splitComma w = [w] := by
      intro w
      induction w with
      | nil => intro _; rfl
      | cons c w ih =>
        intro h
        simp at h
        have hc : ¬ c = ',' := fun e => h.1 e.symm
        simp [splitComma, hc, ih h.2]
    have app : ∀ (w rest : List Char), ',' ∉ w → splitComma (w ++ ',' :: rest) =
        w :: splitComma rest := by
      intro w rest
      induction w with
      | nil => intro _; simp [splitComma]
      | cons c w ih =>
        intro h
        simp at h
        have hc : ¬ c = ',' := fun e => h.1 e.symm
        simp [splitComma, hc, ih h.2]
    induction ws with
    | nil => intro h; exact absurd rfl h
    | cons w ws ih =>
      intro _ hw
      cases ws with
      | nil => simp [joinComma]; exact single w (hw w (by simp))
      | cons w2 ws =>
        simp only [joinComma]
        rw [app _ _ (hw w (by simp)), ih (by simp) (fun x hx => hw x (by simp [hx]))]
  match conf with
  | none => simp [CacheMode.tryFrom, eq_comm]
  | some none => simp [CacheMode.tryFrom, eq_comm]
  | some (some list) =>
    simp only [CacheMode.tryFrom, reduceCtorEq, false_and, Option.some.injEq, false_or]
    constructor
    · intro h
      split at h
      · next hall =>
        cases h
        refine ⟨splitComma list, splitComma_ne_nil _, split_no_comma _, (join_split _).symm, ?_, rfl⟩
        simpa using hall
      · cases h
    · rintro ⟨ws, hne, hnc, hl, hv, rfl⟩
      rw [hl, uniq ws hne hnc]
      simpa using hv

example : CacheMode.tryFrom (some (some "a,b".toList)) ["a", "b", "c"] = some (.except ["a", "b"]) ∧
    CacheMode.tryFrom (some (some "a,,b".toList)) ["a", "b", "c"] = none := by decide

/-! ### Building a DAG -/

/-- **C01** (precondition) Whatever sequence of additions builds the DAG, the maps stay well
formed: this is the hypothesis under which the server validates and runs it. -/
theorem dag_wf_preserved (d : DagData) (h : d.Wf) :
    (∀ f p, (d.provide f p).Wf) ∧ (∀ g, (d.addExecutionGroup g).Wf) ∧
    (∀ u e, (d.addExecution u e).Wf) := by
  have main : ∀ (k : GroupUuid) (g : ExecutionGroup), g.uuid = k →
      DagData.Wf { d with executionGroups := d.executionGroups.insert k g } := by
    intro k g hk
    refine ⟨h.provided, AMap.wf_insert h.groups _ _, ?_⟩
    intro k' g' hm
    simp only [AMap.insert, List.mem_cons, Prod.mk.injEq] at hm
    rcases hm with ⟨rfl, rfl⟩ | hm
    · exact hk
    · exact h.keyed _ _ (AMap.mem_erase.1 hm).1
  refine ⟨fun f p => ⟨AMap.wf_insert h.provided _ _, h.groups, h.keyed⟩, fun g => ?_, fun u e => ?_⟩
  · exact main _ _ rfl
  · exact main _ _ rfl

example : ({ } : DagData).Wf := ⟨AMap.wf_nil, AMap.wf_nil, by simp⟩

/-! ## The files and the priority of a group (used by C01, C03, C05, C12, C40) -/

/-- The group reads file `f`: it is the standard input or an input of one of its executions. -/
def DagSpec.Reads (g : ExecutionGroup) (f : FileUuid) : Prop :=
  ∃ e ∈ g.executions, e.stdin = some f ∨ ∃ path ex, (path, ⟨f, ex⟩) ∈ e.inputs

/-- The group writes file `f`: it is an output or a standard stream of one of its executions. -/
def DagSpec.Writes (g : ExecutionGroup) (f : FileUuid) : Prop :=
  ∃ e ∈ g.executions, e.stdout = some f ∨ e.stderr = some f ∨ ∃ path, (path, f) ∈ e.outputs

/-- The dependencies of a group are the files it reads. -/
theorem group_deps_are_reads (g : ExecutionGroup) (f : FileUuid) : f ∈ g.deps ↔ Reads g f := by
  simp only [ExecutionGroup.deps, List.mem_flatMap, Execution.dependencies, List.mem_append,
    Option.mem_toList, List.mem_map, Reads]
  refine exists_congr fun e => and_congr_right fun _ => or_congr (by simp) ?_
  constructor
  · rintro ⟨⟨p, ⟨f', ex⟩⟩, h1, rfl⟩; exact ⟨p, ex, h1⟩
  · rintro ⟨p, ex, h1⟩; exact ⟨_, h1, rfl⟩

/-- The outputs of a group are the files it writes. -/
theorem group_outs_are_writes (g : ExecutionGroup) (f : FileUuid) : f ∈ g.outs ↔ Writes g f := by
  simp only [ExecutionGroup.outs, List.mem_flatMap, Execution.outputFiles, List.mem_append,
    Option.mem_toList, List.mem_map, Writes]
  refine exists_congr fun e => and_congr_right fun _ => or_congr (by simp) (or_congr (by simp) ?_)
  constructor
  · rintro ⟨⟨p, f'⟩, h1, rfl⟩; exact ⟨p, h1⟩
  · rintro ⟨p, h1⟩; exact ⟨_, h1, rfl⟩

/-- The priority of a non-empty group is the largest of its executions. -/
theorem group_priority_is_max (g : ExecutionGroup) (hne : g.executions ≠ []) :
    ∃ x ∈ g.executions, g.priority = x.priority ∧ ∀ y ∈ g.executions, y.priority ≤ g.priority := by
  unfold ExecutionGroup.priority
  cases hm : (g.executions.map (·.priority)).max? with
  | none => rw [List.max?_eq_none_iff] at hm; simp at hm; exact absurd hm hne
  | some m =>
    rw [List.max?_eq_some_iff] at hm
    obtain ⟨h1, h2⟩ := hm
    obtain ⟨x, hx, rfl⟩ := List.mem_map.1 h1
    exact ⟨x, hx, rfl, fun y hy => h2 _ (List.mem_map.2 ⟨y, hy, rfl⟩)⟩

example : Reads { uuid := 1, executions := [{ uuid := 2, stdin := some 3 }] } 3 :=
  ⟨_, List.mem_singleton.2 rfl, Or.inl rfl⟩

end TM
