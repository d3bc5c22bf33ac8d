import Verif.Cache.Model
/-!
# Specification vocabulary for the cache properties C17-C20
-/

namespace TM.Cache

open TM

/-- An insertion in the cache: a group, the keys of its files, the results of its executions. -/
structure Op where
  group : ExecutionGroup
  fileKeys : FileKeys
  results : List ExecutionResult

/-- The cache after a sequence of insertions (none of which panicked), starting from an empty
one. -/
inductive Reach : List Op → State → Prop
  | empty (d : Bool) : Reach [] { dirty := d }
  | insert {ops s s'} (op : Op) : Reach ops s →
      Cache.insert s op.group op.fileKeys op.results = some s' → Reach (ops ++ [op]) s'

/-- `a ≤ b` for limits, `none` meaning "no limit". -/
def LimitLe (a b : Option Int) : Prop :=
  match a, b with
  | _, none => True
  | none, some _ => False
  | some x, some y => x ≤ y

/-- The limit the sandbox enforces: the declared one plus the extra. -/
def withExtra (limit : Option Int) (extra : Int) : Option Int := limit.map (· + extra)

/-- A limit given as a natural number. -/
def ofNat (limit : Option Nat) : Option Int := limit.map Int.ofNat

/-- Limits together with the extra time and memory they are enforced with. -/
structure Request where
  limits : ExecutionLimits
  extraTime : Int
  extraMemory : Nat

/-- The request made by an execution. -/
def Execution.request (e : Execution) : Request :=
  ⟨e.limits, e.config.extraTime, e.config.extraMemory⟩

/-- Every numeric limit enforced for `a` is at most the one enforced for `b`, and everything
`a` may do (processes, writing, /tmp) `b` may do too. -/
structure TighterNumeric (a b : Request) : Prop where
  cpu : LimitLe (withExtra a.limits.cpuTime a.extraTime) (withExtra b.limits.cpuTime b.extraTime)
  sys : LimitLe (withExtra a.limits.sysTime a.extraTime) (withExtra b.limits.sysTime b.extraTime)
  wall : LimitLe (withExtra a.limits.wallTime a.extraTime) (withExtra b.limits.wallTime b.extraTime)
  memory : LimitLe (withExtra (ofNat a.limits.memory) a.extraMemory)
    (withExtra (ofNat b.limits.memory) b.extraMemory)
  nofile : LimitLe (ofNat a.limits.nofile) (ofNat b.limits.nofile)
  fsize : LimitLe (ofNat a.limits.fsize) (ofNat b.limits.fsize)
  memlock : LimitLe (ofNat a.limits.memlock) (ofNat b.limits.memlock)
  stack : LimitLe (ofNat a.limits.stack) (ofNat b.limits.stack)
  processes : a.limits.allowMultiprocess = true → b.limits.allowMultiprocess = true
  writing : a.limits.readOnly = false → b.limits.readOnly = false
  tmpfs : a.limits.mountTmpfs = true → b.limits.mountTmpfs = true

/-- `a` is at most as generous as `b` in every respect. -/
structure Tighter (a b : Request) : Prop where
  numeric : TighterNumeric a b
  proc : a.limits.mountProc = true → b.limits.mountProc = true
  dirs : ∀ d ∈ a.limits.extraReadableDirs, d ∈ b.limits.extraReadableDirs

/-- `a` can read every directory `b` can read and at least one more. -/
def StrictlyMoreDirs (a b : Request) : Prop :=
  (∀ d ∈ b.limits.extraReadableDirs, d ∈ a.limits.extraReadableDirs) ∧
  ∃ d ∈ a.limits.extraReadableDirs, d ∉ b.limits.extraReadableDirs

/-- The machine integers fit: every integer limit is a `u64` and memory limit plus extra memory
does not overflow. -/
structure Request.Fits (r : Request) : Prop where
  memory : ∀ m, r.limits.memory = some m → m + r.extraMemory < 2 ^ 64
  extra : r.extraMemory < 2 ^ 64
  nofile : ∀ m, r.limits.nofile = some m → m < 2 ^ 64
  fsize : ∀ m, r.limits.fsize = some m → m < 2 ^ 64
  memlock : ∀ m, r.limits.memlock = some m → m < 2 ^ 64
  stack : ∀ m, r.limits.stack = some m → m < 2 ^ 64

/-- All the executions of the group have the configuration of the DAG the group was added to
(`ExecutionDAG::add_execution_group`, see `Dag.Props`), and limits that fit machine integers. -/
structure GroupOk (g : ExecutionGroup) : Prop where
  config : ∀ e ∈ g.executions, ∀ e' ∈ g.executions, e.config = e'.config
  fits : ∀ e ∈ g.executions, (Execution.request e).Fits

/-- The reported status is the one `Execution::status` gives for the way the program ended and the
resources it used. -/
def Truthful (e : Execution) (r : ExecutionResult) : Prop :=
  ∃ code sig, r.status = e.status code sig r.resources

/-- The status says that a limit was exceeded. -/
def LimitStatus (s : ExecutionStatus) : Prop :=
  s = .timeLimitExceeded ∨ s = .sysTimeLimitExceeded ∨ s = .wallTimeLimitExceeded ∨
  s = .memoryLimitExceeded

/-- The results `rs` returned for `g` are those of the insertion `op`, up to the status (which is
recomputed) and marked as cached. -/
def ServedFrom (op : Op) (g : ExecutionGroup) (rs : List ExecutionResult) : Prop :=
  rs.length = min g.executions.length (min op.group.executions.length op.results.length) ∧
  ∀ (i : Nat) r, rs[i]? = some r → ∃ r₀, op.results[i]? = some r₀ ∧
    r.wasCached = true ∧ r.wasKilled = r₀.wasKilled ∧ r.resources = r₀.resources ∧
    r.stdout = r₀.stdout ∧ r.stderr = r₀.stderr

/-- The insertion was made for a group with the same key as `g`. -/
def SameKey (op : Op) (g : ExecutionGroup) (fk : FileKeys) : Prop :=
  ∃ k, cacheKey op.group op.fileKeys = some k ∧ cacheKey g fk = some k

end TM.Cache
