import Verif.Worker.Group
/-!
# The configuration of the sandbox (`Sandbox::build_command`, task-maker-exec/src/sandbox.rs:324-452)

What is given to tabox: the limits, where the standard streams are, the mode of the system calls.  Times are integers
(as in `Dag.Model`), `unit` of them make a second.  A path is its list of components; the sandbox is in the directory
`Root.box` of the host.  Not modelled: the mounted directories, the environment, the search of the executable.
-/
namespace TM.Sandbox
open TM TM.Worker

/-- A path: absolute or not, and its components. -/
structure Path where
  abs : Bool
  comps : List String
  deriving DecidableEq, Repr

/-- The parts between slashes. -/
def splitSlash : List Char → List (List Char)
  | [] => [[]]
  | c :: r => if c = '/' then [] :: splitSlash r else
      match splitSlash r with
      | [] => [[c]]
      | x :: xs => (c :: x) :: xs

/-- `Path::components`: empty components and dots are skipped. -/
def Path.parse (s : String) : Path :=
  ⟨s.toList.head? = some '/', ((splitSlash s.toList).filter (fun c => c ≠ [] ∧ c ≠ ['.'])).map String.ofList⟩

/-- `Path::join`: an absolute path replaces the base. -/
def Path.join (base p : Path) : Path := if p.abs then p else ⟨base.abs, base.comps ++ p.comps⟩

/-- `FIFO_SANDBOX_DIR`, task-maker-dag/src/execution_group.rs:10 -/
def fifoSandboxDir : List String := ["tm_pipes"]

/-- `/dev/null` -/
def devNull : Path := ⟨true, ["dev", "null"]⟩

/-- `box_root`, sandbox.rs:312-322, not for macos -/
def boxRoot : Path := ⟨true, ["box"]⟩

/-- `strip_prefix` of a relative prefix. -/
def stripRel (pre : List String) (p : Path) : Option (List String) :=
  if p.abs then none else if pre.isPrefixOf p.comps then some (p.comps.drop pre.length) else none

/-- `sandbox_to_host_path`, sandbox.rs:286-304 -/
def toHost (path boxdir : Path) (fifo : Option Path) : Path :=
  match fifo.bind (fun d => (stripRel fifoSandboxDir path).map (fun r => d.join ⟨false, r⟩)) with
  | some p => p
  | none => if path.abs then boxdir.join ⟨false, path.comps⟩ else boxRoot.join path

/-- The limits and the streams for tabox. -/
structure Config where
  stdin : Path
  stdout : Path
  stderr : Path
  /-- seconds of user and system time, together -/
  timeLimit : Option Nat
  wallLimit : Option Nat
  /-- bytes -/
  memoryLimit : Option Nat
  stackLimit : Option Nat
  multiprocess : Bool
  allowChmod : Bool
  deriving DecidableEq, Repr

/-- A stream: redirected, a file beside the box, or nothing; sandbox.rs:336-356 -/
def streamPath (redirect : Option String) (file : Option FileUuid) (name : String) (boxdir : Path) (fifo : Option Path) :
    Path :=
  match redirect, file with
  | some p, _ => toHost (.parse p) boxdir fifo
  | none, some _ => boxdir.join ⟨false, [name]⟩
  | none, none => devNull

/-- `.ceil() as u64` of a time: seconds, rounded up; negative times become 0. -/
def ceilSec (unit t : Int) : Nat := ((t + unit - 1) / unit).toNat

/-- sandbox.rs:366-371 -/
def cpuLimit (l : ExecutionLimits) : Option Int :=
  match l.cpuTime, l.sysTime with
  | some cpu, some sys => some (cpu + sys)
  | some cpu, none => some cpu
  | none, some sys => some sys
  | none, none => none

/-- `build_command`, sandbox.rs:324-452: the part of the configuration that is modelled. -/
def buildConfig (unit : Int) (e : Execution) (boxdir : Path) (fifo : Option Path) : Config where
  stdin := streamPath e.stdinRedirectPath e.stdin "stdin" boxdir fifo
  stdout := streamPath e.stdoutRedirectPath e.stdout "stdout" boxdir fifo
  stderr := streamPath e.stderrRedirectPath e.stderr "stderr" boxdir fifo
  timeLimit := (cpuLimit e.limits).map (fun t => ceilSec unit (t + e.config.extraTime))
  wallLimit := e.limits.wallTime.map (fun t => ceilSec unit (t + e.config.extraTime))
  memoryLimit := e.limits.memory.map (fun m => (m + e.config.extraMemory) * 1024)
  stackLimit := e.limits.stack.map (fun m => m * 1024)
  multiprocess := e.limits.allowMultiprocess
  allowChmod := !e.limits.readOnly

/-- `stdout_path`, sandbox.rs:259-267, and `stderr_path`: where the worker looks for what was written. -/
def readPath (redirect : Option String) (name : String) (boxdir : Path) : Path :=
  match redirect with
  | some p => boxdir.join (.parse p)
  | none => boxdir.join ⟨false, [name]⟩

/-! ## Specification -/

/-- What tabox does: a program is killed only if it has used all the processor time, or all the wall time, it was
given. -/
def KilledByLimit (unit : Int) (c : Config) (user system wall : Int) : Prop :=
  (∃ t, c.timeLimit = some t ∧ (t : Int) * unit ≤ user + system) ∨ (∃ t, c.wallLimit = some t ∧ (t : Int) * unit ≤ wall)

/-- The status is that a time limit was exceeded. -/
def TimedOut (s : ExecutionStatus) : Prop :=
  s = .timeLimitExceeded ∨ s = .sysTimeLimitExceeded ∨ s = .wallTimeLimitExceeded

/-! ## Theorems -/

theorem ceilSec_ge {unit t : Int} (hu : 0 < unit) : t ≤ (ceilSec unit t : Int) * unit := by
  unfold ceilSec
  have h1 : t + unit - 1 < ((t + unit - 1) / unit + 1) * unit := Int.lt_mul_of_ediv_lt hu (by omega)
  have h2 : (t + unit - 1) / unit ≤ (((t + unit - 1) / unit).toNat : Int) := Int.self_le_toNat _
  have h3 : (t + unit - 1) / unit * unit ≤ (((t + unit - 1) / unit).toNat : Int) * unit :=
    Int.mul_le_mul_of_nonneg_right h2 (by omega)
  rw [Int.add_mul, Int.one_mul] at h1
  omega

/-- The seconds are not more than needed. -/
theorem ceilSec_lt {unit t : Int} (hu : 0 < unit) (ht : 0 ≤ t) : (ceilSec unit t : Int) * unit < t + unit := by
  unfold ceilSec
  have h0 : 0 ≤ (t + unit - 1) / unit := Int.ediv_nonneg (by omega) (by omega)
  rw [Int.toNat_of_nonneg h0]
  have := Int.ediv_mul_le (t + unit - 1) (Int.ne_of_gt hu)
  omega

theorem status_timedOut {e : Execution} {x : Nat} {sg : Option (Nat × String)} {r : Resources}
    (h : Execution.over e.limits.cpuTime r.cpuTime = true ∨ Execution.over e.limits.sysTime r.sysTime = true ∨
      Execution.over e.limits.wallTime r.wallTime = true) : TimedOut (e.status x sg r) := by
  unfold Execution.status TimedOut
  split
  · exact .inl rfl
  · split
    · exact .inr (.inl rfl)
    · split
      · exact .inr (.inr rfl)
      · simp_all

/-- **C86** (what is missing: executions with a limit on the user time and none on the system time, see
`killed_within_limits`) If the sandbox kills a program, the execution is reported as over a time limit: when the limits on
user and system time are both given or both not, and there is some extra time. -/
theorem killed_is_timeout_partial {unit : Int} (hu : 0 < unit) {e : Execution} {boxdir : Path} {fifo : Option Path}
    (hextra : 0 < e.config.extraTime) (hboth : e.limits.cpuTime.isSome = e.limits.sysTime.isSome)
    {user system wall : Int} {mem : Nat} {box : Worker.Box}
    (hk : KilledByLimit unit (buildConfig unit e boxdir fifo) user system wall)
    (hout : ∃ x, capture box.stdout e.captureStdout = .ok x) (herr : ∃ x, capture box.stderr e.captureStderr = .ok x) :
    TimedOut (computeResult e (readRaw (.success .killed user system wall mem)) box).status := by
  obtain ⟨x, hx⟩ := hout
  obtain ⟨y, hy⟩ := herr
  simp only [readRaw, computeResult, hx, hy]
  apply status_timedOut
  simp only
  rcases hk with ⟨t, ht, hle⟩ | ⟨t, ht, hle⟩
  · simp only [buildConfig, Option.map_eq_some_iff] at ht
    obtain ⟨c, hc, rfl⟩ := ht
    have := ceilSec_ge (t := c + e.config.extraTime) hu
    unfold cpuLimit at hc
    cases h1 : e.limits.cpuTime <;> cases h2 : e.limits.sysTime <;> simp_all
    simp only [Execution.over, decide_eq_true_eq]
    omega
  · simp only [buildConfig, Option.map_eq_some_iff] at ht
    obtain ⟨c, hc, rfl⟩ := ht
    have := ceilSec_ge (t := c + e.config.extraTime) hu
    right; right
    simp only [Execution.over, hc, decide_eq_true_eq]
    omega

example : KilledByLimit 1000 (buildConfig 1000
    { uuid := 0, limits := { cpuTime := some 1000, sysTime := some 500, wallTime := some 3000 }, config := { extraTime := 500 } }
    ⟨true, ["tmp", "x"]⟩ none) 1100 900 1200 := .inl ⟨2, rfl, by decide⟩

/-- **C86** is not true of the executions of the solutions, which have no limit on the system time: one that is within
all its limits is killed, and reported as crashed. -/
theorem killed_within_limits : ∃ (e : Execution) (user system wall : Int) (mem : Nat),
    e.limits.cpuTime = some 1000 ∧ e.limits.wallTime = some 2500 ∧ 0 < e.config.extraTime ∧
    KilledByLimit 1000 (buildConfig 1000 e ⟨true, ["tmp", "x"]⟩ none) user system wall ∧
    user ≤ 1000 ∧ wall ≤ 2500 ∧
    (computeResult e (readRaw (.success .killed user system wall mem)) {}).status = .signal 9 "Killed by sandbox" :=
  ⟨{ uuid := 0, limits := { cpuTime := some 1000, wallTime := some 2500 }, config := { extraTime := 500 } }, 100, 1900, 2000, 0,
    rfl, rfl, by decide, .inl ⟨2, rfl, by decide⟩, by decide, by decide, by decide +kernel⟩

/-- **C86** A program is not killed before it has used the time it is given, user and system together, and the extra
time; and it is killed less than a second later. -/
theorem time_given {unit : Int} (hu : 0 < unit) (e : Execution) (boxdir : Path) (fifo : Option Path) :
    ((buildConfig unit e boxdir fifo).timeLimit = none ↔ e.limits.cpuTime = none ∧ e.limits.sysTime = none) ∧
    (∀ t, (buildConfig unit e boxdir fifo).timeLimit = some t →
      (e.limits.cpuTime.getD 0 + e.limits.sysTime.getD 0 + e.config.extraTime ≤ (t : Int) * unit) ∧
      (0 ≤ e.limits.cpuTime.getD 0 + e.limits.sysTime.getD 0 + e.config.extraTime →
        (t : Int) * unit < e.limits.cpuTime.getD 0 + e.limits.sysTime.getD 0 + e.config.extraTime + unit)) ∧
    ((buildConfig unit e boxdir fifo).wallLimit = none ↔ e.limits.wallTime = none) ∧
    (∀ t w, (buildConfig unit e boxdir fifo).wallLimit = some t → e.limits.wallTime = some w →
      w + e.config.extraTime ≤ (t : Int) * unit ∧
      (0 ≤ w + e.config.extraTime → (t : Int) * unit < w + e.config.extraTime + unit)) := by
  refine ⟨?_, ?_, ?_, ?_⟩
  · simp only [buildConfig, Option.map_eq_none_iff, cpuLimit]
    cases e.limits.cpuTime <;> cases e.limits.sysTime <;> simp
  · intro t ht
    simp only [buildConfig, Option.map_eq_some_iff] at ht
    obtain ⟨c, hc, rfl⟩ := ht
    have hcc : c = e.limits.cpuTime.getD 0 + e.limits.sysTime.getD 0 := by
      unfold cpuLimit at hc
      cases h1 : e.limits.cpuTime <;> cases h2 : e.limits.sysTime <;> simp_all
    rw [← hcc]
    exact ⟨ceilSec_ge hu, fun h => ceilSec_lt hu h⟩
  · simp [buildConfig]
  · intro t w ht hw
    simp only [buildConfig, hw, Option.map_some, Option.some.injEq] at ht
    subst ht
    exact ⟨ceilSec_ge hu, fun h => ceilSec_lt hu h⟩

/-- **C86** The memory: a program may use its limit and the extra memory, and it is reported as over the limit (if it is
not over the limits of time) exactly when it has used at least one more KiB than its limit. -/
theorem memory_detected {unit : Int} {e : Execution} {boxdir : Path} {fifo : Option Path} {m : Nat}
    (hm : e.limits.memory = some m) {st : Worker.ExitStatus} {user system wall : Int} {bytes : Nat} {box : Worker.Box}
    (hc : Execution.over e.limits.cpuTime user = false) (hs : Execution.over e.limits.sysTime system = false)
    (hw : Execution.over e.limits.wallTime wall = false)
    (hout : ∃ x, capture box.stdout e.captureStdout = .ok x) (herr : ∃ x, capture box.stderr e.captureStderr = .ok x) :
    (buildConfig unit e boxdir fifo).memoryLimit = some ((m + e.config.extraMemory) * 1024) ∧
    ((computeResult e (readRaw (.success st user system wall bytes)) box).status = .memoryLimitExceeded ↔
      (m + 1) * 1024 ≤ bytes) := by
  obtain ⟨x, hx⟩ := hout
  obtain ⟨y, hy⟩ := herr
  refine ⟨by simp [buildConfig, hm], ?_⟩
  have h1 : (m < bytes / 1024) ↔ (m + 1) * 1024 ≤ bytes := by omega
  have key : ∀ es sg, (e.status es sg ⟨user, system, wall, bytes / 1024⟩ = .memoryLimitExceeded ↔ (m + 1) * 1024 ≤ bytes) := by
    intro es sg
    unfold Execution.status
    simp only [hc, hs, hw, hm, Bool.false_eq_true, if_false, Execution.overMem, decide_eq_true_eq, gt_iff_lt, ← h1]
    split
    · simp_all
    · rename_i hlt
      constructor
      · cases sg with
        | none => simp only; split <;> simp
        | some p => simp
      · intro h; exact absurd h hlt
  cases st with
  | exitCode c => simpa only [readRaw, computeResult, hx, hy] using key c none
  | signal s name => simpa only [readRaw, computeResult, hx, hy] using key 0 _
  | killed => simpa only [readRaw, computeResult, hx, hy] using key 1 _

/-- **C86** is not true of the limits on the number of open files, the size of the written files and the locked memory:
nothing in the configuration of the sandbox depends on them. -/
theorem limits_not_imposed (unit : Int) (e : Execution) (boxdir : Path) (fifo : Option Path) (a b c : Option Nat) :
    buildConfig unit { e with limits := { e.limits with nofile := a, fsize := b, memlock := c } } boxdir fifo =
      buildConfig unit e boxdir fifo := rfl

theorem splitSlash_none {l : List Char} (h : '/' ∉ l) : splitSlash l = [l] := by
  induction l with
  | nil => rfl
  | cons c r ih =>
    simp only [List.mem_cons, not_or] at h
    rw [splitSlash, if_neg (fun e => h.1 e.symm), ih h.2]

theorem splitSlash_append {l r : List Char} (h : '/' ∉ l) : splitSlash (l ++ '/' :: r) = l :: splitSlash r := by
  induction l with
  | nil => simp [splitSlash]
  | cons c l ih =>
    simp only [List.mem_cons, not_or] at h
    rw [List.cons_append, splitSlash, if_neg (fun e => h.1 e.symm), ih h.2]

theorem parse_fifo {id : String} (hid : '/' ∉ id.toList ∧ id ≠ "" ∧ id ≠ ".") :
    Path.parse ("tm_pipes/" ++ id) = ⟨false, ["tm_pipes", id]⟩ := by
  have h1 : ("tm_pipes/" ++ id).toList = "tm_pipes".toList ++ '/' :: id.toList := by
    rw [String.toList_append]; rfl
  have h2 : id.toList ≠ [] := fun h => hid.2.1 (String.toList_injective (by rw [h]; rfl))
  have h3 : id.toList ≠ ['.'] := fun h => hid.2.2 (String.toList_injective (by rw [h]; rfl))
  unfold Path.parse
  rw [h1, splitSlash_append (by decide), splitSlash_none hid.1]
  simp [h2, h3]

/-- **C87** The standard streams of a program: those redirected to a fifo of its group are that fifo, in the directory of
the fifos of the host; those that are files are the files prepared in the directory of the sandbox (C83), and it is
there that the worker looks for what was written; the others are empty and discarded. -/
theorem streams_exact {unit : Int} {e : Execution} {boxdir fifoDir : Path} {fifo : Option Path} {id : String}
    (hid : '/' ∉ id.toList ∧ id ≠ "" ∧ id ≠ ".") :
    (e.stdinRedirectPath = some ("tm_pipes/" ++ id) →
      (buildConfig unit e boxdir (some fifoDir)).stdin = ⟨fifoDir.abs, fifoDir.comps ++ [id]⟩) ∧
    (e.stdoutRedirectPath = some ("tm_pipes/" ++ id) →
      (buildConfig unit e boxdir (some fifoDir)).stdout = ⟨fifoDir.abs, fifoDir.comps ++ [id]⟩) ∧
    (e.stderrRedirectPath = some ("tm_pipes/" ++ id) →
      (buildConfig unit e boxdir (some fifoDir)).stderr = ⟨fifoDir.abs, fifoDir.comps ++ [id]⟩) ∧
    (e.stdinRedirectPath = none → (buildConfig unit e boxdir fifo).stdin =
      if e.stdin.isSome then ⟨boxdir.abs, boxdir.comps ++ ["stdin"]⟩ else ⟨true, ["dev", "null"]⟩) ∧
    (e.stdoutRedirectPath = none → ((buildConfig unit e boxdir fifo).stdout =
      if e.stdout.isSome then ⟨boxdir.abs, boxdir.comps ++ ["stdout"]⟩ else ⟨true, ["dev", "null"]⟩) ∧
      readPath e.stdoutRedirectPath "stdout" boxdir = ⟨boxdir.abs, boxdir.comps ++ ["stdout"]⟩) ∧
    (e.stderrRedirectPath = none → ((buildConfig unit e boxdir fifo).stderr =
      if e.stderr.isSome then ⟨boxdir.abs, boxdir.comps ++ ["stderr"]⟩ else ⟨true, ["dev", "null"]⟩) ∧
      readPath e.stderrRedirectPath "stderr" boxdir = ⟨boxdir.abs, boxdir.comps ++ ["stderr"]⟩) := by
  have hto : toHost (.parse ("tm_pipes/" ++ id)) boxdir (some fifoDir) = ⟨fifoDir.abs, fifoDir.comps ++ [id]⟩ := by
    rw [parse_fifo hid]
    simp [toHost, stripRel, fifoSandboxDir, Path.join]
  refine ⟨?_, ?_, ?_, ?_, ?_, ?_⟩
  · intro h; simp only [buildConfig, h, streamPath]; exact hto
  · intro h; simp only [buildConfig, h, streamPath]; exact hto
  · intro h; simp only [buildConfig, h, streamPath]; exact hto
  · intro h; simp only [buildConfig, h]; cases e.stdin <;> simp [streamPath, Path.join, devNull]
  · intro h
    simp only [buildConfig, h]
    refine ⟨?_, by simp [readPath, Path.join]⟩
    cases e.stdout <;> simp [streamPath, Path.join, devNull]
  · intro h
    simp only [buildConfig, h]
    refine ⟨?_, by simp [readPath, Path.join]⟩
    cases e.stderr <;> simp [streamPath, Path.join, devNull]

example : (buildConfig 1000 { uuid := 0, stdinRedirectPath := some "tm_pipes/1234", stdout := some 1 } ⟨true, ["tmp", "x"]⟩
    (some ⟨true, ["tmp", "f"]⟩)).stdin = ⟨true, ["tmp", "f", "1234"]⟩ := by decide +kernel

/-- **C87** is not true of the other paths a stream may be redirected to: a relative one is not in the sandbox, as it is
documented (task-maker-dag/src/execution.rs:153-164), but in `/box` of the host, and the worker does not look for it
there. -/
theorem redirect_outside {unit : Int} {e : Execution} {boxdir : Path} {p : String} (hp : (Path.parse p).abs = false)
    (hbox : boxdir ≠ ⟨true, ["box"]⟩) (h : e.stdoutRedirectPath = some p) :
    (buildConfig unit e boxdir none).stdout = ⟨true, "box" :: (Path.parse p).comps⟩ ∧
    readPath e.stdoutRedirectPath "stdout" boxdir ≠ (buildConfig unit e boxdir none).stdout := by
  have h1 : (buildConfig unit e boxdir none).stdout = ⟨true, "box" :: (Path.parse p).comps⟩ := by
    simp [buildConfig, h, streamPath, toHost, hp, Path.join, boxRoot]
  refine ⟨h1, ?_⟩
  rw [h1, h]
  simp only [readPath, Path.join, hp, Bool.false_eq_true, if_false, ne_eq, Path.mk.injEq, not_and]
  intro ha he
  apply hbox
  cases boxdir with
  | mk a c =>
    simp only at ha he ⊢
    subst ha
    have : c = ["box"] := List.append_cancel_right (he.trans (by rfl : "box" :: (Path.parse p).comps = ["box"] ++ (Path.parse p).comps))
    rw [this]

example : (Path.parse "output.txt").abs = false ∧ (Path.parse "/dev//urandom/.") = ⟨true, ["dev", "urandom"]⟩ := by decide +kernel

end TM.Sandbox
